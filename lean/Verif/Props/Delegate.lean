import Verif.Runtime.Delegate

/-!
# C89: operators that take padding, window and stride as operands

The claim: every call of `conv2d_v2`, `depthwise_conv2d_v2` or `pooling2d_v2` behaves as the operator of the first version
with the operands of *this* call as its parameters, whatever calls were made before on the same object and however they
ended. It holds for operands the first version accepts, and fails for operands it rejects: a rejected operand is remembered,
and giving it again is not rejected again.
-/
namespace Verif.Props
open Verif.Core Verif.Runtime Verif.Runtime.Delegate

namespace Delegate

variable {S V P β : Type}

theorem sameFrom_refl (l : List Int) : ∀ n i, i + n ≤ l.length → sameFrom l l i n = .ok true := by
  intro n
  induction n with
  | zero => intro i _; rfl
  | succ n ih =>
    intro i h
    have hi : i < l.length := by omega
    simp only [sameFrom, List.getElem?_eq_getElem hi, ne_eq, not_true, if_false]
    exact ih (i + 1) (by omega)

theorem sameFrom_true {l r : List Int} : ∀ n i, sameFrom l r i n = .ok true → ∀ k, i ≤ k → k < i + n → l[k]? = r[k]? := by
  intro n
  induction n with
  | zero => intro i _ k h1 h2; omega
  | succ n ih =>
    intro i h k h1 h2
    unfold sameFrom at h
    split at h
    · rename_i a b ha hb
      split at h
      · simp at h
      · rename_i hab
        by_cases hk : k = i
        · subst hk; rw [ha, hb]; rw [Decidable.not_not.mp hab]
        · exact ih (i + 1) h k (by omega) (by omega)
    · simp at h

theorem sameFrom_ok {l r : List Int} : ∀ n i, i + n ≤ l.length → i + n ≤ r.length → ∃ b, sameFrom l r i n = .ok b := by
  intro n
  induction n with
  | zero => intro i _ _; exact ⟨true, rfl⟩
  | succ n ih =>
    intro i h1 h2
    have hi : i < l.length := by omega
    have hj : i < r.length := by omega
    unfold sameFrom
    simp only [List.getElem?_eq_getElem hi, List.getElem?_eq_getElem hj]
    split
    · exact ⟨false, rfl⟩
    · exact ih (i + 1) (by omega) (by omega)

/-- comparing two tensors with their data: the answer is whether they are the same -/
theorem isIntEqual_some {a b : IntT} (ha : a.Wf) (hb : b.Wf) : isIntEqual a (some b) = .ok (decide (a = b)) := by
  unfold isIntEqual
  by_cases hs : a.shape = b.shape
  · simp only [hs, ne_eq, not_true, if_false]
    by_cases he : a = b
    · subst he
      rw [sameFrom_refl _ _ _ (by unfold IntT.Wf at ha; omega)]
      simp
    · obtain ⟨v, hv⟩ := sameFrom_ok (l := a.data) (r := b.data) (Verif.Spec.prod b.shape) 0
        (by unfold IntT.Wf at ha; rw [hs] at ha; omega) (by unfold IntT.Wf at hb; omega)
      rw [hv]
      cases v with
      | false => simp [he]
      | true =>
        exfalso; apply he
        have hd : a.data = b.data := by
          apply List.ext_getElem?
          intro k
          by_cases hk : k < Verif.Spec.prod b.shape
          · exact sameFrom_true _ _ hv k (by omega) (by omega)
          · unfold IntT.Wf at ha hb
            rw [List.getElem?_eq_none (by rw [ha, hs]; omega), List.getElem?_eq_none (by rw [hb]; omega)]
        cases a; cases b; simp_all
  · simp only [hs, ne_eq, not_false_iff, if_true]
    have : a ≠ b := fun h => hs (by rw [h])
    simp [this]

/-- what `refresh` returns: the given tensors, remembered and set -/
theorem refresh_ok : ∀ (vs : List IntT) (ms ps : List (Option IntT)) {ms' ps' u},
    (∀ v ∈ vs, v.Wf) → (∀ m ∈ ms, ∀ t, m = some t → t.Wf) → ms.length = vs.length → ps = ms →
    refresh vs ms ps = .ok (ms', ps', u) → ms' = vs.map some ∧ ps' = ms' ∧ (u = false → ms' = ms) := by
  intro vs
  induction vs with
  | nil =>
    intro ms ps ms' ps' u _ _ hl hp h
    have : ms = [] := List.length_eq_zero_iff.mp hl
    subst this; subst hp
    simp only [refresh, Res.ok.injEq, Prod.mk.injEq] at h
    obtain ⟨h1, h2, h3⟩ := h
    subst h1; subst h2; simp
  | cons v vs ih =>
    intro ms ps ms' ps' u hv hm hl hp h
    rw [hp] at h
    clear hp
    cases ms with
    | nil => simp at hl
    | cons m ms =>
      simp only [refresh] at h
      obtain ⟨same, h1, h2⟩ := Res.bind_eq_ok.mp h
      obtain ⟨⟨ms1, ps1, u1⟩, h3, h4⟩ := Res.bind_eq_ok.mp h2
      obtain ⟨e1, e2, e3⟩ := ih ms ms (fun x hx => hv x (List.mem_cons_of_mem _ hx))
        (fun x hx => hm x (List.mem_cons_of_mem _ hx)) (by simpa using hl) rfl h3
      subst e2
      cases same with
      | true =>
        simp only [if_true, Res.ok.injEq, Prod.mk.injEq] at h4
        obtain ⟨a1, a2, a3⟩ := h4
        have hmv : m = some v := by
          cases m with
          | none =>
            exfalso
            unfold isIntEqual at h1
            have hvw := hv v (List.mem_cons_self ..)
            by_cases hs : v.shape = []
            · simp [hs, Verif.Spec.prod, sameFrom] at h1
            · simp [hs] at h1
          | some t =>
            rw [isIntEqual_some (hv v (List.mem_cons_self ..)) (hm _ (List.mem_cons_self ..) t rfl)] at h1
            simp only [Res.ok.injEq, decide_eq_true_eq] at h1
            rw [h1]
        subst a1; subst a2; subst a3; subst hmv
        refine ⟨by simp [e1], rfl, fun h => ?_⟩
        rw [e3 h]
      | false =>
        simp only [Bool.false_eq_true, if_false, Res.ok.injEq, Prod.mk.injEq] at h4
        obtain ⟨a1, a2, a3⟩ := h4
        subst a1; subst a2; subst a3
        exact ⟨by simp [e1], rfl, fun h => by simp at h⟩

/-- comparison against remembered tensors is defined; against an unset one it is defined unless the operand is a scalar -/
theorem refresh_defined : ∀ (vs : List IntT) (ms ps : List (Option IntT)),
    (∀ v ∈ vs, v.Wf) → (∀ m ∈ ms, ∀ t, m = some t → t.Wf) → (∀ v ∈ vs, v.shape ≠ []) →
    ∃ r, refresh vs ms ps = .ok r := by
  intro vs
  induction vs with
  | nil => intro ms ps _ _ _; exact ⟨_, rfl⟩
  | cons v vs ih =>
    intro ms ps hv hm hs
    cases ms with
    | nil => exact ⟨_, rfl⟩
    | cons m ms =>
      cases ps with
      | nil => exact ⟨_, rfl⟩
      | cons p ps =>
        obtain ⟨⟨a, b, c⟩, hr⟩ := ih ms ps (fun x hx => hv x (List.mem_cons_of_mem _ hx))
          (fun x hx => hm x (List.mem_cons_of_mem _ hx)) (fun x hx => hs x (List.mem_cons_of_mem _ hx))
        have : ∃ b, isIntEqual v m = .ok b := by
          cases m with
          | none => exact ⟨false, by simp [isIntEqual, hs v (List.mem_cons_self ..)]⟩
          | some t => exact ⟨_, isIntEqual_some (hv v (List.mem_cons_self ..)) (hm _ (List.mem_cons_self ..) t rfl)⟩
        obtain ⟨e, he⟩ := this
        simp only [refresh, he, hr, Res.bind_ok]
        cases e <;> simp

theorem sameFrom_ne_err (l r : List Int) : ∀ n i, sameFrom l r i n ≠ .err := by
  intro n
  induction n with
  | zero => intro i h; simp [sameFrom] at h
  | succ n ih =>
    intro i h
    unfold sameFrom at h
    split at h
    · split at h
      · simp at h
      · exact ih _ h
    · simp at h

theorem isIntEqual_ne_err (a : IntT) (m : Option IntT) : isIntEqual a m ≠ .err := by
  intro h
  unfold isIntEqual at h
  split at h <;> split at h
  · simp at h
  · exact sameFrom_ne_err _ _ _ _ h
  · simp at h
  · exact sameFrom_ne_err _ _ _ _ h

theorem refresh_ne_err : ∀ (vs : List IntT) (ms ps : List (Option IntT)), refresh vs ms ps ≠ .err := by
  intro vs
  induction vs with
  | nil => intro ms ps h; simp [refresh] at h
  | cons v vs ih =>
    intro ms ps h
    cases ms with
    | nil => simp [refresh] at h
    | cons m ms =>
      cases ps with
      | nil => simp [refresh] at h
      | cons p ps =>
        simp only [refresh] at h
        cases h1 : isIntEqual v m with
        | err => exact isIntEqual_ne_err _ _ h1
        | ub => simp [h1] at h
        | ok b =>
          rw [h1, Res.bind_ok] at h
          cases h2 : refresh vs ms ps with
          | err => exact ih _ _ h2
          | ub => simp [h2] at h
          | ok r => rw [h2, Res.bind_ok] at h; cases b <;> simp at h

/-- `init` leaves a state that depends on the parameters only, when it succeeds -/
def Resets (I : Inner S V P) : Prop := ∀ par s s', (I.init par s).2 = (I.init par s').2 ∧
  ((I.init par s).2 = .ok () → (I.init par s).1 = (I.init par s').1)

/-- the state a new first-version operator has with these parameters -/
def Fresh (I : Inner S V P) (vs : List IntT) (s : S) : Prop := I.init (vs.map some) I.fresh = (s, .ok ())

/-- What holds of the object between calls: unused, or it remembers well-formed tensors, they are the parameters, and if
the first version accepts them the inner operator is initialised with them. -/
structure Inv (I : Inner S V P) (n : Nat) (st : V2 S) : Prop where
  len : st.mem.length = n
  par : st.par = st.mem
  wf : ∀ m ∈ st.mem, ∀ t, m = some t → t.Wf
  init : ∀ vs, st.mem = vs.map some → ∀ s, Fresh I vs s → st.inner = s

theorem create_inv (I : Inner S V P) (c : Config) (hn : c.params ≠ []) : Inv I c.params.length (create c I) := by
  refine ⟨by simp [create], rfl, ?_, ?_⟩
  · intro m hm t ht
    simp only [create, List.mem_map] at hm
    obtain ⟨_, _, rfl⟩ := hm; simp at ht
  · intro vs h s _
    exfalso
    cases hp : c.params with
    | nil => exact hn hp
    | cons a as => cases vs <;> simp [create, hp] at h

theorem casts_length {cast : V → Option IntT} {s : Stk V} : ∀ (is : List Nat) {vs}, casts cast s is = some vs → vs.length = is.length := by
  intro is
  induction is with
  | nil => intro vs h; simp [casts] at h; subst h; rfl
  | cons i is ih =>
    intro vs h
    simp only [casts, Option.bind_eq_bind, Option.bind_eq_some_iff, Option.some.injEq] at h
    obtain ⟨_, _, t, _, ts, h3, rfl⟩ := h
    simp [ih h3]

theorem casts_wf {cast : V → Option IntT} (hc : ∀ v t, cast v = some t → t.Wf) {s : Stk V} :
    ∀ (is : List Nat) {vs}, casts cast s is = some vs → ∀ v ∈ vs, v.Wf := by
  intro is
  induction is with
  | nil => intro vs h; simp [casts] at h; subst h; simp
  | cons i is ih =>
    intro vs h
    simp only [casts, Option.bind_eq_bind, Option.bind_eq_some_iff, Option.some.injEq] at h
    obtain ⟨x, _, t, h2, ts, h3, rfl⟩ := h
    intro v hv
    rcases List.mem_cons.mp hv with h | h
    · subst h; exact hc _ _ h2
    · exact ih h3 v h

variable {I : Inner S V P} {c : Config} {cast : V → Option IntT}

/-- one call keeps the invariant unless it is undefined -/
theorem call_inv (hI : Resets I) (hc : ∀ v t, cast v = some t → t.Wf) {st : V2 S} (h : Inv I c.params.length st)
    (go : S → Stk V → Out (Stk V) β) (s : Stk V) (hu : (call I c cast go st s).2 ≠ .ub) :
    Inv I c.params.length (call I c cast go st s).1 := by
  unfold call at hu ⊢
  split
  · exact h
  · rename_i hsz
    rw [if_neg hsz] at hu
    cases hcs : casts cast s c.params with
    | none => exact h
    | some vs =>
      simp only [hcs] at hu ⊢
      cases hr : refresh vs st.mem st.par with
      | err => exact h
      | ub => simp [hr] at hu
      | ok r =>
        obtain ⟨mem, par, upd⟩ := r
        simp only [hr] at hu ⊢
        have hvw := casts_wf hc _ hcs
        obtain ⟨e1, e2, e3⟩ := refresh_ok vs st.mem st.par hvw h.wf (by rw [h.len, casts_length _ hcs]) h.par hr
        subst e2
        refine ⟨by rw [e1]; simp [casts_length _ hcs], rfl, ?_, ?_⟩
        · intro m hm t ht
          rw [e1] at hm
          obtain ⟨x, hx, rfl⟩ := List.mem_map.mp hm
          simp only [Option.some.injEq] at ht; subst ht
          exact hvw _ hx
        · intro ws hws s' hf
          simp only at hws
          have hf' : I.init par I.fresh = (s', .ok ()) := by rw [hws]; exact hf
          cases upd with
          | true =>
            simp only [if_true]
            obtain ⟨q1, q2⟩ := hI par st.inner I.fresh
            rw [q2 (by rw [q1, hf']), hf']
          | false =>
            simp only [Bool.false_eq_true, if_false]
            exact h.init ws (by rw [← e3 rfl, hws]) s' hf

theorem step_inv (hI : Resets I) (hc : ∀ v t, cast v = some t → t.Wf) {st st' : V2 S} (h : Inv I c.params.length st)
    (e : Call V) (he : step I c cast st e = some st') : Inv I c.params.length st' := by
  cases e with
  | run s =>
    simp only [step] at he
    have := call_inv (c := c) (cast := cast) hI hc h (fun m s => runOperator (I.run m) c.args.length s) s
    unfold run at he
    split at he
    · simp at he
    · rename_i a b hne hcall
      simp only [Option.some.injEq] at he; subst he
      rw [hcall] at this
      exact this (fun hh => hne (by simpa using hh))
  | infer s =>
    simp only [step] at he
    have := call_inv (c := c) (cast := cast) hI hc h (fun m s => inferOperator (I.infer m) c.args.length s) s
    unfold infer at he
    split at he
    · simp at he
    · rename_i a b hne hcall
      simp only [Option.some.injEq] at he; subst he
      rw [hcall] at this
      exact this (fun hh => hne (by simpa using hh))

theorem after_inv (hI : Resets I) (hc : ∀ v t, cast v = some t → t.Wf) : ∀ (h : List (Call V)) {st st' : V2 S},
    Inv I c.params.length st → after I c cast h st = some st' → Inv I c.params.length st' := by
  intro h
  induction h with
  | nil => intro st st' hi he; simp [after] at he; subst he; exact hi
  | cons e es ih =>
    intro st st' hi he
    simp only [after, Option.bind_eq_some_iff] at he
    obtain ⟨s1, h1, h2⟩ := he
    exact ih (step_inv hI hc hi e h1) h2

/-- A call with operands the first version accepts: the delegated call sees the inner operator initialised with them. -/
theorem call_accepted (hI : Resets I) {st : V2 S} (h : Inv I c.params.length st) (go : S → Stk V → Out (Stk V) β)
    {s : Stk V} (hs : s.size = c.arity) {vs : List IntT} (hcs : casts cast s c.params = some vs) (hw : ∀ v ∈ vs, v.Wf)
    (hne : ∀ v ∈ vs, v.shape ≠ []) {m : S} (hf : Fresh I vs m) :
    (call I c cast go st s).2 = (pushArgs c.args s).bind fun s' _ => go m s' := by
  obtain ⟨⟨mem, par, upd⟩, hr⟩ := refresh_defined vs st.mem st.par hw h.wf hne
  obtain ⟨e1, e2, e3⟩ := refresh_ok vs st.mem st.par hw h.wf (by rw [h.len, casts_length _ hcs]) h.par hr
  subst e2
  unfold call
  rw [if_neg (by simp [hs])]
  simp only [hcs, hr]
  have hf' : I.init par I.fresh = (m, .ok ()) := by rw [e1]; exact hf
  cases upd with
  | true =>
    simp only [if_true]
    obtain ⟨q1, q2⟩ := hI par st.inner I.fresh
    have a1 : (I.init par st.inner).2 = .ok () := by rw [q1, hf']
    rw [a1, q2 a1, hf']
  | false =>
    simp only [Bool.false_eq_true, if_false]
    rw [h.init vs (by rw [← e3 rfl, e1]) m hf]

/-- A call with operands the first version rejects and that are not the remembered ones: rejected, the stack untouched. -/
theorem call_rejected (hI : Resets I) {st : V2 S} (h : Inv I c.params.length st) (go : S → Stk V → Out (Stk V) β)
    {s : Stk V} (hs : s.size = c.arity) {vs : List IntT} (hcs : casts cast s c.params = some vs) (hw : ∀ v ∈ vs, v.Wf)
    (hne : ∀ v ∈ vs, v.shape ≠ []) (hf : (I.init (vs.map some) I.fresh).2 = .err) (hd : st.mem ≠ vs.map some) :
    (call I c cast go st s).2 = .err s := by
  obtain ⟨⟨mem, par, upd⟩, hr⟩ := refresh_defined vs st.mem st.par hw h.wf hne
  obtain ⟨e1, e2, e3⟩ := refresh_ok vs st.mem st.par hw h.wf (by rw [h.len, casts_length _ hcs]) h.par hr
  subst e2
  unfold call
  rw [if_neg (by simp [hs])]
  simp only [hcs, hr]
  cases upd with
  | true =>
    simp only [if_true]
    rw [(hI par st.inner I.fresh).1, e1, hf]
  | false => exact absurd (by rw [← e3 rfl, e1]) hd

theorem conv_resets (a : ConvAttr R) (k : Geom R → Op V) (ki : Geom R → Stk V → Out (Stk V) P) : Resets (convInner a k ki) := by
  intro par s s'
  simp only [convInner, convInit]
  split
  · cases a.dilation <|> a.dialations with
    | none => simp
    | some dil =>
      simp only
      split
      · simp
      · cases parseFmt a.format with
        | none => simp
        | some f => cases f <;> simp only <;> split <;> simp_all
  · simp

theorem pool_resets (a : PoolAttr) (k : PoolGeom → Op V) (ki : PoolGeom → Stk V → Out (Stk V) P) : Resets (poolInner a k ki) := by
  intro par s s'
  simp only [poolInner, poolInit]
  split
  · split
    · simp
    · cases parseFmt a.format with
      | none => simp
      | some f => cases f <;> simp only <;> split <;> simp_all
  · simp

/-! ## The specification -/

/-- What the attributes of a convolution and a padding tensor mean, when they mean anything: the four rows of the 4x2 tensor
are the axes of the layout, the batch and channel rows are zero, the batch and channel entries of stride and dilation one. -/
inductive ConvFits (a : ConvAttr R) : IntT → Geom R → Prop where
  | nchw (sh sw dh dw t b l r : Int) : a.format = "NCHW" → a.stride = ⟨[4], [1, 1, sh, sw]⟩ →
      (a.dilation = some ⟨[4], [1, 1, dh, dw]⟩ ∨ a.dilation = none ∧ a.dialations = some ⟨[4], [1, 1, dh, dw]⟩) →
      ConvFits a ⟨[4, 2], [0, 0, 0, 0, t, b, l, r]⟩ ⟨.nchw, (t, b, l, r), a.padValue, (sh, sw), (dh, dw), a.packed⟩
  | nhwc (sh sw dh dw t b l r : Int) : a.format = "NHWC" → a.stride = ⟨[4], [1, sh, sw, 1]⟩ →
      (a.dilation = some ⟨[4], [1, dh, dw, 1]⟩ ∨ a.dilation = none ∧ a.dialations = some ⟨[4], [1, dh, dw, 1]⟩) →
      ConvFits a ⟨[4, 2], [0, 0, t, b, l, r, 0, 0]⟩ ⟨.nhwc, (t, b, l, r), a.padValue, (sh, sw), (dh, dw), a.packed⟩

/-- The same for pooling: padding, window and stride. -/
inductive PoolFits (a : PoolAttr) : IntT → IntT → IntT → PoolGeom → Prop where
  | nchw (kh kw sh sw t b l r : Int) : a.format = "NCHW" →
      PoolFits a ⟨[4, 2], [0, 0, 0, 0, t, b, l, r]⟩ ⟨[4], [1, 1, kh, kw]⟩ ⟨[4], [1, 1, sh, sw]⟩
        ⟨.nchw, a.type, a.paddingType, (t, b, l, r), (kh, kw), (sh, sw)⟩
  | nhwc (kh kw sh sw t b l r : Int) : a.format = "NHWC" →
      PoolFits a ⟨[4, 2], [0, 0, t, b, l, r, 0, 0]⟩ ⟨[4], [1, kh, kw, 1]⟩ ⟨[4], [1, sh, sw, 1]⟩
        ⟨.nhwc, a.type, a.paddingType, (t, b, l, r), (kh, kw), (sh, sw)⟩

/-- `tensor::cast` returns tensors that have their elements -/
def CastOk (cast : V → Option IntT) : Prop := ∀ v t, cast v = some t → t.Wf

/-- The stack holds exactly these operands in the current frame, above whatever is below. -/
def Framed (s : Stk V) (xs : List V) : Prop := s.base ≤ s.cells.length ∧ s.cells.drop s.base = xs

theorem Framed.index {s : Stk V} {xs : List V} (h : Framed s xs) (i : Nat) : s.index i = xs[i]? := by
  obtain ⟨_, h2⟩ := h
  subst h2
  have ha : s.abs (i : Int) = ((s.base + i : Nat) : Int) := by
    unfold Stk.abs; rw [if_pos (show (0 : Int) ≤ (i : Int) by omega)]; omega
  simp only [Stk.index, ha]
  rw [if_pos (show (0 : Int) ≤ ((s.base + i : Nat) : Int) by omega), List.getElem?_drop, Int.toNat_natCast]

theorem Framed.size {s : Stk V} {xs : List V} (h : Framed s xs) : s.size = xs.length := by
  obtain ⟨_, h2⟩ := h
  subst h2; simp [Stk.size]

theorem Framed.push {s : Stk V} {xs : List V} (h : Framed s xs) (v : V) : Framed (s.push v) (xs ++ [v]) := by
  obtain ⟨h1, h2⟩ := h
  subst h2
  refine ⟨by simp [Stk.push]; omega, ?_⟩
  simp only [Stk.push]
  rw [List.drop_append_of_le_length h1]

theorem fits_fresh {a : ConvAttr R} (k : Geom R → Op V) (ki : Geom R → Stk V → Out (Stk V) P) {pad : IntT} {g : Geom R}
    (h : ConvFits a pad g) : ∃ m, Fresh (convInner a k ki) [pad] m ∧ convGeom m = .ok g := by
  cases h with
  | nchw sh sw dh dw t b l r h1 h2 h3 =>
    refine ⟨⟨some .nchw, [0, 0, 0, 0, t, b, l, r], some a.padValue, [1, 1, sh, sw], [1, 1, dh, dw], a.packed⟩, ?_, rfl⟩
    rcases h3 with h3 | ⟨h3, h4⟩ <;> simp [Fresh, convInner, convInit, *, parseFmt, allAt]
  | nhwc sh sw dh dw t b l r h1 h2 h3 =>
    refine ⟨⟨some .nhwc, [0, 0, t, b, l, r, 0, 0], some a.padValue, [1, sh, sw, 1], [1, dh, dw, 1], a.packed⟩, ?_, rfl⟩
    rcases h3 with h3 | ⟨h3, h4⟩ <;> simp [Fresh, convInner, convInit, *, parseFmt, allAt]

theorem pool_fits_fresh {a : PoolAttr} (k : PoolGeom → Op V) (ki : PoolGeom → Stk V → Out (Stk V) P) {pad ks sd : IntT}
    {g : PoolGeom} (h : PoolFits a pad ks sd g) : ∃ m, Fresh (poolInner a k ki) [pad, ks, sd] m ∧ poolGeom m = .ok g := by
  cases h with
  | nchw kh kw sh sw t b l r h1 =>
    refine ⟨⟨some .nchw, some a.type, some a.paddingType, [0, 0, 0, 0, t, b, l, r], [1, 1, kh, kw], [1, 1, sh, sw]⟩, ?_, rfl⟩
    simp [Fresh, poolInner, poolInit, *, parseFmt, allAt]
  | nhwc kh kw sh sw t b l r h1 =>
    refine ⟨⟨some .nhwc, some a.type, some a.paddingType, [0, 0, t, b, l, r, 0, 0], [1, kh, kw, 1], [1, sh, sw, 1]⟩, ?_, rfl⟩
    simp [Fresh, poolInner, poolInit, *, parseFmt, allAt]

theorem len4 {l : List Int} (h : l.length = 4) : ∃ a b c d, l = [a, b, c, d] := by
  match l, h with
  | [a, b, c, d], _ => exact ⟨a, b, c, d, rfl⟩

theorem len8 {l : List Int} (h : l.length = 8) : ∃ a b c d e f g i, l = [a, b, c, d, e, f, g, i] := by
  match l, h with
  | [a, b, c, d, e, f, g, i], _ => exact ⟨a, b, c, d, e, f, g, i, rfl⟩

/-- what is not in the specification is rejected -/
theorem unfit_rejected {a : ConvAttr R} (k : Geom R → Op V) (ki : Geom R → Stk V → Out (Stk V) P) {pad : IntT}
    (hp : pad.Wf) (hs : a.stride.Wf) (hd : ∀ d, (a.dilation <|> a.dialations) = some d → d.Wf)
    (h : ∀ g, ¬ ConvFits a pad g) : ((convInner a k ki).init [some pad] (convInner a k ki).fresh).2 = .err := by
  simp only [convInner, convInit]
  cases hdl : (a.dilation <|> a.dialations) with
  | none => rfl
  | some dil =>
    have hdil : a.dilation = some dil ∨ a.dilation = none ∧ a.dialations = some dil := by
      cases h1 : a.dilation <;> simp_all
    simp only
    split
    · rfl
    · rename_i hsh
      obtain ⟨s1, s2, s3⟩ := Decidable.not_not.mp hsh
      have l1 : pad.data.length = 8 := by rw [hp, s1]; rfl
      have l2 : a.stride.data.length = 4 := by rw [hs, s2]; rfl
      have l3 : dil.data.length = 4 := by rw [hd dil hdl, s3]; rfl
      obtain ⟨p0, p1, p2, p3, p4, p5, p6, p7, e1⟩ := len8 l1
      obtain ⟨t0, t1, t2, t3, e2⟩ := len4 l2
      obtain ⟨d0, d1, d2, d3, e3⟩ := len4 l3
      have ep : pad = ⟨[4, 2], [p0, p1, p2, p3, p4, p5, p6, p7]⟩ := by cases pad; simp_all
      have et : a.stride = ⟨[4], [t0, t1, t2, t3]⟩ := by
        rcases hh : a.stride with ⟨u, v⟩; simp_all
      have ed : dil = ⟨[4], [d0, d1, d2, d3]⟩ := by cases dil; simp_all
      subst ep; subst ed
      unfold parseFmt
      by_cases hf : a.format = "NCHW"
      · simp only [hf, if_true]
        split
        · rename_i hok
          exfalso
          simp [allAt, et] at hok
          obtain ⟨⟨⟨q0, q1, q2, q3⟩, q4, q5⟩, q6, q7⟩ := hok
          subst q0; subst q1; subst q2; subst q3; subst q4; subst q5; subst q6; subst q7
          exact h _ (ConvFits.nchw t2 t3 d2 d3 p4 p5 p6 p7 hf et hdil)
        · rfl
      · by_cases hf2 : a.format = "NHWC"
        · simp only [hf2, if_true, show ¬ ("NHWC" = "NCHW") by decide, if_false]
          split
          · rename_i hok
            exfalso
            simp [allAt, et] at hok
            obtain ⟨⟨⟨q0, q1, q2, q3⟩, q4, q5⟩, q6, q7⟩ := hok
            subst q0; subst q1; subst q2; subst q3; subst q4; subst q5; subst q6; subst q7
            exact h _ (ConvFits.nhwc t1 t2 d1 d2 p2 p3 p4 p5 hf2 et hdil)
          · rfl
        · simp only [hf, hf2, if_false]

/-- the same for pooling -/
theorem pool_unfit_rejected {a : PoolAttr} (k : PoolGeom → Op V) (ki : PoolGeom → Stk V → Out (Stk V) P) {pad ks sd : IntT}
    (hp : pad.Wf) (hk : ks.Wf) (hs : sd.Wf) (h : ∀ g, ¬ PoolFits a pad ks sd g) :
    ((poolInner a k ki).init [some pad, some ks, some sd] (poolInner a k ki).fresh).2 = .err := by
  simp only [poolInner, poolInit]
  split
  · rfl
  · rename_i hsh
    obtain ⟨s1, s2, s3⟩ := Decidable.not_not.mp hsh
    have l1 : pad.data.length = 8 := by rw [hp, s1]; rfl
    have l2 : ks.data.length = 4 := by rw [hk, s2]; rfl
    have l3 : sd.data.length = 4 := by rw [hs, s3]; rfl
    obtain ⟨p0, p1, p2, p3, p4, p5, p6, p7, e1⟩ := len8 l1
    obtain ⟨t0, t1, t2, t3, e2⟩ := len4 l2
    obtain ⟨d0, d1, d2, d3, e3⟩ := len4 l3
    have ep : pad = ⟨[4, 2], [p0, p1, p2, p3, p4, p5, p6, p7]⟩ := by cases pad; simp_all
    have et : ks = ⟨[4], [t0, t1, t2, t3]⟩ := by cases ks; simp_all
    have ed : sd = ⟨[4], [d0, d1, d2, d3]⟩ := by cases sd; simp_all
    subst ep; subst ed; subst et
    unfold parseFmt
    by_cases hf : a.format = "NCHW"
    · simp only [hf, if_true]
      split
      · rename_i hok
        exfalso
        simp [allAt] at hok
        obtain ⟨⟨⟨q0, q1, q2, q3⟩, q4, q5⟩, q6, q7⟩ := hok
        subst q0; subst q1; subst q2; subst q3; subst q4; subst q5; subst q6; subst q7
        exact h _ (PoolFits.nchw t2 t3 d2 d3 p4 p5 p6 p7 hf)
      · rfl
    · by_cases hf2 : a.format = "NHWC"
      · simp only [hf2, if_true, show ¬ ("NHWC" = "NCHW") by decide, if_false]
        split
        · rename_i hok
          exfalso
          simp [allAt] at hok
          obtain ⟨⟨⟨q0, q1, q2, q3⟩, q4, q5⟩, q6, q7⟩ := hok
          subst q0; subst q1; subst q2; subst q3; subst q4; subst q5; subst q6; subst q7
          exact h _ (PoolFits.nhwc t1 t2 d1 d2 p2 p3 p4 p5 hf2)
        · rfl
      · simp only [hf, hf2, if_false]

/-- The parameter operands of a call, when the call gets to look at them. -/
def operands (c : Config) (cast : V → Option IntT) (e : Call V) : Option (List IntT) :=
  let s := match e with | .run s => s | .infer s => s
  if s.size = c.arity then casts cast s c.params else none

/-- The parameter operands the object saw last in a history. -/
def lastSeen (c : Config) (cast : V → Option IntT) : List (Call V) → Option (List IntT)
  | [] => none
  | e :: es => match lastSeen c cast es with
      | some vs => some vs
      | none => operands c cast e

theorem call_mem (hc : CastOk cast) {st : V2 S} (h : Inv I c.params.length st)
    (go : S → Stk V → Out (Stk V) β) (s : Stk V) (hu : (call I c cast go st s).2 ≠ .ub) :
    (call I c cast go st s).1.mem =
      match (if s.size = c.arity then casts cast s c.params else none) with
      | some vs => vs.map some
      | none => st.mem := by
  unfold call at hu ⊢
  by_cases hsz : s.size = c.arity
  · rw [if_neg (by simp [hsz])] at hu ⊢
    rw [if_pos hsz]
    cases hcs : casts cast s c.params with
    | none => rfl
    | some vs =>
      simp only [hcs] at hu ⊢
      cases hr : refresh vs st.mem st.par with
      | err => exfalso; exact refresh_ne_err _ _ _ hr
      | ub => simp [hr] at hu
      | ok r =>
        obtain ⟨mem, par, upd⟩ := r
        exact (refresh_ok vs st.mem st.par (casts_wf hc _ hcs) h.wf (by rw [h.len, casts_length _ hcs]) h.par hr).1
  · rw [if_pos (by simpa using hsz), if_neg hsz]

theorem step_mem (hc : CastOk cast) {st st' : V2 S} (h : Inv I c.params.length st)
    (e : Call V) (he : step I c cast st e = some st') :
    st'.mem = match operands c cast e with | some vs => vs.map some | none => st.mem := by
  cases e with
  | run s =>
    simp only [step] at he
    have := call_mem (c := c) (cast := cast) hc h (fun m s => runOperator (I.run m) c.args.length s) s
    unfold run at he
    split at he
    · simp at he
    · rename_i a b hne hcall
      simp only [Option.some.injEq] at he; subst he
      rw [hcall] at this
      exact this (fun hh => hne (by simpa using hh))
  | infer s =>
    simp only [step] at he
    have := call_mem (c := c) (cast := cast) hc h (fun m s => inferOperator (I.infer m) c.args.length s) s
    unfold infer at he
    split at he
    · simp at he
    · rename_i a b hne hcall
      simp only [Option.some.injEq] at he; subst he
      rw [hcall] at this
      exact this (fun hh => hne (by simpa using hh))

theorem after_mem (hI : Resets I) (hc : CastOk cast) : ∀ (h : List (Call V)) {st st' : V2 S},
    Inv I c.params.length st → after I c cast h st = some st' →
    st'.mem = match lastSeen c cast h with | some vs => vs.map some | none => st.mem := by
  intro h
  induction h with
  | nil => intro st st' _ he; simp [after] at he; subst he; rfl
  | cons e es ih =>
    intro st st' hi he
    simp only [after, Option.bind_eq_some_iff] at he
    obtain ⟨s1, h1, h2⟩ := he
    have a1 := ih (step_inv hI hc hi e h1) h2
    have a2 := step_mem hc hi e h1
    rw [a1]
    simp only [lastSeen]
    cases hl : lastSeen c cast es with
    | some vs => rfl
    | none => simp only [a2]

end Delegate
end Verif.Props

namespace Verif.Props
open Verif.Core Verif.Runtime Verif.Runtime.Delegate Verif.Props.Delegate

variable {V P R : Type}

/-- **C89, convolution.** After any history of `run` and `infer` calls on one `conv2d_v2` (or `depthwise_conv2d_v2`) object,
successful or not, a `run` with operands `x, padding, w` whose padding makes sense for the attributes is exactly the call of
the convolution with that geometry on `x, w` in a frame above the three operands. -/
theorem C89_conv2d_v2 (a : ConvAttr R) (k : Geom R → Op V) (ki : Geom R → Stk V → Out (Stk V) P) (cast : V → Option IntT)
    (hc : CastOk cast) (h : List (Call V)) (st : V2 (ConvState R))
    (hst : after (convInner a k ki) convConfig cast h (create convConfig (convInner a k ki)) = some st)
    (s : Stk V) (x pv w : V) (hs : Framed s [x, pv, w]) (pad : IntT) (hp : cast pv = some pad) (g : Geom R)
    (hg : ConvFits a pad g) :
    (run (convInner a k ki) convConfig cast st s).2 = runOperator (k g) 2 ((s.push x).push w) := by
  have hI := conv_resets a k ki
  have inv := after_inv hI hc h (create_inv _ _ (by simp [convConfig])) hst
  obtain ⟨m, hm, hgm⟩ := fits_fresh k ki hg
  have hcs : casts cast s convConfig.params = some [pad] := by
    have h1 := hs.index 1
    simp only [List.getElem?_cons_succ, List.getElem?_cons_zero] at h1
    simp [casts, convConfig, hp, show s.index 1 = some pv from h1]
  have h2 := hs.index 0
  have h3 := (hs.push x).index 2
  simp only [List.getElem?_cons_succ, List.getElem?_cons_zero, List.cons_append, List.nil_append] at h2 h3
  have hsh : pad.shape ≠ [] := by cases hg <;> simp
  have := call_accepted hI inv (fun m s => runOperator ((convInner a k ki).run m) convConfig.args.length s)
    (by rw [hs.size]; rfl) hcs (by simpa using hc _ _ hp) (by simpa using hsh) hm
  unfold run
  rw [this]
  simp only [convConfig, pushArgs, show s.index ((0 : Nat) : Int) = some x from h2,
    show (s.push x).index ((2 : Nat) : Int) = some w from h3, Out.bind]
  have : (convInner a k ki).run m = k g := by
    funext u; simp [convInner, withGeom, hgm]
  rw [this]; rfl

/-- **C89, convolution, shape inference.** The same for `infer`. -/
theorem C89_conv2d_v2_infer (a : ConvAttr R) (k : Geom R → Op V) (ki : Geom R → Stk V → Out (Stk V) P)
    (cast : V → Option IntT) (hc : CastOk cast) (h : List (Call V)) (st : V2 (ConvState R))
    (hst : after (convInner a k ki) convConfig cast h (create convConfig (convInner a k ki)) = some st)
    (s : Stk V) (x pv w : V) (hs : Framed s [x, pv, w]) (pad : IntT) (hp : cast pv = some pad) (g : Geom R)
    (hg : ConvFits a pad g) :
    (infer (convInner a k ki) convConfig cast st s).2 = inferOperator (ki g) 2 ((s.push x).push w) := by
  have hI := conv_resets a k ki
  have inv := after_inv hI hc h (create_inv _ _ (by simp [convConfig])) hst
  obtain ⟨m, hm, hgm⟩ := fits_fresh k ki hg
  have hcs : casts cast s convConfig.params = some [pad] := by
    have h1 := hs.index 1
    simp only [List.getElem?_cons_succ, List.getElem?_cons_zero] at h1
    simp [casts, convConfig, hp, show s.index 1 = some pv from h1]
  have h2 := hs.index 0
  have h3 := (hs.push x).index 2
  simp only [List.getElem?_cons_succ, List.getElem?_cons_zero, List.cons_append, List.nil_append] at h2 h3
  have hsh : pad.shape ≠ [] := by cases hg <;> simp
  have := call_accepted hI inv (fun m s => inferOperator ((convInner a k ki).infer m) convConfig.args.length s)
    (by rw [hs.size]; rfl) hcs (by simpa using hc _ _ hp) (by simpa using hsh) hm
  unfold infer
  rw [this]
  simp only [convConfig, pushArgs, show s.index ((0 : Nat) : Int) = some x from h2,
    show (s.push x).index ((2 : Nat) : Int) = some w from h3, Out.bind]
  have : (convInner a k ki).infer m = ki g := by
    funext u; simp [convInner, withGeom, hgm]
  rw [this]; rfl

/-- **C89, pooling.** After any history, a `run` with operands `x, padding, window, stride` that make sense is exactly the
call of the pooling with that geometry on `x`. -/
theorem C89_pooling2d_v2 (a : PoolAttr) (k : PoolGeom → Op V) (ki : PoolGeom → Stk V → Out (Stk V) P)
    (cast : V → Option IntT) (hc : CastOk cast) (h : List (Call V)) (st : V2 PoolState)
    (hst : after (poolInner a k ki) poolConfig cast h (create poolConfig (poolInner a k ki)) = some st)
    (s : Stk V) (x pv kv sv : V) (hs : Framed s [x, pv, kv, sv]) (pad ks sd : IntT) (hp : cast pv = some pad)
    (hk : cast kv = some ks) (hd : cast sv = some sd) (g : PoolGeom) (hg : PoolFits a pad ks sd g) :
    (run (poolInner a k ki) poolConfig cast st s).2 = runOperator (k g) 1 (s.push x) := by
  have hI := pool_resets a k ki
  have inv := after_inv hI hc h (create_inv _ _ (by simp [poolConfig])) hst
  obtain ⟨m, hm, hgm⟩ := pool_fits_fresh k ki hg
  have hcs : casts cast s poolConfig.params = some [pad, ks, sd] := by
    have h1 := hs.index 1
    have h2 := hs.index 2
    have h3 := hs.index 3
    simp only [List.getElem?_cons_succ, List.getElem?_cons_zero] at h1 h2 h3
    simp [casts, poolConfig, hp, hk, hd, show s.index 1 = some pv from h1, show s.index 2 = some kv from h2,
      show s.index 3 = some sv from h3]
  have h2 := hs.index 0
  simp only [List.getElem?_cons_zero] at h2
  have := call_accepted hI inv (fun m s => runOperator ((poolInner a k ki).run m) poolConfig.args.length s)
    (by rw [hs.size]; rfl) hcs (by simpa using ⟨hc _ _ hp, hc _ _ hk, hc _ _ hd⟩) (by cases hg <;> simp) hm
  unfold run
  rw [this]
  simp only [poolConfig, pushArgs, show s.index ((0 : Nat) : Int) = some x from h2, Out.bind]
  have : (poolInner a k ki).run m = k g := by
    funext u; simp [poolInner, withGeom, hgm]
  rw [this]; rfl

/-- **C89, pooling, shape inference.** -/
theorem C89_pooling2d_v2_infer (a : PoolAttr) (k : PoolGeom → Op V) (ki : PoolGeom → Stk V → Out (Stk V) P)
    (cast : V → Option IntT) (hc : CastOk cast) (h : List (Call V)) (st : V2 PoolState)
    (hst : after (poolInner a k ki) poolConfig cast h (create poolConfig (poolInner a k ki)) = some st)
    (s : Stk V) (x pv kv sv : V) (hs : Framed s [x, pv, kv, sv]) (pad ks sd : IntT) (hp : cast pv = some pad)
    (hk : cast kv = some ks) (hd : cast sv = some sd) (g : PoolGeom) (hg : PoolFits a pad ks sd g) :
    (infer (poolInner a k ki) poolConfig cast st s).2 = inferOperator (ki g) 1 (s.push x) := by
  have hI := pool_resets a k ki
  have inv := after_inv hI hc h (create_inv _ _ (by simp [poolConfig])) hst
  obtain ⟨m, hm, hgm⟩ := pool_fits_fresh k ki hg
  have hcs : casts cast s poolConfig.params = some [pad, ks, sd] := by
    have h1 := hs.index 1
    have h2 := hs.index 2
    have h3 := hs.index 3
    simp only [List.getElem?_cons_succ, List.getElem?_cons_zero] at h1 h2 h3
    simp [casts, poolConfig, hp, hk, hd, show s.index 1 = some pv from h1, show s.index 2 = some kv from h2,
      show s.index 3 = some sv from h3]
  have h2 := hs.index 0
  simp only [List.getElem?_cons_zero] at h2
  have := call_accepted hI inv (fun m s => inferOperator ((poolInner a k ki).infer m) poolConfig.args.length s)
    (by rw [hs.size]; rfl) hcs (by simpa using ⟨hc _ _ hp, hc _ _ hk, hc _ _ hd⟩) (by cases hg <;> simp) hm
  unfold infer
  rw [this]
  simp only [poolConfig, pushArgs, show s.index ((0 : Nat) : Int) = some x from h2, Out.bind]
  have : (poolInner a k ki).infer m = ki g := by
    funext u; simp [poolInner, withGeom, hgm]
  rw [this]; rfl

/-- **C89, rejection (part).** Operands that make no sense are rejected with an exception before the stack is touched,
provided the last operands the object looked at were different ones. Missing: when they were the same (`C89_reject_false`),
and scalar operands (`C89_scalar_false`). -/
theorem C89_reject_partial (a : ConvAttr R) (k : Geom R → Op V) (ki : Geom R → Stk V → Out (Stk V) P)
    (cast : V → Option IntT) (hc : CastOk cast) (hs4 : a.stride.Wf)
    (hd4 : ∀ d, (a.dilation <|> a.dialations) = some d → d.Wf) (h : List (Call V)) (st : V2 (ConvState R))
    (hst : after (convInner a k ki) convConfig cast h (create convConfig (convInner a k ki)) = some st)
    (s : Stk V) (x pv w : V) (hs : Framed s [x, pv, w]) (pad : IntT) (hp : cast pv = some pad) (hne : pad.shape ≠ [])
    (hg : ∀ g, ¬ ConvFits a pad g) (hl : lastSeen convConfig cast h ≠ some [pad]) :
    (run (convInner a k ki) convConfig cast st s).2 = .err s ∧ (infer (convInner a k ki) convConfig cast st s).2 = .err s := by
  have hI := conv_resets a k ki
  have inv0 := create_inv (convInner a k ki) convConfig (by simp [convConfig])
  have inv := after_inv hI hc h inv0 hst
  have hcs : casts cast s convConfig.params = some [pad] := by
    have h1 := hs.index 1
    simp only [List.getElem?_cons_succ, List.getElem?_cons_zero] at h1
    simp [casts, convConfig, hp, show s.index 1 = some pv from h1]
  have hmem : st.mem ≠ [pad].map some := by
    rw [after_mem hI hc h inv0 hst]
    cases hls : lastSeen convConfig cast h with
    | none => simp [create, convConfig]
    | some vs =>
      simp only
      intro e
      apply hl
      rw [hls]
      congr 1
      exact (List.map_inj_right (fun _ _ hxy => Option.some.inj hxy)).mp e
  have rej := unfit_rejected k ki (hc _ _ hp) hs4 hd4 hg
  exact ⟨call_rejected hI inv _ (by rw [hs.size]; rfl) hcs (by simpa using hc _ _ hp) (by simpa using hne) rej hmem,
    call_rejected hI inv _ (by rw [hs.size]; rfl) hcs (by simpa using hc _ _ hp) (by simpa using hne) rej hmem⟩

/-- **C89, rejection for pooling (part).** -/
theorem C89_pool_reject_partial (a : PoolAttr) (k : PoolGeom → Op V) (ki : PoolGeom → Stk V → Out (Stk V) P)
    (cast : V → Option IntT) (hc : CastOk cast) (h : List (Call V)) (st : V2 PoolState)
    (hst : after (poolInner a k ki) poolConfig cast h (create poolConfig (poolInner a k ki)) = some st)
    (s : Stk V) (x pv kv sv : V) (hs : Framed s [x, pv, kv, sv]) (pad ks sd : IntT) (hp : cast pv = some pad)
    (hk : cast kv = some ks) (hd : cast sv = some sd) (hne : pad.shape ≠ [] ∧ ks.shape ≠ [] ∧ sd.shape ≠ [])
    (hg : ∀ g, ¬ PoolFits a pad ks sd g) (hl : lastSeen poolConfig cast h ≠ some [pad, ks, sd]) :
    (run (poolInner a k ki) poolConfig cast st s).2 = .err s ∧ (infer (poolInner a k ki) poolConfig cast st s).2 = .err s := by
  have hI := pool_resets a k ki
  have inv0 := create_inv (poolInner a k ki) poolConfig (by simp [poolConfig])
  have inv := after_inv hI hc h inv0 hst
  have hcs : casts cast s poolConfig.params = some [pad, ks, sd] := by
    have h1 := hs.index 1
    have h2 := hs.index 2
    have h3 := hs.index 3
    simp only [List.getElem?_cons_succ, List.getElem?_cons_zero] at h1 h2 h3
    simp [casts, poolConfig, hp, hk, hd, show s.index 1 = some pv from h1, show s.index 2 = some kv from h2,
      show s.index 3 = some sv from h3]
  have hmem : st.mem ≠ [pad, ks, sd].map some := by
    rw [after_mem hI hc h inv0 hst]
    cases hls : lastSeen poolConfig cast h with
    | none => simp [create, poolConfig]
    | some vs =>
      simp only
      intro e
      apply hl
      rw [hls]
      congr 1
      exact (List.map_inj_right (fun _ _ hxy => Option.some.inj hxy)).mp e
  have rej := pool_unfit_rejected k ki (hc _ _ hp) (hc _ _ hk) (hc _ _ hd) hg
  have hw : ∀ v ∈ [pad, ks, sd], v.Wf := by simpa using ⟨hc _ _ hp, hc _ _ hk, hc _ _ hd⟩
  have hn : ∀ v ∈ [pad, ks, sd], v.shape ≠ [] := by simpa using hne
  exact ⟨call_rejected hI inv _ (by rw [hs.size]; rfl) hcs hw hn rej hmem,
    call_rejected hI inv _ (by rw [hs.size]; rfl) hcs hw hn rej hmem⟩

/-! ## Concrete cases -/

namespace Delegate

/-- tensors are integer tensors; the cast refuses one without its elements -/
def castT (t : IntT) : Option IntT := if t.Wf then some t else none
theorem castT_ok : CastOk castT := by
  intro v t h
  unfold castT at h
  split at h
  · simp only [Option.some.injEq] at h; subst h; assumption
  · simp at h

/-- a convolution with stride 2x2 and dilation 1 -/
def exAttr : ConvAttr Int := ⟨"NCHW", ⟨[4], [1, 1, 2, 2]⟩, some ⟨[4], [1, 1, 1, 1]⟩, none, 0, false⟩
/-- it returns the padding it was called with and the first element of its operands -/
def exKern (g : Geom Int) : Op IntT := fun s =>
  .ok (s.push ⟨[4], [g.pad.1, g.pad.2.1, g.pad.2.2.1, g.pad.2.2.2]⟩) 1
/-- its inference reports the same numbers -/
def exInfer (g : Geom Int) (s : Stk IntT) : Out (Stk IntT) (List Int) :=
  .ok s [g.pad.1, g.pad.2.1, g.pad.2.2.1, g.pad.2.2.2]
def exInner : Inner (ConvState Int) IntT (List Int) := convInner exAttr exKern exInfer
/-- a stack with one tensor below the frame and the three operands -/
def exStack (pad : IntT) : Stk IntT := ⟨[⟨[1], [99]⟩, ⟨[1], [10]⟩, pad, ⟨[1], [20]⟩], 1, [0]⟩
def pad1 : IntT := ⟨[4, 2], [0, 0, 0, 0, 1, 2, 3, 4]⟩
def pad2 : IntT := ⟨[4, 2], [0, 0, 0, 0, 5, 6, 7, 8]⟩
/-- pads the batch axis -/
def padBad : IntT := ⟨[4, 2], [1, 0, 0, 0, 5, 6, 7, 8]⟩
/-- two numbers instead of eight -/
def padShort : IntT := ⟨[2], [1, 1]⟩

theorem pad1_fits : ConvFits exAttr pad1 ⟨.nchw, (1, 2, 3, 4), 0, (2, 2), (1, 1), false⟩ :=
  ConvFits.nchw 2 2 1 1 1 2 3 4 rfl rfl (Or.inl rfl)
theorem padBad_unfit (g) : ¬ ConvFits exAttr padBad g := by
  intro h; unfold padBad at h; cases h
theorem padShort_unfit (g) : ¬ ConvFits exAttr padShort g := by
  intro h; unfold padShort at h; cases h

/-- an object that saw an accepted, a rejected and a different accepted padding -/
def exHistory : List (Call IntT) := [.run (exStack pad1), .run (exStack padBad), .infer (exStack pad2), .run (exStack padShort)]

example : ∃ st, after exInner convConfig castT exHistory (create convConfig exInner) = some st ∧
    Framed (exStack pad1) [⟨[1], [10]⟩, pad1, ⟨[1], [20]⟩] ∧
    (run exInner convConfig castT st (exStack pad1)).2 =
      .ok ⟨[⟨[1], [99]⟩, ⟨[1], [10]⟩, pad1, ⟨[1], [20]⟩, ⟨[4], [1, 2, 3, 4]⟩], 1, [0]⟩ 1 := by
  refine ⟨_, rfl, ⟨by decide, by decide⟩, by decide⟩

example : ∃ st, after exInner convConfig castT exHistory (create convConfig exInner) = some st ∧
    (infer exInner convConfig castT st (exStack pad1)).2 = .ok (exStack pad1) [1, 2, 3, 4] := by
  refine ⟨_, rfl, by decide⟩

/-- a rejected padding after that history: rejected, because the last one seen was another -/
example : ∃ st, after exInner convConfig castT exHistory (create convConfig exInner) = some st ∧
    lastSeen convConfig castT exHistory ≠ some [padBad] ∧
    (run exInner convConfig castT st (exStack padBad)).2 = .err (exStack padBad) := by
  refine ⟨_, rfl, by decide, by decide⟩

def exPool : Inner PoolState IntT (List Int) :=
  poolInner ⟨"NHWC", 0, 0⟩ (fun g s => .ok (s.push ⟨[4], [g.pad.1, g.pad.2.2.2, g.ksize.1, g.stride.2]⟩) 1)
    (fun g s => .ok s [g.pad.1, g.pad.2.2.2, g.ksize.1, g.stride.2])
def poolStack (pad ks sd : IntT) : Stk IntT := ⟨[⟨[1], [10]⟩, pad, ks, sd], 0, []⟩
def padP : IntT := ⟨[4, 2], [0, 0, 1, 2, 3, 4, 0, 0]⟩
def ksP : IntT := ⟨[4], [1, 3, 4, 1]⟩
def sdP : IntT := ⟨[4], [1, 5, 6, 1]⟩

example : PoolFits ⟨"NHWC", 0, 0⟩ padP ksP sdP ⟨.nhwc, 0, 0, (1, 2, 3, 4), (3, 4), (5, 6)⟩ := PoolFits.nhwc 3 4 5 6 1 2 3 4 rfl

example : ∃ st, after exPool poolConfig castT [.run (poolStack padP ksP sdP), .run (poolStack padP sdP ksP)]
      (create poolConfig exPool) = some st ∧
    (run exPool poolConfig castT st (poolStack padP ksP sdP)).2 =
      .ok ⟨[⟨[1], [10]⟩, padP, ksP, sdP, ⟨[4], [1, 4, 3, 6]⟩], 0, []⟩ 1 ∧
    (infer exPool poolConfig castT st (poolStack padP ksP sdP)).2 = .ok (poolStack padP ksP sdP) [1, 4, 3, 6] ∧
    (run exPool poolConfig castT st (poolStack padP ksP padP)).2 = .err (poolStack padP ksP padP) := by
  refine ⟨_, rfl, by decide, by decide, by decide⟩

end Delegate

open Delegate in
/-- **C89 fails for a repeated rejected operand.** A padding of the batch axis is rejected once; the same call made again
runs the convolution as if the batch axis were not padded. A padding tensor of the wrong shape, given twice, is ignored the
second time: the convolution runs with the padding of an earlier call. -/
theorem C89_reject_false :
    (∀ g, ¬ ConvFits exAttr padBad g) ∧ (∀ g, ¬ ConvFits exAttr padShort g) ∧
    (∃ st, after exInner convConfig castT [.run (exStack padBad)] (create convConfig exInner) = some st ∧
      (run exInner convConfig castT (create convConfig exInner) (exStack padBad)).2 = .err (exStack padBad) ∧
      (run exInner convConfig castT st (exStack padBad)).2 =
        .ok ⟨(exStack padBad).cells ++ [⟨[4], [5, 6, 7, 8]⟩], 1, [0]⟩ 1) ∧
    (∃ st, after exInner convConfig castT [.run (exStack pad1), .run (exStack padShort)] (create convConfig exInner) = some st ∧
      (run exInner convConfig castT st (exStack padShort)).2 =
        .ok ⟨(exStack padShort).cells ++ [⟨[4], [1, 2, 3, 4]⟩], 1, [0]⟩ 1) :=
  ⟨padBad_unfit, padShort_unfit, ⟨_, rfl, by decide, by decide⟩, ⟨_, rfl, by decide⟩⟩

open Delegate in
/-- **C89 fails when the object is initialised again.** `init()` replaces the inner operator and keeps the remembered
padding, so the next call with that padding runs an inner operator that was never initialised: undefined behaviour. -/
theorem C89_reinit_false : ∃ st, after exInner convConfig castT [.run (exStack pad1)] (create convConfig exInner) = some st ∧
    (run exInner convConfig castT st (exStack pad1)).2 ≠ .ub ∧
    (run exInner convConfig castT (reinit convConfig exInner st) (exStack pad1)).2 = .ub :=
  ⟨_, rfl, by decide, by decide⟩

open Delegate in
/-- **C89 fails for a scalar operand.** A scalar padding has the extents of the remembered empty tensor, so the first call
reads the memory that tensor does not have. -/
theorem C89_scalar_false : castT ⟨[], [0]⟩ = some ⟨[], [0]⟩ ∧
    (run exInner convConfig castT (create convConfig exInner) (exStack ⟨[], [0]⟩)).2 = .ub := by
  refine ⟨by decide, by decide⟩

end Verif.Props
