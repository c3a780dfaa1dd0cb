import Verif.Compiler.Half
import Mathlib.Tactic.Ring
import Mathlib.Data.Rat.Defs
import Mathlib.Data.List.Forall2
import Mathlib.Data.List.Induction
import Mathlib.Data.List.GetD
/-!
# C100: translation to half precision
-/
namespace Verif.Props.Half
open Verif.Compiler.Half

variable {V W : Type}

/-! ## what a graph computes -/

/-- a meaning for the nodes -/
structure Interp (V W : Type) where
  param : Nat → W
  const : DT → V → W
  cast : DT → W → W
  toFloat : W → W
  op : Nat → List W → W
  none : W

/-- the value of a node, given the values of its operands -/
def apply (I : Interp V W) (xs : List W) : Kind V → W
  | .param p => I.param p
  | .const t v => I.const t v
  | .cast t => I.cast t (xs.headD I.none)
  | .toFloat => I.toFloat (xs.headD I.none)
  | .op o => I.op o xs

/-- the values of all nodes of a graph, in order -/
def vals (I : Interp V W) (g : List (Node V)) : List W :=
  g.foldl (fun vs (nd : Node V) => vs ++ [apply I (nd.inputs.map fun i => vs.getD i I.none) nd.kind]) []

/-- the value of a node of a graph -/
def val (I : Interp V W) (g : List (Node V)) (n : Nat) : W := (vals I g).getD n I.none

/-- operands come before the node -/
def Ordered (g : List (Node V)) : Prop := ∀ (n : Nat) (nd : Node V), g[n]? = some nd → ∀ i ∈ nd.inputs, i < n

/-- converting between the two precisions changes nothing (exact arithmetic) -/
def Exact (I : Interp V W) : Prop := ∀ x, I.cast .f16 x = x ∧ I.cast .f32 x = x

theorem vals_append (I : Interp V W) (g : List (Node V)) (nd : Node V) :
    vals I (g ++ [nd]) = vals I g ++ [apply I (nd.inputs.map fun i => (vals I g).getD i I.none) nd.kind] := by
  unfold vals; rw [List.foldl_append]; rfl

theorem vals_length (I : Interp V W) (g : List (Node V)) : (vals I g).length = g.length := by
  induction g using List.reverseRecOn with
  | nil => rfl
  | append_singleton g nd ih => rw [vals_append, List.length_append, ih]; simp

theorem val_lt (I : Interp V W) (g e : List (Node V)) {n : Nat} (h : n < g.length) : val I (g ++ e) n = val I g n := by
  induction e using List.reverseRecOn with
  | nil => simp
  | append_singleton e nd ih =>
    rw [← ih, ← List.append_assoc]
    unfold val
    rw [vals_append, List.getD_append _ _ _ _ (by rw [vals_length, List.length_append]; omega)]

theorem val_last (I : Interp V W) (g : List (Node V)) (nd : Node V) :
    val I (g ++ [nd]) g.length = apply I (nd.inputs.map fun i => val I g i) nd.kind := by
  unfold val
  rw [vals_append, List.getD_append_right _ _ _ _ (by rw [vals_length]), vals_length]
  simp

theorem val_node (I : Interp V W) {g : List (Node V)} (hg : Ordered g) {n : Nat} {nd : Node V} (h : g[n]? = some nd) :
    val I g n = apply I (nd.inputs.map fun i => val I g i) nd.kind := by
  have hn : n < g.length := (List.getElem?_eq_some_iff.1 h).1
  have hsplit : g = (g.take n ++ [nd]) ++ g.drop (n + 1) := by
    have : g[n] = nd := (List.getElem?_eq_some_iff.1 h).2
    rw [← this, List.append_assoc]
    simp
  have hlen : (g.take n).length = n := by rw [List.length_take]; omega
  have h1 : val I g n = val I (g.take n ++ [nd]) n := by
    conv_lhs => rw [hsplit]
    exact val_lt I _ _ (by rw [List.length_append, hlen]; simp)
  have h2 := val_last I (g.take n) nd
  rw [hlen] at h2
  rw [h1, h2]
  congr 1
  apply List.map_congr_left
  intro i hi
  have := hg n nd h i hi
  conv_rhs => rw [← List.take_append_drop n g]
  rw [val_lt I _ _ (by omega)]

/-! ## the invariant -/

/-- the kind of a node -/
def kindAt (g : List (Node V)) (n : Nat) : Option (Kind V) := (g[n]?).map Node.kind

/-- how a translated operand relates to the old one: the node behind it, with the casts in between -/
def OperandOf (g out : List (Node V)) (e : Nat × Option DT) (m : Nat) : Prop :=
  m < out.length ∧ match e.2 with
  | none => kindAt out m = kindAt g e.1
  | some t => kindAt out m = some (.cast t)

/-- a translated node: a cast that was put in, or a copy of a node with operands as planned -/
def CopyOf (reg : Reg) (g out : List (Node V)) (nd : Node V) : Prop :=
  (∃ t m, nd = ⟨.cast t, [m]⟩ ∧ (t = .f16 ∨ t = .f32)) ∨
  ∃ (n : Nat) (old : Node V), g[n]? = some old ∧ nd.kind = old.kind ∧ List.Forall₂ (OperandOf g out) (planned reg g old) nd.inputs

/-- what the translation keeps true -/
structure Inv (reg : Reg) (I : Interp V W) (g : List (Node V)) (st : St V) : Prop where
  ordered : Ordered st.out
  ready : ∀ (n m : Nat), st.ready n = some m → n < g.length ∧ m < st.out.length ∧ val I st.out m = val I g n ∧ kindAt st.out m = kindAt g n
  copies : ∀ (m : Nat) nd, st.out[m]? = some nd → CopyOf reg g st.out nd

theorem kindAt_append {a e : List (Node V)} {m : Nat} (h : m < a.length) : kindAt (a ++ e) m = kindAt a m := by
  unfold kindAt; rw [List.getElem?_append_left h]

theorem OperandOf.mono {g a : List (Node V)} {e : Nat × Option DT} {m : Nat} (h : OperandOf g a e m) (b : List (Node V)) : OperandOf g (a ++ b) e m := by
  obtain ⟨h1, h2⟩ := h
  refine ⟨by rw [List.length_append]; omega, ?_⟩
  rw [kindAt_append h1]; exact h2

theorem CopyOf.mono {reg : Reg} {g a : List (Node V)} {nd : Node V} (h : CopyOf reg g a nd) (b : List (Node V)) : CopyOf reg g (a ++ b) nd := by
  rcases h with h | ⟨n, old, h1, h2, h3⟩
  · exact .inl h
  · exact .inr ⟨n, old, h1, h2, h3.imp fun _ _ h => h.mono b⟩

/-- a new node that is allowed -/
theorem Inv.emit {reg : Reg} {I : Interp V W} {g : List (Node V)} {st : St V} (h : Inv reg I g st) {nd : Node V} (h1 : ∀ i ∈ nd.inputs, i < st.out.length)
    (h2 : CopyOf reg g st.out nd) : Inv reg I g (emit st nd).1 where
  ordered := by
    intro n x hx i hi
    simp only [Verif.Compiler.Half.emit] at hx
    rcases Nat.lt_trichotomy n st.out.length with hn | hn | hn
    · rw [List.getElem?_append_left hn] at hx
      exact h.ordered n x hx i hi
    · subst hn
      simp at hx
      subst hx
      exact h1 i hi
    · rw [List.getElem?_eq_none (by simp; omega)] at hx
      cases hx
  ready := by
    intro n m hm
    obtain ⟨a, b, c, d⟩ := h.ready n m hm
    simp only [Verif.Compiler.Half.emit]
    exact ⟨a, by simp; omega, by rw [val_lt I _ _ b]; exact c, by rw [kindAt_append b]; exact d⟩
  copies := by
    intro m x hx
    simp only [Verif.Compiler.Half.emit] at hx ⊢
    rcases Nat.lt_trichotomy m st.out.length with hn | hn | hn
    · rw [List.getElem?_append_left hn] at hx
      exact (h.copies m x hx).mono _
    · subst hn
      simp at hx
      subst hx
      exact h2.mono _
    · rw [List.getElem?_eq_none (by simp; omega)] at hx
      cases hx

/-- the result of a translation step -/
structure Post (reg : Reg) (I : Interp V W) (g : List (Node V)) (st : St V) (n : Nat) (r : St V × Nat) : Prop where
  inv : Inv reg I g r.1
  ext : ∃ e, r.1.out = st.out ++ e
  lt : r.2 < r.1.out.length
  val : val I r.1.out r.2 = val I g n
  kind : kindAt r.1.out r.2 = kindAt g n
  keeps : ∀ (k m : Nat), st.ready k = some m → r.1.ready k = some m
  above : ∀ k : Nat, n < k → r.1.ready k = st.ready k
  done : r.1.ready n = some r.2

/-- the operands -/
theorem operands_post {reg : Reg} {I : Interp V W} (hI : Exact I) {g : List (Node V)} {f : Nat → St V → St V × Nat} {b : Nat} (ins : List (Nat × Option DT))
    (hd : ∀ e ∈ ins, e.1 < b ∧ (e.2 = none ∨ e.2 = some .f16 ∨ e.2 = some .f32))
    (hf : ∀ i, i < b → ∀ st, Inv reg I g st → Post reg I g st i (f i st)) (st : St V) (h : Inv reg I g st) :
    Inv reg I g (operands f ins st).1 ∧ (∃ e, (operands f ins st).1.out = st.out ++ e) ∧
    List.Forall₂ (OperandOf g (operands f ins st).1.out) ins (operands f ins st).2 ∧
    (operands f ins st).2.map (val I (operands f ins st).1.out) = ins.map (fun e => val I g e.1) ∧
    (∀ (k m : Nat), st.ready k = some m → (operands f ins st).1.ready k = some m) ∧
    (∀ k : Nat, b ≤ k → (operands f ins st).1.ready k = st.ready k) := by
  induction ins generalizing st with
  | nil => exact ⟨h, ⟨[], by simp [operands]⟩, .nil, rfl, fun _ _ h => h, fun _ _ => rfl⟩
  | cons e ins ih =>
    obtain ⟨i, d⟩ := e
    obtain ⟨hi, hd'⟩ := hd (i, d) (by simp)
    simp only at hi hd'
    have p := hf i hi st h
    -- the operand with its cast
    obtain ⟨q, hq, q1, q2, q3, q4, q5, q6⟩ : ∃ q : St V × Nat, behind d (f i st) = q ∧
        Inv reg I g q.1 ∧ (∃ e, q.1.out = st.out ++ e) ∧ OperandOf g q.1.out (i, d) q.2 ∧ val I q.1.out q.2 = val I g i ∧
        (∀ (k m : Nat), st.ready k = some m → q.1.ready k = some m) ∧ (∀ k : Nat, b ≤ k → q.1.ready k = st.ready k) := by
      rcases d with _ | t
      · exact ⟨_, rfl, p.inv, p.ext, ⟨p.lt, p.kind⟩, p.val, p.keeps, fun k hk => p.above k (by omega)⟩
      · have ht : t = .f16 ∨ t = .f32 := by simpa using hd'
        refine ⟨_, rfl, p.inv.emit ?_ (.inl ⟨t, _, rfl, ht⟩), ?_, ⟨?_, ?_⟩, ?_, p.keeps, fun k hk => p.above k (by omega)⟩
        · intro j hj; simp at hj; subst hj; exact p.lt
        · obtain ⟨e, he⟩ := p.ext
          exact ⟨e ++ [⟨.cast t, [(f i st).2]⟩], by simp only [behind, emit]; rw [he, List.append_assoc]⟩
        · simp [behind, emit]
        · simp [behind, emit, kindAt]
        · simp only [behind, emit]
          rw [val_last]
          simp only [List.map_cons, List.map_nil, apply, List.headD_cons]
          rw [p.val]
          rcases ht with rfl | rfl
          · exact (hI _).1
          · exact (hI _).2
    have hop : operands f ((i, d) :: ins) st = ((operands f ins q.1).1, q.2 :: (operands f ins q.1).2) := by
      rw [← hq]; rfl
    obtain ⟨r1, ⟨e2, r2⟩, r3, r4, r5, r6⟩ := ih (fun e he => hd e (by simp [he])) q.1 q1
    obtain ⟨e1, q2⟩ := q2
    rw [hop]
    refine ⟨r1, ⟨e1 ++ e2, by rw [r2, q2, List.append_assoc]⟩, .cons (by rw [r2]; exact q3.mono _) r3, ?_, fun k m hk => r5 k m (q5 k m hk),
      fun k hk => (r6 k hk).trans (q6 k hk)⟩
    simp only [List.map_cons, r4]
    rw [r2, val_lt I _ _ q3.1, q4]

theorem plan_length (reg : Reg) (self c : Bool) (ks : List (Kind V)) : (plan reg self c ks).length = ks.length := by
  induction ks generalizing c with
  | nil => rfl
  | cons k ks ih => simp [plan, ih]

theorem plan_mem (reg : Reg) (self c : Bool) (ks : List (Kind V)) : ∀ d ∈ plan reg self c ks, d = none ∨ d = some .f16 ∨ d = some .f32 := by
  induction ks generalizing c with
  | nil => simp [plan]
  | cons k ks ih =>
    intro d hd
    simp only [plan, List.mem_cons] at hd
    rcases hd with rfl | hd
    · split
      · simp
      · split <;> simp
    · exact ih _ d hd

theorem planned_fst (reg : Reg) (g : List (Node V)) (nd : Node V) : (planned reg g nd).map Prod.fst = nd.inputs := by
  unfold planned
  split
  · rw [List.map_fst_zip (by rw [plan_length]; simp)]
  · rw [List.map_map]; exact List.map_id _

theorem planned_snd (reg : Reg) (g : List (Node V)) (nd : Node V) : ∀ e ∈ planned reg g nd, e.2 = none ∨ e.2 = some .f16 ∨ e.2 = some .f32 := by
  intro e he
  unfold planned at he
  split at he
  · exact plan_mem _ _ _ _ _ (List.of_mem_zip he).2
  · simp at he; obtain ⟨i, _, rfl⟩ := he; simp

theorem inner_post {reg : Reg} {I : Interp V W} (hI : Exact I) {g : List (Node V)} (hg : Ordered g) (fuel n : Nat) (hn : n < fuel) (hlt : n < g.length)
    (st : St V) (h : Inv reg I g st) : Post reg I g st n (inner reg g fuel n st) := by
  induction fuel generalizing n st with
  | zero => omega
  | succ fuel ih =>
    unfold inner
    cases hr : st.ready n with
    | some m =>
      obtain ⟨-, a, b, c⟩ := h.ready n m hr
      exact ⟨h, ⟨[], by simp⟩, a, b, c, fun _ _ h => h, fun _ _ => rfl, hr⟩
    | none =>
      obtain ⟨nd, hnd⟩ : ∃ nd, g[n]? = some nd := ⟨_, List.getElem?_eq_getElem hlt⟩
      rw [hnd]
      simp only
      have hlt' : ∀ e ∈ planned reg g nd, e.1 < n := by
        intro e he
        have : e.1 ∈ (planned reg g nd).map Prod.fst := List.mem_map_of_mem he
        rw [planned_fst] at this
        exact hg n nd hnd _ this
      obtain ⟨r1, ⟨e, r2⟩, r3, r4, r5, r6⟩ := operands_post hI (b := n) (planned reg g nd) (fun e he => ⟨hlt' e he, planned_snd reg g nd e he⟩)
        (fun i hi st hst => ih i (by omega) (by omega) st hst) st h
      generalize operands (inner reg g fuel) (planned reg g nd) st = rs at *
      have hle : ∀ i ∈ rs.2, i < rs.1.out.length := by
        intro i hi
        obtain ⟨k, hk, rfl⟩ := List.getElem_of_mem hi
        have hl := r3.length_eq
        exact (r3.get (i := k) (by omega) hk).1
      have hnew := r1.emit (nd := ⟨nd.kind, rs.2⟩) hle (.inr ⟨n, nd, hnd, rfl, r3⟩)
      have hval : val I (rs.1.out ++ [⟨nd.kind, rs.2⟩]) rs.1.out.length = val I g n := by
        rw [val_last, val_node I hg hnd, r4]
        congr 1
        rw [← planned_fst reg g nd, List.map_map]; rfl
      have hkind : kindAt (rs.1.out ++ [⟨nd.kind, rs.2⟩]) rs.1.out.length = kindAt g n := by simp [kindAt, hnd]
      have hnone : rs.1.ready n = none := by rw [r6 n (Nat.le_refl n), hr]
      refine ⟨⟨hnew.ordered, ?_, hnew.copies⟩, ⟨e ++ [⟨nd.kind, rs.2⟩], ?_⟩, ?_, ?_, ?_, ?_, ?_, ?_⟩
      · intro k m hk
        simp only [remember, emit, hnone, and_true] at hk ⊢
        split at hk
        · rename_i hkn
          cases hk
          subst hkn
          exact ⟨hlt, by simp, hval, hkind⟩
        · exact hnew.ready k m hk
      · simp only [remember, emit]; rw [r2, List.append_assoc]
      · simp [remember, emit]
      · exact hval
      · exact hkind
      · intro k m hk
        simp only [remember, emit, hnone, and_true]
        rw [if_neg (by rintro rfl; rw [hr] at hk; cases hk)]
        exact r5 k m hk
      · intro k hk
        simp only [remember, emit, hnone, and_true]
        rw [if_neg (by omega)]
        exact r6 k (by omega)
      · simp [remember, emit, hnone]

/-! ## outputs -/

/-- the result for an output -/
structure TopPost (reg : Reg) (I : Interp V W) (g : List (Node V)) (st : St V) (n : Nat) (r : St V × Nat) : Prop where
  inv : Inv reg I g r.1
  ext : ∃ e, r.1.out = st.out ++ e
  lt : r.2 < r.1.out.length
  val : val I r.1.out r.2 = val I g n
  above : ∀ k : Nat, n < k → r.1.ready k = st.ready k
  kind : st.ready n = none → kindAt r.1.out r.2 =
    match kindAt g n with
    | some (.op o) => if reg.half o then some (.cast .f32) else some (.op o)
    | k => k

theorem top_post {reg : Reg} {I : Interp V W} (hI : Exact I) {g : List (Node V)} (hg : Ordered g) (n : Nat) (hlt : n < g.length)
    (st : St V) (h : Inv reg I g st) : TopPost reg I g st n (top reg g n st) := by
  have p := inner_post hI hg (reg := reg) (n + 1) n (by omega) hlt st h
  unfold top
  cases hr : st.ready n with
  | some m =>
    obtain ⟨-, a, b, c⟩ := h.ready n m hr
    exact ⟨h, ⟨[], by simp⟩, a, b, fun _ _ => rfl, fun h => by simp [hr] at h⟩
  | none =>
    simp only
    split
    · rename_i o ho
      split
      · rename_i hh
        have hnew := p.inv.emit (nd := ⟨.cast .f32, [(inner reg g (n + 1) n st).2]⟩) (by intro i hi; simp at hi; subst hi; exact p.lt)
          (.inl ⟨_, _, rfl, .inr rfl⟩)
        have hrem : ∀ k, (remember n (emit (inner reg g (n + 1) n st).1 ⟨.cast .f32, [(inner reg g (n + 1) n st).2]⟩)).1.ready k =
            (inner reg g (n + 1) n st).1.ready k := by
          intro k
          simp only [remember, emit, p.done]
          rw [if_neg (by simp)]
        refine ⟨⟨hnew.ordered, ?_, hnew.copies⟩, ?_, ?_, ?_, ?_, ?_⟩
        · intro k m hk
          rw [hrem] at hk
          exact hnew.ready k m hk
        · obtain ⟨e, he⟩ := p.ext
          exact ⟨e ++ [_], by simp only [remember, emit]; rw [he, List.append_assoc]⟩
        · simp [remember, emit]
        · simp only [remember, emit]
          rw [val_last]
          simp only [List.map_cons, List.map_nil, apply, List.headD_cons]
          rw [p.val]
          exact (hI _).2
        · intro k hk
          rw [hrem]
          exact p.above k hk
        · intro _
          rw [show kindAt g n = some (.op o) from ho]
          simp [remember, emit, kindAt, hh]
      · rename_i hh
        refine ⟨p.inv, p.ext, p.lt, p.val, p.above, fun _ => ?_⟩
        rw [p.kind, show kindAt g n = some (.op o) from ho]
        simp [hh]
    · rename_i hno
      refine ⟨p.inv, p.ext, p.lt, p.val, p.above, fun _ => ?_⟩
      rw [p.kind]
      split
      · rename_i o ho
        exact absurd ho (hno o)
      · rfl

theorem tops_post {reg : Reg} {I : Interp V W} (hI : Exact I) {g : List (Node V)} (hg : Ordered g) (outs : List Nat) (hlt : ∀ n ∈ outs, n < g.length)
    (st : St V) (h : Inv reg I g st) :
    Inv reg I g (tops reg g outs st).1 ∧ (∃ e, (tops reg g outs st).1.out = st.out ++ e) ∧
    (tops reg g outs st).2.map (val I (tops reg g outs st).1.out) = outs.map (val I g) ∧
    (∀ m ∈ (tops reg g outs st).2, m < (tops reg g outs st).1.out.length) ∧
    ((∀ n ∈ outs, st.ready n = none) → outs.Pairwise (· < ·) →
      List.Forall₂ (fun n m => kindAt (tops reg g outs st).1.out m =
        match kindAt g n with
        | some (.op o) => if reg.half o then some (.cast .f32) else some (.op o)
        | k => k) outs (tops reg g outs st).2) := by
  induction outs generalizing st with
  | nil => exact ⟨h, ⟨[], by simp [tops]⟩, rfl, by simp [tops], fun _ _ => .nil⟩
  | cons n ns ih =>
    have p := top_post hI hg (reg := reg) n (hlt n (by simp)) st h
    obtain ⟨q1, ⟨e, q2⟩, q3, q4, q5⟩ := ih (fun k hk => hlt k (by simp [hk])) (top reg g n st).1 p.inv
    have hcons : tops reg g (n :: ns) st = ((tops reg g ns (top reg g n st).1).1, (top reg g n st).2 :: (tops reg g ns (top reg g n st).1).2) := rfl
    rw [hcons]
    obtain ⟨e', he'⟩ := p.ext
    refine ⟨q1, ⟨e' ++ e, by rw [q2, he', List.append_assoc]⟩, ?_, ?_, ?_⟩
    · simp only [List.map_cons, q3]
      rw [q2, val_lt I _ _ p.lt, p.val]
    · intro m hm
      simp only [List.mem_cons] at hm
      rcases hm with rfl | hm
      · have := p.lt
        rw [q2, List.length_append]; omega
      · exact q4 m hm
    · intro hnone hp
      rw [List.pairwise_cons] at hp
      refine .cons ?_ (q5 (fun k hk => ?_) hp.2)
      · rw [q2, kindAt_append p.lt]
        exact p.kind (hnone n (by simp))
      · rw [p.above k (hp.1 k hk)]
        exact hnone k (by simp [hk])

theorem inv_start (reg : Reg) (I : Interp V W) (g : List (Node V)) : Inv reg I g ⟨[], fun _ => none⟩ :=
  ⟨by intro n nd h; simp at h, by intro n m h; simp at h, by intro m nd h; simp at h⟩

/-! ## the claims -/

/-- does a node give half precision? (Operators that have a half precision version give half precision; `to_float` gives `FLOAT32`.) -/
def GivesHalf (reg : Reg) : Kind V → Prop
  | .cast t => t = .f16
  | .const t _ => t = .f16
  | .op o => reg.half o = true
  | _ => False

/-- node `m` of a graph gives half precision -/
def IsHalf (reg : Reg) (g : List (Node V)) (m : Nat) : Prop := ∃ k, kindAt g m = some k ∧ GivesHalf reg k

/-- **C100.** Over exact arithmetic the translated module computes what the module computes: whatever the operators mean, if converting to half and
to single precision changes nothing, every output keeps its value. Missing: rounding; batch norms are treated below. -/
theorem C100_values_partial (reg : Reg) (I : Interp V W) (hI : Exact I) (g : List (Node V)) (hg : Ordered g) (outs : List Nat) (hlt : ∀ n ∈ outs, n < g.length) :
    Ordered (translate reg g outs).1 ∧ (∀ m ∈ (translate reg g outs).2, m < (translate reg g outs).1.length) ∧
    (translate reg g outs).2.map (val I (translate reg g outs).1) = outs.map (val I g) := by
  obtain ⟨h1, -, h2, h3, -⟩ := tops_post hI hg (reg := reg) outs hlt _ (inv_start reg I g)
  exact ⟨h1.ordered, h3, h2⟩

/-- an interpretation that tells nothing apart -/
def unitInterp : Interp V Unit := ⟨fun _ => (), fun _ _ => (), fun _ _ => (), fun _ => (), fun _ _ => (), ()⟩

theorem translate_copies (reg : Reg) {g : List (Node V)} (hg : Ordered g) (outs : List Nat) (hlt : ∀ n ∈ outs, n < g.length) :
    ∀ (m : Nat) nd, (translate reg g outs).1[m]? = some nd → CopyOf reg g (translate reg g outs).1 nd :=
  (tops_post (I := unitInterp) (fun _ => ⟨rfl, rfl⟩) hg (reg := reg) outs hlt _ (inv_start reg unitInterp g)).1.copies

/-- the kinds and casts that go together -/
theorem planned_kinds {reg : Reg} {g : List (Node V)} {old : Node V} {o : Nat} (ho : old.kind = .op o) (hin : ∀ i ∈ old.inputs, i < g.length)
    {out : List (Node V)} {ms : List Nat} (h : List.Forall₂ (OperandOf g out) (planned reg g old) ms) :
    ∃ ks : List (Kind V), List.Forall₂ (fun (e : Kind V × Option DT) m => kindAt out m = some (match e.2 with | none => e.1 | some t => .cast t))
      (ks.zip (plan reg (reg.half o) true ks)) ms := by
  refine ⟨old.inputs.map fun i => (g.getD i ⟨.toFloat, []⟩).kind, ?_⟩
  unfold planned at h
  rw [ho] at h
  simp only at h
  generalize plan reg (reg.half o) true (old.inputs.map fun i => (g.getD i ⟨.toFloat, []⟩).kind) = ds at h ⊢
  generalize old.inputs = is at h hin ⊢
  induction is generalizing ms ds with
  | nil => simpa using h
  | cons i is ih =>
    cases ds with
    | nil => simpa using h
    | cons d ds =>
      simp only [List.zip_cons_cons, List.map_cons] at h ⊢
      cases h with
      | cons h1 h2 =>
        refine .cons ?_ (ih ds h2 (fun j hj => hin j (by simp [hj])))
        obtain ⟨-, h1⟩ := h1
        have hi := hin i (by simp)
        cases d with
        | none =>
          simp only at h1 ⊢
          rw [h1]
          simp [kindAt, List.getD_eq_getElem?_getD, List.getElem?_eq_getElem hi]
        | some t => exact h1

/-- **C100.** No operator without a half precision version gets an operand of half precision (on a device with a half precision `cast`). -/
theorem C100_single_operands {reg : Reg} (hc : reg.cast = true) {g : List (Node V)} (hg : Ordered g) {outs : List Nat} (hlt : ∀ n ∈ outs, n < g.length)
    {m o : Nat} {ms : List Nat} (hm : (translate reg g outs).1[m]? = some ⟨.op o, ms⟩) (ho : reg.half o = false) :
    ∀ i ∈ ms, ¬ IsHalf reg (translate reg g outs).1 i := by
  rcases translate_copies reg hg outs hlt m _ hm with ⟨t, k, h, -⟩ | ⟨n, old, h1, h2, h3⟩
  · cases h
  have hn : n < g.length := (List.getElem?_eq_some_iff.1 h1).1
  obtain ⟨ks, h⟩ := planned_kinds h2.symm (fun i hi => by have := hg n old h1 i hi; omega) h3
  rw [ho] at h
  generalize (translate reg g outs).1 = out at *
  clear h3 h2 h1 hm hlt
  revert h
  generalize true = c
  simp only
  intro h
  induction ks generalizing ms c with
  | nil => simp [plan] at h; subst h; simp
  | cons k ks ih =>
    simp only [plan, List.zip_cons_cons] at h
    cases h with
    | cons a b =>
      intro i hi
      simp only [List.mem_cons] at hi
      rcases hi with rfl | hi
      · rintro ⟨k', e, hk'⟩
        rw [a] at e
        cases e
        simp only [Bool.and_false, Bool.false_and, Bool.false_eq_true, if_false, Bool.not_false, Bool.and_true] at hk'
        split at hk'
        · rename_i heq
          split at heq
          · cases heq
          · rename_i hs
            cases k <;> simp_all [streamIsHalf, GivesHalf]
        · rename_i t heq
          split at heq
          · cases heq; cases hk'
          · cases heq
      · exact ih _ b i hi

/-- **C100.** An operator with a half precision version gets operands of half precision only, except for the results of `to_float` (see below), unless one
of its operands is a constant of another type. -/
theorem C100_half_operands_partial {reg : Reg} {g : List (Node V)} (hg : Ordered g) {outs : List Nat} (hlt : ∀ n ∈ outs, n < g.length)
    {m o : Nat} {ms : List Nat} (hm : (translate reg g outs).1[m]? = some ⟨.op o, ms⟩) (ho : reg.half o = true)
    (hconst : ∀ i ∈ ms, ∀ v, kindAt (translate reg g outs).1 i ≠ some (.const .other v)) :
    ∀ i ∈ ms, IsHalf reg (translate reg g outs).1 i ∨ kindAt (translate reg g outs).1 i = some .toFloat := by
  rcases translate_copies reg hg outs hlt m _ hm with ⟨t, k, h, -⟩ | ⟨n, old, h1, h2, h3⟩
  · cases h
  have hn : n < g.length := (List.getElem?_eq_some_iff.1 h1).1
  obtain ⟨ks, h⟩ := planned_kinds h2.symm (fun i hi => by have := hg n old h1 i hi; omega) h3
  rw [ho] at h
  generalize (translate reg g outs).1 = out at *
  clear h3 h2 h1 hm hlt
  simp only at h
  induction ks generalizing ms with
  | nil => simp [plan] at h; subst h; simp
  | cons k ks ih =>
    simp only [plan, List.zip_cons_cons] at h
    cases h with
    | cons a b =>
      rename_i i ms'
      have hu : unconvertible k = false := by
        cases hk : unconvertible k with
        | false => rfl
        | true =>
          exfalso
          have : ∃ v, k = .const .other v := by
            unfold unconvertible at hk
            split at hk
            · exact ⟨_, rfl⟩
            · cases hk
          obtain ⟨v, rfl⟩ := this
          refine hconst i (by simp) v ?_
          rw [a]
          simp [unconvertible, streamIsHalf]
      rw [hu] at b
      intro j hj
      simp only [List.mem_cons] at hj
      rcases hj with rfl | hj
      · rw [hu] at a
        simp only [Bool.not_false, Bool.and_true, Bool.not_true, Bool.and_false, Bool.false_eq_true, if_false] at a
        by_cases hs : streamIsHalf reg k = true
        · rw [hs] at a
          simp only [Bool.not_true, Bool.false_eq_true, if_false] at a
          cases k with
          | toFloat => exact .inr a
          | param p => simp [streamIsHalf] at hs
          | const t v => exact .inl ⟨_, a, by simpa [streamIsHalf, GivesHalf] using hs⟩
          | cast t => exact .inl ⟨_, a, by simp [streamIsHalf] at hs; exact hs.1⟩
          | op q => exact .inl ⟨_, a, hs⟩
        · have hs : streamIsHalf reg k = false := by simpa using hs
          rw [hs] at a
          simp only [Bool.not_false, if_true] at a
          exact .inl ⟨_, a, rfl⟩
      · exact ih (fun i hi => hconst i (by simp [hi])) b j hj

/-- **C100.** The outputs keep their precision: no output that is the result of an operator (other than `cast`) is of half precision, if no output is needed
by one that is listed before it. -/
theorem C100_outputs_partial (reg : Reg) (g : List (Node V)) (hg : Ordered g) (outs : List Nat) (hlt : ∀ n ∈ outs, n < g.length)
    (hp : outs.Pairwise (· < ·)) :
    List.Forall₂ (fun n m => ∀ o, kindAt g n = some (.op o) → ¬ IsHalf reg (translate reg g outs).1 m) outs (translate reg g outs).2 := by
  have h := (tops_post (I := unitInterp) (fun _ => ⟨rfl, rfl⟩) hg (reg := reg) outs hlt _ (inv_start reg unitInterp g)).2.2.2.2 (fun _ _ => rfl) hp
  refine h.imp fun n m hk o ho hh => ?_
  rw [ho] at hk
  obtain ⟨k, hk', hh⟩ := hh
  have hk' : kindAt (tops reg g outs ⟨[], fun _ => none⟩).1.out m = some k := hk'
  rw [hk] at hk'
  cases hr : reg.half o with
  | true => simp [hr] at hk'; subst hk'; cases hh
  | false => simp [hr] at hk'; subst hk'; simp [GivesHalf, hr] at hh

/-! ## examples -/

/-- a device where the operators 1 and 2 have half precision versions, and so have `cast` and `to_float` (as on a GPU) -/
def gpu : Reg := ⟨fun o => o == 1 || o == 2, true, true⟩

/-- operator 3 (single precision only) of operator 1 (half) of a parameter and a constant, and operator 2 (half) of both -/
def graph : List (Node Int) :=
  [⟨.param 0, []⟩, ⟨.const .f32 7, []⟩, ⟨.op 1, [0, 1]⟩, ⟨.op 3, [2]⟩, ⟨.op 2, [2, 3]⟩]

theorem graph_ordered : Ordered graph := by
  intro n nd h i hi
  rcases n with _ | _ | _ | _ | _ | n
  · simp [graph] at h; subst h; simp at hi
  · simp [graph] at h; subst h; simp at hi
  · simp [graph] at h; subst h; simp at hi; omega
  · simp [graph] at h; subst h; simp at hi; omega
  · simp [graph] at h; subst h; simp at hi; omega
  · simp [graph] at h

example : translate gpu graph [3, 4] =
    ([⟨.param 0, []⟩, ⟨.cast .f16, [0]⟩, ⟨.const .f32 7, []⟩, ⟨.cast .f16, [2]⟩, ⟨.op 1, [1, 3]⟩, ⟨.cast .f32, [4]⟩, ⟨.op 3, [5]⟩,
      ⟨.cast .f16, [6]⟩, ⟨.op 2, [4, 7]⟩, ⟨.cast .f32, [8]⟩], [6, 9]) := by decide +kernel

/-- an exact interpretation: operators add, `cast` to another type negates -/
def exactInterp : Interp Int Int :=
  ⟨fun p => 10 + p, fun _ v => v, fun t x => if t = .f16 ∨ t = .f32 then x else -x, fun x => x, fun o xs => o + xs.sum, 0⟩

example : Exact exactInterp ∧ (translate gpu graph [3, 4]).2.map (val exactInterp (translate gpu graph [3, 4]).1) = [21, 41] := by
  have hI : Exact exactInterp := fun x => ⟨by simp [exactInterp], by simp [exactInterp]⟩
  refine ⟨hI, ?_⟩
  rw [(C100_values_partial gpu exactInterp hI graph graph_ordered [3, 4] (by decide)).2.2]
  decide

example : ∀ i ∈ [5], ¬ IsHalf gpu (translate gpu graph [3, 4]).1 i :=
  C100_single_operands rfl graph_ordered (outs := [3, 4]) (by decide) (m := 6) (o := 3) (by decide +kernel) rfl

example : ∀ i ∈ [4, 7], IsHalf gpu (translate gpu graph [3, 4]).1 i ∨ kindAt (translate gpu graph [3, 4]).1 i = some .toFloat := by
  have e : (translate gpu graph [3, 4]).1[4]? = some ⟨.op 1, [1, 3]⟩ := by decide +kernel
  have e' : (translate gpu graph [3, 4]).1[7]? = some ⟨.cast .f16, [6]⟩ := by decide +kernel
  refine C100_half_operands_partial graph_ordered (outs := [3, 4]) (by decide) (m := 8) (o := 2) (by decide +kernel) rfl ?_
  intro i hi v
  simp only [List.mem_cons, List.not_mem_nil, or_false] at hi
  rcases hi with rfl | rfl
  · rw [kindAt, e]; simp
  · rw [kindAt, e']; simp

example : [3, 4].Pairwise (· < ·) ∧ (∀ n ∈ [3, 4], n < graph.length) := by decide

/-- An output that an earlier output is computed from: it is translated as an operand first, and then handed out in half precision. -/
theorem C100_output_order_false : ∃ r, translate gpu (graph.take 4) [3, 2] = r ∧ r.2 = [6, 4] ∧ IsHalf gpu r.1 4 := by
  refine ⟨_, rfl, by decide +kernel, ⟨.op 1, by decide +kernel, rfl⟩⟩

/-- The result of `to_float`, which is `FLOAT32`, is taken for half precision: a half precision operator gets it together with half precision weights.
(A convolution throws: the types of image and kernel differ.) -/
theorem C100_to_float_false : ∃ r, translate gpu ([⟨.param 0, []⟩, ⟨.toFloat, [0]⟩, ⟨.const .f32 7, []⟩, ⟨.op 1, [1, 2]⟩] : List (Node Int)) [3] = r ∧
    r.1[4]? = some ⟨.op 1, [1, 3]⟩ ∧ kindAt r.1 1 = some .toFloat ∧ kindAt r.1 3 = some (.cast .f16) := by
  refine ⟨_, rfl, ?_, ?_, ?_⟩ <;> decide +kernel

/-- One constant of another type: the operands after it are not converted, those before it are. -/
theorem C100_operand_order_false : ∃ r r', translate gpu ([⟨.param 0, []⟩, ⟨.const .other 7, []⟩, ⟨.op 1, [0, 1]⟩] : List (Node Int)) [2] = r ∧
    translate gpu ([⟨.param 0, []⟩, ⟨.const .other 7, []⟩, ⟨.op 1, [1, 0]⟩] : List (Node Int)) [2] = r' ∧
    r.1[3]? = some ⟨.op 1, [1, 2]⟩ ∧ IsHalf gpu r.1 1 ∧ r'.1[2]? = some ⟨.op 1, [0, 1]⟩ ∧ kindAt r'.1 1 = some (.param 0) := by
  refine ⟨_, _, rfl, rfl, ?_, ⟨.cast .f16, ?_, rfl⟩, ?_, ?_⟩ <;> decide +kernel

/-- Indices that are computed (by operator 3, which gives integers) are converted to half precision as well, which cannot tell 2048 and 2049 apart. -/
theorem C100_indices_false : ∃ r, translate gpu ([⟨.param 0, []⟩, ⟨.op 3, [0]⟩, ⟨.op 1, [0, 1]⟩] : List (Node Int)) [2] = r ∧
    r.1[4]? = some ⟨.op 1, [1, 3]⟩ ∧ r.1[3]? = some ⟨.cast .f16, [2]⟩ ∧ kindAt r.1 2 = some (.op 3) := by
  refine ⟨_, rfl, ?_, ?_, ?_⟩ <;> decide +kernel

/-! ## batch norms -/

section
variable {α : Type} [AddCommMonoid α]

/-- what a batch norm divides by the root of: variance plus epsilon, for every channel -/
def effective (c : Cells α) (v e : Nat) : List α := (c.var v).map (· + c.eps e)

/-- **C100.** Batch norms (over `FLOAT32` constants) keep what they compute, in any number of translations of any modules: adding the epsilon to the
variance and setting it to zero changes neither that batch norm nor any other, if no two of them share a variance or an epsilon. -/
theorem C100_batch_norm_partial (bs : List Bn) (c : Cells α) (hs : ∀ b ∈ bs, b.epsilon ≠ none)
    (own : ∀ b ∈ bs, ∀ b' ∈ bs, (b.variance = b'.variance ↔ b.epsilon = b'.epsilon) ∨ b.variance = none ∨ b'.variance = none)
    (seq : List Bn) (hseq : ∀ b ∈ seq, b ∈ bs) :
    ∃ c', foldAll c seq = some c' ∧ ∀ b ∈ bs, ∀ v e, b.variance = some v → b.epsilon = some e → effective c' v e = effective c v e := by
  induction seq generalizing c with
  | nil => exact ⟨c, rfl, fun _ _ _ _ _ _ => rfl⟩
  | cons a seq ih =>
    obtain ⟨e, he⟩ := Option.ne_none_iff_exists'.1 (hs a (hseq a (by simp)))
    have hstep : ∃ c1, foldBn c a = some c1 ∧ ∀ b ∈ bs, ∀ v e, b.variance = some v → b.epsilon = some e → effective c1 v e = effective c v e := by
      unfold foldBn
      rw [he]
      cases hv : a.variance with
      | none => exact ⟨c, rfl, fun _ _ _ _ _ _ => rfl⟩
      | some v =>
        refine ⟨_, rfl, ?_⟩
        intro b hb v' e' hv' he'
        have hown : v = v' ↔ e = e' := by
          rcases own a (hseq a (by simp)) b hb with h | h | h
          · rw [hv, hv', he, he'] at h
            simpa using h
          · rw [hv] at h; cases h
          · rw [hv'] at h; cases h
        unfold effective
        by_cases h1 : v' = v
        · have h2 := hown.1 h1.symm
          subst h1; subst h2
          simp
        · have h2 : ¬ e' = e := fun h => h1 (hown.2 h.symm).symm
          simp [h1, h2]
    obtain ⟨c1, e1, h1⟩ := hstep
    obtain ⟨c2, e2, h2⟩ := ih c1 (fun b hb => hseq b (by simp [hb]))
    refine ⟨c2, by simp only [foldAll, e1, e2], fun b hb v e hv he => (h2 b hb v e hv he).trans (h1 b hb v e hv he)⟩

end

example : ∃ c', foldAll (⟨fun m => [m, 2], fun e => e + 1⟩ : Cells Nat) [⟨some 4, some 0⟩, ⟨some 5, some 1⟩, ⟨some 4, some 0⟩] = some c' ∧
    c'.var 4 = [5, 3] ∧ c'.var 5 = [7, 4] ∧ c'.eps 0 = 0 := ⟨_, rfl, by decide, by decide, by decide⟩

/-- Two batch norms that share the constant: both epsilons are added to it. (The translation of the second one changes the memory that the first one's
copy of the constant refers to.) -/
theorem C100_shared_variance_false : ∃ c', foldAll (⟨fun _ => [4], fun _ => 1⟩ : Cells Nat) [⟨some 0, some 0⟩, ⟨some 0, some 1⟩] = some c' ∧
    effective c' 0 0 = [6] ∧ effective (⟨fun _ => [4], fun _ => 1⟩ : Cells Nat) 0 0 = [5] := ⟨_, rfl, by decide, by decide⟩

/-- Constants of type `FLOAT64`: the original keeps its epsilon, but gets the new variance; translating it again, or running it, adds the epsilon twice. -/
theorem C100_translate_twice_false : ∃ c : Cells Nat, effective c 0 0 = [5] ∧ effective (foldBnCopied c 0 0).2 0 0 = [5] ∧
    effective (foldBnCopied c 0 0).1 0 0 = [6] ∧ effective (foldBnCopied (foldBnCopied c 0 0).1 0 0).2 0 0 = [6] :=
  ⟨⟨fun _ => [4], fun _ => 1⟩, by decide, by decide, by decide, by decide⟩

/-- A variance that is computed from a constant (here by doubling): the epsilon is added to the constant below. -/
theorem C100_computed_variance_false : ∃ (fs : List (Nat → Nat)) (var eps : Nat), chainValue fs var + eps = 9 ∧ chainValue fs (var + eps) + 0 = 10 :=
  ⟨[fun x => 2 * x], 4, 1, by decide, by decide⟩

/-- A batch norm without an epsilon cannot be translated. -/
theorem C100_missing_epsilon_false {α : Type} [Add α] [Zero α] (c : Cells α) (v : Option Nat) : foldAll c [⟨v, none⟩] = none := rfl

end Verif.Props.Half
