import Verif.Core.ReshapeLemmas
/-!
# C13, C14, C15: coordinates, shape iteration, reshaping

The specification of row-major order is `Verif.Spec.prod/InBounds/lin/unlin` (Core/ShapeSpec.lean).
-/
namespace Verif.Props
open Verif.Core Verif.Spec

/-- C13: for every shape with positive extents whose element count is an `int`, index → coordinate → index is the
identity, the coordinates produced are in bounds, the index of an in-bounds coordinate is its row-major position (so
it is below the count), and coordinate → index → coordinate is the identity (so distinct coordinates have distinct
indices). No step overflows. -/
theorem C13_index_bijection (s : List Nat) (hp : ∀ x ∈ s, 0 < x) (hb : prod s ≤ 2147483647) :
    ∃ w, weights (ints s) = .ok w ∧ hypeCount w = prod s ∧
      (∀ i, i < prod s → ∃ c, toCoordinate w i = .ok (ints c) ∧ InBounds s c ∧ toIndex w (ints c) = .ok i) ∧
      (∀ c, InBounds s c → ∃ i, i < prod s ∧ toIndex w (ints c) = .ok i ∧ i = lin s c ∧
        toCoordinate w i = .ok (ints c)) ∧
      (∀ c d i, InBounds s c → InBounds s d → toIndex w (ints c) = .ok i → toIndex w (ints d) = .ok i → c = d) := by
  refine ⟨_, weights_ok (fits_of_pos hp hb), hypeCount_wts s, ?_, ?_, ?_⟩
  · intro i hi
    refine ⟨unlin s i, toCoordinate_ok hi hb, unlin_inBounds hi, ?_⟩
    rw [toIndex_ok (unlin_inBounds hi) hb, lin_unlin hi]
  · intro c hc
    refine ⟨lin s c, lin_lt hc, toIndex_ok hc hb, rfl, ?_⟩
    rw [toCoordinate_ok (lin_lt hc) hb, unlin_lin hc]
  · intro c d i hc hd h1 h2
    rw [toIndex_ok hc hb] at h1
    rw [toIndex_ok hd hb] at h2
    rw [← h2] at h1
    simp only [Res.ok.injEq, Int.natCast_inj] at h1
    exact lin_inj hc hd h1

example : (∀ x ∈ [2, 3, 4], 0 < x) ∧ prod [2, 3, 4] ≤ 2147483647 ∧ InBounds [2, 3, 4] [1, 2, 3] ∧
    lin [2, 3, 4] [1, 2, 3] = 23 := by decide

/-- Outside that range the index arithmetic itself is undefined: a tensor of 65536 × 65536 elements cannot be
addressed. -/
theorem C13_overflow_false : weights (ints [65536, 65536]) = .ub := by decide

/-- iterating a function -/
def iter {α : Type} (f : α → α) : Nat → α → α
  | 0, a => a
  | n + 1, a => f (iter f n a)

/-- C14: the `i`-th increment from the start is the coordinate of linear index `i` (modulo the element count, so it
wraps to zero after the last element), and decrementing undoes incrementing at every coordinate, wrapping from zero to
the last element. -/
theorem C14_iteration_row_major (s : List Nat) (hp : ∀ x ∈ s, 0 < x) :
    (∀ i, iter (increase (ints s)) i (iterStart (ints s)) = ints (unlin s (i % prod s))) ∧
    (iter (increase (ints s)) (prod s) (iterStart (ints s)) = iterStart (ints s)) ∧
    (∀ c, InBounds s c → decrease (ints s) (increase (ints s) (ints c)) = ints c) ∧
    (∀ c, InBounds s c → increase (ints s) (decrease (ints s) (ints c)) = ints c) := by
  have h1 : ∀ i, iter (increase (ints s)) i (iterStart (ints s)) = ints (unlin s (i % prod s)) := by
    intro i
    induction i with
    | zero => exact iterStart_unlin hp
    | succ i ih => rw [iter, ih, increase_unlin hp]
  refine ⟨h1, ?_, ?_, ?_⟩
  · rw [h1, Nat.mod_self, iterStart_unlin hp, Nat.zero_mod]
  · intro c hc
    have hi := lin_lt hc
    have e := increase_unlin hp (lin s c)
    rw [Nat.mod_eq_of_lt hi, unlin_lin hc] at e
    rw [e, decrease_unlin hp, Nat.mod_eq_of_lt hi, unlin_lin hc]
  · intro c hc
    have hi := lin_lt hc
    have hpos := prod_pos hp
    -- c is the successor of position lin c + prod - 1
    have hj : (lin s c + (prod s - 1) + 1) % prod s = lin s c := by
      rw [show lin s c + (prod s - 1) + 1 = lin s c + prod s by omega, Nat.add_mod_right, Nat.mod_eq_of_lt hi]
    have e := decrease_unlin hp (lin s c + (prod s - 1))
    rw [hj, unlin_lin hc] at e
    rw [e, increase_unlin hp, hj, unlin_lin hc]

example : iter (increase (ints [2, 3])) 4 (iterStart (ints [2, 3])) = [1, 1] := by decide

/-! ## C15 -/

/-- at most one extent is left to be inferred (any negative number asks for inference) -/
def OneFree (req : List Int) : Prop := (req.filter (· < 0)).length ≤ 1

/-- `r` has the requested rank and every extent that was given -/
def Answers : List Int → List Nat → Prop
  | [], [] => True
  | q :: qs, r :: rs => (0 ≤ q → (r : Int) = q) ∧ Answers qs rs
  | _, _ => False

/-- the given extents (1 for an inferred one) -/
def given (req : List Int) : List Nat := req.map fun x => if x < 0 then 1 else x.toNat

theorem answers_nat {r r' : List Nat} : Answers (ints r) r' ↔ r' = r := by
  induction r generalizing r' with
  | nil => cases r' <;> simp [Answers]
  | cons x r ih => cases r' with
    | nil => simp [Answers]
    | cons y r' => simp only [ints_cons, Answers, ih, List.cons.injEq]; constructor <;> (rintro ⟨h, rfl⟩; refine ⟨?_, rfl⟩; omega)

theorem answers_one {a b r : List Nat} {x : Int} (hx : x < 0) :
    Answers (ints a ++ x :: ints b) r ↔ ∃ f, r = a ++ f :: b := by
  induction a generalizing r with
  | nil => cases r with
    | nil => simp [Answers]
    | cons y r =>
      simp only [List.nil_append, ints_nil, Answers, answers_nat]
      constructor
      · rintro ⟨_, rfl⟩; exact ⟨y, rfl⟩
      · rintro ⟨f, h⟩; cases h; exact ⟨fun h => by omega, rfl⟩
  | cons z a ih => cases r with
    | nil => simp [Answers]
    | cons y r =>
      simp only [ints_cons, List.cons_append, Answers, ih]
      constructor
      · rintro ⟨h, f, rfl⟩; exact ⟨f, by rw [Int.natCast_inj.1 (h (by omega))]⟩
      · rintro ⟨f, h⟩; cases h; exact ⟨fun _ => rfl, f, rfl⟩

theorem given_nat (r : List Nat) : given (ints r) = r := by
  induction r with
  | nil => rfl
  | cons x r ih =>
    simp only [given, ints_cons, List.map_cons] at ih ⊢
    rw [ih, if_neg (by omega)]; simp

theorem given_one {a b : List Nat} {x : Int} (hx : x < 0) :
    given (ints a ++ x :: ints b) = a ++ 1 :: b := by
  have h1 := given_nat a; have h2 := given_nat b
  simp only [given, List.map_append, List.map_cons] at h1 h2 ⊢
  rw [h1, h2, if_pos hx]

theorem filter_neg_ints (r : List Nat) : (ints r).filter (· < 0) = [] := by
  rw [List.filter_eq_nil_iff]
  intro x hx
  simp only [ints, List.mem_map] at hx
  obtain ⟨n, _, rfl⟩ := hx
  simp

theorem findIdx_neg_nat (r : List Nat) : (ints r).findIdx? (· < 0) = none := by
  rw [List.findIdx?_eq_none_iff]
  intro x hx
  simp only [ints, List.mem_map] at hx
  obtain ⟨n, _, rfl⟩ := hx
  simp

theorem findIdx_neg_one {a b : List Nat} {x : Int} (hx : x < 0) :
    (ints a ++ x :: ints b).findIdx? (· < 0) = some a.length := by
  rw [List.findIdx?_append, findIdx_neg_nat]
  simp [List.findIdx?_cons, hx]

/-- the second loop of `reshape_v2` -/
theorem v2Loop_eq (i : Nat) (k : Option Nat) (c : Nat) (l : List Int) (h : PFits c (given l)) :
    v2Loop i k c l =
      if 0 ∈ l ∨ 1 < (if k.isSome then 1 else 0) + (l.filter (· < 0)).length then .err
      else .ok (k.or ((l.findIdx? (· < 0)).map (· + i)), ((c * prod (given l) : Nat) : Int)) := by
  induction l generalizing i k c with
  | nil =>
    simp only [v2Loop, given, List.map_nil, prod]
    rw [if_neg (by cases k <;> simp)]
    simp
  | cons x l ih =>
    unfold v2Loop
    by_cases h0 : x = 0
    · simp [h0]
    rw [if_neg h0]
    have hg : given (x :: l) = (if x < 0 then 1 else x.toNat) :: given l := rfl
    rw [hg] at h
    by_cases hpos : x > 0
    · have hn : ¬ x < 0 := by omega
      rw [if_neg hn] at h
      rw [if_pos hpos, show (c : Int) * x = ((c * x.toNat : Nat) : Int) by
        rw [Int.natCast_mul]; congr 1; omega, int32_ok (i32_nat h.1)]
      simp only [Res.bind_ok]
      rw [ih _ _ _ h.2, hg, if_neg hn]
      simp only [List.mem_cons, List.filter_cons, hn, decide_false, Bool.false_eq_true, if_false,
        List.findIdx?_cons, prod, Nat.mul_assoc, show (0 = x) = False by simp; omega, false_or, Option.map_map]
      congr 4
      congr 1
      funext j; simp; omega
    · have hn : x < 0 := by omega
      rw [if_neg hpos]
      rw [if_pos hn] at h
      cases k with
      | some j => simp [List.filter_cons, hn]
      | none =>
        simp only []
        rw [ih _ _ _ (by simpa using h.2), hg, if_pos hn]
        simp only [List.mem_cons, List.filter_cons, hn, decide_true, if_true, Option.isSome_some,
          List.findIdx?_cons, prod, Nat.one_mul, show (0 = x) = False by simp; omega, false_or,
          Option.isSome_none, Bool.false_eq_true, if_false, List.length_cons, Option.some_or, Option.none_or,
          Option.map_some, Nat.zero_add]
        rw [Nat.add_comm 1]

theorem noOverflow_mid {a b : List Nat} {f : Nat} (hab : NoOverflow (a ++ 1 :: b))
    (hpa : ∀ y ∈ a, 0 < y) (hpb : ∀ y ∈ b, 0 < y) (h : f * (prod a * prod b) ≤ 2147483647) :
    NoOverflow (a ++ f :: b) := by
  rcases Nat.eq_zero_or_pos f with h0 | h0
  · intro n
    rw [List.take_append, prod_append]
    have hpa' : prod (a.take n) ≤ 2147483647 := by
      have h1 := hab a.length
      rw [List.take_left] at h1
      exact Nat.le_trans (prod_take_le hpa n) h1
    cases hn : n - a.length with
    | zero => simpa [prod] using hpa'
    | succ m => simp [h0, prod]
  · apply noOverflow_of_pos
    · intro y hy; simp at hy; rcases hy with h | h | h
      · exact hpa y h
      · omega
      · exact hpb y h
    · have : prod (a ++ f :: b) = f * (prod a * prod b) := by
        simp only [prod_append, prod]; rw [Nat.mul_left_comm]
      omega

/-- C15 (`Tensor::reshape`): for every tensor and request whose products do not overflow `int`, and where no extent `0`
stands beside an inferred one, reshaping is defined, and it succeeds with result `t'` exactly when at most one extent is
inferred and `t'` is the same bytes, type and packed fields under a shape that has all given extents and the same
element count. In particular the inferred extent is the unique one that fits, and every other request is an error. -/
theorem C15_reshape_partial (t : Tensor) (sizes : List Nat) (req : List Int) (hsz : t.own.shape = ints sizes)
    (hs : NoOverflow sizes) (hr : NoOverflow (given req))
    (hz : (∃ x ∈ req, x < 0) → ∀ x ∈ req, x ≠ 0) :
    reshape t req ≠ .ub ∧
    ∀ t', reshape t req = .ok t' ↔
      OneFree req ∧ ∃ r, Answers req r ∧ prod r = prod sizes ∧
        t' = .mk ⟨t.own.dtype, ints r, t.own.mem⟩ t.fields := by
  unfold reshape
  rw [hsz]
  rcases classify req with ⟨r, rfl⟩ | ⟨a, x, b, hx, rfl⟩ | ⟨a, x, l, hx, rfl, hl⟩
  · rw [given_nat] at hr
    rw [reshapeShape_nat hs hr]
    simp only [answers_nat, OneFree, filter_neg_ints, exists_eq_left, List.length_nil, Nat.zero_le, true_and]
    by_cases h : prod r = prod sizes
    · simp [h, eq_comm]
    · simp [h]
  · have hne := hz ⟨x, by simp, hx⟩
    have hpa : ∀ y ∈ a, 0 < y := by
      intro y hy
      have := hne y (by simp [ints]; exact .inl ⟨y, hy, rfl⟩)
      omega
    have hpb : ∀ y ∈ b, 0 < y := by
      intro y hy
      have := hne y (by simp [ints]; exact .inr (.inr ⟨y, hy, rfl⟩))
      omega
    rw [given_one hx] at hr
    rw [reshapeShape_one hx hs hr hpa hpb]
    have hof : OneFree (ints a ++ x :: ints b) := by
      simp [OneFree, List.filter_append, filter_neg_ints, List.filter_cons, hx]
    simp only [answers_one hx, hof, true_and]
    have hdpos : 0 < prod a * prod b := Nat.mul_pos (prod_pos hpa) (prod_pos hpb)
    have hprod : ∀ f, prod (a ++ f :: b) = f * (prod a * prod b) := by
      intro f; simp only [prod_append, prod]; rw [Nat.mul_left_comm]
    have huniq : ∀ f, prod (a ++ f :: b) = prod sizes → f = prod sizes / (prod a * prod b) := by
      intro f hf; rw [← hf, hprod, Nat.mul_div_cancel _ hdpos]
    by_cases h : prod (a ++ (prod sizes / (prod a * prod b)) :: b) = prod sizes
    · rw [if_pos h]
      refine ⟨by simp, fun t' => ?_⟩
      simp only [Res.bind_ok, Res.ok.injEq]
      constructor
      · rintro rfl; exact ⟨_, ⟨_, rfl⟩, h, rfl⟩
      · rintro ⟨_, ⟨f, rfl⟩, h2, rfl⟩; rw [← huniq f h2]
    · rw [if_neg h]
      refine ⟨by simp, fun t' => ?_⟩
      simp only [Res.bind_err, reduceCtorEq, false_iff]
      rintro ⟨_, ⟨f, rfl⟩, h2, _⟩
      rw [← huniq f h2] at h; exact h h2
  · rw [reshapeShape_two hx hl]
    refine ⟨by simp, fun t' => ?_⟩
    simp only [Res.bind_err, reduceCtorEq, false_iff]
    rintro ⟨h, _⟩
    obtain ⟨y, hy, hy0⟩ := hl
    have : y ∈ l.filter (· < 0) := by simp [hy, hy0]
    have := List.length_pos_of_mem this
    simp only [OneFree, List.filter_append, filter_neg_ints, List.nil_append, List.filter_cons, hx,
      decide_true, if_true, List.length_cons] at h
    omega

example : reshape (.mk ⟨5, [2, 6], []⟩ []) [3, -1] = .ok (.mk ⟨5, [3, 4], []⟩ []) := by
  have h := (C15_reshape_partial (.mk ⟨5, [2, 6], []⟩ []) [2, 6] [3, -1] rfl
    (noOverflow_of_pos (by decide) (by decide)) (noOverflow_of_pos (by decide) (by decide)) (by decide)).2
  exact (h _).2 ⟨by simp [OneFree], [3, 4], by simp [Answers], by decide, rfl⟩

/-- An extent `0` beside an inferred one divides by zero: undefined behaviour instead of a result or an error. -/
theorem C15_zero_beside_inferred_false : reshape (.mk ⟨5, [0, 2], []⟩ []) [0, -1] = .ub := by
  simp [reshape, Tensor.own, reshapeShape, scanNeg, prod32, int32, div32, I32]

/-- what `reshape_v2` is asked for: `0` stands for the tensor's own extent of that position -/
def copied (sizes : List Nat) (req : List Int) : List Int :=
  req.mapIdx fun i (q : Int) => if q = 0 then (match sizes[i]? with | some s => (s : Int) | none => 0) else q

/-- C15 (`reshape_v2`, up to seven extents): with `req` resolved by copying the extents asked for by `0`, and no
overflow, the operator is defined, and it succeeds with `t'` exactly when no resolved extent is 0, at most one is
inferred, and `t'` is the same bytes under a shape with all given extents and the same element count. -/
theorem C15_reshape_v2_partial (t : Tensor) (sizes : List Nat) (req : List Int) (hsz : t.own.shape = ints sizes)
    (hs : NoOverflow sizes) (hr : NoOverflow (given (copied sizes req))) (hrank : req.length ≤ 7) :
    reshapeV2 t req ≠ .ub ∧
    ∀ t', reshapeV2 t req = .ok t' ↔
      (∀ x ∈ copied sizes req, x ≠ 0) ∧ OneFree (copied sizes req) ∧
      ∃ r, Answers (copied sizes req) r ∧ prod r = prod sizes ∧
        t' = .mk ⟨t.own.dtype, ints r, t.own.mem⟩ t.fields := by
  have hcopy : ∀ (ss : List Nat) (rq : List Int), copyZeros (ints ss) rq = copied ss rq := by
    intro ss rq
    induction rq generalizing ss with
    | nil => cases ss <;> rfl
    | cons q rq ih =>
      cases ss with
      | nil =>
        simp only [ints_nil, copyZeros, copied]
        symm
        rw [List.mapIdx_eq_iff]
        intro i
        cases h : (q :: rq)[i]? <;> simp_all
      | cons s ss =>
        simp only [ints_cons, copyZeros, ih]
        simp only [copied, List.mapIdx_cons, List.getElem?_cons_zero]
        congr 1
  generalize hq : copied sizes req = q at *
  have e2 := prod32_ok hs.pfits
  simp only [Int.natCast_one, Nat.one_mul] at e2
  have hup : prod sizes ≤ 2147483647 := by
    have := hs sizes.length
    rwa [List.take_length] at this
  unfold reshapeV2 newshapeV2
  rw [hsz, if_neg (by omega), hcopy, hq]
  simp only []
  rw [show (1 : Int) = ((1 : Nat) : Int) from rfl, v2Loop_eq _ _ _ _ hr.pfits]
  simp only [Int.natCast_one, Option.isSome_none, Bool.false_eq_true, if_false, Nat.zero_add]
  by_cases hz : (0 : Int) ∈ q
  · rw [if_pos (.inl hz)]
    refine ⟨by simp, fun t' => ?_⟩
    simp only [Res.bind_err, reduceCtorEq, false_iff]
    rintro ⟨h, _⟩; exact h 0 hz rfl
  by_cases h1 : 1 < (q.filter (· < 0)).length
  · rw [if_pos (.inr h1)]
    refine ⟨by simp, fun t' => ?_⟩
    simp only [Res.bind_err, reduceCtorEq, false_iff]
    rintro ⟨_, h, _⟩; unfold OneFree at h; omega
  rw [if_neg (by simp [hz, h1])]
  have hnz : ∀ x ∈ q, x ≠ 0 := fun x hx h => hz (h ▸ hx)
  have hof : OneFree q := Nat.le_of_not_lt h1
  simp only [Res.bind_ok, e2, Nat.one_mul, Option.none_or]
  rcases classify q with ⟨r, rfl⟩ | ⟨a, x, b, hx, rfl⟩ | ⟨a, x, l, hx, rfl, hl⟩
  · rw [given_nat] at hr
    have e1 := prod32_ok hr.pfits
    simp only [Int.natCast_one, Nat.one_mul] at e1
    rw [findIdx_neg_nat]
    simp only [Option.map_none, Res.bind_ok, e1, hnz, hof, answers_nat, exists_eq_left, true_and, reshape, hsz]
    rw [reshapeShape_nat hs hr]
    by_cases h : prod r = prod sizes
    · simp [h, eq_comm, hnz]
      intro a ha; simpa using hnz a ha
    · rw [if_pos (by omega)]
      simp [h]
  · have hpa : ∀ y ∈ a, 0 < y := by
      intro y hy
      have := hnz y (by simp [ints]; exact .inl ⟨y, hy, rfl⟩)
      omega
    have hpb : ∀ y ∈ b, 0 < y := by
      intro y hy
      have := hnz y (by simp [ints]; exact .inr (.inr ⟨y, hy, rfl⟩))
      omega
    rw [given_one hx] at hr ⊢
    rw [findIdx_neg_one hx]
    have hd : prod (a ++ 1 :: b) = prod a * prod b := by simp [prod_append, prod]
    have hdpos : 0 < prod a * prod b := Nat.mul_pos (prod_pos hpa) (prod_pos hpb)
    have hprod : ∀ f, prod (a ++ f :: b) = f * (prod a * prod b) := by
      intro f; simp only [prod_append, prod]; rw [Nat.mul_left_comm]
    have huniq : ∀ f, prod (a ++ f :: b) = prod sizes → f = prod sizes / (prod a * prod b) := by
      intro f hf; rw [← hf, hprod, Nat.mul_div_cancel _ hdpos]
    have hmul : prod sizes / (prod a * prod b) * (prod a * prod b) ≤ prod sizes := Nat.div_mul_le_self _ _
    have hq' : prod sizes / (prod a * prod b) ≤ prod sizes := Nat.div_le_self _ _
    simp only [Option.map_some, hd, div32, answers_one hx, hof, true_and]
    rw [if_neg (by omega), ← Int.ofNat_tdiv, int32_ok (i32_nat (by omega))]
    simp only [Res.bind_ok]
    rw [← Int.natCast_mul, int32_ok (i32_nat (by omega))]
    simp only [Res.bind_ok]
    by_cases h : prod sizes / (prod a * prod b) * (prod a * prod b) = prod sizes
    · rw [if_neg (by omega)]
      simp only [Res.bind_ok, Nat.add_zero]
      rw [show (ints a ++ x :: ints b).set a.length ((prod sizes / (prod a * prod b) : Nat) : Int)
          = ints (a ++ (prod sizes / (prod a * prod b)) :: b) by
        rw [← ints_length a, set_append_mid, ints_append]; rfl]
      generalize hf : prod sizes / (prod a * prod b) = f at *
      have hnf : NoOverflow (a ++ f :: b) := noOverflow_mid hr hpa hpb (by omega)
      have e1 := prod32_ok hnf.pfits
      simp only [Int.natCast_one, Nat.one_mul] at e1
      have hpf : prod (a ++ f :: b) = prod sizes := by rw [hprod, h]
      rw [e1]
      simp only [Res.bind_ok]
      rw [if_neg (by simp [hpf])]
      unfold reshape
      rw [hsz, reshapeShape_nat hs hnf, if_pos hpf]
      refine ⟨by simp, fun t' => ?_⟩
      simp only [Res.bind_ok, Res.ok.injEq]
      constructor
      · rintro rfl; exact ⟨hnz, _, ⟨f, rfl⟩, hpf, rfl⟩
      · rintro ⟨_, _, ⟨f', rfl⟩, h2, rfl⟩; rw [huniq f' h2]
    · rw [if_pos (by omega)]
      refine ⟨by simp, fun t' => ?_⟩
      simp only [Res.bind_err, reduceCtorEq, false_iff]
      rintro ⟨_, _, ⟨f, rfl⟩, h2, _⟩
      have := huniq f h2
      rw [hprod] at h2
      rw [← this] at h; exact h h2
  · exfalso
    obtain ⟨y, hy, hy0⟩ := hl
    have : y ∈ l.filter (· < 0) := by simp [hy, hy0]
    have := List.length_pos_of_mem this
    simp only [OneFree, List.filter_append, filter_neg_ints, List.nil_append, List.filter_cons, hx,
      decide_true, if_true, List.length_cons] at hof
    omega

example : reshapeV2 (.mk ⟨5, [2, 6], []⟩ []) [0, 3, -1] = .ok (.mk ⟨5, [2, 3, 2], []⟩ []) := by
  have h := (C15_reshape_v2_partial (.mk ⟨5, [2, 6], []⟩ []) [2, 6] [0, 3, -1] rfl
    (noOverflow_of_pos (by decide) (by decide)) (noOverflow_of_pos (by decide) (by decide)) (by decide)).2
  exact (h _).2 ⟨by decide, by simp [OneFree, copied], [2, 3, 2], by simp [Answers, copied], by decide, rfl⟩

/-- More than seven extents are written past the end of the shape's buffer. -/
theorem C15_reshape_v2_rank_false :
    reshapeV2 (.mk ⟨5, [1], [0]⟩ []) [1, 1, 1, 1, 1, 1, 1, 1] = .ub := rfl

end Verif.Props
