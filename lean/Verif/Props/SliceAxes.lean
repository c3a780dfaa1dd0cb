import Verif.Props.Slice
import Verif.Core.ShapeOpsLemmas
/-!
# C18: strided slice with new axes and with an ellipsis

A request with new-axis entries is read on the shape in which every new-axis entry stands for an extra extent of one; an
ellipsis entry stands for a run of whole dimensions.
-/
namespace Verif.Props
open Verif.Core Verif.Spec Verif.Kernels

/-- The dimensions of `L` (the first one belongs to slice entry `i`) whose entry does not have its bit set in the mask. With
the new-axis mask: the dimensions of the tensor itself; with the shrink mask: the dimensions that stay in the result. -/
def without (mask : Nat) : Nat → List Nat → List Nat
  | _, [] => []
  | i, e :: es => if bit mask i then without mask (i + 1) es else e :: without mask (i + 1) es

/-- the new axes have extent one -/
def NewOnes (mask i : Nat) (L : List Nat) : Prop := ∀ j, j < L.length → bit mask (i + j) = true → L.getD j 0 = 1

theorem newOnes_tail {mask i : Nat} {e : Nat} {L : List Nat} (h : NewOnes mask i (e :: L)) : NewOnes mask (i + 1) L := by
  intro j hj hb
  have := h (j + 1) (by simp; omega) (by rw [← hb]; congr 1; omega)
  simpa using this

theorem newOnes_head {mask i : Nat} {e : Nat} {L : List Nat} (h : NewOnes mask i (e :: L)) (hb : bit mask i = true) :
    e = 1 := by
  simpa using h 0 (by simp) (by simpa using hb)

theorem without_append (mask : Nat) (A B : List Nat) : ∀ i, without mask i (A ++ B) = without mask i A ++
    without mask (i + A.length) B := by
  induction A with
  | nil => intro i; rfl
  | cons e A ih =>
    intro i
    have e1 : i + (e :: A).length = i + 1 + A.length := by simp; omega
    by_cases h : bit mask i <;> simp only [List.cons_append, without, h, ih (i + 1), e1] <;> simp

theorem without_prod {mask : Nat} (L : List Nat) : ∀ {i : Nat}, NewOnes mask i L → prod (without mask i L) = prod L := by
  induction L with
  | nil => intro i _; rfl
  | cons e L ih =>
    intro i h
    have ih' := ih (newOnes_tail h)
    by_cases hb : bit mask i
    · simp only [without, hb, if_true, ih', prod, newOnes_head h hb]; omega
    · simp only [without, hb, Bool.false_eq_true, if_false, prod, ih']

theorem without_pos {mask : Nat} (L : List Nat) : ∀ {i : Nat}, NewOnes mask i L → (∀ e ∈ without mask i L, 0 < e) →
    ∀ e ∈ L, 0 < e := by
  induction L with
  | nil => intro i _ _ e h; simp at h
  | cons d L ih =>
    intro i h hp e he
    by_cases hb : bit mask i
    · simp only [without, hb, if_true] at hp
      rcases List.mem_cons.1 he with rfl | he
      · rw [newOnes_head h hb]; omega
      · exact ih (newOnes_tail h) hp e he
    · simp only [without, hb, Bool.false_eq_true, if_false] at hp
      rcases List.mem_cons.1 he with rfl | he
      · exact hp _ (by simp)
      · exact ih (newOnes_tail h) (fun e h => hp e (by simp [h])) e he

theorem without_pos' {mask : Nat} (L : List Nat) : ∀ {i : Nat}, (∀ e ∈ L, 0 < e) → ∀ e ∈ without mask i L, 0 < e := by
  induction L with
  | nil => intro i _ e h; simp [without] at h
  | cons d L ih =>
    intro i hp e he
    by_cases hb : bit mask i
    · simp only [without, hb, if_true] at he
      exact ih (fun e h => hp e (by simp [h])) e he
    · simp only [without, hb, Bool.false_eq_true, if_false] at he
      rcases List.mem_cons.1 he with rfl | he
      · exact hp _ (by simp)
      · exact ih (fun e h => hp e (by simp [h])) e he

theorem without_length_le (mask : Nat) (L : List Nat) : ∀ i, (without mask i L).length ≤ L.length := by
  induction L with
  | nil => intro i; simp [without]
  | cons d L ih =>
    intro i
    have := ih (i + 1)
    by_cases hb : bit mask i <;> simp [without, hb] <;> omega

/-- The insertion of the new axes turns the tensor's own shape into the shape with the new axes. -/
theorem insertAxes_ok (mask : Nat) (T : List Nat) (L : List Nat) : ∀ (P : List Nat), NewOnes mask P.length L →
    P.length + L.length + T.length ≤ 7 →
    insertAxes mask (List.range' P.length L.length) (ints (P ++ without mask P.length L ++ T)) =
      .ok (ints (P ++ L ++ T)) := by
  induction L with
  | nil => intro P _ _; simp [without, insertAxes]
  | cons e L ih =>
    intro P h h7
    have hl := without_length_le mask L (P.length + 1)
    simp only [List.length_cons] at h7 ⊢
    rw [List.range'_succ]
    by_cases hb : bit mask P.length
    · have h1 := newOnes_head h hb
      subst h1
      simp only [insertAxes, without, hb, if_true]
      rw [if_neg (by simp [ints]), if_neg (by simp [ints]; omega)]
      have := ih (P ++ [1]) (by simpa using newOnes_tail h) (by simp; omega)
      simp only [List.length_append, List.length_singleton] at this
      rw [← show ints (P ++ [1] ++ L ++ T) = ints (P ++ 1 :: L ++ T) by simp, ← this]
      congr 1
      simp [ints]
    · simp only [insertAxes, without, hb, Bool.false_eq_true, if_false]
      have := ih (P ++ [e]) (by simpa using newOnes_tail h) (by simp; omega)
      simp only [List.length_append, List.length_singleton] at this
      rw [← show ints (P ++ [e] ++ L ++ T) = ints (P ++ e :: L ++ T) by simp, ← this]
      congr 1
      simp

theorem countAxes_without (mask : Nat) (L : List Nat) : ∀ i, countAxes mask i (i + L.length) = (without mask i L).length := by
  induction L with
  | nil =>
    intro i
    simp only [countAxes, without, List.length_nil, List.length_eq_zero_iff, List.filter_eq_nil_iff]
    intro j hj
    simp at hj
    simp; omega
  | cons e L ih =>
    intro i
    have ih' := ih (i + 1)
    have key : countAxes mask i (i + (e :: L).length) =
        (if bit mask i then 0 else 1) + countAxes mask (i + 1) (i + 1 + L.length) := by
      have hl : i + (e :: L).length = i + (1 + L.length) := by simp; omega
      have hl' : i + 1 + L.length = i + (1 + L.length) := by omega
      unfold countAxes
      rw [hl, hl', List.range_eq_range', ← List.range'_append_1 (s := 0) (m := i) (n := 1 + L.length),
        ← List.range'_append_1 (s := 0 + i) (m := 1) (n := L.length)]
      simp only [List.filter_append, List.length_append]
      have z1 : (List.range' 0 i).filter (fun j => decide (i ≤ j) && !bit mask j) = [] := by
        rw [List.filter_eq_nil_iff]; intro j hj; simp at hj; simp; omega
      have z2 : (List.range' 0 i).filter (fun j => decide (i + 1 ≤ j) && !bit mask j) = [] := by
        rw [List.filter_eq_nil_iff]; intro j hj; simp at hj; simp; omega
      have z3 : (List.range' (0 + i) 1).filter (fun j => decide (i + 1 ≤ j) && !bit mask j) = [] := by
        rw [List.filter_eq_nil_iff]; intro j hj; simp at hj; simp; omega
      have z4 : (List.range' (0 + i + 1) L.length).filter (fun j => decide (i ≤ j) && !bit mask j) =
          (List.range' (0 + i + 1) L.length).filter (fun j => decide (i + 1 ≤ j) && !bit mask j) := by
        apply List.filter_congr
        intro j hj
        simp at hj
        rw [decide_eq_true (by omega), decide_eq_true (by omega)]
      rw [z1, z2, z3, z4]
      by_cases hb : bit mask i <;> simp [hb]
    rw [key, ih']
    by_cases hb : bit mask i <;> simp [without, hb]; omega

theorem prod32_congr_reshape {s t : List Int} (h : prod32 1 s = prod32 1 t) (r : List Int) :
    reshapeShape s r = reshapeShape t r := by
  unfold reshapeShape
  rw [h]

theorem res_bind_eq_ok {α β : Type} {m : Res α} {f : α → Res β} {b : β} (h : (m >>= f) = .ok b) :
    ∃ a, m = .ok a ∧ f a = .ok b := by
  cases m with
  | ok a => exact ⟨a, rfl, h⟩
  | err => cases h
  | ub => cases h

/-- C18 for requests with new axes: the request means the same as on the tensor viewed with extra extents of one. `L` are
the dimensions that belong to slice entries (new axes included) and `T` the others. -/
theorem C18_new_axis_partial {α : Type} (a : SliceArg) (dtype : Nat) (L T full : List Nat) (data dst : List α)
    (he : a.ellipsisMask = 0) (hL : L.length = a.begins.length) (hnew : NewOnes a.newAxisMask 0 L)
    (hrank : L.length + T.length ≤ 7) (hsel : Selects a (L ++ T) full)
    (hshrink : ∀ j, j < a.begins.length → bit a.shrinkMask j = true → full.getD j 0 = 1)
    (hpos : ∀ e ∈ without a.newAxisMask 0 L ++ T, 0 < e)
    (hb : prod (without a.newAxisMask 0 L ++ T) ≤ 2147483647) (hty : typeBytes dtype ∈ [1, 2, 4, 8, 16])
    (hdata : data.length = prod (without a.newAxisMask 0 L ++ T)) (hdst : dst.length = prod full) :
    ∃ out, sliceRun a dtype (ints (without a.newAxisMask 0 L ++ T)) data dst =
        .ok (ints (kept a.begins.length a.shrinkMask full), out) ∧
      out.length = prod full ∧
      ∀ c, InBounds full c → ∃ c', Source a (L ++ T) c c' ∧ out[lin full c]? = data[lin (L ++ T) c']? := by
  have hprod : prod (without a.newAxisMask 0 L ++ T) = prod (L ++ T) := by
    rw [prod_append, prod_append, without_prod L hnew]
  have hpos' : ∀ e ∈ L ++ T, 0 < e := by
    intro e h
    rcases List.mem_append.1 h with h | h
    · exact without_pos L hnew (fun e h => hpos e (by simp [h])) e h
    · exact hpos e (by simp [h])
  obtain ⟨out, r1, r2, r3⟩ := C18_slice_partial { a with newAxisMask := 0 } dtype (L ++ T) full data dst he rfl
    ⟨hsel.1, hsel.2, hsel.3, hsel.4, hsel.5, hsel.6, hsel.7, hsel.8⟩ hshrink hpos' (by omega) hty (by omega) hdst
  refine ⟨out, ?_, r2, r3⟩
  have hins := insertAxes_ok a.newAxisMask T L [] hnew (by simpa using hrank)
  simp only [List.length_nil, List.nil_append] at hins
  have hplan : slicePlan (ints (without a.newAxisMask 0 L ++ T)) a =
      slicePlan (ints (L ++ T)) { a with newAxisMask := 0 } := by
    unfold slicePlan
    simp only [he, ellipsisAt_zero, Res.bind_ok, insertAxes_zero]
    rw [List.range_eq_range', ← hL, hins]
    rfl
  have hcount : prod32 1 (ints (without a.newAxisMask 0 L ++ T)) = prod32 1 (ints (L ++ T)) := by
    have p1 := prod32_ok (noOverflow_of_pos hpos hb).pfits
    have p2 := prod32_ok (noOverflow_of_pos hpos' (by omega)).pfits
    simp only [Int.natCast_one, Nat.one_mul] at p1 p2
    rw [p1, p2, hprod]
  unfold sliceRun at r1 ⊢
  rw [hplan]
  simp only [prod32_congr_reshape hcount]
  exact r1

/-- slice entries `i, i+1, …` on the dimensions `X` select Python slices with the extents `F` -/
structure PartSelects (a : SliceArg) (i : Nat) (X F : List Nat) : Prop where
  length : F.length = X.length
  covered : ∀ j, j < X.length → SliceOk (X.getD j 0) (a.ends.getD (i + j) 0) (a.strides.getD (i + j) 0) (bit a.endMask (i + j))
  sliced : ∀ j, j < X.length → PyLen (X.getD j 0) (bound (bit a.beginMask (i + j)) (a.begins.getD (i + j) 0))
    (bound (bit a.endMask (i + j)) (a.ends.getD (i + j) 0)) (a.strides.getD (i + j) 0) (F.getD j 0)

/-- `c'` is the source coordinate, in the dimensions `X` of slice entries `i, i+1, …`, of the result coordinate `c` -/
def PartSource (a : SliceArg) (i : Nat) (X c c' : List Nat) : Prop :=
  InBounds X c' ∧ ∀ j, j < X.length → (c'.getD j 0 : Int) =
    pyStart (X.getD j 0) (bound (bit a.beginMask (i + j)) (a.begins.getD (i + j) 0)) (a.strides.getD (i + j) 0) +
      c.getD j 0 * a.strides.getD (i + j) 0

theorem shrinkLoop_append (shrink : Nat) (el : Option (Nat × List Int)) (l2 : List Nat) : ∀ (l1 : List Nat) (out : List Int),
    shrinkLoop shrink el (l1 ++ l2) out = (shrinkLoop shrink el l1 out >>= shrinkLoop shrink el l2) := by
  intro l1
  induction l1 with
  | nil => intro out; rfl
  | cons i l1 ih =>
    intro out
    simp only [List.cons_append]
    unfold shrinkLoop
    cases el with
    | none =>
      simp only
      split
      · split
        · rfl
        · exact ih _
      · exact ih _
    | some p =>
      obtain ⟨k, es⟩ := p
      simp only
      split
      · exact ih _
      · split
        · split
          · rfl
          · exact ih _
        · exact ih _

/-- The shrink loop over entries other than the ellipsis drops the dimensions with a shrink bit. -/
theorem shrinkLoop_part (shrink k : Nat) (E : List Int) (T : List Nat) (L : List Nat) : ∀ (P : List Nat),
    NewOnes shrink P.length L → (k < P.length ∨ P.length + L.length ≤ k) →
    shrinkLoop shrink (some (k, E)) (List.range' P.length L.length).reverse (ints (P ++ L ++ T)) =
      .ok (ints (P ++ without shrink P.length L ++ T)) := by
  induction L with
  | nil => intro P _ _; simp [shrinkLoop, without]
  | cons e L ih =>
    intro P h hk
    simp only [List.length_cons] at hk ⊢
    rw [List.range'_succ, List.reverse_cons, shrinkLoop_append]
    have := ih (P ++ [e]) (by simpa using newOnes_tail h) (by simp; omega)
    simp only [List.length_append, List.length_singleton] at this
    rw [show P ++ e :: L ++ T = P ++ [e] ++ L ++ T by simp, this]
    simp only [Res.bind_ok, shrinkLoop]
    rw [if_neg (by intro hh; omega)]
    by_cases hb : bit shrink P.length
    · have h1 := newOnes_head h hb
      subst h1
      simp only [hb, if_true, without]
      rw [if_neg (by simp [ints, List.getD])]
      congr 1
      simp only [ints, List.append_assoc, List.map_append]
      rw [List.eraseIdx_append_of_length_le (by simp)]
      simp
    · simp [hb, without]

theorem ellipsisAt_pow {k n : Nat} (h : k < n) : ellipsisAt (2 ^ k) n = some k := by
  unfold ellipsisAt
  rw [List.find?_eq_some_iff_append]
  refine ⟨by simp [bit, Nat.testBit_two_pow], List.range k, (List.range' (k + 1) (n - k - 1)), ?_, ?_⟩
  · rw [List.range_eq_range', List.range_eq_range', ← List.range'_succ, ]
    have := List.range'_append_1 (s := 0) (m := k) (n := n - k - 1 + 1)
    rw [Nat.zero_add] at this
    rw [this]
    congr 1; omega
  · intro j hj
    simp at hj
    simp [bit, Nat.testBit_two_pow]; omega

theorem kept_zero (n : Nat) (l : List Nat) : kept n 0 l = l := by
  unfold kept
  rw [List.filter_eq_self.2 (by simp [bit])]
  simp

theorem shrinkLoop_zero (is : List Nat) (out : List Int) : shrinkLoop 0 none is out = .ok out := by
  induction is with
  | nil => rfl
  | cons i is ih => simp [shrinkLoop, bit, ih]

theorem getD_mid_left {A B : List Nat} {w j : Nat} (h : j < A.length) : (A ++ w :: B).getD j 0 = A.getD j 0 := by
  simp only [List.getD]; rw [List.getElem?_append_left h]

theorem getD_mid {A B : List Nat} {w : Nat} : (A ++ w :: B).getD A.length 0 = w := by
  simp [List.getD]

theorem getD_mid_right {A B : List Nat} {w j : Nat} : (A ++ w :: B).getD (A.length + 1 + j) 0 = B.getD j 0 := by
  simp only [List.getD]; rw [List.getElem?_append_right (by omega)]
  rw [show A.length + 1 + j - A.length = j + 1 by omega]; rfl

theorem without_ones {mask : Nat} (L : List Nat) : ∀ {i : Nat}, NewOnes mask i L →
    (without mask i L).filter (· ≠ 1) = L.filter (· ≠ 1) := by
  induction L with
  | nil => intro i _; rfl
  | cons e L ih =>
    intro i h
    have ih' := ih (newOnes_tail h)
    by_cases hb : bit mask i
    · simp only [without, hb, if_true, ih', newOnes_head h hb]; simp
    · simp only [without, hb, Bool.false_eq_true, if_false, List.filter_cons, ih']

theorem noOverflow_expand {P E Q : List Nat} (hE : ∀ e ∈ E, 0 < e) (h : NoOverflow (P ++ prod E :: Q)) :
    NoOverflow (P ++ E ++ Q) := by
  intro m
  rcases Nat.lt_or_ge m P.length with h1 | h1
  · have := h m
    rw [List.take_append_of_le_length (by omega)] at this
    rwa [List.append_assoc, List.take_append_of_le_length (by omega)]
  · rcases Nat.lt_or_ge m (P.length + E.length) with h2 | h2
    · have := h (P.length + 1)
      rw [List.take_length_add_append] at this
      rw [List.append_assoc, show m = P.length + (m - P.length) by omega, List.take_length_add_append,
        List.take_append_of_le_length (by omega), prod_append]
      simp only [List.take_succ_cons, List.take_zero, prod_append, prod, Nat.mul_one] at this
      exact Nat.le_trans (Nat.mul_le_mul_left _ (prod_take_le hE _)) this
    · have := h (P.length + 1 + (m - P.length - E.length))
      rw [Nat.add_assoc, List.take_length_add_append, Nat.add_comm 1, List.take_succ_cons, prod_append] at this
      simp only [prod] at this
      rw [show m = (P ++ E).length + (m - P.length - E.length) by simp; omega, List.take_length_add_append, prod_append,
        prod_append, Nat.mul_assoc]
      exact this

/-- C18 for requests with an ellipsis (and new axes): entry `k` is the ellipsis and stands for the dimensions `E`, the
entries before it act on `A` and those after it on `B` (new axes are extents of one in `A` and `B`). The result has the
Python extents `FA` and `FB` (minus the shrunk dimensions) around the untouched dimensions `E`, and every element is the
one the Python slices select. Missing from the claim: the cases excluded by `SliceOk`, an ellipsis that stands for no
dimension (`C18_empty_ellipsis_false`) and a new-axis bit on the ellipsis entry itself. -/
theorem C18_ellipsis_partial {α : Type} (a : SliceArg) (dtype : Nat) (A E B FA FB : List Nat) (data dst : List α)
    (hell : a.ellipsisMask = 2 ^ A.length) (hlen : a.begins.length = A.length + 1 + B.length)
    (hends : a.ends.length = a.begins.length) (hstr : a.strides.length = a.begins.length) (hE : E ≠ [])
    (hk : bit a.newAxisMask A.length = false)
    (hnA : NewOnes a.newAxisMask 0 A) (hnB : NewOnes a.newAxisMask (A.length + 1) B)
    (hrank : A.length + 1 + B.length ≤ 7)
    (hA : PartSelects a 0 A FA) (hB : PartSelects a (A.length + 1) B FB)
    (hsA : NewOnes a.shrinkMask 0 FA) (hsB : NewOnes a.shrinkMask (A.length + 1) FB)
    (hpos : ∀ e ∈ without a.newAxisMask 0 A ++ E ++ without a.newAxisMask (A.length + 1) B, 0 < e)
    (hb : prod (without a.newAxisMask 0 A ++ E ++ without a.newAxisMask (A.length + 1) B) ≤ 2147483647)
    (hty : typeBytes dtype ∈ [1, 2, 4, 8, 16])
    (hdata : data.length = prod (without a.newAxisMask 0 A ++ E ++ without a.newAxisMask (A.length + 1) B))
    (hdst : dst.length = prod (FA ++ E ++ FB)) :
    ∃ out, sliceRun a dtype (ints (without a.newAxisMask 0 A ++ E ++ without a.newAxisMask (A.length + 1) B)) data dst =
        .ok (ints (without a.shrinkMask 0 FA ++ E ++ without a.shrinkMask (A.length + 1) FB), out) ∧
      out.length = prod (FA ++ E ++ FB) ∧
      ∀ ca ce cb, InBounds FA ca → InBounds E ce → InBounds FB cb →
        ∃ ca' cb', PartSource a 0 A ca ca' ∧ PartSource a (A.length + 1) B cb cb' ∧
          out[lin (FA ++ E ++ FB) (ca ++ ce ++ cb)]? = data[lin (A ++ E ++ B) (ca' ++ ce ++ cb')]? := by
  have hposA : ∀ e ∈ A, 0 < e := without_pos A hnA (fun e h => hpos e (by simp [h]))
  have hposB : ∀ e ∈ B, 0 < e := without_pos B hnB (fun e h => hpos e (by simp [h]))
  have hposE : ∀ e ∈ E, 0 < e := fun e h => hpos e (by simp [h])
  have hpE : 0 < prod E := prod_pos hposE
  have hprod : prod (without a.newAxisMask 0 A ++ E ++ without a.newAxisMask (A.length + 1) B) =
      prod (A ++ prod E :: B) := by
    simp only [prod_append, without_prod A hnA, without_prod B hnB, prod]
    rw [Nat.mul_assoc]
  have hposx : ∀ e ∈ A ++ prod E :: B, 0 < e := by
    intro e h
    simp only [List.mem_append, List.mem_cons] at h
    rcases h with h | rfl | h
    · exact hposA e h
    · exact hpE
    · exact hposB e h
  have hPE : prod E ≤ 2147483647 := by
    refine Nat.le_trans (mem_le_prod hposx (x := prod E) (by simp)) (by omega)
  have hFAl := hA.length
  have hFBl := hB.length
  obtain ⟨n, hn⟩ : ∃ n, a.begins.length = n := ⟨_, rfl⟩
  have hbit : ∀ m j, j ≠ A.length → bit (m ||| 2 ^ A.length) j = bit m j := by
    intro m j hj
    simp only [bit, Nat.testBit_or, Nat.testBit_two_pow]
    rw [decide_eq_false (by omega)]; simp
  have hbitk : ∀ m, bit (m ||| 2 ^ A.length) A.length = true := by
    intro m
    simp [bit, Nat.testBit_or, Nat.testBit_two_pow]
  have hset : ∀ j, j ≠ A.length → (a.strides.set A.length 1).getD j 0 = a.strides.getD j 0 := by
    intro j hj
    simp only [List.getD, List.getElem?_set_ne (Ne.symm hj)]
  have hsetk : (a.strides.set A.length 1).getD A.length 0 = 1 := by
    simp only [List.getD]
    rw [List.getElem?_set_self (by omega)]; rfl
  have hcase : ∀ j, j < n → j < A.length ∨ j = A.length ∨ ∃ j', j' < B.length ∧ j = A.length + 1 + j' := by
    intro j hj
    rcases Nat.lt_trichotomy j A.length with h | h | h
    · exact .inl h
    · exact .inr (.inl h)
    · exact .inr (.inr ⟨j - A.length - 1, by omega, by omega⟩)
  have gFl : ∀ j, j < A.length → (FA ++ prod E :: FB).getD j 0 = FA.getD j 0 := fun j hj =>
    getD_mid_left (by omega)
  have gFm : (FA ++ prod E :: FB).getD A.length 0 = prod E := by rw [← hFAl]; exact getD_mid
  have gFr : ∀ j, (FA ++ prod E :: FB).getD (A.length + 1 + j) 0 = FB.getD j 0 := by
    intro j; rw [← hFAl]; exact getD_mid_right
  let a1 : SliceArg := ⟨a.begins, a.ends, a.strides.set A.length 1, a.beginMask ||| 2 ^ A.length,
      a.endMask ||| 2 ^ A.length, 0, 0, 0⟩
  have hsel : Selects a1 (A ++ prod E :: B) (FA ++ prod E :: FB) := by
    refine ⟨hends, by simp [a1, hstr], by simp only [a1]; omega, by simp [a1]; omega, by simp; omega, ?_, ?_, ?_⟩
    · intro j hj
      simp only [a1, hn] at hj ⊢
      rcases hcase j hj with h | rfl | ⟨j', h, rfl⟩
      · rw [getD_mid_left h, hset j (by omega), hbit _ _ (by omega)]
        simpa using hA.covered j h
      · rw [getD_mid, hsetk, hbitk]
        exact ⟨by omega, by omega, hPE, by simp⟩
      · rw [getD_mid_right, hset _ (by omega), hbit _ _ (by omega)]
        exact hB.covered j' h
    · intro j hj
      simp only [a1, hn] at hj ⊢
      rcases hcase j hj with h | rfl | ⟨j', h, rfl⟩
      · rw [getD_mid_left h, gFl j h, hset j (by omega), hbit _ _ (by omega), hbit _ _ (by omega)]
        simpa using hA.sliced j h
      · rw [getD_mid, gFm, hsetk, hbitk, hbitk]
        exact pyLen_whole _
      · rw [getD_mid_right, gFr, hset _ (by omega), hbit _ _ (by omega), hbit _ _ (by omega)]
        exact hB.sliced j' h
    · intro j hj
      simp only [a1, hn] at hj
      simp only [List.getD]
      rw [List.getElem?_eq_none (by simp; omega), List.getElem?_eq_none (by simp; omega)]
  have hpF : prod (FA ++ E ++ FB) = prod (FA ++ prod E :: FB) := by
    simp only [prod_append, prod]; rw [Nat.mul_assoc]
  obtain ⟨out, r1, r2, r3⟩ := C18_slice_partial a1 dtype (A ++ prod E :: B) (FA ++ prod E :: FB) data dst rfl rfl hsel
    (fun j _ h => by simp [a1, bit] at h) hposx (by omega) hty (by omega) (by omega)
  refine ⟨out, ?_, by omega, ?_⟩
  · -- the plan of the plain request
    unfold sliceRun at r1 ⊢
    obtain ⟨p, p1, r4⟩ := res_bind_eq_ok r1
    clear r1
    obtain ⟨w1, p2, r5⟩ := res_bind_eq_ok r4
    clear r4
    rw [if_pos hty] at r5
    obtain ⟨w2, p3, r6⟩ := res_bind_eq_ok r5
    clear r5
    obtain ⟨w3, p4, r7⟩ := res_bind_eq_ok r6
    clear r6
    simp only [Res.ok.injEq, Prod.mk.injEq] at r7
    obtain ⟨r7, rfl⟩ := r7
    rw [kept_zero] at r7
    subst r7
    unfold slicePlan at p1
    have hbe : a1.begins.length = n := hn
    rw [hbe, if_neg (by simp [a1]; omega), if_neg (by omega)] at p1
    simp only [show a1.ellipsisMask = 0 from rfl, show a1.newAxisMask = 0 from rfl, show a1.shrinkMask = 0 from rfl,
      ellipsisAt_zero, Res.bind_ok, insertAxes_zero, ints_length, shrinkLoop_zero] at p1
    rw [if_neg (by simp; omega), if_neg (by simp; omega)] at p1
    obtain ⟨⟨ns, bs⟩, d1, d2⟩ := res_bind_eq_ok p1
    simp only [Res.bind_ok, Res.ok.injEq] at d2
    subst d2
    simp only at p2 p3 p4
    obtain ⟨bs', t1, t2, _⟩ := sliceDims_ok a1.beginMask a1.endMask (A ++ prod E :: B) 0 a1.begins a1.ends a1.strides
      (FA ++ prod E :: FB) (by rw [hbe]; simp; omega) (by simp [a1]; omega) (by simp [a1]; omega) (by simp; omega) (by
        intro j hj
        have hj' : j < a1.begins.length := by rw [hbe]; simp at hj; omega
        rw [Nat.zero_add]
        exact ⟨hsel.covered j hj', hsel.sliced j hj'⟩)
    rw [t1] at d1
    simp only [Res.ok.injEq, Prod.mk.injEq] at d1
    obtain ⟨rfl, rfl⟩ := d1
    have hni : NoOverflow (A ++ prod E :: B) := noOverflow_of_pos hposx (by omega)
    have hnr : NoOverflow (FA ++ prod E :: FB) := fun m => Nat.le_trans (t2.prod_take_le m) (hni m)
    -- the plan of the request itself
    have hplan : slicePlan (ints (without a.newAxisMask 0 A ++ E ++ without a.newAxisMask (A.length + 1) B)) a =
        .ok ⟨ints (A ++ prod E :: B), bs', a1.strides, ints (FA ++ prod E :: FB),
          ints (without a.shrinkMask 0 FA ++ E ++ without a.shrinkMask (A.length + 1) FB)⟩ := by
      unfold slicePlan
      rw [hn, if_neg (by omega), if_neg (by omega)]
      simp only [hell, ellipsisAt_pow (show A.length < n by omega)]
      have cA : countAxes a.newAxisMask 0 A.length = (without a.newAxisMask 0 A).length := by
        have := countAxes_without a.newAxisMask A 0
        rwa [Nat.zero_add] at this
      have cB : countAxes a.newAxisMask (A.length + 1) n = (without a.newAxisMask (A.length + 1) B).length := by
        have := countAxes_without a.newAxisMask B (A.length + 1)
        rwa [show A.length + 1 + B.length = n by omega] at this
      have pE := prod32_ok (noOverflow_of_pos hposE hPE).pfits
      simp only [Int.natCast_one, Nat.one_mul] at pE
      generalize hwA : without a.newAxisMask 0 A = wA at *
      generalize hwB : without a.newAxisMask (A.length + 1) B = wB at *
      rw [cA, cB, if_neg (by simp [ints])]
      have s1 : (ints (wA ++ E ++ wB)).length - wA.length - wB.length = E.length := by simp [ints]
      have s2 : ((ints (wA ++ E ++ wB)).drop wA.length).take E.length = ints E := by simp [ints]
      have s3 : (ints (wA ++ E ++ wB)).take wA.length = ints wA := by simp [ints]
      have s4 : (ints (wA ++ E ++ wB)).drop (wA.length + E.length) = ints wB := by
        rw [show wA.length + E.length = (wA ++ E).length by simp]
        simp only [ints, ← List.map_drop, List.drop_left]
      rw [s1, s2, s3, s4, pE]
      simp only [Res.bind_ok]
      have hin := insertAxes_ok a.newAxisMask [] (A ++ prod E :: B) [] (by
        intro j hj hbj
        rw [List.length_nil, Nat.zero_add] at hbj
        rcases hcase j (by simp at hj; omega) with h | rfl | ⟨j', h, rfl⟩
        · rw [getD_mid_left h]; exact hnA j h (by rwa [Nat.zero_add])
        · rw [hk] at hbj; cases hbj
        · rw [getD_mid_right]; exact hnB j' h hbj) (by simp; omega)
      simp only [List.length_nil, List.nil_append, List.append_nil] at hin
      rw [without_append, Nat.zero_add, hwA] at hin
      simp only [without, hk, Bool.false_eq_true, if_false, hwB] at hin
      rw [← List.range_eq_range', show (A ++ prod E :: B).length = n by simp; omega] at hin
      rw [show ints wA ++ ((prod E : Nat) : Int) :: ints wB = ints (wA ++ prod E :: wB) by simp [ints], hin]
      simp only [Res.bind_ok]
      rw [if_neg (by simp; omega), if_neg (by simp; omega)]
      rw [show sliceDims (a.beginMask ||| 2 ^ A.length) (a.endMask ||| 2 ^ A.length) 0 (ints (A ++ prod E :: B)) a.begins
        a.ends (a.strides.set A.length 1) = .ok (ints (FA ++ prod E :: FB), bs') from t1]
      simp only [Res.bind_ok]
      have hr : (List.range n).reverse = (List.range' (A.length + 1) B.length).reverse ++ (A.length ::
          (List.range' 0 A.length).reverse) := by
        rw [List.range_eq_range', show n = A.length + (1 + B.length) by omega, ← List.range'_append_1,
          ← List.range'_append_1 (m := 1), List.reverse_append, List.reverse_append]
        simp
      rw [hr, shrinkLoop_append]
      have l1 := shrinkLoop_part a.shrinkMask A.length (ints E) [] FB (FA ++ [prod E]) (by simpa [hFAl] using hsB)
        (by simp; omega)
      simp only [List.length_append, List.length_singleton, List.append_nil, hFAl, hFBl] at l1
      rw [show FA ++ prod E :: FB = FA ++ [prod E] ++ FB by simp, l1]
      simp only [Res.bind_ok]
      rw [shrinkLoop, if_pos ⟨by simpa [ints] using hE, rfl⟩]
      have s5 : (ints (FA ++ [prod E] ++ without a.shrinkMask (A.length + 1) FB)).take A.length ++ ints E ++
          (ints (FA ++ [prod E] ++ without a.shrinkMask (A.length + 1) FB)).drop (A.length + 1) =
          ints ([] ++ FA ++ (E ++ without a.shrinkMask (A.length + 1) FB)) := by
        rw [← hFAl]
        simp [ints, List.drop_append]
      rw [s5]
      have l2 := shrinkLoop_part a.shrinkMask A.length (ints E) (E ++ without a.shrinkMask (A.length + 1) FB) FA []
        (by simpa using hsA) (by simp; omega)
      simp only [List.length_nil, hFAl, List.nil_append] at l2
      rw [List.nil_append, l2]
      simp only [Res.bind_ok, List.append_assoc]
      rfl
    rw [hplan]
    simp only [Res.bind_ok]
    have hcount : prod32 1 (ints (without a.newAxisMask 0 A ++ E ++ without a.newAxisMask (A.length + 1) B)) =
        prod32 1 (ints (A ++ prod E :: B)) := by
      have u1 := prod32_ok (noOverflow_of_pos hpos hb).pfits
      have u2 := prod32_ok (noOverflow_of_pos hposx (by omega)).pfits
      simp only [Int.natCast_one, Nat.one_mul] at u1 u2
      rw [u1, u2, hprod]
    rw [prod32_congr_reshape hcount, p2]
    simp only [Res.bind_ok]
    rw [if_pos hty, p3]
    simp only [Res.bind_ok]
    have hno : NoOverflow (without a.shrinkMask 0 FA ++ E ++ without a.shrinkMask (A.length + 1) FB) := by
      refine (sameOnes (s := FA ++ E ++ FB) ?_ (noOverflow_expand hposE hnr)).1
      simp only [List.filter_append, without_ones FA hsA, without_ones FB hsB]
    rw [reshapeShape_nat hnr hno, if_pos]
    · rfl
    · rw [← hpF]; simp only [prod_append, without_prod FA hsA, without_prod FB hsB]
  · intro ca ce cb h1 h2 h3
    have hca := h1.length
    have hcE := h2.length
    have hcb := h3.length
    have hc : InBounds (FA ++ prod E :: FB) (ca ++ lin E ce :: cb) := by
      rw [inBounds_append hca]
      exact ⟨h1, lin_lt h2, h3⟩
    obtain ⟨c', ⟨q1, q2, q3⟩, q4⟩ := r3 _ hc
    simp only [a1] at q2
    have hcl := q1.length
    simp only [List.length_append, List.length_cons] at hcl
    have hm := q2 A.length (by omega)
    rw [hbitk, hsetk, getD_mid] at hm
    have hcm : (ca ++ lin E ce :: cb).getD A.length 0 = lin E ce := by
      rw [← hFAl, ← hca]; exact getD_mid
    rw [hcm] at hm
    simp only [bound, if_true, pyStart] at hm
    have hsplit : c' = c'.take A.length ++ lin E ce :: c'.drop (A.length + 1) := by
      conv => lhs; rw [← List.take_append_drop A.length c']
      congr 1
      rw [List.drop_eq_getElem_cons (by omega)]
      congr 1
      simp only [List.getD, List.getElem?_eq_getElem (show A.length < c'.length by omega), Option.getD_some] at hm
      simp at hm
      omega
    generalize hu : c'.take A.length = u at hsplit
    generalize hv : c'.drop (A.length + 1) = v at hsplit
    have hul : u.length = A.length := by rw [← hu]; simp; omega
    subst hsplit
    rw [inBounds_append hul] at q1
    refine ⟨u, v, ⟨q1.1, ?_⟩, ⟨q1.2.2, ?_⟩, ?_⟩
    · intro j hj
      have := q2 j (by omega)
      rw [hbit _ _ (by omega), hset _ (by omega), getD_mid_left (by omega), getD_mid_left (by omega),
        getD_mid_left (by omega)] at this
      simpa using this
    · intro j hj
      have := q2 (A.length + 1 + j) (by omega)
      rw [hbit _ _ (by omega), hset _ (by omega), getD_mid_right] at this
      rw [show (u ++ lin E ce :: v).getD (A.length + 1 + j) 0 = v.getD j 0 by rw [← hul]; exact getD_mid_right,
        show (ca ++ lin E ce :: cb).getD (A.length + 1 + j) 0 = cb.getD j 0 by
          rw [← hFAl, ← hca]; exact getD_mid_right] at this
      exact this
    · have e1 : lin (FA ++ E ++ FB) (ca ++ ce ++ cb) = lin (FA ++ prod E :: FB) (ca ++ lin E ce :: cb) := by
        rw [List.append_assoc, List.append_assoc, lin_append hca, lin_append hcE, lin_append hca]
        simp only [lin, prod_append, prod]
      have e2 : lin (A ++ E ++ B) (u ++ ce ++ v) = lin (A ++ prod E :: B) (u ++ lin E ce :: v) := by
        rw [List.append_assoc, List.append_assoc, lin_append hul, lin_append hcE, lin_append hul]
        simp only [lin, prod_append, prod]
      rw [e1, e2, q4]

/-- The hypotheses are met: `x[newaxis, ..., 1]` on a 2 × 3 × 2 tensor; the new axis is written `0:1`, the last dimension
is shrunk away. -/
example : sliceRun ⟨[0, 0, 1], [1, 0, 2], [1, 1, 1], 0, 0, 2, 1, 4⟩ 2 [2, 3, 2] [0, 1, 2, 3, 4, 5, 6, 7, 8, 9, 10, 11]
    [0, 0, 0, 0, 0, 0] = .ok ([1, 2, 3], [1, 3, 5, 7, 9, 11]) := by decide
example : PartSelects ⟨[0, 0, 1], [1, 0, 2], [1, 1, 1], 0, 0, 2, 1, 4⟩ 0 [1] [1] ∧
    PartSelects ⟨[0, 0, 1], [1, 0, 2], [1, 1, 1], 0, 0, 2, 1, 4⟩ 2 [2] [1] ∧
    NewOnes 1 0 [1] ∧ NewOnes 1 2 [2] ∧ NewOnes 4 0 [1] ∧ NewOnes 4 2 [1] ∧
    without 1 0 [1] ++ [2, 3] ++ without 1 2 [2] = [2, 3, 2] ∧ without 4 0 [1] ++ [2, 3] ++ without 4 2 [1] = [1, 2, 3] := by
  refine ⟨⟨rfl, ?_, ?_⟩, ⟨rfl, ?_, ?_⟩, ?_, ?_, ?_, ?_, by decide, by decide⟩
  · intro j hj
    have : j = 0 := by simp at hj; omega
    subst this; simp [SliceOk, bit]
  · intro j hj k
    have : j = 0 := by simp at hj; omega
    subst this
    show k < 1 ↔ PyHas 1 (some 0) (some 1) 1 k
    simp [PyHas, pyStart, pyStop]
  · intro j hj
    have : j = 0 := by simp at hj; omega
    subst this; simp [SliceOk, bit]
  · intro j hj k
    have : j = 0 := by simp at hj; omega
    subst this
    show k < 1 ↔ PyHas 2 (some 1) (some 2) 1 k
    simp [PyHas, pyStart, pyStop]; omega
  all_goals
    intro j hj hb
    have : j = 0 := by simp at hj; omega
    subst this
    revert hb; decide

/-- The hypotheses of `C18_new_axis_partial` are met: `x[::2, newaxis]` on five elements. -/
example : sliceRun ⟨[0, 0], [5, 1], [2, 1], 0, 0, 0, 2, 0⟩ 2 [5] [0, 1, 2, 3, 4] [9, 9, 9] =
    .ok ([3, 1], [0, 2, 4]) := by decide
example : without 2 0 [5, 1] ++ [] = [5] ∧ NewOnes 2 0 [5, 1] := by
  refine ⟨by decide, ?_⟩
  intro j hj hb
  have : j = 0 ∨ j = 1 := by simp at hj; omega
  rcases this with rfl | rfl
  · revert hb; decide
  · rfl

/-- A new axis written with the begin and end that TensorFlow gives it (`0:0`, ignored there) is not an extent of one: the
result is empty. -/
theorem C18_new_axis_false :
    sliceRun ⟨[0], [0], [1], 0, 0, 0, 1, 0⟩ 2 [2] [7, 8] [] = .ok ([0, 2], ([] : List Nat)) := by decide

end Verif.Props
