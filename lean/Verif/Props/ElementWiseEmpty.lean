import Verif.Props.ElementWise
/-!
# C19 for tensors without elements
-/
namespace Verif.Props
open Verif.Core Verif.Spec Verif.Kernels

/-- numpy's result shape, also for extents of zero: where one extent is one, the other one -/
def numpyShape (l r : List Nat) : List Nat :=
  ((List.range (max l.length r.length)).map fun k => if ext l k = 1 then ext r k else ext l k).reverse

/-- the extents without the zeros: what the products of `int` are bounded by -/
def nonzeroProd (s : List Nat) : Nat := prod (s.map (max 1))

abbrev pick (a c : Nat) : Nat := if a = 1 then c else a

theorem numpyShape_length (l r : List Nat) : (numpyShape l r).length = max l.length r.length := by
  simp [numpyShape]

theorem numpyShape_getD (l r : List Nat) (j : Nat) (h : j < max l.length r.length) :
    (numpyShape l r).getD j 0 = pick (ext l (max l.length r.length - 1 - j)) (ext r (max l.length r.length - 1 - j)) := by
  unfold numpyShape
  simp only [List.getD]
  rw [List.getElem?_eq_getElem (by simpa using h)]
  simp

theorem numpyShape_eq (l r : List Nat) :
    numpyShape l r = List.zipWith pick (frontOnes l r.length) (frontOnes r l.length) := by
  have l1 := frontOnes_length l r.length
  have l2 := frontOnes_length r l.length
  apply list_ext_getD
  · rw [numpyShape_length, List.length_zipWith]; omega
  · intro j hj
    rw [numpyShape_length] at hj
    rw [numpyShape_getD _ _ _ hj]
    have h1 := frontOnes_getD l r.length j hj
    have h2 := frontOnes_getD r l.length j (by omega)
    simp only [List.getD] at h1 h2 ⊢
    rw [List.getElem?_eq_getElem (by omega)] at h1 h2
    rw [List.getElem?_eq_getElem (by rw [List.length_zipWith]; omega), List.getElem_zipWith]
    simp only [Option.getD_some] at *
    rw [h1, h2, Nat.max_comm r.length]

/-- for positive extents it is the larger extent -/
theorem numpyShape_pos (l r : List Nat) (hc : NumpyCompatible l r) (h : ∀ k, 0 < ext l k ∧ 0 < ext r k) : numpyShape l r = broadcastShape l r := by
  unfold numpyShape broadcastShape
  congr 1
  apply List.map_congr_left
  intro k _
  have := hc k
  have := h k
  split <;> omega

theorem reduceLoop_pick : ∀ (l r : List Nat), l.length = r.length → (∀ p ∈ l.zip r, p.1 = p.2 ∨ p.1 = 1 ∨ p.2 = 1) →
    ∃ b, reduceLoop l r = .ok (List.zipWith pick l r, b)
  | [], [], _, _ => ⟨false, rfl⟩
  | a :: l, c :: r, hl, h => by
    obtain ⟨b, e⟩ := reduceLoop_pick l r (by simpa using hl) (fun p hp => h p (by simp [hp]))
    have h0 := h (a, c) (by simp)
    simp only at h0
    unfold reduceLoop
    by_cases hac : a = c
    · subst hac
      rw [if_neg (by simp), e]
      refine ⟨b, ?_⟩
      simp only [Res.bind_ok, List.zipWith_cons_cons, pick, ite_self]
    · rw [if_pos hac, if_neg (by omega), e]
      refine ⟨true, ?_⟩
      simp only [Res.bind_ok, List.zipWith_cons_cons, pick]
      congr 2
      congr 1
      rcases h0 with h | h | h
      · exact absurd h hac
      · subst h; simp
      · subst h
        rw [if_neg hac, Nat.mul_one]

theorem nonzeroProd_pos (s : List Nat) : 0 < nonzeroProd s := by
  unfold nonzeroProd
  induction s with
  | nil => simp [prod]
  | cons a s ih => simp only [List.map_cons, prod]; exact Nat.mul_pos (by omega) ih

theorem nonzeroProd_cons (a : Nat) (s : List Nat) : nonzeroProd (a :: s) = max 1 a * nonzeroProd s := rfl

theorem nonzeroProd_append (s t : List Nat) : nonzeroProd (s ++ t) = nonzeroProd s * nonzeroProd t := by
  unfold nonzeroProd
  rw [List.map_append, prod_append]

theorem prod_le_nonzero (s : List Nat) : prod s ≤ nonzeroProd s := by
  induction s with
  | nil => exact Nat.le_refl _
  | cons a s ih => rw [nonzeroProd_cons]; exact Nat.mul_le_mul (by omega) ih

/-- merging a group does not enlarge the product -/
theorem merged_le (s : List Nat) : max 1 (prod s) ≤ nonzeroProd s := by
  have := prod_le_nonzero s
  have := nonzeroProd_pos s
  omega

/-- merging keeps the number of elements and does not enlarge the products -/
theorem reduceDims_prod (sel : Dim3 → Nat) (hs : ∀ g, sel (mulDims g) = prod (g.map sel)) (n : Nat) (ds : List Dim3) :
    prod ((reduceDims n ds).map sel) = prod (ds.map sel) ∧ nonzeroProd ((reduceDims n ds).map sel) ≤ nonzeroProd (ds.map sel) := by
  induction n generalizing ds with
  | zero => exact ⟨rfl, Nat.le_refl _⟩
  | succ n ih =>
    cases ds with
    | nil => exact ⟨rfl, Nat.le_refl _⟩
    | cons d t =>
      obtain ⟨l, r, o⟩ := d
      unfold reduceDims
      split
      · rename_i hc
        have hg := (takeGroup_spec (l == 1) (r == 1) (l == r) t (by simpa [or_assoc] using hc)).1
        split
        · rename_i g gs rest he
          rw [he] at hg
          simp only at hg
          obtain ⟨h1, h2⟩ := ih rest
          have e : ((l, r, o) :: t).map sel = (((l, r, o) :: g :: gs).map sel) ++ rest.map sel := by
            rw [← hg]; simp
          rw [List.map_cons, hs, e]
          refine ⟨?_, ?_⟩
          · rw [prod_append]
            show _ * _ = _ * _
            rw [h1]
          · rw [nonzeroProd_append, nonzeroProd_cons]
            exact Nat.mul_le_mul (merged_le _) h2
        · split
          · exact ⟨rfl, Nat.le_refl _⟩
          · rename_i t' he'
            obtain ⟨h1, h2⟩ := ih t'
            simp only [List.map_cons, nonzeroProd_cons, prod]
            refine ⟨by rw [h1], ?_⟩
            exact Nat.mul_le_mul_left _ (Nat.mul_le_mul_left _ h2)
      · obtain ⟨h1, h2⟩ := ih t
        simp only [List.map_cons, nonzeroProd_cons, prod]
        exact ⟨by rw [h1], Nat.mul_le_mul_left _ h2⟩

theorem weights_ok : ∀ (s : List Nat), nonzeroProd s ≤ 2147483647 →
    ∃ w, weights (s.map Int.ofNat) = .ok w ∧ (s ≠ [] → w.headD 0 = (prod s : Int))
  | [], _ => ⟨[], rfl, fun h => absurd rfl h⟩
  | [a], _ => ⟨[(a : Int)], rfl, fun _ => by simp [prod]⟩
  | a :: b :: s, h => by
    have hp := nonzeroProd_pos (b :: s)
    have h1 : nonzeroProd (b :: s) ≤ 2147483647 := by
      rw [nonzeroProd_cons] at h
      exact Nat.le_trans (Nat.le_mul_of_pos_left _ (by omega)) h
    obtain ⟨w, e, hw⟩ := weights_ok (b :: s) h1
    have hl := prod_le_nonzero (a :: b :: s)
    have hh := hw (by simp)
    refine ⟨((prod (a :: b :: s) : Nat) : Int) :: w, ?_, fun _ => rfl⟩
    simp only [List.map_cons] at e ⊢
    unfold weights
    rw [e, Res.bind_ok, hh]
    have : (prod (b :: s) : Int) * Int.ofNat a = ((prod (a :: b :: s) : Nat) : Int) := by
      show _ * (a : Int) = ((a * prod (b :: s) : Nat) : Int)
      push_cast
      exact Int.mul_comm _ _
    rw [this, int32_ok (by unfold I32; constructor <;> omega), Res.bind_ok]

theorem prod32_zero : ∀ (s : List Nat) (acc : Nat), acc * nonzeroProd s ≤ 2147483647 →
    prod32 acc (s.map Int.ofNat) = .ok ((acc * prod s : Nat) : Int)
  | [], acc, _ => by simp [prod32, prod]
  | a :: s, acc, h => by
    rw [nonzeroProd_cons] at h
    have h1 : acc * a * nonzeroProd s ≤ 2147483647 := by
      refine Nat.le_trans ?_ h
      rw [Nat.mul_assoc]
      exact Nat.mul_le_mul_left _ (Nat.mul_le_mul_right _ (by omega))
    have hp := nonzeroProd_pos s
    have h2 : acc * a ≤ 2147483647 := Nat.le_trans (Nat.le_mul_of_pos_right _ hp) h1
    simp only [List.map_cons]
    unfold prod32
    have e : (acc : Int) * Int.ofNat a = ((acc * a : Nat) : Int) := by push_cast; rfl
    rw [e, int32_ok (by unfold I32; constructor <;> omega), Res.bind_ok, prod32_zero s (acc * a) h1]
    rw [show acc * prod (a :: s) = acc * a * prod s by rw [Nat.mul_assoc]; rfl]

variable {α : Type}

theorem runBroadcast_empty (f : α → α → α) (lhs rhs : List α) (l r o : List Nat) (h0 : prod o = 0)
    (hl : nonzeroProd l ≤ 2147483647) (hr : nonzeroProd r ≤ 2147483647) (ho : nonzeroProd o ≤ 2147483647) :
    runBroadcast f lhs rhs l r o [] = .ok [] := by
  unfold runBroadcast
  obtain ⟨w, e, _⟩ := weights_ok l hl
  obtain ⟨v, e', _⟩ := weights_ok r hr
  have e2 := prod32_zero o 1 (by omega)
  rw [h0] at e2
  rw [e, Res.bind_ok, e', Res.bind_ok]
  simp only [Nat.mul_zero] at e2
  have e3 : prod32 1 (o.map Int.ofNat) = .ok 0 := e2
  rw [e3, Res.bind_ok]
  rfl

theorem prod_split (o : List Nat) (d : Nat) (h : d < o.length) : prod o = prod (o.take d) * (o.getD d 0 * prod (o.drop (d + 1))) := by
  conv => lhs; rw [← List.take_append_drop d o, prod_append, List.drop_eq_getElem_cons h]
  simp [prod, List.getD, List.getElem?_eq_getElem h]

theorem flatMap_none {β γ : Type} (l : List β) : List.flatMap (fun _ => ([] : List γ)) l = [] := by
  induction l with
  | nil => rfl
  | cons a l ih => rw [List.flatMap_cons, ih]; rfl

theorem runBias_empty (float : Bool) (f : α → α → α) (main other : List α) (o : List Nat) (d : Nat) (h0 : prod o = 0) :
    runBias float f main other o d [] = .ok [] := by
  unfold runBias
  rw [h0]
  have e : copyInto 0 main ([] : List α) = .ok [] := by simp [copyInto]
  rw [e, Res.bind_ok]
  by_cases hd : d < o.length
  · have hz := prod_split o d hd
    rw [h0] at hz
    rcases Nat.mul_eq_zero.mp hz.symm with h | h
    · simp only [h, List.range_zero, List.flatMap_nil, runInPlace, ite_self]
    · rcases Nat.mul_eq_zero.mp h with h | h
      · rw [h]
        simp [runInPlace, flatMap_none]
      · simp only [h, order_eq]
        simp [runInPlace, flatMap_none]
  · have : o.getD d 0 = 0 := by simp [List.getD, List.getElem?_eq_none (show o.length ≤ d by omega)]
    rw [this]
    simp [runInPlace, flatMap_none]

theorem runScalar_empty (float : Bool) (f : α → α → α) (main other : List α) : runScalar float f main other 0 [] = .ok [] := by
  unfold runScalar
  simp [order_eq, runTriples, copyInto, runInPlace]

theorem runSame_empty (float : Bool) (f : α → α → α) (main other : List α) : runSame float f main other 0 [] = .ok [] := by
  unfold runSame
  simp [order_eq, runTriples, copyInto, runInPlace]

theorem dispatch_empty (cross : Cross) (float : Bool) (f : α → α → α) (b : Bool) (l r o : List Nat) (lhs rhs : List α) (h0 : prod o = 0)
    (hl : nonzeroProd l ≤ 2147483647) (hr : nonzeroProd r ≤ 2147483647) (ho : nonzeroProd o ≤ 2147483647) :
    dispatch cross float f b l r o lhs rhs [] = .ok [] := by
  have hB := runBroadcast_empty f lhs rhs l r o h0 hl hr ho
  unfold dispatch
  rw [h0]
  split
  · exact runSame_empty ..
  · split
    · exact runScalar_empty ..
    · split
      · cases cross
        · exact runScalar_empty ..
        · exact runScalar_empty ..
        · exact hB
      · split
        · exact runBias_empty _ _ _ _ _ _ h0
        · split
          · cases cross
            · exact runBias_empty _ _ _ _ _ _ h0
            · exact runBias_empty _ _ _ _ _ _ h0
            · exact hB
          · exact hB

theorem nonzeroProd_frontOnes (s : List Nat) (n : Nat) : nonzeroProd (frontOnes s n) = nonzeroProd s := by
  unfold frontOnes
  rw [nonzeroProd_append]
  have : ∀ k, nonzeroProd (List.replicate k 1) = 1 := by
    intro k
    induction k with
    | zero => rfl
    | succ k ih => rw [List.replicate_succ, nonzeroProd_cons, ih]; rfl
  rw [this, Nat.one_mul]

/-- **C19 (no elements)**: compatible shapes of which the result has no element give the empty tensor of numpy's shape (0 against 1 is 0), for every
implementation style, operators that exchange operands included, as long as the products of the extents other than zero are ints. -/
theorem C19_empty (cross : Cross) (float : Bool) (f : α → α → α) (l r : List Nat) (lhs rhs : List α) (hc : NumpyCompatible l r)
    (h0 : 0 ∈ numpyShape l r) (hl : nonzeroProd l ≤ 2147483647) (hr : nonzeroProd r ≤ 2147483647)
    (ho : nonzeroProd (numpyShape l r) ≤ 2147483647) : elementWise cross float f l r lhs rhs [] = .ok (numpyShape l r, []) := by
  have l1 := frontOnes_length l r.length
  have l2 := frontOnes_length r l.length
  have l3 := numpyShape_length l r
  have hlen : (frontOnes l r.length).length = (frontOnes r l.length).length := by omega
  have hred : ∃ b, reduceShapes l r = .ok (frontOnes l r.length, frontOnes r l.length, numpyShape l r, b) := by
    unfold reduceShapes
    by_cases hlr : l = r
    · subst hlr
      have e : frontOnes l l.length = l := by simp [frontOnes]
      refine ⟨false, ?_⟩
      rw [if_pos rfl, numpyShape_eq, e]
      have : ∀ z : List Nat, List.zipWith pick z z = z := by
        intro z
        induction z with
        | nil => rfl
        | cons a z ih => simp [ih, pick]
      rw [this]
    · rw [if_neg hlr]
      rw [compatible_iff] at hc
      obtain ⟨b, e⟩ := reduceLoop_pick _ _ hlen hc
      refine ⟨b, ?_⟩
      simp only [e, Res.bind_ok, numpyShape_eq]
  obtain ⟨b, e⟩ := hred
  have hz : prod (numpyShape l r) = 0 := by
    clear e ho l3
    revert h0
    generalize numpyShape l r = z
    intro h0
    induction z with
    | nil => simp at h0
    | cons a z ih =>
      rcases List.mem_cons.mp h0 with h | h
      · show a * _ = 0
        rw [← h, Nat.zero_mul]
      · show a * prod z = 0
        rw [ih h, Nat.mul_zero]
  obtain ⟨_, _, m3, m4, m5⟩ := map_lo_zip (frontOnes l r.length) (frontOnes r l.length) (numpyShape l r) (by omega) (by omega)
  have p1 := reduceDims_prod Prod.fst (fun g => by rw [mulDims_eq]) (numpyShape l r).length
    ((frontOnes l r.length).zip ((frontOnes r l.length).zip (numpyShape l r)))
  have p2 := reduceDims_prod (fun d => d.2.1) (fun g => by rw [mulDims_eq]) (numpyShape l r).length
    ((frontOnes l r.length).zip ((frontOnes r l.length).zip (numpyShape l r)))
  have p3 := reduceDims_prod (fun d => d.2.2) (fun g => by rw [mulDims_eq]) (numpyShape l r).length
    ((frontOnes l r.length).zip ((frontOnes r l.length).zip (numpyShape l r)))
  rw [m3, nonzeroProd_frontOnes] at p1
  rw [m4, nonzeroProd_frontOnes] at p2
  rw [m5] at p3
  unfold elementWise
  rw [e, Res.bind_ok]
  simp only
  rw [dispatch_empty cross float f b _ _ _ lhs rhs (by rw [p3.1, hz]) (Nat.le_trans p1.2 hl) (Nat.le_trans p2.2 hr) (Nat.le_trans p3.2 ho), Res.bind_ok]

example : NumpyCompatible [2, 0, 3] [1, 3] ∧ numpyShape [2, 0, 3] [1, 3] = [2, 0, 3] := by
  refine ⟨fun k => ?_, by decide⟩
  rcases k with _ | _ | _ | k
  · exact .inl rfl
  · exact .inr (.inr rfl)
  · exact .inr (.inr rfl)
  · exact .inl (by simp [ext])
example : elementWise .swap true (· + ·) [2, 0, 3] [1, 3] ([] : List Int) [1, 2, 3] [] = .ok ([2, 0, 3], []) := by decide

end Verif.Props
