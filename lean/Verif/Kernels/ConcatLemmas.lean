import Mathlib.Tactic.Ring
import Verif.Kernels.Concat
namespace Verif.Kernels
open Verif.Core Verif.Spec
variable {α : Type}

/-- position in a three-dimensional box -/
def pos3 (A S j b r : Nat) : Nat := (j * A + b) * S + r

theorem pos3_lt {N A S j b r : Nat} (hj : j < N) (hb : b < A) (hr : r < S) : pos3 A S j b r < N * A * S := by
  have h1 : j * A + b < N * A := by
    have : (j + 1) * A ≤ N * A := Nat.mul_le_mul_right _ hj
    rw [Nat.add_mul] at this; omega
  have h2 : (j * A + b + 1) * S ≤ N * A * S := Nat.mul_le_mul_right _ h1
  rw [Nat.add_mul] at h2
  unfold pos3; omega

theorem pos3_inj {A S j b r j' b' r' : Nat} (hb : b < A) (hr : r < S) (hb' : b' < A) (hr' : r' < S)
    (h : pos3 A S j b r = pos3 A S j' b' r') : j = j' ∧ b = b' ∧ r = r' := by
  unfold pos3 at h
  have e1 : ∀ x y, y < S → (x * S + y) / S = x ∧ (x * S + y) % S = y := by
    intro x y hy
    constructor
    · rw [Nat.add_comm, Nat.add_mul_div_right _ _ (by omega), Nat.div_eq_of_lt hy]; omega
    · rw [Nat.add_comm, Nat.add_mul_mod_self_right, Nat.mod_eq_of_lt hy]
  have e2 : ∀ x y, y < A → (x * A + y) / A = x ∧ (x * A + y) % A = y := by
    intro x y hy
    constructor
    · rw [Nat.add_comm, Nat.add_mul_div_right _ _ (by omega), Nat.div_eq_of_lt hy]; omega
    · rw [Nat.add_comm, Nat.add_mul_mod_self_right, Nat.mod_eq_of_lt hy]
  have hr1 := (e1 (j * A + b) r hr).2
  have hr2 := (e1 (j' * A + b') r' hr').2
  have hq1 := (e1 (j * A + b) r hr).1
  have hq2 := (e1 (j' * A + b') r' hr').1
  rw [h] at hr1 hq1
  have hq : j * A + b = j' * A + b' := by omega
  have hb1 := (e2 j b hb).2
  have hb2 := (e2 j' b' hb').2
  have hj1 := (e2 j b hb).1
  have hj2 := (e2 j' b' hb').1
  rw [hq] at hb1 hj1
  exact ⟨by omega, by omega, by omega⟩

theorem pos3_surj {N A S i : Nat} (hi : i < N * A * S) : ∃ j b r, j < N ∧ b < A ∧ r < S ∧ i = pos3 A S j b r := by
  have hS : 0 < S := by rcases Nat.eq_zero_or_pos S with h | h; · simp [h] at hi
                        · exact h
  have hA : 0 < A := by rcases Nat.eq_zero_or_pos A with h | h; · simp [h] at hi
                        · exact h
  refine ⟨i / S / A, i / S % A, i % S, ?_, Nat.mod_lt _ hA, Nat.mod_lt _ hS, ?_⟩
  · rw [Nat.div_lt_iff_lt_mul hA, Nat.div_lt_iff_lt_mul hS]; exact hi
  · unfold pos3; rw [Nat.div_add_mod', Nat.div_add_mod']

theorem blockMoves_mem {N A off S a : Nat} {m : Nat × Nat} :
    m ∈ blockMoves N A off S a ↔
      ∃ j i r, j < N ∧ i < a ∧ r < S ∧ m = (pos3 A S j (off + i) r, pos3 a S j i r) := by
  simp only [blockMoves, List.mem_flatMap, List.mem_map, List.mem_range]
  constructor
  · rintro ⟨j, hj, t, ht, rfl⟩
    have hS : 0 < S := by rcases Nat.eq_zero_or_pos S with h | h; · simp [h] at ht
                          · exact h
    refine ⟨j, t / S, t % S, hj, (Nat.div_lt_iff_lt_mul hS).2 ht, Nat.mod_lt _ hS, ?_⟩
    have := Nat.div_add_mod' t S
    unfold pos3
    congr 1
    · rw [show (j * A + (off + t / S)) * S + t % S = (j * A + off) * S + (t / S * S + t % S) by ring, this]
    · rw [show (j * a + t / S) * S + t % S = j * a * S + (t / S * S + t % S) by ring, this]
  · rintro ⟨j, i, r, hj, hi, hr, rfl⟩
    refine ⟨j, hj, i * S + r, ?_, ?_⟩
    · have : (i + 1) * S ≤ a * S := Nat.mul_le_mul_right _ hi
      rw [Nat.add_mul] at this; omega
    · unfold pos3; congr 1 <;> ring

/-- sum of the extents along dimension `d` -/
def axisSum (d : Nat) (xs : List (Operand α)) : Nat := (xs.map fun x => x.shape.getD d 0).sum

theorem concatCopy_ok (d N A S : Nat) (xs : List (Operand α)) (off : Nat) (dst : List α)
    (hoff : off + axisSum d xs ≤ A) (hdst : dst.length = N * A * S)
    (hdata : ∀ x ∈ xs, x.data.length = N * x.shape.getD d 0 * S) :
    ∃ out, concatCopy d N A S off xs dst = .ok out ∧ out.length = dst.length ∧
      (∀ k (hk : k < xs.length), ∀ j i r, j < N → i < (xs[k]).shape.getD d 0 → r < S →
        out[pos3 A S j (off + axisSum d (xs.take k) + i) r]? =
          (xs[k]).data[pos3 ((xs[k]).shape.getD d 0) S j i r]?) ∧
      (∀ j b r, j < N → b < off → r < S → out[pos3 A S j b r]? = dst[pos3 A S j b r]?) := by
  induction xs generalizing off dst with
  | nil => exact ⟨dst, rfl, rfl, by simp, by simp⟩
  | cons x xs ih =>
    generalize ha : x.shape.getD d 0 = a at *
    have hsum : axisSum d (x :: xs) = a + axisSum d xs := by simp only [axisSum, List.map_cons, List.sum_cons, ha]
    have hx := hdata x (by simp)
    rw [ha] at hx
    obtain ⟨mid, e, el, ein, eout⟩ := runMoves_rel x.data (blockMoves N A off S a) dst
      (by
        intro m hm m' hm' h
        obtain ⟨j, i, r, hj, hi, hr, rfl⟩ := blockMoves_mem.1 hm
        obtain ⟨j', i', r', hj', hi', hr', rfl⟩ := blockMoves_mem.1 hm'
        obtain ⟨h1, h2, h3⟩ := pos3_inj (by omega) hr (by omega) hr' h
        subst h1; subst h3
        have : i = i' := by omega
        subst this; rfl)
      (by
        intro m hm
        obtain ⟨j, i, r, hj, hi, hr, rfl⟩ := blockMoves_mem.1 hm
        rw [hx]; exact pos3_lt hj hi hr)
      (by
        intro m hm
        obtain ⟨j, i, r, hj, hi, hr, rfl⟩ := blockMoves_mem.1 hm
        rw [hdst]; exact pos3_lt hj (by omega) hr)
    obtain ⟨out, e2, el2, hk2, hlow⟩ := ih (off + a) mid (by omega) (by omega)
      (fun y hy => hdata y (by simp [hy]))
    refine ⟨out, ?_, by omega, ?_, ?_⟩
    · simp only [concatCopy, ha, e, Res.bind_ok, e2]
    · intro k hk j i r hj hi hr
      cases k with
      | zero =>
        simp only [List.take_zero, axisSum, List.map_nil, List.sum_nil, Nat.add_zero, List.getElem_cons_zero] at hi ⊢
        rw [ha] at hi ⊢
        rw [hlow j (off + i) r hj (by omega) hr]
        exact ein _ (blockMoves_mem.2 ⟨j, i, r, hj, hi, hr, rfl⟩)
      | succ k =>
        simp only [List.take_succ_cons, List.getElem_cons_succ] at hi ⊢
        have := hk2 k (by simpa using hk) j i r hj hi hr
        rw [show axisSum d (x :: xs.take k) = a + axisSum d (xs.take k) by
          simp only [axisSum, List.map_cons, List.sum_cons, ha], ← Nat.add_assoc]
        exact this
    · intro j b r hj hb hr
      rw [hlow j b r hj (by omega) hr, eout]
      intro hmem
      simp only [List.mem_map] at hmem
      obtain ⟨m, hm, he⟩ := hmem
      obtain ⟨j', i', r', hj', hi', hr', rfl⟩ := blockMoves_mem.1 hm
      obtain ⟨_, h2, _⟩ := pos3_inj (by omega) hr' (by omega) hr he
      omega

/-- a position inside `[0, Σ aₖ)` lies in exactly one of the consecutive segments -/
theorem seg_exists (d : Nat) (xs : List (Operand α)) (b : Nat) (hb : b < axisSum d xs) :
    ∃ k, ∃ hk : k < xs.length, ∃ i, i < (xs[k]).shape.getD d 0 ∧ b = axisSum d (xs.take k) + i := by
  induction xs generalizing b with
  | nil => simp [axisSum] at hb
  | cons x xs ih =>
    by_cases h : b < x.shape.getD d 0
    · exact ⟨0, by simp, b, by simpa using h, by simp [axisSum]⟩
    · simp only [axisSum, List.map_cons, List.sum_cons] at hb
      obtain ⟨k, hk, i, hi, e⟩ := ih (b - x.shape.getD d 0) (by unfold axisSum; omega)
      refine ⟨k + 1, by simpa using hk, i, by simpa using hi, ?_⟩
      simp only [List.take_succ_cons, axisSum, List.map_cons, List.sum_cons] at e ⊢
      omega

theorem lin_mid {pre post u v : List Nat} {A b : Nat} (hu : u.length = pre.length) :
    lin (pre ++ A :: post) (u ++ b :: v) = pos3 A (prod post) (lin pre u) b (lin post v) := by
  rw [lin_append hu]
  simp only [lin, prod, pos3]
  ring

theorem prod_mid (pre post : List Nat) (A : Nat) : prod (pre ++ A :: post) = prod pre * A * prod post := by
  rw [prod_append]; simp only [prod]; ring

end Verif.Kernels
