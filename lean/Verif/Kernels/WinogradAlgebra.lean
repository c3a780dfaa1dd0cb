import Verif.Kernels.Winograd
import Mathlib.Algebra.CharZero.Defs
import Mathlib.Data.Rat.Cast.CharZero
import Mathlib.Data.Rat.BigOperators
import Mathlib.Algebra.BigOperators.Ring.Finset
import Mathlib.Tactic.FieldSimp
import Mathlib.Tactic.IntervalCases
import Mathlib.Tactic.NormNum
import Mathlib.Data.Nat.Cast.Order.Ring
/-!
# The Winograd identity for one tile
-/
namespace Verif.Kernels
open Finset

variable {α : Type}

/-- the three transformations are the matrices `G k G^T`, `B d B^T`, `A m A^T`, and together they correlate vectors -/
structure WinoLaw [CommRing α] (a : WinoAlg α) (A G B : Nat → Nat → α) : Prop where
  kern : ∀ k i j, i < a.side → j < a.side → a.kern k i j = ∑ r ∈ range 3, G i r * ∑ q ∈ range 3, G j q * k r q
  inp : ∀ d i j, i < a.side → j < a.side → a.inp d i j = ∑ s ∈ range a.side, B i s * ∑ t ∈ range a.side, B j t * d s t
  outp : ∀ m u v, u < a.tile → v < a.tile → a.outp m u v = ∑ i ∈ range a.side, A u i * ∑ j ∈ range a.side, A v j * m i j
  corr : ∀ m r s, m < a.tile → r < 3 → s < a.side → ∑ i ∈ range a.side, A m i * G i r * B i s = if s = m + r then 1 else 0
  pos : 0 < a.tile

variable [CommRing α] {a : WinoAlg α} {A G B : Nat → Nat → α}

theorem WinoLaw.line (h : WinoLaw a A G B) (c : Nat → Nat → α) {m : Nat} (hm : m < a.tile) :
    ∑ i ∈ range a.side, A m i * (∑ r ∈ range 3, ∑ s ∈ range a.side, G i r * B i s * c r s) = ∑ r ∈ range 3, c r (m + r) := by
  have e1 : ∀ i, A m i * (∑ r ∈ range 3, ∑ s ∈ range a.side, G i r * B i s * c r s) =
      ∑ r ∈ range 3, ∑ s ∈ range a.side, c r s * (A m i * G i r * B i s) := by
    intro i
    rw [mul_sum]
    refine sum_congr rfl fun r _ => ?_
    rw [mul_sum]
    exact sum_congr rfl fun s _ => by ring
  rw [sum_congr rfl fun i _ => e1 i, sum_comm]
  refine sum_congr rfl fun r hr => ?_
  rw [sum_comm, sum_eq_single (m + r)]
  · rw [← mul_sum, h.corr m r _ hm (mem_range.1 hr) (by unfold WinoAlg.side; have := mem_range.1 hr; omega), if_pos rfl, mul_one]
  · intro s hs hne
    rw [← mul_sum, h.corr m r s hm (mem_range.1 hr) (mem_range.1 hs), if_neg hne, mul_zero]
  · intro hn
    exact absurd (mem_range.2 (by unfold WinoAlg.side; have := mem_range.1 hr; omega)) hn

theorem WinoLaw.conv (h : WinoLaw a A G B) (k d : Nat → Nat → α) {u v : Nat} (hu : u < a.tile) (hv : v < a.tile) :
    ∑ i ∈ range a.side, A u i * ∑ j ∈ range a.side, A v j * (a.kern k i j * a.inp d i j) =
      ∑ r ∈ range 3, ∑ q ∈ range 3, k r q * d (u + r) (v + q) := by
  have e1 : ∀ i ∈ range a.side, ∑ j ∈ range a.side, A v j * (a.kern k i j * a.inp d i j) =
      ∑ q ∈ range 3, (∑ r ∈ range 3, G i r * k r q) * (∑ s ∈ range a.side, B i s * d s (v + q)) := by
    intro i hi
    rw [← h.line (fun q t => (∑ r ∈ range 3, G i r * k r q) * (∑ s ∈ range a.side, B i s * d s t)) hv]
    refine sum_congr rfl fun j hj => ?_
    rw [h.kern k i j (mem_range.1 hi) (mem_range.1 hj), h.inp d i j (mem_range.1 hi) (mem_range.1 hj)]
    congr 1
    have k1 : ∑ r ∈ range 3, G i r * ∑ q ∈ range 3, G j q * k r q = ∑ q ∈ range 3, G j q * ∑ r ∈ range 3, G i r * k r q := by
      simp only [mul_sum]
      rw [sum_comm]
      exact sum_congr rfl fun q _ => sum_congr rfl fun r _ => by ring
    have k2 : ∑ s ∈ range a.side, B i s * ∑ t ∈ range a.side, B j t * d s t =
        ∑ t ∈ range a.side, B j t * ∑ s ∈ range a.side, B i s * d s t := by
      simp only [mul_sum]
      rw [sum_comm]
      exact sum_congr rfl fun q _ => sum_congr rfl fun r _ => by ring
    rw [k1, k2, sum_mul_sum]
    refine sum_congr rfl fun q _ => sum_congr rfl fun t _ => ?_
    ring
  rw [sum_congr rfl fun i hi => by rw [e1 i hi]]
  have e2 : ∀ i ∈ range a.side, A u i * ∑ q ∈ range 3, (∑ r ∈ range 3, G i r * k r q) * (∑ s ∈ range a.side, B i s * d s (v + q)) =
      ∑ q ∈ range 3, A u i * (∑ r ∈ range 3, ∑ s ∈ range a.side, G i r * B i s * (k r q * d s (v + q))) := by
    intro i _
    rw [mul_sum]
    refine sum_congr rfl fun q _ => ?_
    rw [sum_mul_sum]
    congr 1
    exact sum_congr rfl fun r _ => sum_congr rfl fun s _ => by ring
  rw [sum_congr rfl e2, sum_comm, sum_congr rfl fun q _ => h.line (fun r s => k r q * d s (v + q)) hu, sum_comm]

/-- the transformed products, summed over the channels, give the sum over the channels of the correlations -/
theorem WinoLaw.tile (h : WinoLaw a A G B) (n : Nat) (k d : Nat → Nat → Nat → α) (m : Nat → Nat → α)
    (hm : ∀ i j, i < a.side → j < a.side → m i j = ∑ c ∈ range n, a.kern (k c) i j * a.inp (d c) i j) {u v : Nat}
    (hu : u < a.tile) (hv : v < a.tile) :
    a.outp m u v = ∑ c ∈ range n, ∑ r ∈ range 3, ∑ q ∈ range 3, k c r q * d c (u + r) (v + q) := by
  rw [h.outp m u v hu hv, sum_congr rfl fun c _ => (h.conv (k c) (d c) hu hv).symm, sum_comm]
  refine sum_congr rfl fun i hi => ?_
  rw [← mul_sum]
  congr 1
  rw [sum_comm]
  refine sum_congr rfl fun j hj => ?_
  rw [hm i j (mem_range.1 hi) (mem_range.1 hj), mul_sum]

section
variable {α : Type} [Field α] [CharZero α]

/-- `BT` of F(2x2, 3x3) -/
def B23 : List (List α) := [[1, 0, -1, 0], [0, 1, 1, 0], [0, -1, 1, 0], [0, 1, 0, -1]]
/-- `AT` of F(2x2, 3x3) -/
def A23 : List (List α) := [[1, 1, 1, 0], [0, 1, -1, -1]]
/-- `BT` of F(6x6, 3x3) -/
def B63 : List (List α) := [[1, 0, -21 / 4, 0, 21 / 4, 0, -1, 0], [0, 1, 1, -17 / 4, -17 / 4, 1, 1, 0], [0, -1, 1, 17 / 4, -17 / 4, -1, 1, 0],
  [0, 1 / 2, 1 / 4, -5 / 2, -5 / 4, 2, 1, 0], [0, -1 / 2, 1 / 4, 5 / 2, -5 / 4, -2, 1, 0], [0, 2, 4, -5 / 2, -5, 1 / 2, 1, 0],
  [0, -2, 4, 5 / 2, -5, -1 / 2, 1, 0], [0, -1, 0, 21 / 4, 0, -21 / 4, 0, 1]]
/-- `AT` of F(6x6, 3x3) -/
def A63 : List (List α) := [[1, 1, 1, 1, 1, 32, 32, 0], [0, 1, -1, 2, -2, 16, -16, 0], [0, 1, 1, 4, 4, 8, 8, 0], [0, 1, -1, 8, -8, 4, -4, 0],
  [0, 1, 1, 16, 16, 2, 2, 0], [0, 1, -1, 32, -32, 1, -1, 1]]

omit [CharZero α] in
theorem kernTransform_eq (G : List (List α)) (k : Nat → Nat → α) (i j : Nat) :
    kernTransform G k i j = ∑ r ∈ range 3, entry G i r * ∑ q ∈ range 3, entry G j q * k r q := by
  simp only [kernTransform, sum_range_succ, range_zero, sum_empty]
  ring

omit [CharZero α] in
theorem bt23_eq (v : Nat → α) (i : Nat) (hi : i < 4) : bt23 v i = ∑ s ∈ range 4, entry B23 i s * v s := by
  interval_cases i <;> simp [bt23, entry, B23, sum_range_succ] <;> ring

omit [CharZero α] in
theorem at23_eq (v : Nat → α) (i : Nat) (hi : i < 2) : at23 v i = ∑ s ∈ range 4, entry A23 i s * v s := by
  interval_cases i <;> simp [at23, entry, A23, sum_range_succ] <;> ring

theorem bt63Row_eq (v : Nat → α) (i : Nat) (hi : i < 8) : bt63Row v i = ∑ s ∈ range 8, entry B63 i s * v s := by
  interval_cases i <;> simp [bt63Row, entry, B63, sum_range_succ] <;> field_simp <;> ring

theorem bt63Col_eq (v : Nat → α) (i : Nat) (hi : i < 8) : bt63Col v i = ∑ s ∈ range 8, entry B63 i s * v s := by
  interval_cases i <;> simp [bt63Col, entry, B63, sum_range_succ] <;> field_simp <;> ring

omit [CharZero α] in
theorem at63_eq (v : Nat → α) (i : Nat) (hi : i < 6) : at63 v i = ∑ s ∈ range 8, entry A63 i s * v s := by
  interval_cases i <;> simp [at63, entry, A63, sum_range_succ] <;> ring

theorem f23_law : WinoLaw (f23 : WinoAlg α) (entry A23) (entry G23) (entry B23) where
  kern k i j _ _ := kernTransform_eq G23 k i j
  inp d i j hi hj := by
    show bt23 (fun y => bt23 (fun x => d x y) i) j = ∑ s ∈ range 4, entry B23 i s * ∑ t ∈ range 4, entry B23 j t * d s t
    rw [bt23_eq _ j hj]
    simp only [bt23_eq _ i hi, mul_sum]
    rw [sum_comm]
    exact sum_congr rfl fun _ _ => sum_congr rfl fun _ _ => by ring
  outp m u v hu hv := by
    show at23 (fun x => at23 (fun y => m x y) v) u = ∑ i ∈ range 4, entry A23 u i * ∑ j ∈ range 4, entry A23 v j * m i j
    rw [at23_eq _ u hu]
    simp only [at23_eq _ v hv]
  corr m r s hm hr hs := by
    show ∑ i ∈ range 4, entry A23 m i * entry G23 i r * entry B23 i s = _
    have hm : m < 2 := hm
    have hs : s < 4 := hs
    interval_cases m <;> interval_cases r <;> interval_cases s <;> simp [entry, A23, G23, B23, sum_range_succ] <;> norm_num
  pos := by simp [f23, f63]

theorem f63_corr_rat : ∀ m < 6, ∀ r < 3, ∀ s < 8,
    ∑ i ∈ range 8, entry A63 m i * entry G63 i r * entry B63 i s = if s = m + r then (1 : ℚ) else 0 := by
  decide +kernel

theorem entry_cast (m : List (List ℚ)) (i j : Nat) : ((entry m i j : ℚ) : α) = entry (m.map (List.map (Rat.cast : ℚ → α))) i j := by
  simp only [entry, List.getD_eq_getElem?_getD, List.getElem?_map]
  rcases m[i]? with _ | l
  · simp
  · simp only [Option.map_some, Option.getD_some, List.getElem?_map]
    rcases l[j]? with _ | q <;> simp

theorem f63_corr (m r s : Nat) (hm : m < 6) (hr : r < 3) (hs : s < 8) :
    ∑ i ∈ range 8, entry A63 m i * entry G63 i r * entry B63 i s = if s = m + r then (1 : α) else 0 := by
  have h := congrArg (fun q : ℚ => (q : α)) (f63_corr_rat m hm r hr s hs)
  have ea : (A63 : List (List ℚ)).map (List.map (Rat.cast : ℚ → α)) = A63 := by simp [A63]
  have eb : (B63 : List (List ℚ)).map (List.map (Rat.cast : ℚ → α)) = B63 := by simp [B63]
  have eg : (G63 : List (List ℚ)).map (List.map (Rat.cast : ℚ → α)) = G63 := by simp [G63]
  simp only [Rat.cast_sum, Rat.cast_mul, entry_cast, ea, eb, eg] at h
  rw [h]
  split <;> simp

theorem f63_law : WinoLaw (f63 : WinoAlg α) (entry A63) (entry G63) (entry B63) where
  kern k i j _ _ := kernTransform_eq G63 k i j
  inp d i j hi hj := by
    show bt63Col (fun x => bt63Row (fun y => d x y) j) i = ∑ s ∈ range 8, entry B63 i s * ∑ t ∈ range 8, entry B63 j t * d s t
    rw [bt63Col_eq _ i hi]
    simp only [bt63Row_eq _ j hj]
  outp m u v hu hv := by
    show at63 (fun x => at63 (fun y => m x y) v) u = ∑ i ∈ range 8, entry A63 u i * ∑ j ∈ range 8, entry A63 v j * m i j
    rw [at63_eq _ u hu]
    simp only [at63_eq _ v hv]
  corr m r s hm hr hs := by
    exact f63_corr m r s hm hr hs
  pos := by simp [f23, f63]

end

end Verif.Kernels
