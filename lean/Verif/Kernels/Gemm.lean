import Verif.Core.Res
import Verif.Kernels.ElementWiseLemmas
import Verif.Kernels.Pooling
import Mathlib.Algebra.BigOperators.Group.Finset.Basic
import Mathlib.Algebra.BigOperators.Intervals
import Mathlib.Tactic.Ring
/-!
# Packed matrix product (src/kernels/cpu/math_cpu.cpp:246-745)

Matrices are flat row-major lists over an arbitrary commutative semiring: products and sums are exact, so the
re-association by partial sums is not observable. (Over `float` the results agree only up to rounding.) Every SIMD lane
is a separate computation; loop unrolling by four visits `k` in the order `simdOrder K`.
-/
namespace Verif.Kernels
open Verif.Core

variable {α : Type}

/-- `data[i]` -/
def readN (data : List α) (i : Nat) : Res α :=
  match data[i]? with
  | some v => .ok v
  | none => .ub

/-- source indices of `pack8_A`, in the order of the destination, math_cpu.cpp:247-291. (The parallel blocks write
consecutive destination ranges.) -/
def packAIdx (row col lda : Nat) : List Nat :=
  ((List.range (row / 8)).flatMap fun nn => (List.range col).flatMap fun i => (List.range 8).map fun r =>
    (nn * 8 + r) * lda + i) ++
  ((List.range (row % 8)).flatMap fun t => (List.range col).map fun i => (row / 8 * 8 + t) * lda + i)

/-- source indices of `pack8_B`, math_cpu.cpp:294-378 (both versions), in the order of the destination -/
def packBIdx (row col ldb : Nat) : List Nat :=
  ((List.range (col / 8)).flatMap fun nn => (List.range row).flatMap fun i => (List.range 8).map fun l =>
    nn * 8 + l + i * ldb) ++
  ((List.range (col % 8)).flatMap fun t => (List.range row).map fun i => (col / 8 * 8 + t) + i * ldb)

/-- `pack8_A` -/
def pack8A (row col : Nat) (src : List α) (lda : Nat) : Res (List α) := forEach (readN src) (packAIdx row col lda)
/-- `pack8_B` -/
def pack8B (row col : Nat) (src : List α) (ldb : Nat) : Res (List α) := forEach (readN src) (packBIdx row col ldb)

variable [CommSemiring α]

/-- one lane of a sequence of `c = fmadd(a, b, c)` for the given values of `k` -/
def fmaSeq (A B : List α) (ia ib : Nat → Nat) : List Nat → α → Res α
  | [], c => .ok c
  | k :: ks, c => do
    let a ← readN A (ia k)
    let b ← readN B (ib k)
    fmaSeq A B ia ib ks (a * b + c)

/-- four partial sums over `k = 4·kk + j`, their sum, then the remaining `k`, math_cpu.cpp:566-607 and 678-699 -/
def fma4 (A B : List α) (ia ib : Nat → Nat) (K : Nat) : Res α := do
  let s0 ← fmaSeq A B ia ib ((List.range (K / 4)).map fun kk => 4 * kk) 0
  let s1 ← fmaSeq A B ia ib ((List.range (K / 4)).map fun kk => 4 * kk + 1) 0
  let s2 ← fmaSeq A B ia ib ((List.range (K / 4)).map fun kk => 4 * kk + 2) 0
  let s3 ← fmaSeq A B ia ib ((List.range (K / 4)).map fun kk => 4 * kk + 3) 0
  fmaSeq A B ia ib ((List.range (K % 4)).map fun t => K / 4 * 4 + t) ((s0 + s1) + (s2 + s3))

/-- The stores of `kernel_8x8<float, float>`, math_cpu.cpp:386-701, as destination index and value, in program order:
blocks of eight rows (blocks of eight columns, then single columns), then single rows. -/
def kernelWrites (M K N ldc : Nat) (A B : List α) : List (Nat × Res α) :=
  ((List.range (M / 8)).flatMap fun mm =>
    ((List.range (N / 8)).flatMap fun nn => (List.range 8).flatMap fun r => (List.range 8).map fun l =>
      ((mm * 8 + r) * ldc + (nn * 8 + l),
        fmaSeq A B (fun k => mm * 8 * K + (k * 8 + r)) (fun k => nn * 8 * K + (k * 8 + l)) (simdOrder K) 0)) ++
    ((List.range (N % 8)).flatMap fun t => (List.range 8).map fun r =>
      ((mm * 8 + r) * ldc + (N / 8 * 8 + t),
        fma4 A B (fun k => mm * 8 * K + (k * 8 + r)) (fun k => (N / 8 * 8 + t) * K + k) K))) ++
  ((List.range (M % 8)).flatMap fun u =>
    ((List.range (N / 8)).flatMap fun nn => (List.range 8).map fun l =>
      ((M / 8 * 8 + u) * ldc + (nn * 8 + l),
        fmaSeq A B (fun k => (M / 8 * 8 + u) * K + k) (fun k => nn * 8 * K + (k * 8 + l)) (simdOrder K) 0)) ++
    ((List.range (N % 8)).map fun t =>
      ((M / 8 * 8 + u) * ldc + (N / 8 * 8 + t),
        fma4 A B (fun k => (M / 8 * 8 + u) * K + k) (fun k => (N / 8 * 8 + t) * K + k) K)))

omit [CommSemiring α] in
/-- perform stores -/
def applyWrites : List (Nat × Res α) → List α → Res (List α)
  | [], dst => .ok dst
  | (i, v) :: t, dst => do
    let x ← v
    if i < dst.length then applyWrites t (dst.set i x) else .ub

/-- `kernel_8x8`: the primary template, used for `double`, is empty (math_cpu.cpp:380-383) -/
def kernel8x8 (isFloat : Bool) (M K N ldc : Nat) (A B : List α) (dst : List α) : Res (List α) :=
  if isFloat then applyWrites (kernelWrites M K N ldc A B) dst else .ok dst

/-- `math::gemm` with packing, for `alpha = 1`, `beta = 0` (anything else is an error), math_cpu.cpp:716-745 -/
def gemmPacked (isFloat : Bool) (M N K : Nat) (A B : List α) (packA packB : Bool) (dst : List α) : Res (List α) := do
  let a ← (bif packA then pack8A M K A K else .ok A)
  let b ← (bif packB then pack8B K N B N else .ok B)
  kernel8x8 isFloat M K N N a b dst

/-! ## lemmas -/

omit [CommSemiring α] in
theorem readN_ok {d : List α} {i : Nat} {v : α} (h : d[i]? = some v) : readN d i = .ok v := by
  unfold readN; rw [h]

omit [CommSemiring α] in
theorem applyWrites_ok (g : Nat → α) (ws : List (Nat × Res α)) (dst : List α)
    (h : ∀ w ∈ ws, w.1 < dst.length ∧ w.2 = .ok (g w.1)) :
    ∃ out, applyWrites ws dst = .ok out ∧ out.length = dst.length ∧
      (∀ w ∈ ws, out[w.1]? = some (g w.1)) ∧ ∀ i, i ∉ ws.map Prod.fst → out[i]? = dst[i]? := by
  induction ws generalizing dst with
  | nil => exact ⟨dst, rfl, rfl, by simp, by simp⟩
  | cons w ws ih =>
    obtain ⟨i, v⟩ := w
    obtain ⟨h1, h2⟩ := h (i, v) (by simp)
    simp only at h1 h2
    obtain ⟨out, e, el, e1, e2⟩ := ih (dst.set i (g i)) (fun w hw => by
      have := h w (by simp [hw])
      simpa using this)
    refine ⟨out, ?_, by simpa using el, ?_, ?_⟩
    · unfold applyWrites
      rw [h2, Res.bind_ok, if_pos h1]
      exact e
    · intro w hw
      rcases List.mem_cons.1 hw with rfl | hw
      · by_cases hm : i ∈ ws.map Prod.fst
        · obtain ⟨w', hw', rfl⟩ := List.mem_map.1 hm
          exact e1 w' hw'
        · rw [e2 i hm]
          simp [h1]
      · exact e1 w hw
    · intro j hj
      simp only [List.map_cons, List.mem_cons, not_or] at hj
      rw [e2 j hj.2, List.getElem?_set_ne (Ne.symm hj.1)]

open Finset in
theorem fmaSeq_ok (A B : List α) (ia ib : Nat → Nat) (a b : Nat → α) (ks : List Nat) (c : α)
    (ha : ∀ k ∈ ks, A[ia k]? = some (a k)) (hb : ∀ k ∈ ks, B[ib k]? = some (b k)) :
    fmaSeq A B ia ib ks c = .ok (c + (ks.map fun k => a k * b k).sum) := by
  induction ks generalizing c with
  | nil => simp [fmaSeq]
  | cons k ks ih =>
    unfold fmaSeq
    rw [readN_ok (ha k (by simp)), Res.bind_ok, readN_ok (hb k (by simp)), Res.bind_ok,
      ih _ (fun k hk => ha k (by simp [hk])) (fun k hk => hb k (by simp [hk]))]
    congr 1
    simp only [List.map_cons, List.sum_cons]
    ring

theorem sum_range_list (f : Nat → α) (n : Nat) : ((List.range n).map f).sum = ∑ k ∈ Finset.range n, f k := by
  induction n with
  | zero => simp
  | succ n ih => rw [List.range_succ, List.map_append, List.sum_append, ih, Finset.sum_range_succ]; simp

theorem sum_four (f : Nat → α) (q : Nat) :
    (∑ kk ∈ Finset.range q, f (4 * kk)) + (∑ kk ∈ Finset.range q, f (4 * kk + 1)) +
    ((∑ kk ∈ Finset.range q, f (4 * kk + 2)) + ∑ kk ∈ Finset.range q, f (4 * kk + 3)) =
    ∑ k ∈ Finset.range (q * 4), f k := by
  induction q with
  | zero => simp
  | succ q ih =>
    rw [Finset.sum_range_succ, Finset.sum_range_succ, Finset.sum_range_succ, Finset.sum_range_succ,
      show (q + 1) * 4 = q * 4 + 1 + 1 + 1 + 1 by ring, Finset.sum_range_succ, Finset.sum_range_succ,
      Finset.sum_range_succ, Finset.sum_range_succ, ← ih, Nat.mul_comm q 4]
    ring

theorem fmaSeq_range (A B : List α) (ia ib : Nat → Nat) (a b : Nat → α) (K : Nat)
    (ha : ∀ k, k < K → A[ia k]? = some (a k)) (hb : ∀ k, k < K → B[ib k]? = some (b k)) :
    fmaSeq A B ia ib (simdOrder K) 0 = .ok (∑ k ∈ Finset.range K, a k * b k) := by
  rw [simdOrder_eq, fmaSeq_ok A B ia ib a b _ 0 (by simpa using ha) (by simpa using hb), zero_add, sum_range_list]

theorem fma4_ok (A B : List α) (ia ib : Nat → Nat) (a b : Nat → α) (K : Nat)
    (ha : ∀ k, k < K → A[ia k]? = some (a k)) (hb : ∀ k, k < K → B[ib k]? = some (b k)) :
    fma4 A B ia ib K = .ok (∑ k ∈ Finset.range K, a k * b k) := by
  have lane : ∀ j, j < 4 → fmaSeq A B ia ib ((List.range (K / 4)).map fun kk => 4 * kk + j) 0 =
      .ok (∑ kk ∈ Finset.range (K / 4), a (4 * kk + j) * b (4 * kk + j)) := by
    intro j hj
    rw [fmaSeq_ok A B ia ib a b]
    · rw [zero_add, List.map_map, ← sum_range_list]; rfl
    · simp only [List.mem_map, List.mem_range]
      rintro k ⟨kk, hk, rfl⟩
      exact ha _ (by omega)
    · simp only [List.mem_map, List.mem_range]
      rintro k ⟨kk, hk, rfl⟩
      exact hb _ (by omega)
  unfold fma4
  have l0 := lane 0 (by omega)
  simp only [Nat.add_zero] at l0
  rw [l0, Res.bind_ok, lane 1 (by omega), Res.bind_ok, lane 2 (by omega), Res.bind_ok, lane 3 (by omega), Res.bind_ok,
    fmaSeq_ok A B ia ib a b]
  · congr 1
    rw [sum_four (fun k => a k * b k), List.map_map]
    conv => rhs; rw [show K = K / 4 * 4 + K % 4 by omega, Finset.sum_range_add]
    rw [← sum_range_list (fun t => a (K / 4 * 4 + t) * b (K / 4 * 4 + t))]
    rfl
  · simp only [List.mem_map, List.mem_range]
    rintro k ⟨t, ht, rfl⟩
    exact ha _ (by omega)
  · simp only [List.mem_map, List.mem_range]
    rintro k ⟨t, ht, rfl⟩
    exact hb _ (by omega)

end Verif.Kernels
