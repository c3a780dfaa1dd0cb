import Verif.Kernels.DataMoveLemmas
import Verif.Kernels.ConcatLemmas
/-! # Lemmas about split and chunk -/
namespace Verif.Kernels
open Verif.Core Verif.Spec

variable {α : Type}

theorem splitMoves_mem {N W T off s : Nat} {m : Nat × Nat} : m ∈ splitMoves N W T off s ↔
    ∃ n j t, n < N ∧ j < s ∧ t < W ∧ m = ((n * s + j) * W + t, (n * T + (off + j)) * W + t) := by
  unfold splitMoves
  simp only [List.mem_flatMap, List.mem_range, List.mem_map]
  constructor
  · rintro ⟨n, hn, x, hx, rfl⟩
    have hW : 0 < W := by
      rcases Nat.eq_zero_or_pos W with h | h
      · subst h; simp at hx
      · exact h
    have e := Nat.div_add_mod' x W
    refine ⟨n, x / W, x % W, hn, (Nat.div_lt_iff_lt_mul hW).2 hx, Nat.mod_lt _ hW, ?_⟩
    rw [Prod.mk.injEq]
    constructor
    · rw [Nat.add_mul]; rw [← Nat.mul_assoc]; omega
    · rw [Nat.add_mul, Nat.add_mul, ← Nat.mul_assoc]; omega
  · rintro ⟨n, j, t, hn, hj, ht, rfl⟩
    refine ⟨n, hn, j * W + t, ?_, ?_⟩
    · have : (j + 1) * W ≤ s * W := Nat.mul_le_mul_right _ hj
      rw [Nat.add_mul] at this; omega
    · rw [Prod.mk.injEq]
      constructor
      · rw [Nat.add_mul, ← Nat.mul_assoc]; omega
      · rw [Nat.add_mul, Nat.add_mul, ← Nat.mul_assoc]; omega

theorem splitCopy_ok (N W T : Nat) (src : List α) (hs : src.length = N * T * W) (ss : List Nat) (off : Nat)
    (dsts : List (List α)) (hoff : off + ss.sum ≤ T) (hl : dsts.length = ss.length)
    (hd : ∀ i (h : i < dsts.length) (h' : i < ss.length), dsts[i].length = N * ss[i] * W) :
    ∃ outs, splitCopy N W T src off ss dsts = .ok outs ∧ outs.length = ss.length ∧
      ∀ i (h : i < outs.length) (h' : i < ss.length), outs[i].length = N * ss[i] * W ∧
        ∀ n j t, n < N → j < ss[i] → t < W →
          outs[i][(n * ss[i] + j) * W + t]? = src[(n * T + (off + (ss.take i).sum + j)) * W + t]? := by
  induction ss generalizing off dsts with
  | nil => exact ⟨[], by cases dsts <;> rfl, rfl, fun i h => by simp at h⟩
  | cons s ss ih =>
    cases dsts with
    | nil => simp at hl
    | cons d ds =>
      simp only [List.sum_cons] at hoff
      have hd0 := hd 0 (by simp) (by simp)
      simp only [List.getElem_cons_zero] at hd0
      obtain ⟨out, e, el, ev⟩ := runMoves_blocks src N s W (fun n j t => (n * T + (off + j)) * W + t)
        (splitMoves N W T off s) d (fun m => splitMoves_mem)
        (by intro n j t hn hj ht; rw [hs]; exact radix3_lt hn (by omega) ht) hd0
      obtain ⟨outs, e2, el2, ev2⟩ := ih (off + s) ds (by omega) (by simpa using hl)
        (by intro i h h'
            have := hd (i + 1) (by simp; omega) (by simp; omega)
            simpa using this)
      refine ⟨out :: outs, ?_, by simp [el2], ?_⟩
      · unfold splitCopy
        rw [e]; simp only [Res.bind_ok]; rw [e2]; rfl
      · intro i h h'
        cases i with
        | zero => exact ⟨el, fun n j t hn hj ht => by simpa using ev n j t hn hj ht⟩
        | succ i =>
          obtain ⟨h1, h2⟩ := ev2 i (by simpa using h) (by simpa using h')
          refine ⟨by simpa using h1, ?_⟩
          intro n j t hn hj ht
          have := h2 n j t hn (by simpa using hj) ht
          simp only [List.getElem_cons_succ, List.take_succ_cons, List.sum_cons]
          rw [this, show off + (s + (ss.take i).sum) + j = off + s + (ss.take i).sum + j by omega]

/-- the bins of a range starting at `anchor`: `n` full ones and a last one -/
theorem splitLoop_bins (second step : Int) (hs : 1 ≤ step) (hmax : second + step ≤ 2147483647) (n : Nat) :
    ∀ (anchor : Int) (acc : List (Int × Int)) (fuel : Nat), -2147483648 ≤ anchor → (n : Int) * step < second - anchor →
      second - anchor ≤ ((n : Int) + 1) * step → n < fuel →
      Concurrency.splitLoop second step fuel anchor acc =
        some (.ok (acc ++ ((List.range n).map fun (i : Nat) => (anchor + i * step, anchor + i * step + step)) ++
          [(anchor + n * step, second)])) := by
  induction n with
  | zero =>
    intro anchor acc fuel hlo h1 h2 hf
    obtain ⟨f, rfl⟩ : ∃ f, fuel = f + 1 := ⟨fuel - 1, by omega⟩
    rw [Concurrency.splitLoop, int32_ok ⟨by omega, by omega⟩]
    simp only [Nat.cast_zero, Int.zero_mul, zero_add, one_mul] at h1 h2 ⊢
    rw [if_neg (by omega), if_pos (by omega)]
    simp
  | succ n ih =>
    intro anchor acc fuel hlo h1 h2 hf
    obtain ⟨f, rfl⟩ : ∃ f, fuel = f + 1 := ⟨fuel - 1, by omega⟩
    push_cast at h1 h2
    have h1' : (n : Int) * step + step < second - anchor := by
      have : ((n : Int) + 1) * step = n * step + step := by ring
      omega
    have h2' : second - anchor ≤ ((n : Int) + 1) * step + step := by
      have : ((n : Int) + 1 + 1) * step = (n + 1) * step + step := by ring
      omega
    have hnn : 0 ≤ (n : Int) * step := Int.mul_nonneg (by omega) (by omega)
    rw [Concurrency.splitLoop, int32_ok ⟨by omega, by omega⟩]
    simp only
    rw [if_pos (by omega), ih (anchor + step) _ f (by omega) (by omega) (by omega) (by omega)]
    rw [List.range_succ_eq_map, List.map_cons, List.map_map]
    have e : ∀ i : Nat, anchor + step + (i : Int) * step = anchor + ((i + 1 : Nat) : Int) * step := by
      intro i; push_cast; ring
    simp only [Function.comp_def, e, Nat.succ_eq_add_one]
    simp

end Verif.Kernels
