import Mathlib.Data.Int.Log
import Mathlib.Data.Rat.Floor
import Mathlib.Tactic.Ring
import Mathlib.Tactic.Linarith
import Mathlib.Tactic.FieldSimp
import Mathlib.Tactic.Positivity
import Mathlib.Tactic.NormNum
/-!
# Rounding to single precision

What the theorems assume about the results of `float` operations (`Binary32`), and a function that has these properties
(`f32`, round to nearest, ties to even, for all exponents).
-/
namespace Verif.Core

/-- `fl q` is the `float` nearest to `q` (IEEE 754, default rounding), as far as needed: the error is at most half a unit in the last
place, no integer of up to 24 bits is closer, and 2^24 + 1 is rounded to even -/
structure Binary32 (fl : Rat → Rat) : Prop where
  error : ∀ q, |fl q - q| ≤ |q| / 16777216
  nearest : ∀ (q : Rat) (n : Int), |q| < 16777216 → |n| ≤ 16777216 → |fl q - q| ≤ |n - q|
  tie : fl 16777217 = 16777216

theorem Binary32.exact {fl : Rat → Rat} (h : Binary32 fl) (n : Int) (hn : |n| < 16777216) : fl n = n := by
  have h1 : |(n : Rat)| < 16777216 := by rw [← Int.cast_abs]; exact_mod_cast hn
  have := h.nearest n n h1 (by omega)
  simp only [sub_self, abs_zero] at this
  have := abs_nonpos_iff.1 this
  linarith

/-- nearest integer, ties to even -/
def roundEven (t : Rat) : Int :=
  if t - ⌊t⌋ < 1 / 2 then ⌊t⌋ else if 1 / 2 < t - ⌊t⌋ then ⌊t⌋ + 1 else if ⌊t⌋ % 2 = 0 then ⌊t⌋ else ⌊t⌋ + 1

theorem roundEven_near (t : Rat) : |(roundEven t : Rat) - t| ≤ 1 / 2 := by
  have h1 := Int.floor_le t
  have h2 := Int.lt_floor_add_one t
  unfold roundEven
  split
  · rw [abs_le]; constructor <;> linarith
  · split
    · push_cast; rw [abs_le]; constructor <;> linarith
    · split
      · rw [abs_le]; constructor <;> linarith
      · push_cast; rw [abs_le]; constructor <;> linarith

theorem roundEven_nearest (t : Rat) (m : Int) : |(roundEven t : Rat) - t| ≤ |(m : Rat) - t| := by
  have h1 := Int.floor_le t
  have h2 := Int.lt_floor_add_one t
  have hm : m ≤ ⌊t⌋ ∨ ⌊t⌋ + 1 ≤ m := by omega
  have hm' : (m : Rat) ≤ ⌊t⌋ ∨ (⌊t⌋ : Rat) + 1 ≤ m := by
    rcases hm with h | h
    · left; exact_mod_cast h
    · right; exact_mod_cast h
  have key : ∀ r : Rat, (r = ⌊t⌋ ∧ t - ⌊t⌋ ≤ 1 / 2) ∨ (r = ⌊t⌋ + 1 ∧ 1 / 2 ≤ t - ⌊t⌋) → |r - t| ≤ |(m : Rat) - t| := by
    rintro r (⟨rfl, h⟩ | ⟨rfl, h⟩)
    · rcases hm' with h' | h'
      · rw [abs_of_nonpos (by linarith), abs_of_nonpos (by linarith)]; linarith
      · rw [abs_of_nonpos (by linarith), abs_of_nonneg (by linarith)]; linarith
    · rcases hm' with h' | h'
      · rw [abs_of_nonneg (by linarith), abs_of_nonpos (by linarith)]; linarith
      · rw [abs_of_nonneg (by linarith), abs_of_nonneg (by linarith)]; linarith
  apply key
  unfold roundEven
  split
  · left; exact ⟨rfl, by linarith⟩
  · split
    · right; push_cast; exact ⟨rfl, by linarith⟩
    · split
      · left; exact ⟨rfl, by linarith⟩
      · right; push_cast; exact ⟨rfl, by linarith⟩

/-- a unit in the last of 24 places -/
def ulp (q : Rat) : Rat := (2 : Rat) ^ (Int.log 2 |q| - 23)

/-- round to nearest even with 24 binary places -/
def f32 (q : Rat) : Rat := roundEven (q / ulp q) * ulp q

theorem ulp_pos (q : Rat) : 0 < ulp q := zpow_pos (by norm_num) _

theorem f32_sub (q : Rat) : f32 q - q = (roundEven (q / ulp q) - q / ulp q) * ulp q := by
  have := ulp_pos q
  unfold f32
  field_simp

theorem f32_nearest (q : Rat) (m : Int) : |f32 q - q| ≤ |m * ulp q - q| := by
  have hu := ulp_pos q
  rw [f32_sub, show m * ulp q - q = (m - q / ulp q) * ulp q by field_simp, abs_mul, abs_mul]
  exact mul_le_mul_of_nonneg_right (roundEven_nearest _ _) (abs_nonneg _)

theorem f32_binary32 : Binary32 f32 := by
  refine ⟨fun q => ?_, fun q n hq hn => ?_, ?_⟩
  · by_cases h0 : q = 0
    · subst h0
      have : f32 0 - 0 = 0 := by
        rw [f32_sub]; simp [roundEven]
      rw [this]; simp
    · have hu := ulp_pos q
      rw [f32_sub, abs_mul, abs_of_pos hu]
      have h1 := roundEven_near (q / ulp q)
      have h2 : (2 : Rat) ^ Int.log 2 |q| ≤ |q| := by exact_mod_cast Int.zpow_log_le_self (b := 2) (by decide) (abs_pos.2 h0)
      have h3 : ulp q = (2 : Rat) ^ Int.log 2 |q| / 8388608 := by
        unfold ulp
        rw [zpow_sub₀ (by norm_num)]
        norm_num
      have h4 : ulp q ≤ |q| / 8388608 := by rw [h3]; linarith
      nlinarith [abs_nonneg ((roundEven (q / ulp q) : Rat) - q / ulp q)]
  · by_cases h0 : q = 0
    · subst h0
      have : f32 0 - 0 = 0 := by
        rw [f32_sub]; simp [roundEven]
      rw [this]; simp
    · have hlog : Int.log 2 |q| < 24 := by
        have := (Int.lt_zpow_iff_log_lt (b := 2) (R := Rat) (by decide) (x := 24) (r := |q|) (abs_pos.2 h0)).1 (by norm_num; exact hq)
        exact this
      -- n is a multiple of the unit
      obtain ⟨k, hk⟩ : ∃ k : Nat, Int.log 2 |q| - 23 = -(k : Int) := ⟨(23 - Int.log 2 |q|).toNat, by omega⟩
      have hu : ulp q = 1 / (2 : Rat) ^ k := by
        unfold ulp
        rw [hk, zpow_neg, zpow_natCast, one_div]
      have := f32_nearest q (n * 2 ^ k)
      rw [hu] at this
      push_cast at this
      rwa [show (n : Rat) * 2 ^ k * (1 / 2 ^ k) = n by field_simp] at this
  · have hl : Int.log 2 |(16777217 : Rat)| = 24 := by
      apply le_antisymm
      · have := (Int.lt_zpow_iff_log_lt (b := 2) (R := Rat) (by decide) (x := 25) (r := |(16777217 : Rat)|) (by norm_num)).1 (by norm_num)
        omega
      · exact (Int.zpow_le_iff_le_log (b := 2) (R := Rat) (by decide) (x := 24) (r := |(16777217 : Rat)|) (by norm_num)).1 (by norm_num)
    have hu : ulp 16777217 = 2 := by unfold ulp; rw [hl]; norm_num
    unfold f32
    rw [hu]
    have : roundEven (16777217 / 2) = 8388608 := by
      have hf : ⌊(16777217 / 2 : Rat)⌋ = 8388608 := by rw [Int.floor_eq_iff]; norm_num
      unfold roundEven
      rw [hf]
      norm_num
    rw [this]
    norm_num

end Verif.Core
