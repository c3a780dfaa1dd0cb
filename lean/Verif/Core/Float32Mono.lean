import Verif.Core.Float32
/-!
# Rounding to `float` keeps the order
-/
namespace Verif.Core

theorem roundEven_mono {s t : Rat} (h : s ≤ t) : roundEven s ≤ roundEven t := by
  have h1 := Int.floor_le s
  have h2 := Int.lt_floor_add_one s
  have h3 := Int.floor_le t
  have h4 := Int.lt_floor_add_one t
  have hf : ⌊s⌋ ≤ ⌊t⌋ := Int.floor_le_floor h
  by_cases he : ⌊s⌋ = ⌊t⌋
  · unfold roundEven
    rw [he] at h1 h2 ⊢
    split_ifs <;> first | omega | (exfalso; linarith)
  · have : ⌊s⌋ + 1 ≤ ⌊t⌋ := by omega
    have hs : roundEven s ≤ ⌊s⌋ + 1 := by unfold roundEven; split_ifs <;> omega
    have ht : ⌊t⌋ ≤ roundEven t := by unfold roundEven; split_ifs <;> omega
    omega

theorem roundEven_int (n : Int) : roundEven n = n := by
  unfold roundEven
  rw [Int.floor_intCast, sub_self, if_pos (by norm_num)]

theorem f32_zero : f32 0 = 0 := by
  have := f32_binary32.exact 0 (by norm_num)
  simpa using this

theorem f32_one : f32 1 = 1 := by
  have := f32_binary32.exact 1 (by norm_num)
  simpa using this

theorem f32_neg_le {q : Rat} (h : q ≤ 0) : f32 q ≤ 0 := by
  unfold f32
  have hu := ulp_pos q
  have : roundEven (q / ulp q) ≤ roundEven ((0 : Int) : Rat) := roundEven_mono (by push_cast; exact div_nonpos_of_nonpos_of_nonneg h hu.le)
  rw [roundEven_int] at this
  have : ((roundEven (q / ulp q) : Int) : Rat) ≤ 0 := by exact_mod_cast this
  nlinarith

theorem f32_pos_ge {q : Rat} (h : 0 ≤ q) : 0 ≤ f32 q := by
  unfold f32
  have hu := ulp_pos q
  have : roundEven ((0 : Int) : Rat) ≤ roundEven (q / ulp q) := roundEven_mono (by push_cast; exact div_nonneg h hu.le)
  rw [roundEven_int] at this
  have : (0 : Rat) ≤ ((roundEven (q / ulp q) : Int) : Rat) := by exact_mod_cast this
  nlinarith

/-- the power of two below a number bounds its rounding, and so does the one above -/
theorem f32_bracket {q : Rat} (h : 0 < |q|) :
    (q ≤ 2 ^ (Int.log 2 |q| + 1) → f32 q ≤ 2 ^ (Int.log 2 |q| + 1)) ∧ (2 ^ Int.log 2 |q| ≤ q → 2 ^ Int.log 2 |q| ≤ f32 q) ∧
    (q ≤ -2 ^ Int.log 2 |q| → f32 q ≤ -2 ^ Int.log 2 |q|) ∧ (-2 ^ (Int.log 2 |q| + 1) ≤ q → -2 ^ (Int.log 2 |q| + 1) ≤ f32 q) := by
  have hu := ulp_pos q
  have e0 : (2 : Rat) ^ Int.log 2 |q| = ((8388608 : Int) : Rat) * ulp q := by
    unfold ulp
    rw [zpow_sub₀ (by norm_num)]
    norm_num
    ring
  have e1 : (2 : Rat) ^ (Int.log 2 |q| + 1) = ((16777216 : Int) : Rat) * ulp q := by
    rw [zpow_add₀ (by norm_num), e0]
    push_cast; ring
  have up : ∀ n : Int, q ≤ n * ulp q → f32 q ≤ n * ulp q := by
    intro n hn
    have : roundEven (q / ulp q) ≤ roundEven (n : Rat) := roundEven_mono (by rw [div_le_iff₀ hu]; exact hn)
    rw [roundEven_int] at this
    have : ((roundEven (q / ulp q) : Int) : Rat) ≤ n := by exact_mod_cast this
    unfold f32
    exact mul_le_mul_of_nonneg_right this hu.le
  have down : ∀ n : Int, n * ulp q ≤ q → n * ulp q ≤ f32 q := by
    intro n hn
    have : roundEven (n : Rat) ≤ roundEven (q / ulp q) := roundEven_mono (by rw [le_div_iff₀ hu]; exact hn)
    rw [roundEven_int] at this
    have : (n : Rat) ≤ ((roundEven (q / ulp q) : Int) : Rat) := by exact_mod_cast this
    unfold f32
    exact mul_le_mul_of_nonneg_right this hu.le
  refine ⟨?_, ?_, ?_, ?_⟩
  · rw [e1]; exact up _
  · rw [e0]; exact down _
  · rw [e0]
    have := up (-8388608)
    push_cast at this ⊢
    rw [neg_mul] at this
    exact this
  · rw [e1]
    have := down (-16777216)
    push_cast at this ⊢
    rw [neg_mul] at this
    exact this

/-- rounding to nearest keeps the order -/
theorem f32_mono {a b : Rat} (h : a ≤ b) : f32 a ≤ f32 b := by
  by_cases ha : a ≤ 0
  · by_cases hb : 0 ≤ b
    · exact le_trans (f32_neg_le ha) (f32_pos_ge hb)
    · have hb' : b < 0 := by linarith
      have ha' : a < 0 := by linarith
      have pa : 0 < |a| := abs_pos.2 ha'.ne
      have pb : 0 < |b| := abs_pos.2 hb'.ne
      have hab : |b| ≤ |a| := by rw [abs_of_neg ha', abs_of_neg hb']; linarith
      have hlog : Int.log 2 |b| ≤ Int.log 2 |a| := Int.log_mono_right pb hab
      by_cases he : Int.log 2 |b| = Int.log 2 |a|
      · have hu : ulp a = ulp b := by unfold ulp; rw [he]
        unfold f32
        rw [hu]
        have := roundEven_mono (div_le_div_of_nonneg_right h (ulp_pos b).le)
        have : ((roundEven (a / ulp b) : Int) : Rat) ≤ roundEven (b / ulp b) := by exact_mod_cast this
        exact mul_le_mul_of_nonneg_right this (ulp_pos b).le
      · have h1 : (2 : Rat) ^ Int.log 2 |a| ≤ |a| := by exact_mod_cast Int.zpow_log_le_self (b := 2) (by decide) pa
        have h2 : |b| < (2 : Rat) ^ (Int.log 2 |b| + 1) := by exact_mod_cast Int.lt_zpow_succ_log_self (b := 2) (by decide) |b|
        rw [abs_of_neg ha'] at h1
        have h1' : (2 : Rat) ^ Int.log 2 |a| ≤ -a := by rw [abs_of_neg ha']; exact h1
        have h2' : -b < (2 : Rat) ^ (Int.log 2 |b| + 1) := by rw [abs_of_neg hb'] at h2 ⊢; exact h2
        have g1 := (f32_bracket pa).2.2.1 (by linarith)
        have g2 := (f32_bracket pb).2.2.2 (by linarith)
        have g3 : (2 : Rat) ^ (Int.log 2 |b| + 1) ≤ (2 : Rat) ^ Int.log 2 |a| := zpow_le_zpow_right₀ (by norm_num) (by omega)
        linarith
  · have ha' : 0 < a := by linarith
    have hb' : 0 < b := by linarith
    have pa : 0 < |a| := abs_pos.2 ha'.ne'
    have pb : 0 < |b| := abs_pos.2 hb'.ne'
    have hab : |a| ≤ |b| := by rw [abs_of_pos ha', abs_of_pos hb']; exact h
    have hlog : Int.log 2 |a| ≤ Int.log 2 |b| := Int.log_mono_right pa hab
    by_cases he : Int.log 2 |a| = Int.log 2 |b|
    · have hu : ulp a = ulp b := by unfold ulp; rw [he]
      unfold f32
      rw [hu]
      have := roundEven_mono (div_le_div_of_nonneg_right h (ulp_pos b).le)
      have : ((roundEven (a / ulp b) : Int) : Rat) ≤ roundEven (b / ulp b) := by exact_mod_cast this
      exact mul_le_mul_of_nonneg_right this (ulp_pos b).le
    · have h1 : (2 : Rat) ^ Int.log 2 |b| ≤ |b| := by exact_mod_cast Int.zpow_log_le_self (b := 2) (by decide) pb
      have h2 : |a| < (2 : Rat) ^ (Int.log 2 |a| + 1) := by exact_mod_cast Int.lt_zpow_succ_log_self (b := 2) (by decide) |a|
      have h1' : (2 : Rat) ^ Int.log 2 |b| ≤ b := by rw [abs_of_pos hb'] at h1 ⊢; exact h1
      have h2' : a < (2 : Rat) ^ (Int.log 2 |a| + 1) := by rw [abs_of_pos ha'] at h2 ⊢; exact h2
      have g1 := (f32_bracket pa).1 (by linarith)
      have g2 := (f32_bracket pb).2.1 (by linarith)
      have g3 : (2 : Rat) ^ (Int.log 2 |a| + 1) ≤ (2 : Rat) ^ Int.log 2 |b| := zpow_le_zpow_right₀ (by norm_num) (by omega)
      linarith

end Verif.Core
