import Verif.Core.HalfFloat
import Mathlib.Data.Rat.Floor
import Mathlib.Tactic.Positivity
import Mathlib.Tactic.Linarith
import Mathlib.Tactic.FieldSimp
import Mathlib.Tactic.Ring
/-!
# C32: half-float conversion and order
-/
namespace Verif.Props
open Verif.Core

/-! ## Specification: the numbers IEEE 754 gives to codes -/

/-- sign bit, exponent field and fraction field of a code with `e` exponent and `f` fraction bits -/
def sgnOf (q : Fmt) (c : Nat) : Nat := c / 2 ^ (q.e + q.f) % 2
def expOf (q : Fmt) (c : Nat) : Nat := c / 2 ^ q.f % 2 ^ q.e
def fracOf (q : Fmt) (c : Nat) : Nat := c % 2 ^ q.f
/-- IEEE exponent bias `2^(e-1) - 1` -/
def ieeeBias (q : Fmt) : ℤ := 2 ^ (q.e - 1) - 1
/-- the rational number a finite code stands for -/
def ieeeVal (q : Fmt) (c : Nat) : ℚ :=
  (if sgnOf q c = 1 then -1 else 1) *
    (if expOf q c = 0 then (fracOf q c : ℚ) * 2 ^ (1 - ieeeBias q - q.f)
     else ((2 : ℚ) ^ q.f + fracOf q c) * 2 ^ ((expOf q c : ℤ) - ieeeBias q - q.f))
/-- neither infinite nor NaN -/
def IsFinite (q : Fmt) (c : Nat) : Prop := expOf q c ≠ 2 ^ q.e - 1
/-- finite, and zero or not subnormal -/
def IsNormalOrZero (q : Fmt) (c : Nat) : Prop := IsFinite q c ∧ (expOf q c = 0 → fracOf q c = 0)
/-- infinity code -/
def IsInf (q : Fmt) (c : Nat) : Prop := expOf q c = 2 ^ q.e - 1 ∧ fracOf q c = 0

example : ieeeVal .half 0x3c00 = 1 := by norm_num [ieeeVal, sgnOf, expOf, fracOf, ieeeBias, Fmt.half]
example : ieeeVal .half 0xc500 = -5 := by norm_num [ieeeVal, sgnOf, expOf, fracOf, ieeeBias, Fmt.half]
example : ieeeVal .half 0x7bff = 65504 := by norm_num [ieeeVal, sgnOf, expOf, fracOf, ieeeBias, Fmt.half]
example : ieeeVal .half 0x0001 = 1 / 2 ^ 24 := by
  norm_num [ieeeVal, sgnOf, expOf, fracOf, ieeeBias, Fmt.half]

/-! ## Fields of the model are the specification's fields -/

theorem bias_eq (q : Fmt) : (q.bias : ℤ) = ieeeBias q := by
  unfold Fmt.bias ieeeBias
  rw [Nat.shiftLeft_eq, one_mul, Nat.cast_sub Nat.one_le_two_pow]
  simp

theorem valueSign_eq (q : Fmt) (c : Nat) : q.valueSign c = sgnOf q c := by
  unfold Fmt.valueSign Fmt.maskSign Fmt.W sgnOf
  rw [Nat.shiftRight_and_distrib, Nat.shiftLeft_shiftRight, Nat.and_one_is_mod, Nat.shiftRight_eq_div_pow]
  congr 3; omega

theorem expField_eq (q : Fmt) (c : Nat) : (c &&& q.maskExponent) >>> q.f = expOf q c := by
  unfold Fmt.maskExponent expOf
  rw [Nat.shiftRight_and_distrib, Nat.shiftLeft_shiftRight, Nat.shiftLeft_eq, one_mul, Nat.and_two_pow_sub_one_eq_mod,
    Nat.shiftRight_eq_div_pow]

theorem valueFraction_eq (q : Fmt) (c : Nat) : q.valueFraction c = fracOf q c := by
  unfold Fmt.valueFraction Fmt.maskFraction fracOf
  rw [Nat.shiftLeft_eq, one_mul, Nat.and_two_pow_sub_one_eq_mod]

theorem notSign_eq (q : Fmt) (c : Nat) : c &&& q.notSign = c % 2 ^ (q.e + q.f) := by
  unfold Fmt.notSign Fmt.W
  rw [Nat.shiftLeft_eq, one_mul, Nat.and_two_pow_sub_one_eq_mod]
  congr 2; omega

/-- magnitude bits are exponent and fraction fields -/
theorem mag_fields (q : Fmt) (c : Nat) : c % 2 ^ (q.e + q.f) = expOf q c * 2 ^ q.f + fracOf q c := by
  unfold expOf fracOf
  rw [Nat.add_comm q.e, Nat.pow_add, Nat.mod_mul]
  rw [Nat.mul_comm (2 ^ q.f)]; omega

theorem expOf_lt (q : Fmt) (c : Nat) : expOf q c < 2 ^ q.e := Nat.mod_lt _ (by positivity)
theorem fracOf_lt (q : Fmt) (c : Nat) : fracOf q c < 2 ^ q.f := Nat.mod_lt _ (by positivity)
theorem sgnOf_lt (q : Fmt) (c : Nat) : sgnOf q c < 2 := Nat.mod_lt _ (by positivity)

/-- the code with given fields -/
theorem fields_of (q : Fmt) (s e f : Nat) (hs : s < 2) (he : e < 2 ^ q.e) (hf : f < 2 ^ q.f) :
    sgnOf q (s * 2 ^ (q.e + q.f) + e * 2 ^ q.f + f) = s ∧ expOf q (s * 2 ^ (q.e + q.f) + e * 2 ^ q.f + f) = e ∧
    fracOf q (s * 2 ^ (q.e + q.f) + e * 2 ^ q.f + f) = f := by
  have h1 : s * 2 ^ (q.e + q.f) + e * 2 ^ q.f + f = (s * 2 ^ q.e + e) * 2 ^ q.f + f := by rw [Nat.pow_add]; ring
  have hpf : 0 < 2 ^ q.f := by positivity
  have hpe : 0 < 2 ^ q.e := by positivity
  have hd : (s * 2 ^ (q.e + q.f) + e * 2 ^ q.f + f) / 2 ^ q.f = s * 2 ^ q.e + e := by
    rw [h1, Nat.add_comm, Nat.add_mul_div_right _ _ hpf, Nat.div_eq_of_lt hf, Nat.zero_add]
  refine ⟨?_, ?_, ?_⟩
  · unfold sgnOf
    rw [Nat.add_comm q.e q.f, Nat.pow_add, ← Nat.div_div_eq_div_mul, ← Nat.pow_add, Nat.add_comm q.f q.e, hd,
      Nat.add_comm, Nat.add_mul_div_right _ _ hpe, Nat.div_eq_of_lt he, Nat.zero_add, Nat.mod_eq_of_lt hs]
  · unfold expOf
    rw [hd, Nat.add_comm, Nat.add_mul_mod_self_right, Nat.mod_eq_of_lt he]
  · unfold fracOf
    rw [h1, Nat.add_comm, Nat.add_mul_mod_self_right, Nat.mod_eq_of_lt hf]

/-- or-ing the three parts together -/
theorem assemble (p : Fmt) (s e f : Nat) (he : e < 2 ^ p.e) (hf : f < 2 ^ p.f) :
    (s <<< (p.W - 1)) ||| ((e <<< p.f) &&& p.maskExponent) ||| f = s * 2 ^ (p.e + p.f) + e * 2 ^ p.f + f := by
  have hm : (e <<< p.f) &&& p.maskExponent = e <<< p.f := by
    unfold Fmt.maskExponent
    rw [← Nat.shiftLeft_and_distrib, Nat.shiftLeft_eq 1, one_mul, Nat.and_two_pow_sub_one_eq_mod, Nat.mod_eq_of_lt he]
  have hw : p.W - 1 = p.e + p.f := by unfold Fmt.W; omega
  rw [hm, hw]
  have h1 : e <<< p.f < 2 ^ (p.e + p.f) := by
    rw [Nat.shiftLeft_eq, Nat.pow_add]
    exact Nat.mul_lt_mul_of_pos_right he (by positivity)
  rw [← Nat.shiftLeft_add_eq_or_of_lt h1]
  have h2 : s <<< (p.e + p.f) + e <<< p.f = (s * 2 ^ p.e + e) <<< p.f := by
    simp only [Nat.shiftLeft_eq, Nat.pow_add]; ring
  rw [h2, ← Nat.shiftLeft_add_eq_or_of_lt hf]
  simp only [Nat.shiftLeft_eq, Nat.pow_add]; ring

/-- what the converting constructor does to the fields -/
theorem convert_fields (q p : Fmt) (hp : 2 ≤ p.e) (hf : 1 ≤ p.f) (c : Nat) (E' F' : Nat)
    (hE : E' = (if expOf q c = 0 ∧ fracOf q c = 0 then 0 else if (expOf q c : ℤ) - ieeeBias q + ieeeBias p < 0 then 0
      else if (expOf q c : ℤ) - ieeeBias q + ieeeBias p > 2 ^ p.e - 2 then 2 ^ p.e - 2
      else ((expOf q c : ℤ) - ieeeBias q + ieeeBias p).toNat))
    (hF : F' = (if expOf q c = 0 ∧ fracOf q c = 0 then 0 else if (expOf q c : ℤ) - ieeeBias q + ieeeBias p < 0 then 1
      else if (expOf q c : ℤ) - ieeeBias q + ieeeBias p > 2 ^ p.e - 2 then 2 ^ p.f - 1
      else if p.f > q.f then fracOf q c * 2 ^ (p.f - q.f) else fracOf q c / 2 ^ (q.f - p.f))) :
    sgnOf p (q.convert p c) = sgnOf q c ∧ expOf p (q.convert p c) = E' ∧ fracOf p (q.convert p c) = F' := by
  have hbits : q.convert p c = sgnOf q c * 2 ^ (p.e + p.f) + E' * 2 ^ p.f + F' ∧ E' < 2 ^ p.e ∧ F' < 2 ^ p.f := by
    have hmz : c &&& q.notSign = 0 ↔ expOf q c = 0 ∧ fracOf q c = 0 := by
      rw [notSign_eq, mag_fields]
      have : 0 < 2 ^ q.f := by positivity
      constructor
      · intro h
        have h2 : fracOf q c = 0 := by omega
        have h1 : expOf q c * 2 ^ q.f = 0 := by omega
        rcases Nat.mul_eq_zero.1 h1 with h | h
        · exact ⟨h, h2⟩
        · omega
      · rintro ⟨h1, h2⟩; rw [h1, h2]; simp
    have hw : p.W - 1 = p.e + p.f := by unfold Fmt.W; omega
    have h4 : 4 ≤ 2 ^ p.e := by
      calc 4 = 2 ^ 2 := rfl
        _ ≤ 2 ^ p.e := Nat.pow_le_pow_right (by omega) hp
    have h4' : (4 : ℤ) ≤ 2 ^ p.e := by exact_mod_cast h4
    have h2f : 2 ≤ 2 ^ p.f := by
      calc 2 = 2 ^ 1 := rfl
        _ ≤ 2 ^ p.f := Nat.pow_le_pow_right (by omega) hf
    have hpe : ((1 <<< p.e : Nat) : ℤ) = 2 ^ p.e := by rw [Nat.shiftLeft_eq, one_mul]; simp
    have hcast : ((2 ^ p.e : ℕ) : ℤ) = 2 ^ p.e := by simp
    unfold Fmt.convert
    by_cases hz : expOf q c = 0 ∧ fracOf q c = 0
    · rw [if_pos (hmz.2 hz)]
      rw [if_pos hz] at hE hF
      subst hE hF
      rw [valueSign_eq, hw, Nat.shiftLeft_eq]
      simp
    · rw [if_neg (fun h => hz (hmz.1 h))]
      rw [if_neg hz] at hE hF
      simp only [Fmt.valueExponent, expField_eq, valueSign_eq, valueFraction_eq, bias_eq, hpe]
      by_cases h1 : (expOf q c : ℤ) - ieeeBias q + ieeeBias p < 0
      · rw [if_pos h1] at hE hF ⊢
        subst hE hF
        refine ⟨?_, by omega, by omega⟩
        exact assemble p _ 0 1 (by omega) (by omega)
      · rw [if_neg h1] at hE hF ⊢
        by_cases h2 : (expOf q c : ℤ) - ieeeBias q + ieeeBias p > 2 ^ p.e - 2
        · rw [if_pos h2] at hE hF ⊢
          subst hE hF
          have ht : (2 ^ p.e - 2 : ℤ).toNat = 2 ^ p.e - 2 := by omega
          refine ⟨?_, by omega, by omega⟩
          simp only [ht, Nat.shiftLeft_eq 1, one_mul]
          exact assemble p _ _ _ (by omega) (by omega)
        · rw [if_neg h2] at hE hF ⊢
          have hlt : E' < 2 ^ p.e := by omega
          have hFl : F' < 2 ^ p.f := by
            have := fracOf_lt q c
            rw [hF]
            split
            · next hgt =>
              calc fracOf q c * 2 ^ (p.f - q.f) < 2 ^ q.f * 2 ^ (p.f - q.f) :=
                    Nat.mul_lt_mul_of_pos_right this (by positivity)
                _ = 2 ^ p.f := by rw [← Nat.pow_add]; congr 1; omega
            · next hgt =>
              rw [Nat.div_lt_iff_lt_mul (by positivity), ← Nat.pow_add]
              rw [show p.f + (q.f - p.f) = q.f by omega]; exact this
          refine ⟨?_, hlt, hFl⟩
          have := assemble p (sgnOf q c) E' F' hlt hFl
          rw [← this, hE, hF]
          simp only [Nat.shiftLeft_eq (fracOf q c), Nat.shiftRight_eq_div_pow]
  obtain ⟨h1, h2, h3⟩ := hbits
  rw [h1]
  exact fields_of p _ _ _ (sgnOf_lt q c) h2 h3

/-- a wider format: at least as many exponent and fraction bits -/
structure Wider (q p : Fmt) : Prop where
  e2 : 2 ≤ q.e
  f1 : 1 ≤ q.f
  e : q.e ≤ p.e
  f : q.f ≤ p.f

theorem half_single : Wider .half .single := ⟨by decide, by decide, by decide, by decide⟩
theorem half_double : Wider .half .double := ⟨by decide, by decide, by decide, by decide⟩
theorem single_double : Wider .single .double := ⟨by decide, by decide, by decide, by decide⟩

theorem Wider.pow {q p : Fmt} (h : Wider q p) : ∃ x y : ℤ, (2 : ℤ) ^ q.e = 2 * x ∧ (2 : ℤ) ^ p.e = 2 * y ∧ 2 ≤ x ∧ x ≤ y ∧
    ieeeBias q = x - 1 ∧ ieeeBias p = y - 1 ∧ (q.e < p.e → x < y) := by
  have e2 := h.e2
  have e := h.e
  refine ⟨2 ^ (q.e - 1), 2 ^ (p.e - 1), ?_, ?_, ?_, ?_, rfl, rfl, ?_⟩
  · rw [← pow_succ']; congr 1; omega
  · rw [← pow_succ']; congr 1; omega
  · calc (2 : ℤ) = 2 ^ 1 := rfl
      _ ≤ 2 ^ (q.e - 1) := pow_le_pow_right₀ (by norm_num) (by omega)
  · exact pow_le_pow_right₀ (by norm_num) (by omega)
  · intro h; exact pow_lt_pow_right₀ (by norm_num) (by omega)

/-- fields of the widened code of a finite code -/
theorem widen_fields {q p : Fmt} (h : Wider q p) (c : Nat) (hc : IsFinite q c) :
    sgnOf p (q.convert p c) = sgnOf q c ∧
    (expOf p (q.convert p c) : ℤ) = (if expOf q c = 0 ∧ fracOf q c = 0 then 0 else (expOf q c : ℤ) - ieeeBias q + ieeeBias p) ∧
    fracOf p (q.convert p c) = fracOf q c * 2 ^ (p.f - q.f) := by
  obtain ⟨x, y, hx, hy, hx2, hxy, hbq, hbp, -⟩ := h.pow
  have hf := h.f
  obtain ⟨h1, h2, h3⟩ := convert_fields q p (by have := h.e2; have := h.e; omega) (by have := h.f1; omega) c _ _ rfl rfl
  have hE : (expOf q c : ℤ) ≤ 2 ^ q.e - 2 := by
    have := expOf_lt q c
    unfold IsFinite at hc
    have h4 : (expOf q c) + 2 ≤ 2 ^ q.e := by omega
    have h5 : ((expOf q c + 2 : ℕ) : ℤ) ≤ ((2 ^ q.e : ℕ) : ℤ) := by exact_mod_cast h4
    push_cast at h5; omega
  refine ⟨h1, ?_, ?_⟩
  · rw [h2]
    split
    · rfl
    · rw [if_neg (by omega), if_neg (by omega)]; omega
  · rw [h3]
    split
    · next hz => rw [hz.2]; simp
    · rw [if_neg (by omega), if_neg (by omega)]
      split
      · rfl
      · have : p.f = q.f := by omega
        rw [this]; simp

/-- **C32 (widening)** Converting to a wider format keeps the value of every finite code that is not subnormal. -/
theorem C32_widen_partial (q p : Fmt) (h : Wider q p) (c : Nat) (hc : IsNormalOrZero q c) :
    ieeeVal p (q.convert p c) = ieeeVal q c ∧ IsFinite p (q.convert p c) := by
  obtain ⟨h1, h2, h3⟩ := widen_fields h c hc.1
  obtain ⟨x, y, hx, hy, hx2, hxy, hbq, hbp, -⟩ := h.pow
  have hE : (expOf q c : ℤ) ≤ 2 ^ q.e - 2 := by
    have := expOf_lt q c
    have hc := hc.1
    unfold IsFinite at hc
    have h4 : (expOf q c) + 2 ≤ 2 ^ q.e := by omega
    have h5 : ((expOf q c + 2 : ℕ) : ℤ) ≤ ((2 ^ q.e : ℕ) : ℤ) := by exact_mod_cast h4
    push_cast at h5; omega
  have hfin : IsFinite p (q.convert p c) := by
    unfold IsFinite
    intro hh
    have h5 : ((expOf p (q.convert p c) : ℕ) : ℤ) = ((2 ^ p.e - 1 : ℕ) : ℤ) := by rw [hh]
    rw [Nat.cast_sub Nat.one_le_two_pow] at h5
    push_cast at h5
    split at h2 <;> omega
  refine ⟨?_, hfin⟩
  unfold ieeeVal
  rw [h1]
  congr 1
  by_cases hz : expOf q c = 0
  · have hf0 := hc.2 hz
    rw [if_pos ⟨hz, hf0⟩] at h2
    rw [h3, hf0, if_pos hz, if_pos (by omega)]
    simp
  · rw [if_neg (fun hh => hz hh.1)] at h2
    rw [if_neg hz, if_neg (by omega), h2, h3]
    have hpf := h.f
    obtain ⟨k, hk⟩ := Nat.exists_eq_add_of_le hpf
    have h20 : (2 : ℚ) ≠ 0 := by norm_num
    rw [show (expOf q c : ℤ) - ieeeBias q + ieeeBias p - ieeeBias p - (p.f : ℤ) =
      ((expOf q c : ℤ) - ieeeBias q - q.f) - (k : ℤ) by rw [hk]; push_cast; ring]
    rw [zpow_sub₀ h20, hk, Nat.add_sub_cancel_left, pow_add]
    push_cast
    rw [zpow_natCast]
    field_simp

/-- 1.5 = 0x3e00 -/
example : IsNormalOrZero .half 0x3e00 ∧ Fmt.half.convert .single 0x3e00 = 0x3fc00000 := by
  constructor
  · constructor
    · norm_num [IsFinite, expOf, Fmt.half]
    · norm_num [expOf, fracOf, Fmt.half]
  · decide

theorem code_ext (q : Fmt) (a b : Nat) (ha : a < 2 ^ q.W) (hb : b < 2 ^ q.W) (h1 : sgnOf q a = sgnOf q b)
    (h2 : expOf q a = expOf q b) (h3 : fracOf q a = fracOf q b) : a = b := by
  have key : ∀ c, c < 2 ^ q.W → c = sgnOf q c * 2 ^ (q.e + q.f) + (expOf q c * 2 ^ q.f + fracOf q c) := by
    intro c hc
    rw [← mag_fields]
    unfold sgnOf
    have : c / 2 ^ (q.e + q.f) < 2 := by
      rw [Nat.div_lt_iff_lt_mul (by positivity), ← pow_succ']
      unfold Fmt.W at hc
      rwa [show q.e + q.f + 1 = 1 + q.e + q.f by omega]
    rw [Nat.mod_eq_of_lt this, Nat.mul_comm]
    exact (Nat.div_add_mod _ _).symm
  rw [key a ha, key b hb, h1, h2, h3]

theorem convert_lt (q p : Fmt) (hp : 2 ≤ p.e) (hf : 1 ≤ p.f) (c : Nat) : q.convert p c < 2 ^ p.W := by
  have h4 : 4 ≤ 2 ^ p.e := by
    calc 4 = 2 ^ 2 := rfl
      _ ≤ 2 ^ p.e := Nat.pow_le_pow_right (by omega) hp
  have hw : p.W - 1 < p.W := by unfold Fmt.W; omega
  have hs : q.valueSign c <<< (p.W - 1) < 2 ^ p.W := by
    rw [valueSign_eq, Nat.shiftLeft_eq]
    calc sgnOf q c * 2 ^ (p.W - 1) < 2 * 2 ^ (p.W - 1) := Nat.mul_lt_mul_of_pos_right (sgnOf_lt q c) (by positivity)
      _ = 2 ^ p.W := by rw [← pow_succ']; congr 1; omega
  unfold Fmt.convert
  split
  · exact hs
  · have hfw : 2 ^ p.f ≤ 2 ^ p.W := Nat.pow_le_pow_right (by omega) (by unfold Fmt.W; omega)
    have hme : p.maskExponent < 2 ^ p.W := by
      unfold Fmt.maskExponent
      rw [Nat.shiftLeft_eq, Nat.shiftLeft_eq, one_mul]
      calc (2 ^ p.e - 1) * 2 ^ p.f < 2 ^ p.e * 2 ^ p.f := Nat.mul_lt_mul_of_pos_right (by omega) (by positivity)
        _ = 2 ^ (p.e + p.f) := by rw [pow_add]
        _ ≤ 2 ^ p.W := Nat.pow_le_pow_right (by omega) (by unfold Fmt.W; omega)
    have h2f : 2 ≤ 2 ^ p.f := by
      calc 2 = 2 ^ 1 := rfl
        _ ≤ 2 ^ p.f := Nat.pow_le_pow_right (by omega) hf
    refine Nat.or_lt_two_pow (Nat.or_lt_two_pow hs (lt_of_le_of_lt Nat.and_le_right hme)) ?_
    split
    · show 1 < _; omega
    · split
      · show 1 <<< p.f - 1 < _
        rw [Nat.shiftLeft_eq, one_mul]; omega
      · show (if p.f > q.f then _ else _) < _
        refine lt_of_lt_of_le ?_ hfw
        have := fracOf_lt q c
        rw [valueFraction_eq]
        split
        · rw [Nat.shiftLeft_eq]
          calc fracOf q c * 2 ^ (p.f - q.f) < 2 ^ q.f * 2 ^ (p.f - q.f) :=
                Nat.mul_lt_mul_of_pos_right this (by positivity)
            _ = 2 ^ p.f := by rw [← Nat.pow_add]; congr 1; omega
        · rw [Nat.shiftRight_eq_div_pow, Nat.div_lt_iff_lt_mul (by positivity), ← Nat.pow_add]
          rw [show p.f + (q.f - p.f) = q.f by omega]; exact this

/-- **C32 (round trip)** Narrowing the widened code back returns the same code, for every finite code (subnormal ones and
both zeros included). -/
theorem C32_round_trip_partial (q p : Fmt) (h : Wider q p) (c : Nat) (hw : c < 2 ^ q.W) (hc : IsFinite q c) :
    p.convert q (q.convert p c) = c := by
  obtain ⟨h1, h2, h3⟩ := widen_fields h c hc
  obtain ⟨x, y, hx, hy, hx2, hxy, hbq, hbp, -⟩ := h.pow
  have hE : (expOf q c : ℤ) ≤ 2 ^ q.e - 2 := by
    have := expOf_lt q c
    unfold IsFinite at hc
    have h4 : (expOf q c) + 2 ≤ 2 ^ q.e := by omega
    have h5 : ((expOf q c + 2 : ℕ) : ℤ) ≤ ((2 ^ q.e : ℕ) : ℤ) := by exact_mod_cast h4
    push_cast at h5; omega
  obtain ⟨k1, k2, k3⟩ := convert_fields p q h.e2 h.f1 (q.convert p c) _ _ rfl rfl
  have hpos : 0 < 2 ^ (p.f - q.f) := by positivity
  refine code_ext q _ _ (convert_lt p q h.e2 h.f1 _) hw (by rw [k1, h1]) ?_ ?_
  · rw [k2]
    by_cases hz : expOf q c = 0 ∧ fracOf q c = 0
    · rw [if_pos hz] at h2
      rw [if_pos ⟨by omega, by rw [h3, hz.2]; simp⟩, hz.1]
    · rw [if_neg hz] at h2
      have hnz : ¬ (expOf p (q.convert p c) = 0 ∧ fracOf p (q.convert p c) = 0) := by
        rintro ⟨he, hf⟩
        rw [h3] at hf
        rcases Nat.mul_eq_zero.1 hf with hf | hf
        · exact hz ⟨by omega, hf⟩
        · omega
      rw [if_neg hnz, if_neg (by omega), if_neg (by omega)]
      omega
  · rw [k3]
    by_cases hz : expOf q c = 0 ∧ fracOf q c = 0
    · rw [if_pos hz] at h2
      rw [if_pos ⟨by omega, by rw [h3, hz.2]; simp⟩, hz.2]
    · rw [if_neg hz] at h2
      have hnz : ¬ (expOf p (q.convert p c) = 0 ∧ fracOf p (q.convert p c) = 0) := by
        rintro ⟨he, hf⟩
        rw [h3] at hf
        rcases Nat.mul_eq_zero.1 hf with hf | hf
        · exact hz ⟨by omega, hf⟩
        · omega
      have hf := h.f
      rw [if_neg hnz, if_neg (by omega), if_neg (by omega), if_neg (by omega), h3]
      exact Nat.mul_div_cancel _ hpos

example : Fmt.single.convert .half (Fmt.half.convert .single 0x83ff) = 0x83ff := by decide

/-- **C32, negation** Every subnormal code changes its value when widened to a format with more exponent bits. -/
theorem C32_subnormal_false (q p : Fmt) (h : Wider q p) (he : q.e < p.e) (c : Nat) (h0 : expOf q c = 0) (h1 : fracOf q c ≠ 0) :
    ieeeVal p (q.convert p c) ≠ ieeeVal q c := by
  have hfin : IsFinite q c := by
    unfold IsFinite; rw [h0]
    have : 2 ^ 2 ≤ 2 ^ q.e := Nat.pow_le_pow_right (by omega) h.e2
    omega
  obtain ⟨g1, g2, g3⟩ := widen_fields h c hfin
  obtain ⟨x, y, hx, hy, hx2, hxy, hbq, hbp, hlt⟩ := h.pow
  have hlt := hlt he
  rw [if_neg (fun hh => h1 hh.2), h0] at g2
  have hEp : expOf p (q.convert p c) ≠ 0 := by intro hh; rw [hh] at g2; push_cast at g2; omega
  unfold ieeeVal
  rw [g1, if_pos h0, if_neg hEp, g2, g3]
  intro hh
  have hs : (if sgnOf q c = 1 then (-1 : ℚ) else 1) ≠ 0 := by split <;> norm_num
  have hh := mul_left_cancel₀ hs hh
  obtain ⟨k, hk⟩ := Nat.exists_eq_add_of_le h.f
  have h20 : (2 : ℚ) ≠ 0 := by norm_num
  rw [show ((0 : ℕ) : ℤ) - ieeeBias q + ieeeBias p - ieeeBias p - (p.f : ℤ) =
      (1 - ieeeBias q - q.f) - ((k + 1 : ℕ) : ℤ) by rw [hk]; push_cast; ring] at hh
  rw [zpow_sub₀ h20, hk, Nat.add_sub_cancel_left, pow_add, zpow_natCast] at hh
  push_cast at hh
  have hz : (2 : ℚ) ^ (1 - ieeeBias q - (q.f : ℤ)) ≠ 0 := zpow_ne_zero _ h20
  have hk0 : (2 : ℚ) ^ k ≠ 0 := pow_ne_zero _ h20
  rw [pow_succ] at hh
  field_simp at hh
  have hl := fracOf_lt q c
  have : (fracOf q c : ℚ) < 2 ^ q.f := by exact_mod_cast hl
  linarith

example : expOf .half 1 = 0 ∧ fracOf .half 1 ≠ 0 := by decide

/-- **C32, negation** Infinities and NaNs widen to finite numbers, and narrowing back does not return them. -/
theorem C32_infinity_false (c : Nat) (h : expOf .half c = 31) :
    IsFinite .single (Fmt.half.convert .single c) ∧ Fmt.single.convert .half (Fmt.half.convert .single c) ≠ c := by
  obtain ⟨k1, k2, k3⟩ := convert_fields .half .single (by decide) (by decide) c _ _ rfl rfl
  have hb1 : ieeeBias .half = 15 := rfl
  have hb2 : ieeeBias .single = 127 := rfl
  have hp1 : (2 : ℤ) ^ Fmt.single.e = 256 := rfl
  have hp2 : (2 : ℤ) ^ Fmt.half.e = 32 := rfl
  rw [h, hb1, hb2, hp1] at k2
  have e1 : expOf .single (Fmt.half.convert .single c) = 143 := by rw [k2]; rfl
  obtain ⟨l1, l2, l3⟩ := convert_fields .single .half (by decide) (by decide) (Fmt.half.convert .single c) _ _ rfl rfl
  rw [e1, hb1, hb2, hp2] at l2
  constructor
  · unfold IsFinite; rw [e1]; decide
  · have e2 : expOf .half (Fmt.single.convert .half (Fmt.half.convert .single c)) = 30 := by rw [l2]; rfl
    intro hh
    rw [hh, h] at e2
    omega

example : Fmt.half.convert .single 0x7c00 = 0x47800000 ∧ Fmt.single.convert .half 0x47800000 = 0x7bff := by decide

/-- **C32 (narrowing)** A number whose exponent is in the normal range of the narrower format is cut off towards zero: the
sign is kept, the magnitude does not grow, and the error is less than one unit in the last place. -/
theorem C32_narrow_truncates (q p : Fmt) (hq : Wider p q) (c : Nat) (h0 : expOf q c ≠ 0)
    (hlo : 1 ≤ (expOf q c : ℤ) - ieeeBias q + ieeeBias p) (hhi : (expOf q c : ℤ) - ieeeBias q + ieeeBias p ≤ 2 ^ p.e - 2) :
    sgnOf p (q.convert p c) = sgnOf q c ∧ |ieeeVal p (q.convert p c)| ≤ |ieeeVal q c| ∧
    |ieeeVal q c| < |ieeeVal p (q.convert p c)| + 2 ^ ((expOf q c : ℤ) - ieeeBias q - p.f) := by
  obtain ⟨h1, h2, h3⟩ := convert_fields q p hq.e2 hq.f1 c _ _ rfl rfl
  have hf := hq.f
  rw [if_neg (fun hh => h0 hh.1), if_neg (by omega), if_neg (by omega)] at h2 h3
  rw [if_neg (by omega)] at h3
  have hE : expOf p (q.convert p c) ≠ 0 := by omega
  have h2' : (expOf p (q.convert p c) : ℤ) = (expOf q c : ℤ) - ieeeBias q + ieeeBias p := by omega
  refine ⟨h1, ?_⟩
  have habs : ∀ (r : Fmt) (d : Nat), expOf r d ≠ 0 →
      |ieeeVal r d| = ((2 : ℚ) ^ r.f + fracOf r d) * 2 ^ ((expOf r d : ℤ) - ieeeBias r - r.f) := by
    intro r d hd
    unfold ieeeVal
    rw [if_neg hd, abs_mul]
    have : |(if sgnOf r d = 1 then (-1 : ℚ) else 1)| = 1 := by split <;> simp
    rw [this, one_mul, abs_of_nonneg (mul_nonneg (by positivity) (zpow_nonneg (by norm_num) _))]
  rw [habs p _ hE, habs q _ h0, h2', h3]
  obtain ⟨k, hk⟩ := Nat.exists_eq_add_of_le hf
  have h20 : (2 : ℚ) ≠ 0 := by norm_num
  have hk' : q.f - p.f = k := by omega
  rw [hk']
  rw [show (expOf q c : ℤ) - ieeeBias q + ieeeBias p - ieeeBias p - (p.f : ℤ) = (expOf q c : ℤ) - ieeeBias q - p.f by ring]
  rw [show (expOf q c : ℤ) - ieeeBias q - (q.f : ℤ) = ((expOf q c : ℤ) - ieeeBias q - p.f) - (k : ℤ) by
    rw [hk]; push_cast; ring]
  rw [zpow_sub₀ h20 _ (k : ℤ), zpow_natCast, hk, pow_add]
  have hu : (0 : ℚ) < 2 ^ ((expOf q c : ℤ) - ieeeBias q - p.f) := zpow_pos (by norm_num) _
  generalize (2 : ℚ) ^ ((expOf q c : ℤ) - ieeeBias q - p.f) = u at *
  have hk0 : (0 : ℚ) < 2 ^ k := by positivity
  have d1 : ((fracOf q c / 2 ^ k : ℕ) : ℚ) * 2 ^ k ≤ fracOf q c := by
    exact_mod_cast Nat.div_mul_le_self _ _
  have d2 : (fracOf q c : ℚ) < ((fracOf q c / 2 ^ k : ℕ) : ℚ) * 2 ^ k + 2 ^ k := by
    have := Nat.lt_div_mul_add (a := fracOf q c) (b := 2 ^ k) (by positivity)
    exact_mod_cast this
  generalize ((fracOf q c / 2 ^ k : ℕ) : ℚ) = d at *
  generalize (fracOf q c : ℚ) = F at *
  have e : (2 ^ p.f * 2 ^ k + F) * (u / 2 ^ k) = (2 ^ p.f + F / 2 ^ k) * u := by field_simp
  rw [e]
  have d1' : d ≤ F / 2 ^ k := by rw [le_div_iff₀ hk0]; exact d1
  have d2' : F / 2 ^ k < d + 1 := by rw [div_lt_iff₀ hk0]; linarith
  constructor
  · exact mul_le_mul_of_nonneg_right (by linarith) hu.le
  · have : (2 ^ p.f + F / 2 ^ k) * u < (2 ^ p.f + (d + 1)) * u := mul_lt_mul_of_pos_right (by linarith) hu
    linarith

/-- 1 + 2^-23 to half precision: 1 -/
example : Fmt.single.convert .half 0x3f800001 = 0x3c00 ∧ expOf .single 0x3f800001 = 127 := by decide

/-- **C32, negation** (also narrowing) 2^-15, which half precision represents (code 0x0200), narrows to zero. -/
theorem C32_narrow_underflow_false : ieeeVal .single 0x38000000 = ieeeVal .half 0x0200 ∧
    Fmt.single.convert .half 0x38000000 = 0 ∧ ieeeVal .half 0x0200 ≠ ieeeVal .half 0 := by
  refine ⟨?_, by decide, ?_⟩ <;> norm_num [ieeeVal, sgnOf, expOf, fracOf, ieeeBias, Fmt.half, Fmt.single]

/-! ## Order -/

/-- magnitude as a multiple of the smallest subnormal -/
def unitMag (q : Fmt) (m : Nat) : Nat :=
  if m / 2 ^ q.f = 0 then m % 2 ^ q.f else (2 ^ q.f + m % 2 ^ q.f) * 2 ^ (m / 2 ^ q.f - 1)

theorem unitMag_lt (q : Fmt) (m : Nat) : unitMag q m < unitMag q (m + 1) := by
  have hp : 0 < 2 ^ q.f := by positivity
  unfold unitMag
  by_cases hc : m % 2 ^ q.f + 1 = 2 ^ q.f
  · have hd : (m + 1) / 2 ^ q.f = m / 2 ^ q.f + 1 := by
      have : m + 1 = 2 ^ q.f * (m / 2 ^ q.f + 1) := by
        have := Nat.div_add_mod m (2 ^ q.f)
        rw [Nat.mul_add]; omega
      rw [this, Nat.mul_div_cancel_left _ hp]
    have hm : (m + 1) % 2 ^ q.f = 0 := by
      have := Nat.div_add_mod m (2 ^ q.f)
      have h3 : m + 1 = 2 ^ q.f * (m / 2 ^ q.f + 1) := by rw [Nat.mul_add]; omega
      rw [h3, Nat.mul_mod_right]
    rw [hd, hm, if_neg (Nat.succ_ne_zero (m / 2 ^ q.f))]
    split
    · next h0 => rw [h0]; simp only [Nat.add_zero, Nat.zero_add, Nat.sub_self, Nat.pow_zero, Nat.mul_one]; omega
    · next h0 =>
      obtain ⟨k, hk⟩ := Nat.exists_eq_succ_of_ne_zero h0
      rw [hk]
      simp only [Nat.succ_eq_add_one, Nat.add_sub_cancel, Nat.add_zero]
      have : 2 ^ (k + 1) = 2 ^ k * 2 := pow_succ _ _
      rw [this]
      have hk : 0 < 2 ^ k := by positivity
      calc (2 ^ q.f + m % 2 ^ q.f) * 2 ^ k < (2 ^ q.f * 2) * 2 ^ k := Nat.mul_lt_mul_of_pos_right (by omega) hk
        _ = 2 ^ q.f * (2 ^ k * 2) := by ring
  · have hlt := Nat.mod_lt m hp
    have hd : (m + 1) / 2 ^ q.f = m / 2 ^ q.f := by
      have := Nat.div_add_mod m (2 ^ q.f)
      have h3 : m + 1 = (m % 2 ^ q.f + 1) + 2 ^ q.f * (m / 2 ^ q.f) := by omega
      rw [h3, Nat.add_mul_div_left _ _ hp, Nat.div_eq_of_lt (by omega), Nat.zero_add]
    have hm : (m + 1) % 2 ^ q.f = m % 2 ^ q.f + 1 := by
      have := Nat.div_add_mod m (2 ^ q.f)
      have h3 : m + 1 = (m % 2 ^ q.f + 1) + 2 ^ q.f * (m / 2 ^ q.f) := by omega
      rw [h3, Nat.add_mul_mod_self_left, Nat.mod_eq_of_lt (by omega)]
    rw [hd, hm]
    split
    · omega
    · exact Nat.mul_lt_mul_of_pos_right (by omega) (by positivity)

theorem unitMag_strictMono (q : Fmt) : StrictMono (unitMag q) := strictMono_nat_of_lt_succ (unitMag_lt q)

/-- the value is sign times magnitude times the smallest subnormal -/
theorem ieeeVal_unit (q : Fmt) (c : Nat) : ieeeVal q c =
    (if sgnOf q c = 1 then -1 else 1) * ((unitMag q (c % 2 ^ (q.e + q.f)) : ℚ) * 2 ^ (1 - ieeeBias q - q.f)) := by
  have h1 : c % 2 ^ (q.e + q.f) / 2 ^ q.f = expOf q c := by
    rw [mag_fields, Nat.add_comm, Nat.add_mul_div_right _ _ (by positivity), Nat.div_eq_of_lt (fracOf_lt q c), Nat.zero_add]
  have h2 : c % 2 ^ (q.e + q.f) % 2 ^ q.f = fracOf q c := by
    rw [mag_fields, Nat.add_comm, Nat.add_mul_mod_self_right, Nat.mod_eq_of_lt (fracOf_lt q c)]
  unfold ieeeVal unitMag
  rw [h1, h2]
  congr 1
  split
  · rfl
  · next h0 =>
    obtain ⟨k, hk⟩ := Nat.exists_eq_succ_of_ne_zero h0
    rw [hk]
    push_cast
    rw [mul_assoc]
    congr 1
    rw [← zpow_natCast (2 : ℚ) k, ← zpow_add₀ (by norm_num)]
    congr 1
    ring

/-- sign and magnitude comparisons of the model, in terms of the code's parts -/
theorem code_parts (q : Fmt) (c : Nat) (hc : c < 2 ^ q.W) :
    (sgnOf q c = 0 ∧ c = c % 2 ^ (q.e + q.f)) ∨ (sgnOf q c = 1 ∧ c = 2 ^ (q.e + q.f) + c % 2 ^ (q.e + q.f)) := by
  have hw : q.W = q.e + q.f + 1 := by unfold Fmt.W; omega
  rw [hw, pow_succ] at hc
  have hp : 0 < 2 ^ (q.e + q.f) := by positivity
  unfold sgnOf
  have h := Nat.div_add_mod c (2 ^ (q.e + q.f))
  have hd : c / 2 ^ (q.e + q.f) < 2 := by rw [Nat.div_lt_iff_lt_mul hp]; omega
  generalize hk : c / 2 ^ (q.e + q.f) = k at *
  have : k = 0 ∨ k = 1 := by omega
  rcases this with rfl | rfl
  · left; constructor
    · rfl
    · omega
  · right; constructor
    · rfl
    · omega

theorem signs_zero (q : Fmt) (a b : Nat) :
    ((a ||| b) &&& q.maskSign = 0) ↔ sgnOf q a = 0 ∧ sgnOf q b = 0 := by
  have hw : q.W - 1 = q.e + q.f := by unfold Fmt.W; omega
  unfold Fmt.maskSign
  rw [hw, Nat.shiftLeft_eq, one_mul]
  have key : ∀ c, (Nat.testBit c (q.e + q.f)) = decide (sgnOf q c = 1) := by
    intro c
    rw [Nat.testBit_eq_decide_div_mod_eq]; rfl
  have h0 : ∀ x, x &&& 2 ^ (q.e + q.f) = 0 ↔ Nat.testBit x (q.e + q.f) = false := by
    intro x
    constructor
    · intro h
      have := congrArg (fun y => Nat.testBit y (q.e + q.f)) h
      simpa using this
    · intro h
      apply Nat.eq_of_testBit_eq
      intro i
      rw [Nat.testBit_and, Nat.testBit_two_pow, Nat.zero_testBit]
      by_cases hi : q.e + q.f = i
      · subst hi; simp [h]
      · simp [hi]
  have := sgnOf_lt q a
  have := sgnOf_lt q b
  rw [h0, Nat.testBit_or, key, key]
  simp
  omega

/-- **C32 (order)** On finite codes the comparison operators are the numeric comparisons (both zeros being equal). The
theorem needs no finiteness hypothesis: `ieeeVal` of the infinity code is a number above (below) all finite values, so it also
says that infinities compare as they should. NaN codes are the exception, see `C32_nan_order_false`. -/
theorem C32_order (q : Fmt) (a b : Nat) (ha : a < 2 ^ q.W) (hb : b < 2 ^ q.W) :
    (q.eq a b = true ↔ ieeeVal q a = ieeeVal q b) ∧ (q.le a b = true ↔ ieeeVal q a ≤ ieeeVal q b) ∧
    (q.ge a b = true ↔ ieeeVal q a ≥ ieeeVal q b) ∧ (q.lt a b = true ↔ ieeeVal q a < ieeeVal q b) ∧
    (q.gt a b = true ↔ ieeeVal q a > ieeeVal q b) := by
  have hu : (0 : ℚ) < 2 ^ (1 - ieeeBias q - (q.f : ℤ)) := zpow_pos (by norm_num) _
  have hm := unitMag_strictMono q
  have h0 : unitMag q 0 = 0 := by unfold unitMag; simp
  have hpos : ∀ m, m ≠ 0 → (0 : ℚ) < unitMag q m := by
    intro m hm0
    have := hm (Nat.pos_of_ne_zero hm0)
    rw [h0] at this
    exact_mod_cast this
  have hnn : ∀ m, (0 : ℚ) ≤ unitMag q m := fun m => by positivity
  have hlt : ∀ m n, (unitMag q m : ℚ) < unitMag q n ↔ m < n := fun m n => by rw [Nat.cast_lt]; exact hm.lt_iff_lt
  have heq : ∀ m n, (unitMag q m : ℚ) = unitMag q n ↔ m = n := fun m n => by rw [Nat.cast_inj]; exact hm.injective.eq_iff
  have hz : ∀ c, q.isZero c = decide (c % 2 ^ (q.e + q.f) = 0) := fun c => by unfold Fmt.isZero; rw [notSign_eq]
  have va := ieeeVal_unit q a
  have vb := ieeeVal_unit q b
  have hma : a % 2 ^ (q.e + q.f) < 2 ^ (q.e + q.f) := Nat.mod_lt _ (by positivity)
  have hmb : b % 2 ^ (q.e + q.f) < 2 ^ (q.e + q.f) := Nat.mod_lt _ (by positivity)
  have main : (q.eq a b = true ↔ ieeeVal q a = ieeeVal q b) ∧ (q.le a b = true ↔ ieeeVal q a ≤ ieeeVal q b) ∧
      (q.ge a b = true ↔ ieeeVal q a ≥ ieeeVal q b) := by
    unfold Fmt.le Fmt.ge Fmt.eq
    simp only [hz, signs_zero q a b]
    generalize hA : a % 2 ^ (q.e + q.f) = ma at *
    generalize hB : b % 2 ^ (q.e + q.f) = mb at *
    generalize (2 : ℚ) ^ (1 - ieeeBias q - (q.f : ℤ)) = u at *
    have hab : ∀ {x y : ℚ}, x * u = y * u ↔ x = y := fun {x y} => mul_left_inj' hu.ne'
    have hle : ∀ {x y : ℚ}, x * u ≤ y * u ↔ x ≤ y := fun {x y} => mul_le_mul_iff_left₀ hu
    rw [va, vb]
    rcases code_parts q a ha with ⟨sa, ea⟩ | ⟨sa, ea⟩ <;> rcases code_parts q b hb with ⟨sb, eb⟩ | ⟨sb, eb⟩ <;>
      rw [hA] at ea <;> rw [hB] at eb <;> simp only [sa, sb]
    · have r1 : (1 : ℚ) * (unitMag q ma * u) = 1 * (unitMag q mb * u) ↔ ma = mb := by
        rw [one_mul, one_mul, hab, heq]
      have r2 : ∀ m n, (1 : ℚ) * (unitMag q m * u) ≤ 1 * (unitMag q n * u) ↔ m ≤ n := by
        intro m n
        rw [one_mul, one_mul, hle, ← not_lt, hlt, not_lt]
      simp only [ge_iff_le, if_false, Nat.zero_ne_one, r1, r2]
      rw [ea, eb]
      clear va vb ea eb hA hB r1 r2 ha hb
      by_cases z1 : ma = 0 <;> by_cases z2 : mb = 0 <;> simp [z1, z2] <;> omega
    · have r1 : (1 : ℚ) * (unitMag q ma * u) = -1 * (unitMag q mb * u) ↔ ma = 0 ∧ mb = 0 := by
        rw [one_mul, neg_one_mul, ← neg_mul, hab]
        have := hnn ma; have := hnn mb
        constructor
        · intro h
          have e1 : (unitMag q ma : ℚ) = unitMag q 0 := by rw [h0]; push_cast; linarith
          have e2 : (unitMag q mb : ℚ) = unitMag q 0 := by rw [h0]; push_cast; linarith
          exact ⟨(heq _ _).1 e1, (heq _ _).1 e2⟩
        · rintro ⟨rfl, rfl⟩; rw [h0]; simp
      have r2 : (1 : ℚ) * (unitMag q ma * u) ≤ -1 * (unitMag q mb * u) ↔ ma = 0 ∧ mb = 0 := by
        rw [one_mul, neg_one_mul, ← neg_mul, hle]
        have := hnn ma; have := hnn mb
        constructor
        · intro h
          have e1 : (unitMag q ma : ℚ) = unitMag q 0 := by rw [h0]; push_cast; linarith
          have e2 : (unitMag q mb : ℚ) = unitMag q 0 := by rw [h0]; push_cast; linarith
          exact ⟨(heq _ _).1 e1, (heq _ _).1 e2⟩
        · rintro ⟨rfl, rfl⟩; rw [h0]; simp
      have r3 : (-1 : ℚ) * (unitMag q mb * u) ≤ 1 * (unitMag q ma * u) ↔ True := by
        rw [one_mul, neg_one_mul, ← neg_mul, hle]
        have := hnn ma; have := hnn mb
        simp only [iff_true]; linarith
      simp only [ge_iff_le, if_false, if_true, Nat.zero_ne_one, r1, r2, r3]
      rw [ea, eb]
      clear va vb ea eb hA hB r1 r2 ha hb
      by_cases z1 : ma = 0 <;> by_cases z2 : mb = 0 <;> simp [z1, z2] <;> omega
    · have r1 : (-1 : ℚ) * (unitMag q ma * u) = 1 * (unitMag q mb * u) ↔ ma = 0 ∧ mb = 0 := by
        rw [one_mul, neg_one_mul, ← neg_mul, hab]
        have := hnn ma; have := hnn mb
        constructor
        · intro h
          have e1 : (unitMag q ma : ℚ) = unitMag q 0 := by rw [h0]; push_cast; linarith
          have e2 : (unitMag q mb : ℚ) = unitMag q 0 := by rw [h0]; push_cast; linarith
          exact ⟨(heq _ _).1 e1, (heq _ _).1 e2⟩
        · rintro ⟨rfl, rfl⟩; rw [h0]; simp
      have r2 : (1 : ℚ) * (unitMag q mb * u) ≤ -1 * (unitMag q ma * u) ↔ ma = 0 ∧ mb = 0 := by
        rw [one_mul, neg_one_mul, ← neg_mul, hle]
        have := hnn ma; have := hnn mb
        constructor
        · intro h
          have e1 : (unitMag q ma : ℚ) = unitMag q 0 := by rw [h0]; push_cast; linarith
          have e2 : (unitMag q mb : ℚ) = unitMag q 0 := by rw [h0]; push_cast; linarith
          exact ⟨(heq _ _).1 e1, (heq _ _).1 e2⟩
        · rintro ⟨rfl, rfl⟩; rw [h0]; simp
      have r3 : (-1 : ℚ) * (unitMag q ma * u) ≤ 1 * (unitMag q mb * u) ↔ True := by
        rw [one_mul, neg_one_mul, ← neg_mul, hle]
        have := hnn ma; have := hnn mb
        simp only [iff_true]; linarith
      simp only [ge_iff_le, if_false, if_true, Nat.zero_ne_one, r1, r2, r3]
      rw [ea, eb]
      clear va vb ea eb hA hB r1 r2 ha hb
      by_cases z1 : ma = 0 <;> by_cases z2 : mb = 0 <;> simp [z1, z2] <;> omega
    · have r1 : (-1 : ℚ) * (unitMag q ma * u) = -1 * (unitMag q mb * u) ↔ ma = mb := by
        rw [neg_one_mul, neg_one_mul, neg_inj, hab, heq]
      have r2 : ∀ m n, (-1 : ℚ) * (unitMag q m * u) ≤ -1 * (unitMag q n * u) ↔ n ≤ m := by
        intro m n
        rw [neg_one_mul, neg_one_mul, neg_le_neg_iff, hle, ← not_lt, hlt, not_lt]
      simp only [ge_iff_le, if_true, r1, r2]
      rw [ea, eb]
      clear va vb ea eb hA hB r1 r2 ha hb
      by_cases z1 : ma = 0 <;> by_cases z2 : mb = 0 <;> simp [z1, z2] <;> omega
  refine ⟨main.1, main.2.1, main.2.2, ?_, ?_⟩
  · unfold Fmt.lt
    rw [Bool.not_eq_true', ← Bool.not_eq_true, main.2.2]; simp
  · unfold Fmt.gt
    rw [Bool.not_eq_true', ← Bool.not_eq_true, main.2.1]; simp

example : Fmt.half.le 0xc500 0x3c00 = true ∧ Fmt.half.lt 0xc500 0xc400 = true ∧ Fmt.half.eq 0 0x8000 = true := by decide

/-- **C32 (order of infinities)** +∞ is above every finite code, -∞ below. -/
theorem C32_order_infinity (q : Fmt) (he : 2 ≤ q.e) (i c : Nat) (hi : i < 2 ^ q.W) (hc : c < 2 ^ q.W) (hinf : IsInf q i)
    (hfin : IsFinite q c) : (sgnOf q i = 0 → q.lt c i = true) ∧ (sgnOf q i = 1 → q.lt i c = true) := by
  have hu : (0 : ℚ) < 2 ^ (1 - ieeeBias q - (q.f : ℤ)) := zpow_pos (by norm_num) _
  have h4 : 4 ≤ 2 ^ q.e := by
    calc 4 = 2 ^ 2 := rfl
      _ ≤ 2 ^ q.e := Nat.pow_le_pow_right (by omega) he
  have hmag : c % 2 ^ (q.e + q.f) < i % 2 ^ (q.e + q.f) := by
    rw [mag_fields, mag_fields, hinf.1, hinf.2]
    have h1 := fracOf_lt q c
    have h2 := expOf_lt q c
    unfold IsFinite at hfin
    calc expOf q c * 2 ^ q.f + fracOf q c < (expOf q c + 1) * 2 ^ q.f := by rw [Nat.add_mul]; omega
      _ ≤ (2 ^ q.e - 1) * 2 ^ q.f := Nat.mul_le_mul_right _ (by omega)
  have hlt : (unitMag q (c % 2 ^ (q.e + q.f)) : ℚ) < unitMag q (i % 2 ^ (q.e + q.f)) := by
    exact_mod_cast unitMag_strictMono q hmag
  have hnn : (0 : ℚ) ≤ unitMag q (c % 2 ^ (q.e + q.f)) := by positivity
  have habs : ieeeVal q c ≤ unitMag q (c % 2 ^ (q.e + q.f)) * 2 ^ (1 - ieeeBias q - (q.f : ℤ)) ∧
      -(unitMag q (c % 2 ^ (q.e + q.f)) * 2 ^ (1 - ieeeBias q - (q.f : ℤ))) ≤ ieeeVal q c := by
    rw [ieeeVal_unit]
    have := mul_nonneg hnn hu.le
    split <;> constructor <;> linarith
  have hm := mul_lt_mul_of_pos_right hlt hu
  obtain ⟨-, -, -, h1, -⟩ := C32_order q c i hc hi
  obtain ⟨-, -, -, h2, -⟩ := C32_order q i c hi hc
  have hv := ieeeVal_unit q i
  constructor
  · intro hs
    rw [h1, hv, hs]
    simp only [Nat.zero_ne_one, if_false, one_mul]
    linarith
  · intro hs
    rw [h2, hv, hs]
    simp only [if_true, neg_one_mul]
    linarith

example : IsInf .half 0x7c00 ∧ IsFinite .half 0x7bff ∧ Fmt.half.lt 0x7bff 0x7c00 = true := by
  refine ⟨⟨by decide, by decide⟩, by unfold IsFinite; decide, by decide⟩

/-- **C32, negation** A NaN code equals itself and is ordered above infinity, which no number is. -/
theorem C32_nan_order_false : Fmt.half.eq 0x7e00 0x7e00 = true ∧ Fmt.half.gt 0x7e00 0x7c00 = true := by decide

end Verif.Props
