import Verif.Kernels.Geometry
import Mathlib.Tactic.Linarith
import Mathlib.Tactic.Positivity
import Mathlib.Tactic.FieldSimp
import Mathlib.Tactic.Ring
import Mathlib.Data.Int.Interval
import Mathlib.Data.Finset.Max
/-!
# C21: convolution and pooling geometry

Specification: a window position `p` covers the padded coordinates `p·s … p·s + extent - 1` of a padded input of `n`
elements.
-/
namespace Verif.Props
open Verif.Core Verif.Kernels

/-- the window at position `p` lies inside the padded input -/
def Fits1 (n extent s p : Int) : Prop := p * s + extent ≤ n

/-- extent of a kernel of `k` taps with dilation `d` -/
def extent (k d : Int) : Int := d * (k - 1) + 1

/-- `y` is the number of positions at which a window fits -/
def CountsFitting (n e s y : Int) : Prop := 0 ≤ y ∧ ∀ p, 0 ≤ p → (p < y ↔ Fits1 n e s p)

/-- small enough for `int` arithmetic -/
def Small (x before after k d : Int) : Prop :=
  0 ≤ x ∧ 0 ≤ before ∧ 0 ≤ after ∧ 1 ≤ k ∧ 1 ≤ d ∧ x + before + after ≤ 2147483646 ∧ extent k d ≤ 2147483646

theorem dilatedKernel_ok {k d : Int} (hk : 1 ≤ k) (hd : 1 ≤ d) (h : extent k d ≤ 2147483647) :
    dilatedKernel k d = .ok (extent k d) := by
  unfold extent at h
  have h0 : 0 ≤ d * (k - 1) := Int.mul_nonneg (by omega) (by omega)
  have h1 : k - 1 ≤ d * (k - 1) := by nlinarith
  unfold dilatedKernel
  rw [int32_ok (by unfold I32; omega)]
  simp only [Res.bind_ok]
  rw [int32_ok (by unfold I32; omega)]
  simp only [Res.bind_ok]
  rw [int32_ok (by unfold I32; omega)]
  rfl

theorem extent_pos {k d : Int} (hk : 1 ≤ k) (hd : 1 ≤ d) : 1 ≤ extent k d := by
  unfold extent
  have h0 : 0 ≤ d * (k - 1) := Int.mul_nonneg (by omega) (by omega)
  omega

theorem convForward_eq {x b a k s d : Int} (h : Small x b a k d) (hs : 1 ≤ s) :
    convForward x b a k s d = .ok ((x + b + a - extent k d).tdiv s + 1) := by
  obtain ⟨h1, h2, h3, h4, h5, h6, h7⟩ := h
  have he := extent_pos h4 h5
  unfold convForward
  rw [int32_ok (by unfold I32; omega)]
  simp only [Res.bind_ok]
  rw [int32_ok (by unfold I32; omega)]
  simp only [Res.bind_ok]
  rw [dilatedKernel_ok h4 h5 (by omega)]
  simp only [Res.bind_ok]
  rw [int32_ok (by unfold I32; omega)]
  simp only [Res.bind_ok]
  have hb : -2147483646 ≤ (x + b + a - extent k d).tdiv s ∧ (x + b + a - extent k d).tdiv s ≤ 2147483646 := by
    have := Int.natAbs_tdiv_le_natAbs (x + b + a - extent k d) s
    omega
  unfold div32
  rw [if_neg (by omega), int32_ok (by unfold I32; omega)]
  simp only [Res.bind_ok]
  rw [int32_ok (by unfold I32; omega)]

/-- C21, convolution: when the (dilated) kernel is not larger than the padded input, the inferred size is the number of
positions at which the window fits. The larger-kernel case is wrong, see `C21_conv_large_kernel_false`. -/
theorem C21_conv_size_partial (x b a k s d : Int) (h : Small x b a k d) (hs : 1 ≤ s)
    (hfit : extent k d ≤ x + b + a) :
    ∃ y, convForward x b a k s d = .ok y ∧ CountsFitting (x + b + a) (extent k d) s y := by
  refine ⟨_, convForward_eq h hs, ?_⟩
  rw [Int.tdiv_eq_ediv_of_nonneg (by omega)]
  refine ⟨?_, ?_⟩
  · have := Int.ediv_nonneg (a := x + b + a - extent k d) (b := s) (by omega) (by omega)
    omega
  · intro p hp
    unfold Fits1
    rw [Int.lt_add_one_iff, Int.le_ediv_iff_mul_le (by omega)]
    omega

example : Small 5 1 1 3 2 ∧ extent 3 2 ≤ 5 + 1 + 1 ∧ convForward 5 1 1 3 2 2 = .ok 2 := by
  refine ⟨by unfold Small extent; omega, by unfold extent; omega, by decide⟩

/-- Every tap of every window of every inferred position reads inside the padded input. -/
theorem C21_conv_windows_inside (x b a k s d : Int) (h : Small x b a k d) (hs : 1 ≤ s)
    (hfit : extent k d ≤ x + b + a) (y p t : Int) (hy : convForward x b a k s d = .ok y) (hp : 0 ≤ p ∧ p < y)
    (ht : 0 ≤ t ∧ t < k) : 0 ≤ p * s + t * d ∧ p * s + t * d < x + b + a := by
  obtain ⟨y', e, hc⟩ := C21_conv_size_partial x b a k s d h hs hfit
  rw [hy] at e
  cases e
  have := (hc.2 p hp.1).1 hp.2
  unfold Fits1 extent at this
  obtain ⟨h1, h2, h3, h4, h5, h6, h7⟩ := h
  have q1 : 0 ≤ p * s := Int.mul_nonneg hp.1 (by omega)
  have q2 : 0 ≤ t * d := Int.mul_nonneg ht.1 (by omega)
  have q3 : t * d ≤ d * (k - 1) := by nlinarith
  omega

/-- A kernel larger than the padded input: the division truncates towards zero, so up to `stride - 1` missing elements
still give one position (at which the window does not fit) instead of none. -/
theorem C21_conv_large_kernel_false : ∃ x b a k s d y, Small x b a k d ∧ 1 ≤ s ∧ convForward x b a k s d = .ok y ∧
    ¬ CountsFitting (x + b + a) (extent k d) s y := by
  refine ⟨2, 0, 0, 3, 2, 1, 1, by unfold Small extent; omega, by omega, by decide, ?_⟩
  intro h
  have := (h.2 0 (by omega)).1 (by omega)
  unfold Fits1 extent at this
  omega

/-- C21: the backward formula gives the smallest input for an output size, and forward inverts it. -/
theorem C21_conv_backward_inverse (y b a k s d x : Int) (hs : 1 ≤ s) (hy : 1 ≤ y)
    (hx : convBackward y b a k s d = .ok x) (h : Small x b a k d) :
    convForward x b a k s d = .ok y ∧
    ∀ x' y', Small x' b a k d → extent k d ≤ x' + b + a → convForward x' b a k s d = .ok y' → (y ≤ y' ↔ x ≤ x') := by
  have hx' : x + b + a = (y - 1) * s + extent k d := by
    obtain ⟨h1, h2, h3, h4, h5, h6, h7⟩ := h
    unfold convBackward at hx
    rw [dilatedKernel_ok h4 h5 (by omega)] at hx
    simp only [Res.bind_eq_ok, int32_eq_ok, Res.ok.injEq] at hx
    obtain ⟨_, ⟨_, rfl⟩, _, ⟨_, rfl⟩, _, rfl, _, ⟨_, rfl⟩, _, ⟨_, rfl⟩, _, hx⟩ := hx
    omega
  have hn : 0 ≤ (y - 1) * s := Int.mul_nonneg (by omega) (by omega)
  refine ⟨?_, ?_⟩
  · rw [convForward_eq h hs]
    have : x + b + a - extent k d = (y - 1) * s := by omega
    rw [this, Int.mul_tdiv_cancel _ (by omega)]
    congr 1
    omega
  · intro x' y' hsm hf he
    obtain ⟨y'', e', hc⟩ := C21_conv_size_partial x' b a k s d hsm hs hf
    rw [he] at e'
    cases e'
    have := hc.2 (y - 1) (by omega)
    unfold Fits1 at this
    omega

example : convBackward 2 1 1 3 2 2 = .ok 5 ∧ Small 5 1 1 3 2 := by
  refine ⟨by decide, by unfold Small extent; omega⟩

/-! ## Pooling -/

/-- a single-precision number, without an upper bound of the exponent (`int` operands stay far below it) -/
def F32 (r : Rat) : Prop := ∃ m e : Int, |m| < 2 ^ 24 ∧ -149 ≤ e ∧ r = m * (2 : Rat) ^ e

/-- rounding to a nearest single-precision number, ties in any way -/
def RoundsToNearest (rnd : Rat → Rat) : Prop := ∀ x, F32 (rnd x) ∧ ∀ r, F32 r → |rnd x - x| ≤ |r - x|

theorem rnd_exact {rnd : Rat → Rat} (h : RoundsToNearest rnd) {x : Rat} (hx : F32 x) : rnd x = x := by
  have := (h x).2 x hx
  simp only [sub_self, abs_zero] at this
  have := abs_eq_zero.1 (le_antisymm this (abs_nonneg _))
  linarith

theorem F32_int {n : Int} (h : |n| < 2 ^ 24) : F32 n := ⟨n, 0, h, by omega, by simp⟩

/-- the error is at most half a unit of any grid fine enough to be representable around `x` -/
theorem rnd_error {rnd : Rat → Rat} (h : RoundsToNearest rnd) {x : Rat} (K : Nat) (hK : K ≤ 149)
    (hx : (|x| + 1) * 2 ^ K < 2 ^ 24) : |rnd x - x| ≤ 1 / 2 / 2 ^ K := by
  have hp : (0 : Rat) < 2 ^ K := by positivity
  have hp1 : (1 : Rat) ≤ 2 ^ K := one_le_pow₀ (by norm_num)
  have hb := abs_sub_round (x * 2 ^ K)
  have hm : |round (x * 2 ^ K)| < 2 ^ 24 := by
    have h1 : |(round (x * 2 ^ K) : Rat)| ≤ |x| * 2 ^ K + 1 / 2 := by
      have e : |x * 2 ^ K| = |x| * 2 ^ K := by rw [abs_mul, abs_of_pos hp]
      have := abs_sub_abs_le_abs_sub (round (x * 2 ^ K) : Rat) (x * 2 ^ K)
      rw [abs_sub_comm] at this
      linarith
    have h2 : |(round (x * 2 ^ K) : Rat)| < 2 ^ 24 := by
      have : |x| * 2 ^ K + 1 / 2 < (|x| + 1) * 2 ^ K := by nlinarith
      linarith
    exact_mod_cast h2
  have hF : F32 (round (x * 2 ^ K) * (2 : Rat) ^ (-(K : Int))) := ⟨_, _, hm, by omega, rfl⟩
  refine ((h x).2 _ hF).trans ?_
  have : (round (x * 2 ^ K) * (2 : Rat) ^ (-(K : Int))) - x = ((round (x * 2 ^ K) : Rat) - x * 2 ^ K) / 2 ^ K := by
    rw [zpow_neg, zpow_natCast]
    field_simp
  rw [this, abs_div, abs_of_pos hp, abs_sub_comm]
  exact div_le_div_of_nonneg_right hb hp.le

/-- the `float` computation gives the exact rounded-up quotient for moderate operands -/
theorem float_ceil {rnd : Rat → Rat} (h : RoundsToNearest rnd) {n s : Int} (hn : 0 ≤ n) (hs : 1 ≤ s)
    (hb : 2 * n + 6 * s < 2 ^ 24) : ⌈rnd (rnd (rnd n / rnd s) + 1)⌉ = ⌈(n : Rat) / s⌉ + 1 := by
  have hsQ : (1 : Rat) ≤ s := by exact_mod_cast hs
  have hnQ : (0 : Rat) ≤ n := by exact_mod_cast hn
  have hbQ : 2 * (n : Rat) + 6 * s < 2 ^ 24 := by exact_mod_cast hb
  have e1 : rnd n = n := rnd_exact h (F32_int (by rw [abs_of_nonneg hn]; omega))
  have e2 : rnd s = s := rnd_exact h (F32_int (by rw [abs_of_nonneg (by omega)]; omega))
  rw [e1, e2]
  have hq0 : (0 : Rat) ≤ n / s := by positivity
  by_cases hd : s ∣ n
  · -- an integer quotient is exact
    obtain ⟨q, rfl⟩ := hd
    have eq : ((s * q : Int) : Rat) / s = (q : Int) := by
      push_cast; field_simp
    have hq : 0 ≤ q := by
      by_contra hc
      have : s * q ≤ s * (-1) := Int.mul_le_mul_of_nonneg_left (by omega) (by omega)
      omega
    have hqn : q ≤ s * q := by nlinarith
    rw [eq]
    have e3 : rnd (q : Int) = (q : Int) := rnd_exact h (F32_int (by rw [abs_of_nonneg hq]; omega))
    rw [e3]
    have e4 : rnd (((q : Int) : Rat) + 1) = ((q + 1 : Int) : Rat) := by
      have : ((q : Int) : Rat) + 1 = ((q + 1 : Int) : Rat) := by push_cast; ring
      rw [this]
      exact rnd_exact h (F32_int (by rw [abs_of_nonneg (by omega)]; omega))
    rw [e4]
    simp
  · -- a non-integer quotient keeps its distance to the integers
    obtain ⟨K, hK1, hK2⟩ : ∃ K : Nat, (s : Rat) < 2 ^ K ∧ (2 : Rat) ^ K ≤ 2 * s := by
      have hs0 : s.toNat ≠ 0 := by omega
      refine ⟨Nat.log2 s.toNat + 1, ?_, ?_⟩
      · have := Nat.lt_log2_self (n := s.toNat)
        have h2 : (s.toNat : Rat) < 2 ^ (Nat.log2 s.toNat + 1) := by exact_mod_cast this
        have h3 : ((s.toNat : Int) : Rat) = s := by rw [Int.toNat_of_nonneg (by omega)]
        rw [← h3]; exact_mod_cast h2
      · have := Nat.log2_self_le hs0
        have h2 : (2 : Rat) ^ (Nat.log2 s.toNat) ≤ s.toNat := by exact_mod_cast this
        have h3 : ((s.toNat : Int) : Rat) = s := by rw [Int.toNat_of_nonneg (by omega)]
        rw [pow_succ, ← h3]
        push_cast
        linarith
    have hKp : (0 : Rat) < 2 ^ K := by positivity
    have hK149 : K ≤ 149 := by
      by_contra hc
      have : (2 : Rat) ^ 25 ≤ 2 ^ K := pow_le_pow_right₀ (by norm_num) (by omega)
      norm_num at this hbQ
      linarith
    -- integer part
    obtain ⟨q, r, hr0, hr1, hqr⟩ : ∃ q r : Int, 0 < r ∧ r < s ∧ n = s * q + r := by
      refine ⟨n / s, n % s, ?_, Int.emod_lt_of_pos _ (by omega), (Int.mul_ediv_add_emod n s).symm⟩
      have := Int.emod_nonneg n (show s ≠ 0 by omega)
      have : n % s ≠ 0 := fun h0 => hd (Int.dvd_of_emod_eq_zero h0)
      omega
    have hqQ : (n : Rat) / s = q + r / s := by
      rw [hqr]; push_cast; field_simp
    have hq : 0 ≤ q := by
      by_contra hc
      have : s * q ≤ s * (-1) := Int.mul_le_mul_of_nonneg_left (by omega) (by omega)
      omega
    have hr0' : 1 / (s : Rat) ≤ r / s := by
      apply div_le_div_of_nonneg_right _ (by linarith)
      exact_mod_cast hr0
    have hr1' : (r : Rat) / s ≤ 1 - 1 / s := by
      have : (r : Rat) ≤ s - 1 := by exact_mod_cast (by omega : r ≤ s - 1)
      rw [div_le_iff₀ (by linarith)]
      field_simp
      linarith
    have hsK : 1 / (2 : Rat) ^ K < 1 / s := one_div_lt_one_div_of_lt (by linarith) hK1
    -- both roundings stay within half of 2^-K
    have hbound : ((n : Rat) / s + 3) * 2 ^ K < 2 ^ 24 := by
      have : ((n : Rat) / s + 3) * 2 ^ K ≤ (n / s + 3) * (2 * s) := by
        apply mul_le_mul_of_nonneg_left hK2 (by positivity)
      have e : ((n : Rat) / s + 3) * (2 * s) = 2 * n + 6 * s := by field_simp; ring
      linarith
    have r1 := rnd_error h (x := (n : Rat) / s) K hK149 (by
      rw [abs_of_nonneg hq0]
      have : ((n : Rat) / s + 1) * 2 ^ K ≤ (n / s + 3) * 2 ^ K := by
        apply mul_le_mul_of_nonneg_right _ hKp.le; linarith
      linarith)
    have half : (1 : Rat) / 2 / 2 ^ K = (1 / 2 ^ K) / 2 := by ring
    rw [half] at r1
    have r1' := abs_le.1 r1
    have hone : 1 / (2 : Rat) ^ K ≤ 1 := by
      rw [div_le_one hKp]; exact one_le_pow₀ (by norm_num)
    have hpos1 : 0 ≤ rnd ((n : Rat) / s) := by
      have : 1 / (s : Rat) ≤ n / s := by
        rw [hqQ]
        have : (0 : Rat) ≤ q := by exact_mod_cast hq
        linarith
      have h0 : 0 < 1 / (2 : Rat) ^ K := by positivity
      linarith
    have r2 := rnd_error h (x := rnd ((n : Rat) / s) + 1) K hK149 (by
      rw [abs_of_nonneg (by linarith)]
      have : (rnd ((n : Rat) / s) + 1 + 1) * 2 ^ K ≤ (n / s + 3) * 2 ^ K := by
        apply mul_le_mul_of_nonneg_right _ hKp.le; linarith
      linarith)
    rw [half] at r2
    have r2' := abs_le.1 r2
    have lhs : ⌈rnd (rnd ((n : Rat) / s) + 1)⌉ = q + 2 := by
      rw [Int.ceil_eq_iff]
      push_cast
      constructor <;> linarith
    have rhs : ⌈(n : Rat) / s⌉ = q + 1 := by
      rw [Int.ceil_eq_iff]
      push_cast
      have : 0 < 1 / (s : Rat) := by positivity
      constructor <;> linarith
    rw [lhs, rhs]
    omega

/-- `y` is the least number of windows, the first at the start, that reach the end of the padded input -/
def LeastCovering (n k s y : Int) : Prop := 1 ≤ y ∧ ∀ p, 1 ≤ p → (y ≤ p ↔ n ≤ (p - 1) * s + k)

theorem poolForward_eq {rnd : Rat → Rat} (h : RoundsToNearest rnd) {x b a k s : Int} (hx : 0 ≤ x) (hb : 0 ≤ b)
    (ha : 0 ≤ a) (hk : 1 ≤ k) (hs : 1 ≤ s) (hkn : k ≤ x + b + a) (hl : 2 * (x + b + a - k) + 6 * s < 2 ^ 24)
    (hkb : k ≤ 2 ^ 30) :
    poolForward rnd x b a k s = .ok (⌈((x + b + a - k : Int) : Rat) / s⌉ + 1) := by
  unfold poolForward
  rw [int32_ok (by unfold I32; omega)]
  simp only [Res.bind_ok]
  rw [int32_ok (by unfold I32; omega)]
  simp only [Res.bind_ok]
  rw [int32_ok (by unfold I32; omega)]
  simp only [Res.bind_ok]
  rw [if_neg (by omega), float_ceil h (by omega) hs hl]
  apply int32_ok
  have h1 : 0 ≤ ⌈((x + b + a - k : Int) : Rat) / s⌉ := by
    apply Int.ceil_nonneg
    have : (0 : Rat) ≤ ((x + b + a - k : Int) : Rat) := by exact_mod_cast (by omega : 0 ≤ x + b + a - k)
    have : (1 : Rat) ≤ s := by exact_mod_cast hs
    positivity
  have h2 : ⌈((x + b + a - k : Int) : Rat) / s⌉ ≤ x + b + a - k := by
    rw [Int.ceil_le]
    have h0 : (0 : Rat) ≤ ((x + b + a - k : Int) : Rat) := by exact_mod_cast (by omega : 0 ≤ x + b + a - k)
    have : (1 : Rat) ≤ s := by exact_mod_cast hs
    exact div_le_self h0 this
  unfold I32
  omega

/-- C21, pooling (rounding up): for operands in the exact range of `float`, whatever way ties are rounded, the inferred
size is the least number of windows covering the padded input. -/
theorem C21_pool_size_partial (rnd : Rat → Rat) (h : RoundsToNearest rnd) (x b a k s : Int) (hx : 0 ≤ x) (hb : 0 ≤ b)
    (ha : 0 ≤ a) (hk : 1 ≤ k) (hs : 1 ≤ s) (hkn : k ≤ x + b + a) (hl : 2 * (x + b + a - k) + 6 * s < 2 ^ 24)
    (hkb : k ≤ 2 ^ 30) :
    ∃ y, poolForward rnd x b a k s = .ok y ∧ LeastCovering (x + b + a) k s y := by
  refine ⟨_, poolForward_eq h hx hb ha hk hs hkn hl hkb, ?_⟩
  have hsQ : (1 : Rat) ≤ s := by exact_mod_cast hs
  refine ⟨?_, ?_⟩
  · have h1 : 0 ≤ ⌈((x + b + a - k : Int) : Rat) / s⌉ := by
      apply Int.ceil_nonneg
      have : (0 : Rat) ≤ ((x + b + a - k : Int) : Rat) := by exact_mod_cast (by omega : 0 ≤ x + b + a - k)
      positivity
    omega
  · intro p hp
    rw [show (⌈((x + b + a - k : Int) : Rat) / s⌉ + 1 ≤ p) ↔ (⌈((x + b + a - k : Int) : Rat) / s⌉ ≤ p - 1) by omega]
    rw [Int.ceil_le, div_le_iff₀ (by linarith)]
    constructor
    · intro h
      have : x + b + a - k ≤ (p - 1) * s := by exact_mod_cast h
      omega
    · intro h
      have : x + b + a - k ≤ (p - 1) * s := by omega
      exact_mod_cast this

/-- With a stride of at most the kernel size every pooling window meets the padded input. -/
theorem C21_pool_windows_meet (rnd : Rat → Rat) (h : RoundsToNearest rnd) (x b a k s : Int) (hx : 0 ≤ x) (hb : 0 ≤ b)
    (ha : 0 ≤ a) (hk : 1 ≤ k) (hs : 1 ≤ s) (hsk : s ≤ k) (hkn : k ≤ x + b + a)
    (hl : 2 * (x + b + a - k) + 6 * s < 2 ^ 24) (hkb : k ≤ 2 ^ 30)
    (y p : Int) (hy : poolForward rnd x b a k s = .ok y) (hp : 0 ≤ p ∧ p < y) : p * s < x + b + a := by
  obtain ⟨y', e, hc⟩ := C21_pool_size_partial rnd h x b a k s hx hb ha hk hs hkn hl hkb
  rw [hy] at e
  cases e
  by_cases hp0 : p = 0
  · subst hp0; omega
  · have := (hc.2 p (by omega)).not.1 (by omega)
    have e : p * s = (p - 1) * s + s := by ring
    omega

/-- With a stride larger than the kernel the last window may lie entirely outside the padded input: it starts at
`p·s ≥ n`. For max pooling without bottom padding this reads past the input rows. -/
theorem C21_pool_window_outside_false (rnd : Rat → Rat) (h : RoundsToNearest rnd) :
    ∃ x b a k s y p, poolForward rnd x b a k s = .ok y ∧ 1 ≤ k ∧ k ≤ x + b + a ∧ 0 ≤ p ∧ p < y ∧ x + b + a ≤ p * s := by
  refine ⟨3, 0, 0, 1, 3, 2, 1, ?_, by omega, by omega, by omega, by omega, by omega⟩
  rw [poolForward_eq h (by omega) (by omega) (by omega) (by omega) (by omega) (by omega) (by omega) (by omega)]
  congr 1
  have : ⌈((3 + 0 + 0 - 1 : Int) : Rat) / ((3 : Int) : Rat)⌉ = 1 := by
    rw [Int.ceil_eq_iff]; norm_num
  rw [this]; rfl

/-- Outside the exact range of `float` the size is wrong: 33554434 elements, kernel 1, stride 1 give 33554432. -/
theorem C21_pool_float_range_false (rnd : Rat → Rat) (h : RoundsToNearest rnd) :
    poolForward rnd 33554434 0 0 1 1 = .ok 33554432 ∧ ¬ LeastCovering 33554434 1 1 33554432 := by
  have near : rnd 33554433 = 33554432 := by
    obtain ⟨⟨m, e, hm, he, hr⟩, hn⟩ := h 33554433
    have h1 := hn 33554432 ⟨2 ^ 23, 2, by norm_num, by omega, by norm_num⟩
    rw [show |(33554432 : Rat) - 33554433| = 1 by norm_num [abs_of_neg]] at h1
    have h2 := abs_le.1 h1
    -- the exponent is at least two
    have he2 : 2 ≤ e := by
      by_contra hc
      have hle : (2 : Rat) ^ e ≤ 2 ^ (1 : Int) := zpow_le_zpow_right₀ (by norm_num) (by omega)
      have hmq : (m : Rat) ≤ 2 ^ 24 - 1 := by
        have := (abs_lt.1 hm).2
        have : m ≤ 2 ^ 24 - 1 := by omega
        exact_mod_cast this
      have hpos : (0 : Rat) < 2 ^ e := zpow_pos (by norm_num) e
      have : (m : Rat) * 2 ^ e ≤ (2 ^ 24 - 1) * 2 := by
        calc (m : Rat) * 2 ^ e ≤ (2 ^ 24 - 1) * 2 ^ e := mul_le_mul_of_nonneg_right hmq hpos.le
          _ ≤ (2 ^ 24 - 1) * 2 := by
            apply mul_le_mul_of_nonneg_left _ (by norm_num)
            simpa using hle
      rw [hr] at h2
      norm_num at this h2
      linarith
    obtain ⟨j, rfl⟩ : ∃ j : Nat, e = 2 + j := ⟨(e - 2).toNat, by omega⟩
    have hz : rnd 33554433 = ((m * 2 ^ j * 4 : Int) : Rat) := by
      rw [hr, zpow_add₀ (by norm_num)]
      push_cast
      norm_num
      ring
    rw [hz] at h2 ⊢
    obtain ⟨h2a, h2b⟩ := h2
    have a1 : ((33554432 : Int) : Rat) ≤ ((m * 2 ^ j * 4 : Int) : Rat) := by push_cast at *; linarith
    have a2 : ((m * 2 ^ j * 4 : Int) : Rat) ≤ ((33554434 : Int) : Rat) := by push_cast at *; linarith
    have b1 : (33554432 : Int) ≤ m * 2 ^ j * 4 := by exact_mod_cast a1
    have b2 : m * 2 ^ j * 4 ≤ (33554434 : Int) := by exact_mod_cast a2
    have b3 : m * 2 ^ j * 4 = (33554432 : Int) := by omega
    rw [b3]; norm_num
  refine ⟨?_, ?_⟩
  · unfold poolForward
    have e0 : int32 (33554434 + 0) = .ok 33554434 := by decide
    have e1 : int32 (33554434 - 1) = .ok 33554433 := by decide
    rw [e0]; simp only [Res.bind_ok]
    rw [e0]; simp only [Res.bind_ok]
    rw [e1]; simp only [Res.bind_ok]
    rw [if_neg (by omega)]
    have r1 : rnd ((1 : Int) : Rat) = 1 := by simpa using rnd_exact h (F32_int (n := 1) (by norm_num))
    have r2 : rnd ((33554433 : Int) : Rat) = 33554432 := by simpa using near
    have r3 : rnd (33554432 : Rat) = 33554432 :=
      rnd_exact h ⟨2 ^ 23, 2, by norm_num, by omega, by norm_num⟩
    rw [r1, r2, div_one, r3]
    have r4 : rnd (33554432 + 1 : Rat) = 33554432 := by
      rw [show (33554432 + 1 : Rat) = 33554433 by norm_num]; exact near
    rw [r4]
    have : ⌈(33554432 : Rat)⌉ = 33554432 := by
      have := Int.ceil_intCast (R := Rat) (33554432 : Int)
      simpa using this
    rw [this]
    decide
  · rintro ⟨-, h⟩
    have := (h 33554432 (by omega)).1 (by omega)
    omega

/-- Rounding to nearest exists, so the pooling theorems are about something: every rational has a nearest
single-precision number because these are multiples of `2^-149`. -/
theorem roundsToNearest_exists : ∃ rnd, RoundsToNearest rnd := by
  suffices H : ∀ x : Rat, ∃ y, F32 y ∧ ∀ r, F32 r → |y - x| ≤ |r - x| by
    choose f hf using H
    exact ⟨f, hf⟩
  intro x
  -- work with integers z = r * 2^149
  let P : Int → Prop := fun z => F32 (z * (2 : Rat) ^ (-149 : Int))
  classical
  let B : Int := ⌈|x| * 2 ^ 149⌉ * 2 + 1
  have hB0 : 0 ≤ B := by
    have : 0 ≤ ⌈|x| * 2 ^ 149⌉ := Int.ceil_nonneg (by positivity)
    omega
  let S := (Finset.Icc (-B) B).filter P
  have h0 : (0 : Int) ∈ S := by
    simp only [S, Finset.mem_filter, Finset.mem_Icc]
    exact ⟨⟨by omega, hB0⟩, ⟨0, 0, by norm_num, by omega, by simp⟩⟩
  obtain ⟨z, hz, hmin⟩ := Finset.exists_min_image S (fun z : Int => |(z : Rat) * (2 : Rat) ^ (-149 : Int) - x|) ⟨0, h0⟩
  refine ⟨z * (2 : Rat) ^ (-149 : Int), (Finset.mem_filter.1 hz).2, ?_⟩
  intro r hr
  obtain ⟨m, e, hm, he, hre⟩ := hr
  obtain ⟨j, rfl⟩ : ∃ j : Nat, e = -149 + j := ⟨(e + 149).toNat, by omega⟩
  have hrz : r = ((m * 2 ^ j : Int) : Rat) * (2 : Rat) ^ (-149 : Int) := by
    rw [hre, zpow_add₀ (by norm_num)]
    push_cast
    rw [zpow_natCast]
    ring
  by_cases hin : -B ≤ m * 2 ^ j ∧ m * 2 ^ j ≤ B
  · have := hmin (m * 2 ^ j) (by
      simp only [S, Finset.mem_filter, Finset.mem_Icc]
      refine ⟨hin, ?_⟩
      show F32 _
      rw [← hrz]
      exact ⟨m, _, hm, he, hre⟩)
    rw [hrz]; exact this
  · -- outside the interval zero is nearer
    have h1 := hmin 0 h0
    simp only [Int.cast_zero, zero_mul, zero_sub, abs_neg] at h1
    refine h1.trans ?_
    have hp : (0 : Rat) < 2 ^ 149 := by positivity
    have hr2 : r * 2 ^ 149 = ((m * 2 ^ j : Int) : Rat) := by
      rw [hrz, mul_assoc]
      have : (2 : Rat) ^ (-149 : Int) * 2 ^ 149 = 1 := by
        rw [show (2 : Rat) ^ 149 = (2 : Rat) ^ (149 : Int) by norm_num, ← zpow_add₀ (by norm_num)]
        norm_num
      rw [this, mul_one]
    have hc : |x| * 2 ^ 149 ≤ ⌈|x| * 2 ^ 149⌉ := Int.le_ceil _
    have hbig : (B : Rat) < |r| * 2 ^ 149 := by
      have e1 : |r| * 2 ^ 149 = |((m * 2 ^ j : Int) : Rat)| := by
        rw [← hr2, abs_mul, abs_of_pos hp]
      rw [e1, ← Int.cast_abs]
      have : B < |m * 2 ^ j| := by
        rw [lt_abs]
        by_contra hc'
        apply hin
        omega
      exact_mod_cast this
    have hBv : (B : Rat) = (⌈|x| * 2 ^ 149⌉ : Rat) * 2 + 1 := by simp [B]
    have h2x : 2 * |x| < |r| := by
      by_contra hc'
      have : |r| * 2 ^ 149 ≤ 2 * |x| * 2 ^ 149 := mul_le_mul_of_nonneg_right (by linarith) hp.le
      linarith
    have := abs_sub_abs_le_abs_sub r x
    linarith

end Verif.Props
