import Verif.Kernels.AutoPad
import Verif.Props.Geometry
import Verif.Core.Float32
/-!
# C77: computed paddings

Specification, as documented by TensorFlow and ONNX. SAME: as many outputs as the padded input has elements, divided by the stride and rounded up; what the windows need beyond
the input is divided between both sides, the odd one at the end (SAME, SAME_UPPER) or at the start (SAME_LOWER). VALID: as many outputs as windows fit. One direction is called
`x` elements with static padding `b` before and `a` after, kernel `k`, stride `s`, dilation `d`.
-/
namespace Verif.Props
open Verif.Core Verif.Kernels

/-- `y` is `n / s` rounded up -/
def RoundUp (n s y : Int) : Prop := n ≤ y * s ∧ (y - 1) * s < n

/-- within the range in which `float` is exact -/
structure PadRange (x b a k s d : Int) : Prop where
  x0 : 0 ≤ x
  b0 : 0 ≤ b
  a0 : 0 ≤ a
  k1 : 1 ≤ k
  s1 : 1 ≤ s
  d1 : 1 ≤ d
  small : x + b + a + extent k d + s < 16777216

theorem roundUp_ex (n s : Int) (hs : 1 ≤ s) : ∃ y, RoundUp n s y := by
  refine ⟨-(-n / s), ?_, ?_⟩
  · have h1 := Int.mul_ediv_add_emod (-n) s
    have h2 := Int.emod_nonneg (-n) (show s ≠ 0 by omega)
    have : s * (-n / s) = (-n / s) * s := Int.mul_comm _ _
    have e : -(-n / s) * s = -((-n / s) * s) := Int.neg_mul _ _
    omega
  · have h1 := Int.mul_ediv_add_emod (-n) s
    have h2 := Int.emod_lt_of_pos (-n) (show 0 < s by omega)
    have : s * (-n / s) = (-n / s) * s := Int.mul_comm _ _
    have e : (-(-n / s) - 1) * s = -((-n / s) * s) - s := by ring
    omega

theorem roundUp_unique {n s y y' : Int} (hs : 1 ≤ s) (h : RoundUp n s y) (h' : RoundUp n s y') : y = y' := by
  obtain ⟨h1, h2⟩ := h
  obtain ⟨h3, h4⟩ := h'
  have l1 : (y - 1) * s < y' * s := by omega
  have l2 : (y' - 1) * s < y * s := by omega
  have := lt_of_mul_lt_mul_right l1 (by omega)
  have := lt_of_mul_lt_mul_right l2 (by omega)
  omega

/-- quotients of integers of less than 24 bits are rounded to the right side of the integers -/
theorem float_quot {rnd : Rat → Rat} (h : Binary32 rnd) {n s : Int} (hn : |n| < 16777216) (hs : 1 ≤ s) (hs' : s < 16777216) :
    ⌊rnd (rnd n / rnd s)⌋ = n / s ∧ ∀ y, RoundUp n s y → ⌈rnd (rnd n / rnd s)⌉ = y := by
  rw [h.exact n hn, h.exact s (by rw [abs_of_nonneg (by omega)]; exact hs')]
  have hsQ : (0 : Rat) < s := by exact_mod_cast (by omega : (0 : Int) < s)
  have hd := Int.mul_ediv_add_emod n s
  have h0 := Int.emod_nonneg n (show s ≠ 0 by omega)
  have h1 := Int.emod_lt_of_pos n (show 0 < s by omega)
  generalize hq : n / s = q at hd ⊢
  generalize hr : n % s = r at hd h0 h1
  have hv : (n : Rat) / s = q + r / s := by
    rw [← hd]; push_cast; field_simp
  have hup : ∀ y, RoundUp n s y → y = if r = 0 then q else q + 1 := by
    intro y hy
    refine roundUp_unique hs hy ?_
    have e1 : s * q = q * s := Int.mul_comm _ _
    split
    · refine ⟨by omega, ?_⟩
      rw [Int.sub_mul]; omega
    · refine ⟨?_, ?_⟩
      · rw [Int.add_mul]; omega
      · rw [show q + 1 - 1 = q by omega]; omega
  by_cases hr0 : r = 0
  · have hqa : |q| < 16777216 := by
      have e : n = s * q := by omega
      have e2 : |n| = s * |q| := by rw [e, abs_mul, abs_of_nonneg (show (0 : Int) ≤ s by omega)]
      have : |q| ≤ s * |q| := by nlinarith [abs_nonneg q]
      omega
    have : rnd ((n : Rat) / s) = q := by
      rw [hv, hr0]
      simp only [Int.cast_zero, zero_div, add_zero]
      exact h.exact q hqa
    rw [this]
    refine ⟨Int.floor_intCast _, fun y hy => ?_⟩
    rw [hup y hy, if_pos hr0]
    exact Int.ceil_intCast _
  · have herr := h.error ((n : Rat) / s)
    have hlt : |(n : Rat) / s| / 16777216 < 1 / s := by
      rw [abs_div, abs_of_pos hsQ, div_div, div_lt_div_iff₀ (by positivity) hsQ]
      have : |(n : Rat)| < 16777216 := by rw [← Int.cast_abs]; exact_mod_cast hn
      nlinarith
    have hlo : 1 / (s : Rat) ≤ r / s := by
      apply div_le_div_of_nonneg_right _ hsQ.le
      exact_mod_cast (by omega : (1 : Int) ≤ r)
    have hhi : (r : Rat) / s ≤ 1 - 1 / s := by
      have : (r : Rat) ≤ s - 1 := by exact_mod_cast (by omega : r ≤ s - 1)
      rw [div_le_iff₀ hsQ]
      field_simp
      linarith
    have hab := abs_le.1 herr
    rw [hv] at hab hlt ⊢
    refine ⟨?_, fun y hy => ?_⟩
    · rw [Int.floor_eq_iff]; constructor <;> linarith
    · rw [hup y hy, if_neg hr0, Int.ceil_eq_iff]
      push_cast
      constructor <;> linarith

theorem floatCeil_ok {rnd : Rat → Rat} (h : Binary32 rnd) {n s y : Int} (hn : |n| < 16777216) (hs : 1 ≤ s) (hs' : s < 16777216) (hy : RoundUp n s y)
    (hyb : |y| < 2147483647) : floatCeil rnd n s = .ok y := by
  unfold floatCeil
  rw [if_neg (by omega), (float_quot h hn hs hs').2 y hy]
  apply int32_ok
  rw [abs_lt] at hyb
  unfold I32
  omega

/-- a rounded up quotient is not larger in size -/
theorem roundUp_abs {n s y : Int} (hs : 1 ≤ s) (hy : RoundUp n s y) : |y| ≤ |n| := by
  obtain ⟨h1, h2⟩ := hy
  rw [Int.sub_mul] at h2
  rcases le_or_gt 1 y with h | h
  · have h3 : y - 1 ≤ (y - 1) * s := by nlinarith
    have e : (y - 1) * s = y * s - 1 * s := Int.sub_mul ..
    rw [abs_of_nonneg (by omega), abs_of_nonneg (by omega)]
    omega
  · have h3 : y * s ≤ y := by nlinarith
    rw [abs_of_nonpos (by omega)]
    have := neg_abs_le n
    omega

theorem padded_ok {x b a : Int} (hx : 0 ≤ x) (hb : 0 ≤ b) (ha : 0 ≤ a) (h : x + b + a < 16777216) : padded x b a = .ok (x + b + a) := by
  unfold padded
  rw [int32_ok (by unfold I32; omega), Res.bind_ok, int32_ok (by unfold I32; omega)]

/-- the size computed for an input that is exactly as long as `y` windows need -/
theorem convForward_exact {x p q k s d y : Int} (hk : 1 ≤ k) (hd : 1 ≤ d) (hs : 1 ≤ s) (he : extent k d < 16777216) (hy : |(y - 1) * s| < 33554432)
    (hyb : |y| < 33554432) (hx : 0 ≤ x ∧ x < 16777216) (hp : |p| < 67108864) (h : x + p + q = (y - 1) * s + extent k d) : convForward x p q k s d = .ok y := by
  have he1 := extent_pos hk hd
  rw [abs_lt] at hy hyb hp
  unfold convForward
  rw [int32_ok (by unfold I32; omega), Res.bind_ok, int32_ok (by unfold I32; omega), Res.bind_ok, dilatedKernel_ok hk hd (by omega), Res.bind_ok,
    int32_ok (by unfold I32; omega), Res.bind_ok, show x + p + q - extent k d = (y - 1) * s by omega]
  unfold div32
  rw [if_neg (by omega), Int.mul_tdiv_cancel _ (by omega), int32_ok (by unfold I32; omega), Res.bind_ok, int32_ok (by unfold I32; omega)]
  congr 1
  omega

theorem poolForward_exact {rnd : Rat → Rat} (h : Binary32 rnd) {x p q k s y : Int} (hk : 1 ≤ k) (hs : 1 ≤ s) (hs' : s < 16777216) (he : k < 16777216)
    (hy : |(y - 1) * s| < 16777216) (hyb : |y| < 16777216) (hyb1 : |y - 1| < 16777216) (hx : 0 ≤ x ∧ x < 16777216) (hp : |p| < 67108864) (hq : x + p + q = (y - 1) * s + k) :
    poolForward rnd x p q k s = .ok y := by
  have hy' := abs_lt.1 hy
  have hyb' := abs_lt.1 hyb
  rw [abs_lt] at hp
  unfold poolForward
  rw [int32_ok (by unfold I32; omega), Res.bind_ok, int32_ok (by unfold I32; omega), Res.bind_ok, int32_ok (by unfold I32; omega), Res.bind_ok, if_neg (by omega),
    show x + p + q - k = (y - 1) * s by omega, h.exact _ hy, h.exact s (by rw [abs_of_nonneg (by omega)]; exact hs')]
  have hsQ : (s : Rat) ≠ 0 := by exact_mod_cast (by omega : s ≠ 0)
  have e1 : (((y - 1) * s : Int) : Rat) / s = ((y - 1 : Int) : Rat) := by
    push_cast; field_simp
  rw [e1, h.exact _ hyb1, show ((y - 1 : Int) : Rat) + 1 = ((y : Int) : Rat) by push_cast; ring, h.exact _ hyb, Int.ceil_intCast]
  apply int32_ok
  unfold I32
  omega

theorem convBackward_ok {y b a k s d : Int} (hk : 1 ≤ k) (hd : 1 ≤ d) (he : extent k d < 16777216) (hy : |(y - 1) * s| < 33554432)
    (hyb : |y| < 33554432) (hb : 0 ≤ b ∧ b < 16777216) (ha : 0 ≤ a ∧ a < 16777216) :
    convBackward y b a k s d = .ok ((y - 1) * s + extent k d - b - a) := by
  have he1 := extent_pos hk hd
  rw [abs_lt] at hy hyb
  unfold convBackward
  rw [int32_ok (by unfold I32; omega), Res.bind_ok, int32_ok (by unfold I32; omega), Res.bind_ok, dilatedKernel_ok hk hd (by omega), Res.bind_ok,
    int32_ok (by unfold I32; omega), Res.bind_ok, int32_ok (by unfold I32; omega), Res.bind_ok, int32_ok (by unfold I32; omega)]

theorem poolBackward_ok {y b a k s : Int} (hk : 1 ≤ k) (he : k < 16777216) (hy : |(y - 1) * s| < 33554432)
    (hyb : |y| < 33554432) (hb : 0 ≤ b ∧ b < 16777216) (ha : 0 ≤ a ∧ a < 16777216) :
    poolBackward y b a k s = .ok ((y - 1) * s + k - b - a) := by
  rw [abs_lt] at hy hyb
  unfold poolBackward
  rw [int32_ok (by unfold I32; omega), Res.bind_ok, int32_ok (by unfold I32; omega), Res.bind_ok,
    int32_ok (by unfold I32; omega), Res.bind_ok, int32_ok (by unfold I32; omega), Res.bind_ok, int32_ok (by unfold I32; omega)]

theorem extent_one (k : Int) : extent k 1 = k := by unfold extent; omega

/-- bounds of the size of SAME -/
theorem roundUp_bounds {n s y : Int} (hn : 0 ≤ n) (hs : 1 ≤ s) (hy : RoundUp n s y) : 0 ≤ y ∧ y ≤ n ∧ (y - 1) * s < n ∧ -s ≤ (y - 1) * s := by
  have habs := roundUp_abs hs hy
  obtain ⟨h1, h2⟩ := hy
  rw [abs_of_nonneg hn] at habs
  have h0 : 0 ≤ y := by
    by_contra hc
    have : y * s ≤ (-1) * s := Int.mul_le_mul_of_nonneg_right (by omega) (by omega)
    omega
  have h3 : (0 : Int) ≤ y * s := Int.mul_nonneg h0 (by omega)
  have e : (y - 1) * s = y * s - s := by ring
  rw [abs_le] at habs
  refine ⟨h0, by omega, h2, by omega⟩

/-- `need` divided as documented, added to the static padding; if `upper`, the larger part is after -/
def Split (upper : Bool) (need b a p q : Int) : Prop :=
  p + q = b + a + need ∧ (0 ≤ need → p = b + (if upper then need / 2 else need - need / 2))

theorem endSame_ok {x b a x' : Int} (hx : 0 ≤ x ∧ x < 16777216) (hb : 0 ≤ b ∧ b < 16777216) (ha : 0 ≤ a ∧ a < 16777216) (hx' : |x'| < 67108864) :
    ∃ p q, endSame x b a x' = .ok (p, q) ∧ Split true (x' - x) b a p q ∧ |p| < 67108864 := by
  rw [abs_lt] at hx'
  have ht := Int.tdiv_eq_ediv (a := x' - x) (b := 2)
  have hb1 : -83886081 < (x' - x).tdiv 2 ∧ (x' - x).tdiv 2 < 33554433 ∧ -41943041 ≤ (x' - x).tdiv 2 := by
    have := Int.natAbs_tdiv_le_natAbs (x' - x) 2
    have e := Int.mul_tdiv_add_tmod (x' - x) 2
    have := Int.tmod_lt_of_pos (x' - x) (show (0 : Int) < 2 by omega)
    have : -2 < (x' - x).tmod 2 := Int.lt_tmod_of_pos (x' - x) (show (0 : Int) < 2 by omega)
    omega
  unfold endSame
  rw [int32_ok (by unfold I32; omega), Res.bind_ok]
  unfold div32
  rw [if_neg (by omega), int32_ok (by unfold I32; omega), Res.bind_ok, int32_ok (by unfold I32; omega), Res.bind_ok, int32_ok (by unfold I32; omega), Res.bind_ok,
    int32_ok (by unfold I32; omega), Res.bind_ok]
  refine ⟨_, _, rfl, ⟨by omega, fun h => ?_⟩, by rw [abs_lt]; omega⟩
  rw [if_pos rfl, Int.tdiv_eq_ediv_of_nonneg h]

theorem endSameLower_ok {x b a x' : Int} (hx : 0 ≤ x ∧ x < 16777216) (hb : 0 ≤ b ∧ b < 16777216) (ha : 0 ≤ a ∧ a < 16777216) (hx' : |x'| < 67108864) :
    ∃ p q, endSameLower x b a x' = .ok (p, q) ∧ Split false (x' - x) b a p q ∧ |p| < 67108864 := by
  rw [abs_lt] at hx'
  have hb1 : -41943041 ≤ (x' - x).tdiv 2 ∧ (x' - x).tdiv 2 < 33554433 ∧ 2 * (x' - x).tdiv 2 ≤ (x' - x) + 1 ∧ (x' - x) - 1 ≤ 2 * (x' - x).tdiv 2 := by
    have e := Int.mul_tdiv_add_tmod (x' - x) 2
    have := Int.tmod_lt_of_pos (x' - x) (show (0 : Int) < 2 by omega)
    have : -2 < (x' - x).tmod 2 := Int.lt_tmod_of_pos (x' - x) (show (0 : Int) < 2 by omega)
    omega
  unfold endSameLower
  rw [int32_ok (by unfold I32; omega), Res.bind_ok]
  unfold div32
  rw [if_neg (by omega), int32_ok (by unfold I32; omega), Res.bind_ok, int32_ok (by unfold I32; omega), Res.bind_ok, int32_ok (by unfold I32; omega), Res.bind_ok,
    int32_ok (by unfold I32; omega), Res.bind_ok]
  refine ⟨_, _, rfl, ⟨by omega, fun h => ?_⟩, by rw [abs_lt]; omega⟩
  rw [if_neg (by decide), Int.tdiv_eq_ediv_of_nonneg h]

/-- **C77** (SAME, convolution). The paddings make the convolution's own formula give the documented size; what is needed is divided as documented -/
theorem C77_same_conv {rnd : Rat → Rat} (h : Binary32 rnd) (x b a k s d y : Int) (r : PadRange x b a k s d) (hy : RoundUp (x + b + a) s y) :
    ∃ p q, tfConvSame rnd x b a k s d = .ok (p, q) ∧ convForward x p q k s d = .ok y ∧ Split true ((y - 1) * s + extent k d - (x + b + a)) b a p q := by
  obtain ⟨x0, b0, a0, k1, s1, d1, sm⟩ := r
  have he := extent_pos k1 d1
  obtain ⟨y0, yn, yl, yh⟩ := roundUp_bounds (by omega) s1 hy
  have hys : |(y - 1) * s| < 33554432 := by rw [abs_lt]; omega
  have hyb : |y| < 33554432 := by rw [abs_lt]; omega
  obtain ⟨p, q, e, hsp, hp⟩ := endSame_ok (x := x) (b := b) (a := a) (x' := (y - 1) * s + extent k d - b - a) ⟨x0, by omega⟩ ⟨b0, by omega⟩ ⟨a0, by omega⟩ (by rw [abs_lt]; omega)
  have en : (y - 1) * s + extent k d - b - a - x = (y - 1) * s + extent k d - (x + b + a) := by omega
  rw [en] at hsp
  refine ⟨p, q, ?_, convForward_exact k1 d1 s1 (by omega) hys hyb ⟨x0, by omega⟩ hp (by have := hsp.1; omega), hsp⟩
  unfold tfConvSame
  rw [dilatedKernel_ok k1 d1 (by omega), Res.bind_ok, padded_ok x0 b0 a0 (by omega), Res.bind_ok,
    floatCeil_ok h (by rw [abs_lt]; omega) s1 (by omega) hy (by rw [abs_lt]; omega), Res.bind_ok, convBackward_ok k1 d1 (by omega) hys hyb ⟨b0, by omega⟩ ⟨a0, by omega⟩, Res.bind_ok, e]

/-- **C77** (SAME, SAME_UPPER and SAME_LOWER, pooling) -/
theorem C77_same_pool {rnd : Rat → Rat} (h : Binary32 rnd) (x b a k s y : Int) (r : PadRange x b a k s 1) (hy : RoundUp (x + b + a) s y) :
    (∃ p q, tfPoolSame rnd x b a k s = .ok (p, q) ∧ poolForward rnd x p q k s = .ok y ∧ Split true ((y - 1) * s + k - (x + b + a)) b a p q) ∧
    (∃ p q, onnxSameLower rnd x b a k s = .ok (p, q) ∧ poolForward rnd x p q k s = .ok y ∧ Split false ((y - 1) * s + k - (x + b + a)) b a p q) := by
  obtain ⟨x0, b0, a0, k1, s1, d1, sm⟩ := r
  rw [extent_one] at sm
  obtain ⟨y0, yn, yl, yh⟩ := roundUp_bounds (by omega) s1 hy
  have hys : |(y - 1) * s| < 16777216 := by rw [abs_lt]; omega
  have hyb : |y| < 16777216 := by rw [abs_lt]; omega
  have hyb1 : |y - 1| < 16777216 := by rw [abs_lt]; omega
  have en : (y - 1) * s + k - b - a - x = (y - 1) * s + k - (x + b + a) := by omega
  have hc := floatCeil_ok h (n := x + b + a) (by rw [abs_lt]; omega) s1 (by omega) hy (by rw [abs_lt]; omega)
  have hbk := poolBackward_ok (y := y) (b := b) (a := a) (s := s) k1 (by omega) (hys.trans (by norm_num)) (hyb.trans (by norm_num)) ⟨b0, by omega⟩ ⟨a0, by omega⟩
  constructor
  · obtain ⟨p, q, e, hsp, hp⟩ := endSame_ok (x := x) (b := b) (a := a) (x' := (y - 1) * s + k - b - a) ⟨x0, by omega⟩ ⟨b0, by omega⟩ ⟨a0, by omega⟩ (by rw [abs_lt]; omega)
    rw [en] at hsp
    refine ⟨p, q, ?_, poolForward_exact h k1 s1 (by omega) (by omega) hys hyb hyb1 ⟨x0, by omega⟩ hp (by have := hsp.1; omega), hsp⟩
    unfold tfPoolSame
    rw [padded_ok x0 b0 a0 (by omega), Res.bind_ok, hc, Res.bind_ok, hbk, Res.bind_ok, e]
  · obtain ⟨p, q, e, hsp, hp⟩ := endSameLower_ok (x := x) (b := b) (a := a) (x' := (y - 1) * s + k - b - a) ⟨x0, by omega⟩ ⟨b0, by omega⟩ ⟨a0, by omega⟩ (by rw [abs_lt]; omega)
    rw [en] at hsp
    refine ⟨p, q, ?_, poolForward_exact h k1 s1 (by omega) (by omega) hys hyb hyb1 ⟨x0, by omega⟩ hp (by have := hsp.1; omega), hsp⟩
    unfold onnxSameLower
    rw [padded_ok x0 b0 a0 (by omega), Res.bind_ok, hc, Res.bind_ok, hbk, Res.bind_ok, e]

theorem roundUp_counts {n e s y : Int} (hs : 1 ≤ s) (hn : e ≤ n + s) (hy : RoundUp (n - e + 1) s y) : CountsFitting n e s y := by
  obtain ⟨h1, h2⟩ := hy
  refine ⟨?_, fun p hp => ?_⟩
  · by_contra hc
    have : y * s ≤ (-1) * s := Int.mul_le_mul_of_nonneg_right (by omega) (by omega)
    omega
  · unfold Fits1
    constructor
    · intro h
      have : p * s ≤ (y - 1) * s := Int.mul_le_mul_of_nonneg_right (by omega) (by omega)
      omega
    · intro h
      exact lt_of_mul_lt_mul_right (show p * s < y * s by omega) (by omega)

theorem valid_bounds {n e s y : Int} (hs : 1 ≤ s) (hn0 : 0 ≤ n) (he : 1 ≤ e) (hn : e ≤ n + s) (hy : RoundUp (n - e + 1) s y) :
    0 ≤ y ∧ y ≤ n ∧ (y - 1) * s ≤ n - e ∧ n - e < (y - 1) * s + s ∧ -s ≤ (y - 1) * s := by
  have hc := (roundUp_counts hs hn hy).1
  obtain ⟨h1, h2⟩ := hy
  have e1 : (y - 1) * s = y * s - s := by ring
  have h3 : (0 : Int) ≤ y * s := Int.mul_nonneg hc (by omega)
  refine ⟨hc, ?_, by omega, by omega, by omega⟩
  by_cases h : y = 0
  · omega
  · have : y - 1 ≤ (y - 1) * s := by nlinarith [show (1 : Int) ≤ y by omega]
    omega

theorem forwardValid_ok {rnd : Rat → Rat} (h : Binary32 rnd) {n e s y : Int} (hs : 1 ≤ s) (hs' : s < 16777216) (hn0 : 0 ≤ n) (hn1 : n < 16777216) (he : 1 ≤ e) (he1 : e < 16777216)
    (hn : e ≤ n + s) (hy : RoundUp (n - e + 1) s y) : forwardValid rnd n e s = .ok y := by
  obtain ⟨y0, yn, -, -, -⟩ := valid_bounds hs hn0 he hn hy
  unfold forwardValid
  rw [int32_ok (by unfold I32; omega), Res.bind_ok, int32_ok (by unfold I32; omega), Res.bind_ok, floatCeil_ok h (by rw [abs_lt]; omega) hs hs' hy (by rw [abs_lt]; omega)]

theorem endValid_ok {x b a x' : Int} (hx : 0 ≤ x ∧ x < 16777216) (ha : 0 ≤ a ∧ a < 16777216) (hx' : |x'| < 67108864) : endValid x b a x' = .ok (b, a + x' - x) := by
  rw [abs_lt] at hx'
  unfold endValid
  rw [int32_ok (by unfold I32; omega), Res.bind_ok, int32_ok (by unfold I32; omega), Res.bind_ok]

/-- **C77** (VALID, convolution). Less than one stride is taken from the padding at the end, and the convolution gets as many outputs as windows fit. Here a kernel may even be longer
than the padded input, by less than a stride: unlike with the static padding (C21) that gives no output -/
theorem C77_valid_conv {rnd : Rat → Rat} (h : Binary32 rnd) (x b a k s d : Int) (r : PadRange x b a k s d) (hfit : extent k d ≤ x + b + a + s) :
    ∃ q y, tfConvValid rnd x b a k s d = .ok (b, q) ∧ convForward x b q k s d = .ok y ∧ CountsFitting (x + b + a) (extent k d) s y ∧ (1 ≤ y → a - s < q ∧ q ≤ a) := by
  obtain ⟨x0, b0, a0, k1, s1, d1, sm⟩ := r
  have he := extent_pos k1 d1
  obtain ⟨y, hy⟩ := roundUp_ex (x + b + a - extent k d + 1) s s1
  obtain ⟨y0, yn, yl, yh, ym⟩ := valid_bounds s1 (by omega) he hfit hy
  have hys : |(y - 1) * s| < 33554432 := by rw [abs_lt]; omega
  have hyb : |y| < 33554432 := by rw [abs_lt]; omega
  refine ⟨a + ((y - 1) * s + extent k d - b - a) - x, y, ?_, convForward_exact k1 d1 s1 (by omega) hys hyb ⟨x0, by omega⟩ (by rw [abs_lt]; omega) (by omega),
    roundUp_counts s1 hfit hy, fun _ => by omega⟩
  unfold tfConvValid
  rw [dilatedKernel_ok k1 d1 (by omega), Res.bind_ok, padded_ok x0 b0 a0 (by omega), Res.bind_ok,
    forwardValid_ok h s1 (by omega) (by omega) (by omega) he (by omega) hfit hy, Res.bind_ok, convBackward_ok k1 d1 (by omega) hys hyb ⟨b0, by omega⟩ ⟨a0, by omega⟩, Res.bind_ok,
    endValid_ok ⟨x0, by omega⟩ ⟨a0, by omega⟩ (by rw [abs_lt]; omega)]

/-- **C77** (VALID of TensorFlow and ONNX, NOTSET of ONNX, `valid` of MXNet, VALID rounded down of Dragon; pooling). All take the same from the padding at the end, and the
pooling, which rounds up, gets as many outputs as windows fit -/
theorem C77_valid_pool {rnd : Rat → Rat} (h : Binary32 rnd) (x b a k s : Int) (r : PadRange x b a k s 1) (hfit : k ≤ x + b + a) :
    ∃ q y, tfPoolValid rnd x b a k s = .ok (b, q) ∧ cutRest x b a k s = .ok (b, q) ∧ dragonPoolValid rnd false x b a k s = .ok (b, q) ∧
      poolForward rnd x b q k s = .ok y ∧ CountsFitting (x + b + a) k s y ∧ a - s < q ∧ q ≤ a := by
  obtain ⟨x0, b0, a0, k1, s1, d1, sm⟩ := r
  rw [extent_one] at sm
  obtain ⟨y, hy⟩ := roundUp_ex (x + b + a - k + 1) s s1
  obtain ⟨y0, yn, yl, yh, ym⟩ := valid_bounds s1 (by omega) k1 (by omega) hy
  have hys : |(y - 1) * s| < 16777216 := by rw [abs_lt]; omega
  have hyb : |y| < 16777216 := by rw [abs_lt]; omega
  have hyb1 : |y - 1| < 16777216 := by rw [abs_lt]; omega
  have hq : (x + b + a - k) / s = y - 1 := by
    rw [Int.ediv_eq_iff_of_pos (by omega)]
    omega
  have hbk := poolBackward_ok (y := y) (b := b) (a := a) (s := s) k1 (by omega) (hys.trans (by norm_num)) (hyb.trans (by norm_num)) ⟨b0, by omega⟩ ⟨a0, by omega⟩
  have hend := endValid_ok (b := b) (x' := (y - 1) * s + k - b - a) ⟨x0, by omega⟩ ⟨a0, by omega⟩ (by rw [abs_lt]; omega)
  have hpad := padded_ok x0 b0 a0 (by omega)
  refine ⟨a + ((y - 1) * s + k - b - a) - x, y, ?_, ?_, ?_, poolForward_exact h k1 s1 (by omega) (by omega) hys hyb hyb1 ⟨x0, by omega⟩ (by rw [abs_lt]; omega) (by omega),
    roundUp_counts s1 (by omega) hy, by omega, by omega⟩
  · unfold tfPoolValid
    rw [hpad, Res.bind_ok, forwardValid_ok h s1 (by omega) (by omega) (by omega) k1 (by omega) (by omega) hy, Res.bind_ok, hbk, Res.bind_ok, hend]
  · unfold cutRest
    have hm := Int.mul_ediv_add_emod (x + b + a - k) s
    rw [hq, Int.mul_comm] at hm
    have hm0 := Int.emod_nonneg (x + b + a - k) (show s ≠ 0 by omega)
    rw [hpad, Res.bind_ok, int32_ok (by unfold I32; omega), Res.bind_ok]
    unfold mod32
    rw [if_neg (by omega), if_pos (by unfold I32; have := Int.natAbs_tdiv_le_natAbs (x + b + a - k) s; omega), Res.bind_ok, Int.tmod_eq_emod_of_nonneg (by omega),
      int32_ok (by unfold I32; omega), Res.bind_ok]
    congr 2
    omega
  · unfold dragonPoolValid dragonCount
    rw [hpad, Res.bind_ok, int32_ok (by unfold I32; omega), Res.bind_ok, if_neg (by omega), if_neg (by decide),
      (float_quot h (by rw [abs_lt]; omega) s1 (by omega)).1, hq, int32_ok (by unfold I32; omega), Res.bind_ok]
    unfold dragonCorrect
    rw [int32_ok (by unfold I32; omega), Res.bind_ok, show y - 1 + 1 - 1 = y - 1 by omega, int32_ok (by unfold I32; omega), Res.bind_ok, if_neg (by omega), Res.bind_ok,
      show y - 1 + 1 = y by omega, hbk, Res.bind_ok, hend]

/-- rounded up: a window is counted if it starts inside of the padded input and the one before it, if any, does not reach its end -/
def CountsUp (n k s y : Int) : Prop := ∀ p, 0 ≤ p → (p < y ↔ p * s < n ∧ (p = 0 ∨ (p - 1) * s + k < n))

/-- **C77** (VALID of Dragon, rounded up; pooling) -/
theorem C77_dragon_up {rnd : Rat → Rat} (h : Binary32 rnd) (x b a k s : Int) (r : PadRange x b a k s 1) (hfit : k ≤ x + b + a) :
    ∃ q y, dragonPoolValid rnd true x b a k s = .ok (b, q) ∧ poolForward rnd x b q k s = .ok y ∧ CountsUp (x + b + a) k s y := by
  obtain ⟨x0, b0, a0, k1, s1, d1, sm⟩ := r
  rw [extent_one] at sm
  obtain ⟨z, hz⟩ := roundUp_ex (x + b + a - k) s s1
  obtain ⟨z0, zn, zl, zh⟩ := roundUp_bounds (by omega) s1 hz
  obtain ⟨z1, -⟩ := hz
  have ez : (z - 1) * s = z * s - s := by ring
  have hpad := padded_ok x0 b0 a0 (by omega)
  have main : ∀ y, dragonCorrect (z + 1) (x + b + a) s = .ok y → |(y - 1) * s| < 16777216 → 0 ≤ y → y ≤ z + 1 → CountsUp (x + b + a) k s y →
      ∃ q y, dragonPoolValid rnd true x b a k s = .ok (b, q) ∧ poolForward rnd x b q k s = .ok y ∧ CountsUp (x + b + a) k s y := by
    intro y hc hys hy0 hy1 hcu
    have hyb : |y| < 16777216 := by rw [abs_lt]; omega
    have hyb1 : |y - 1| < 16777216 := by rw [abs_lt]; omega
    have hys' := abs_lt.1 hys
    refine ⟨a + ((y - 1) * s + k - b - a) - x, y, ?_, poolForward_exact h k1 s1 (by omega) (by omega) hys hyb hyb1 ⟨x0, by omega⟩ (by rw [abs_lt]; omega) (by omega), hcu⟩
    unfold dragonPoolValid dragonCount
    rw [hpad, Res.bind_ok, int32_ok (by unfold I32; omega), Res.bind_ok, if_neg (by omega), if_pos rfl,
      (float_quot h (by rw [abs_lt]; omega) s1 (by omega)).2 z ⟨z1, zl⟩, int32_ok (by unfold I32; omega), Res.bind_ok, hc, Res.bind_ok,
      poolBackward_ok k1 (by omega) (hys.trans (by norm_num)) (hyb.trans (by norm_num)) ⟨b0, by omega⟩ ⟨a0, by omega⟩, Res.bind_ok,
      endValid_ok ⟨x0, by omega⟩ ⟨a0, by omega⟩ (by rw [abs_lt]; omega)]
  have hcor : dragonCorrect (z + 1) (x + b + a) s = if x + b + a ≤ z * s then .ok z else .ok (z + 1) := by
    unfold dragonCorrect
    rw [int32_ok (by unfold I32; omega), Res.bind_ok, show z + 1 - 1 = z by omega, int32_ok (by unfold I32; omega), Res.bind_ok]
  have lt : ∀ {p q : Int}, p * s < q * s → p < q := fun h => lt_of_mul_lt_mul_right h (by omega)
  have le : ∀ {p q : Int}, p ≤ q → p * s ≤ q * s := fun h => Int.mul_le_mul_of_nonneg_right h (by omega)
  by_cases hcase : x + b + a ≤ z * s
  · rw [if_pos hcase] at hcor
    refine main z hcor (by rw [abs_lt]; omega) z0 (by omega) fun p hp => ?_
    constructor
    · intro hpz
      have l1 := le (show p ≤ z - 1 by omega)
      have l2 := le (show p - 1 ≤ z - 1 by omega)
      exact ⟨by omega, Or.inr (by omega)⟩
    · intro ⟨h1, _⟩
      exact lt (by omega)
  · rw [if_neg hcase] at hcor
    refine main (z + 1) hcor (by rw [abs_lt, show z + 1 - 1 = z by omega]; omega) (by omega) (by omega) fun p hp => ?_
    constructor
    · intro hpz
      have l1 := le (show p ≤ z by omega)
      have l2 := le (show p - 1 ≤ z - 1 by omega)
      exact ⟨by omega, Or.inr (by omega)⟩
    · rintro ⟨h1, rfl | h2⟩
      · omega
      · have := lt (show (p - 1) * s < z * s by omega)
        omega

theorem dragonOdm_ok {rnd : Rat → Rat} (h : Binary32 rnd) {x s y : Int} (hx : 0 ≤ x) (hs : 1 ≤ s) (hb : x + s < 16777216) (hy : RoundUp x s y) : dragonOdm rnd x s = .ok y := by
  obtain ⟨y0, yn, -, -⟩ := roundUp_bounds hx hs hy
  obtain ⟨h1, h2⟩ := hy
  have e : (y - 1) * s = y * s - s := by ring
  have hq : (x + s - 1) / s = y := by
    rw [Int.ediv_eq_iff_of_pos (by omega)]
    have : (y + 1) * s = y * s + s := by ring
    omega
  have hf := (float_quot h (n := x + s - 1) (by rw [abs_lt]; omega) hs (by omega)).1
  rw [hq] at hf
  unfold dragonOdm
  rw [int32_ok (by unfold I32; omega), Res.bind_ok, int32_ok (by unfold I32; omega), Res.bind_ok, if_neg (by omega), if_pos, hf, int32_ok (by unfold I32; omega)]
  have := Int.floor_le (rnd (rnd ((x + s - 1 : Int) : Rat) / rnd s))
  rw [hf] at this
  have h0 : (0 : Rat) ≤ y := by exact_mod_cast y0
  linarith

theorem dragonNeed_ok {odm x k s : Int} (h1 : |odm| < 33554432) (h2 : |(odm - 1) * s| < 33554432) (hk : 0 ≤ k ∧ k < 16777216) (hx : 0 ≤ x ∧ x < 16777216) :
    dragonNeed odm x k s = .ok (max 0 ((odm - 1) * s + k - x)) := by
  rw [abs_lt] at h1 h2
  unfold dragonNeed
  rw [int32_ok (by unfold I32; omega), Res.bind_ok, int32_ok (by unfold I32; omega), Res.bind_ok, int32_ok (by unfold I32; omega), Res.bind_ok, int32_ok (by unfold I32; omega),
    Res.bind_ok]

theorem dragonBefore_ok (half : Bool) {m : Int} (h0 : 0 ≤ m) (h1 : m < 67108864) : dragonBefore half m = .ok (if half then m / 2 else m - m / 2) := by
  unfold dragonBefore div32
  rw [if_neg (by omega), Int.tdiv_eq_ediv_of_nonneg h0, int32_ok (by unfold I32; omega), Res.bind_ok]
  split
  · rfl
  · rw [int32_ok (by unfold I32; omega)]

theorem dragonEnd_ok {p x b a x' : Int} (hp : 0 ≤ p ∧ p < 67108864) (hx : 0 ≤ x ∧ x < 16777216) (hb : 0 ≤ b ∧ b < 16777216) (ha : 0 ≤ a ∧ a < 16777216) (hx' : |x'| < 134217728) :
    dragonEnd p x b a x' = .ok (p, b + a + (x' - x - p)) := by
  rw [abs_lt] at hx'
  unfold dragonEnd
  rw [int32_ok (by unfold I32; omega), Res.bind_ok, int32_ok (by unfold I32; omega), Res.bind_ok, int32_ok (by unfold I32; omega), Res.bind_ok, int32_ok (by unfold I32; omega),
    Res.bind_ok]

/-- **C77** (SAME of Dragon, pooling). The static padding is not used; if nothing is needed the windows start at the first element -/
theorem C77_dragon_same_pool {rnd : Rat → Rat} (h : Binary32 rnd) (upper : Bool) (x b a k s y : Int) (r : PadRange x b a k s 1) (hy : RoundUp x s y) :
    ∃ p q, dragonPoolSame rnd upper x b a k s = .ok (p, q) ∧ poolForward rnd x p q k s = .ok y ∧ Split upper ((y - 1) * s + k - x) 0 0 p q ∧
      ((y - 1) * s + k - x < 0 → p = 0) := by
  obtain ⟨x0, b0, a0, k1, s1, d1, sm⟩ := r
  rw [extent_one] at sm
  obtain ⟨y0, yn, yl, yh⟩ := roundUp_bounds x0 s1 hy
  have hys : |(y - 1) * s| < 16777216 := by rw [abs_lt]; omega
  have hyb : |y| < 16777216 := by rw [abs_lt]; omega
  have hyb1 : |y - 1| < 16777216 := by rw [abs_lt]; omega
  have hm := dragonBefore_ok upper (m := max 0 ((y - 1) * s + k - x)) (by omega) (by omega)
  generalize hp : (if upper then max 0 ((y - 1) * s + k - x) / 2 else max 0 ((y - 1) * s + k - x) - max 0 ((y - 1) * s + k - x) / 2) = p at hm
  have hpb : 0 ≤ p ∧ p ≤ max 0 ((y - 1) * s + k - x) := by
    rw [← hp]; cases upper <;> simp only [Bool.false_eq_true, if_false, if_true] <;> omega
  refine ⟨p, b + a + ((y - 1) * s + k - b - a - x - p), ?_, poolForward_exact h k1 s1 (by omega) (by omega) hys hyb hyb1 ⟨x0, by omega⟩ (by rw [abs_lt]; omega) (by omega),
    ⟨by omega, fun h0 => ?_⟩, fun h0 => by omega⟩
  · unfold dragonPoolSame
    rw [dragonOdm_ok h x0 s1 (by omega) hy, Res.bind_ok, dragonNeed_ok (hyb.trans (by norm_num)) (hys.trans (by norm_num)) ⟨by omega, by omega⟩ ⟨x0, by omega⟩, Res.bind_ok, hm,
      Res.bind_ok, floatCeil_ok h (by rw [abs_lt]; omega) s1 (by omega) hy (by rw [abs_lt]; omega), Res.bind_ok,
      poolBackward_ok k1 (by omega) (hys.trans (by norm_num)) (hyb.trans (by norm_num)) ⟨b0, by omega⟩ ⟨a0, by omega⟩, Res.bind_ok,
      dragonEnd_ok ⟨by omega, by omega⟩ ⟨x0, by omega⟩ ⟨b0, by omega⟩ ⟨a0, by omega⟩ (by rw [abs_lt]; omega)]
  · rw [← hp, max_eq_right h0, Int.zero_add]

/-- **C77** (SAME of Dragon, convolution), without dilation: the size is as documented, but SAME_UPPER has the larger part at the start and SAME_LOWER at the end. Missing: with dilation it
is wrong (`C77_dragon_conv_false`) -/
theorem C77_dragon_same_conv_partial {rnd : Rat → Rat} (h : Binary32 rnd) (upper : Bool) (x b a k s y : Int) (r : PadRange x b a k s 1) (hy : RoundUp x s y) :
    ∃ p q, dragonConvSame rnd upper x b a k s 1 = .ok (p, q) ∧ convForward x p q k s 1 = .ok y ∧ Split (!upper) ((y - 1) * s + k - x) 0 0 p q ∧
      ((y - 1) * s + k - x < 0 → p = 0) := by
  obtain ⟨x0, b0, a0, k1, s1, d1, sm⟩ := r
  have he := extent_one k
  rw [he] at sm
  obtain ⟨y0, yn, yl, yh⟩ := roundUp_bounds x0 s1 hy
  have hys : |(y - 1) * s| < 33554432 := by rw [abs_lt]; omega
  have hyb : |y| < 33554432 := by rw [abs_lt]; omega
  have hm := dragonBefore_ok (!upper) (m := max 0 ((y - 1) * s + k - x)) (by omega) (by omega)
  generalize hp : (if (!upper) = true then max 0 ((y - 1) * s + k - x) / 2 else max 0 ((y - 1) * s + k - x) - max 0 ((y - 1) * s + k - x) / 2) = p at hm
  have hpb : 0 ≤ p ∧ p ≤ max 0 ((y - 1) * s + k - x) := by
    rw [← hp]; split <;> omega
  refine ⟨p, b + a + ((y - 1) * s + k - b - a - x - p), ?_, convForward_exact k1 d1 s1 (by omega) hys hyb ⟨x0, by omega⟩ (by rw [abs_lt]; omega) (by omega),
    ⟨by omega, fun h0 => ?_⟩, fun h0 => by omega⟩
  · unfold dragonConvSame
    rw [dilatedKernel_ok k1 d1 (by omega), Res.bind_ok, he, dragonOdm_ok h x0 s1 (by omega) hy, Res.bind_ok, dragonNeed_ok hyb hys ⟨by omega, by omega⟩ ⟨x0, by omega⟩, Res.bind_ok, hm,
      Res.bind_ok, poolBackward_ok k1 (by omega) hys hyb ⟨b0, by omega⟩ ⟨a0, by omega⟩, Res.bind_ok,
      dragonEnd_ok ⟨by omega, by omega⟩ ⟨x0, by omega⟩ ⟨b0, by omega⟩ ⟨a0, by omega⟩ (by rw [abs_lt]; omega)]
  · rw [← hp, max_eq_right h0, Int.zero_add]

/-! ## The operators -/

/-- **C77** (SAME and VALID of TensorFlow, the operator for convolutions, NCHW). The tensor given is the padding with which the convolution gets the documented size in both directions -/
theorem C77_tf_conv_operator {rnd : Rat → Rat} (h : Binary32 rnd) (t b l r n c o xh xw kh kw sh sw dh dw : Int) (T : Nat)
    (rh : PadRange xh t b kh sh dh) (rw' : PadRange xw l r kw sw dw) :
    (∀ yh yw, RoundUp (xh + t + b) sh yh → RoundUp (xw + l + r) sw yw →
      ∃ p q p' q', convPadding (tfMethod rnd "SAME") "NCHW" [0, 0, 0, 0, t, b, l, r] [1, 1, dh, dw] [1, 1, sh, sw] T T [n, c, xh, xw] [o, c, kh, kw] = .ok [0, 0, 0, 0, p, q, p', q'] ∧
        convForward xh p q kh sh dh = .ok yh ∧ convForward xw p' q' kw sw dw = .ok yw ∧
        Split true ((yh - 1) * sh + extent kh dh - (xh + t + b)) t b p q ∧ Split true ((yw - 1) * sw + extent kw dw - (xw + l + r)) l r p' q') ∧
    (extent kh dh ≤ xh + t + b + sh → extent kw dw ≤ xw + l + r + sw →
      ∃ q q' yh yw, convPadding (tfMethod rnd "VALID") "NCHW" [0, 0, 0, 0, t, b, l, r] [1, 1, dh, dw] [1, 1, sh, sw] T T [n, c, xh, xw] [o, c, kh, kw] = .ok [0, 0, 0, 0, t, q, l, q'] ∧
        convForward xh t q kh sh dh = .ok yh ∧ convForward xw l q' kw sw dw = .ok yw ∧
        CountsFitting (xh + t + b) (extent kh dh) sh yh ∧ CountsFitting (xw + l + r) (extent kw dw) sw yw) := by
  constructor
  · intro yh yw hh hw
    obtain ⟨p, q, e1, c1, s1⟩ := C77_same_conv h _ _ _ _ _ _ _ rh hh
    obtain ⟨p', q', e2, c2, s2⟩ := C77_same_conv h _ _ _ _ _ _ _ rw' hw
    refine ⟨p, q, p', q', ?_, c1, c2, s1, s2⟩
    have : convPadding (tfMethod rnd "SAME") "NCHW" [0, 0, 0, 0, t, b, l, r] [1, 1, dh, dw] [1, 1, sh, sw] T T [n, c, xh, xw] [o, c, kh, kw]
        = (tfConvSame rnd xh t b kh sh dh >>= fun h => tfConvSame rnd xw l r kw sw dw >>= fun w => .ok (padOut true h w)) := by
      simp [convPadding, tfMethod, padFormat, spatialPad, spatial, at8, otherPadOk, otherOneOk]
    rw [this, e1, Res.bind_ok, e2, Res.bind_ok]
    rfl
  · intro hh hw
    obtain ⟨q, yh, e1, c1, s1, -⟩ := C77_valid_conv h _ _ _ _ _ _ rh hh
    obtain ⟨q', yw, e2, c2, s2, -⟩ := C77_valid_conv h _ _ _ _ _ _ rw' hw
    refine ⟨q, q', yh, yw, ?_, c1, c2, s1, s2⟩
    have : convPadding (tfMethod rnd "VALID") "NCHW" [0, 0, 0, 0, t, b, l, r] [1, 1, dh, dw] [1, 1, sh, sw] T T [n, c, xh, xw] [o, c, kh, kw]
        = (tfConvValid rnd xh t b kh sh dh >>= fun h => tfConvValid rnd xw l r kw sw dw >>= fun w => .ok (padOut true h w)) := by
      simp [convPadding, tfMethod, padFormat, spatialPad, spatial, at8, otherPadOk, otherOneOk]
    rw [this, e1, Res.bind_ok, e2, Res.bind_ok]
    rfl

/-- the tensor of a padding in the two layouts -/
theorem poolPadding_eq (checked : Bool) (f : PadPool) (t b l r n c xh xw k0 k1 kh kw s0 s1 sh sw : Int) :
    poolPadding checked (.ok f) "NCHW" [0, 0, 0, 0, t, b, l, r] [n, c, xh, xw] [k0, k1, kh, kw] [s0, s1, sh, sw]
      = (f xh t b kh sh >>= fun h => f xw l r kw sw >>= fun w => .ok [0, 0, 0, 0, h.1, h.2, w.1, w.2]) ∧
    poolPadding checked (.ok f) "NHWC" [0, 0, t, b, l, r, 0, 0] [n, xh, xw, c] [k0, kh, kw, k1] [s0, sh, sw, s1]
      = (f xh t b kh sh >>= fun h => f xw l r kw sw >>= fun w => .ok [0, 0, h.1, h.2, w.1, w.2, 0, 0]) := by
  constructor
  · simp [poolPadding, padFormat, spatialPad, spatial, at8, otherPadOk, padOut]
  · simp [poolPadding, padFormat, spatialPad, spatial, at8, otherPadOk, padOut]

/-- **C77** (the operators for poolings). Both layouts of TensorFlow and MXNet; ONNX, NCHW: the tensor given is the padding with which the pooling gets the documented size in both directions -/
theorem C77_pool_operator {rnd : Rat → Rat} (h : Binary32 rnd) (t b l r n c xh xw k0 k1 kh kw s0 s1 sh sw : Int) (rh : PadRange xh t b kh sh 1) (rw' : PadRange xw l r kw sw 1) :
    (∀ yh yw, RoundUp (xh + t + b) sh yh → RoundUp (xw + l + r) sw yw →
      (∃ p q p' q',
        poolPadding true (tfPoolMethod rnd "SAME") "NCHW" [0, 0, 0, 0, t, b, l, r] [n, c, xh, xw] [k0, k1, kh, kw] [s0, s1, sh, sw] = .ok [0, 0, 0, 0, p, q, p', q'] ∧
        poolPadding true (tfPoolMethod rnd "SAME") "NHWC" [0, 0, t, b, l, r, 0, 0] [n, xh, xw, c] [k0, kh, kw, k1] [s0, sh, sw, s1] = .ok [0, 0, p, q, p', q', 0, 0] ∧
        poolPadding false (onnxPoolMethod rnd "SAME_UPPER") "NCHW" [0, 0, 0, 0, t, b, l, r] [n, c, xh, xw] [k0, k1, kh, kw] [s0, s1, sh, sw] = .ok [0, 0, 0, 0, p, q, p', q'] ∧
        poolForward rnd xh p q kh sh = .ok yh ∧ poolForward rnd xw p' q' kw sw = .ok yw ∧
        Split true ((yh - 1) * sh + kh - (xh + t + b)) t b p q ∧ Split true ((yw - 1) * sw + kw - (xw + l + r)) l r p' q') ∧
      (∃ p q p' q',
        poolPadding false (onnxPoolMethod rnd "SAME_LOWER") "NCHW" [0, 0, 0, 0, t, b, l, r] [n, c, xh, xw] [k0, k1, kh, kw] [s0, s1, sh, sw] = .ok [0, 0, 0, 0, p, q, p', q'] ∧
        poolForward rnd xh p q kh sh = .ok yh ∧ poolForward rnd xw p' q' kw sw = .ok yw ∧
        Split false ((yh - 1) * sh + kh - (xh + t + b)) t b p q ∧ Split false ((yw - 1) * sw + kw - (xw + l + r)) l r p' q')) ∧
    (kh ≤ xh + t + b → kw ≤ xw + l + r → ∃ q q' yh yw,
        poolPadding true (tfPoolMethod rnd "VALID") "NCHW" [0, 0, 0, 0, t, b, l, r] [n, c, xh, xw] [k0, k1, kh, kw] [s0, s1, sh, sw] = .ok [0, 0, 0, 0, t, q, l, q'] ∧
        poolPadding true (tfPoolMethod rnd "VALID") "NHWC" [0, 0, t, b, l, r, 0, 0] [n, xh, xw, c] [k0, kh, kw, k1] [s0, sh, sw, s1] = .ok [0, 0, t, q, l, q', 0, 0] ∧
        poolPadding false (onnxPoolMethod rnd "VALID") "NCHW" [0, 0, 0, 0, t, b, l, r] [n, c, xh, xw] [k0, k1, kh, kw] [s0, s1, sh, sw] = .ok [0, 0, 0, 0, t, q, l, q'] ∧
        poolPadding false (onnxPoolMethod rnd "NOTSET") "NCHW" [0, 0, 0, 0, t, b, l, r] [n, c, xh, xw] [k0, k1, kh, kw] [s0, s1, sh, sw] = .ok [0, 0, 0, 0, t, q, l, q'] ∧
        poolPadding false (dragonPoolMethod rnd false "VALID") "NCHW" [0, 0, 0, 0, t, b, l, r] [n, c, xh, xw] [k0, k1, kh, kw] [s0, s1, sh, sw] = .ok [0, 0, 0, 0, t, q, l, q'] ∧
        mxPadding true "NCHW" [0, 0, 0, 0, t, b, l, r] [n, c, xh, xw] [k0, k1, kh, kw] [s0, s1, sh, sw] = .ok [0, 0, 0, 0, t, q, l, q'] ∧
        mxPadding true "NHWC" [0, 0, t, b, l, r, 0, 0] [n, xh, xw, c] [k0, kh, kw, k1] [s0, sh, sw, s1] = .ok [0, 0, t, q, l, q', 0, 0] ∧
        poolForward rnd xh t q kh sh = .ok yh ∧ poolForward rnd xw l q' kw sw = .ok yw ∧
        CountsFitting (xh + t + b) kh sh yh ∧ CountsFitting (xw + l + r) kw sw yw) ∧
    (∀ xs ks ss, mxPadding false "NCHW" [0, 0, 0, 0, t, b, l, r] xs ks ss = .ok [0, 0, 0, 0, t, b, l, r] ∧
      mxPadding false "NHWC" [0, 0, t, b, l, r, 0, 0] xs ks ss = .ok [0, 0, t, b, l, r, 0, 0]) := by
  have m1 : tfPoolMethod rnd "SAME" = .ok (tfPoolSame rnd) := rfl
  have m2 : tfPoolMethod rnd "VALID" = .ok (tfPoolValid rnd) := rfl
  have m3 : onnxPoolMethod rnd "SAME_UPPER" = .ok (tfPoolSame rnd) := rfl
  have m4 : onnxPoolMethod rnd "SAME_LOWER" = .ok (onnxSameLower rnd) := rfl
  have m5 : onnxPoolMethod rnd "VALID" = .ok (tfPoolValid rnd) := rfl
  have m6 : onnxPoolMethod rnd "NOTSET" = .ok cutRest := rfl
  have m7 : dragonPoolMethod rnd false "VALID" = .ok (dragonPoolValid rnd false) := rfl
  refine ⟨fun yh yw hh hw => ?_, fun hh hw => ?_, fun xs ks ss => ⟨rfl, rfl⟩⟩
  · obtain ⟨⟨p, q, e1, c1, d1⟩, ⟨u, v, e2, c2, d2⟩⟩ := C77_same_pool h _ _ _ _ _ _ rh hh
    obtain ⟨⟨p', q', e1', c1', d1'⟩, ⟨u', v', e2', c2', d2'⟩⟩ := C77_same_pool h _ _ _ _ _ _ rw' hw
    refine ⟨⟨p, q, p', q', ?_, ?_, ?_, c1, c1', d1, d1'⟩, ⟨u, v, u', v', ?_, c2, c2', d2, d2'⟩⟩
    · rw [m1, (poolPadding_eq ..).1, e1, Res.bind_ok, e1', Res.bind_ok]
    · rw [m1, (poolPadding_eq ..).2, e1, Res.bind_ok, e1', Res.bind_ok]
    · rw [m3, (poolPadding_eq ..).1, e1, Res.bind_ok, e1', Res.bind_ok]
    · rw [m4, (poolPadding_eq ..).1, e2, Res.bind_ok, e2', Res.bind_ok]
  · obtain ⟨q, yh, e1, e2, e3, c1, d1, -, -⟩ := C77_valid_pool h _ _ _ _ _ rh hh
    obtain ⟨q', yw, e1', e2', e3', c1', d1', -, -⟩ := C77_valid_pool h _ _ _ _ _ rw' hw
    refine ⟨q, q', yh, yw, ?_, ?_, ?_, ?_, ?_, ?_, ?_, c1, c1', d1, d1'⟩
    · rw [m2, (poolPadding_eq ..).1, e1, Res.bind_ok, e1', Res.bind_ok]
    · rw [m2, (poolPadding_eq ..).2, e1, Res.bind_ok, e1', Res.bind_ok]
    · rw [m5, (poolPadding_eq ..).1, e1, Res.bind_ok, e1', Res.bind_ok]
    · rw [m6, (poolPadding_eq ..).1, e2, Res.bind_ok, e2', Res.bind_ok]
    · rw [m7, (poolPadding_eq ..).1, e3, Res.bind_ok, e3', Res.bind_ok]
    · unfold mxPadding
      rw [if_pos rfl, (poolPadding_eq ..).1, e2, Res.bind_ok, e2', Res.bind_ok]
    · unfold mxPadding
      rw [if_pos rfl, (poolPadding_eq ..).2, e2, Res.bind_ok, e2', Res.bind_ok]

example : PadRange 7 0 0 3 2 1 ∧ RoundUp (7 + 0 + 0) 2 4 ∧ PadRange 8 1 0 3 3 2 ∧ RoundUp (8 + 1 + 0) 3 3 ∧ extent 3 2 ≤ 8 + 1 + 0 + 3 := by
  refine ⟨⟨?_, ?_, ?_, ?_, ?_, ?_, ?_⟩, ⟨?_, ?_⟩, ⟨?_, ?_, ?_, ?_, ?_, ?_, ?_⟩, ⟨?_, ?_⟩, ?_⟩ <;> decide

example : convPadding (tfMethod f32 "SAME") "NCHW" [0, 0, 0, 0, 0, 0, 1, 0] [1, 1, 1, 2] [1, 1, 2, 3] 10 10 [2, 5, 7, 8] [6, 5, 3, 3] = .ok [0, 0, 0, 0, 1, 1, 2, 1] ∧
    convForward 7 1 1 3 2 1 = .ok 4 ∧ convForward 8 2 1 3 3 2 = .ok 3 := by decide +kernel

example : convPadding (tfMethod f32 "VALID") "NCHW" [0, 0, 0, 0, 0, 0, 1, 0] [1, 1, 1, 2] [1, 1, 2, 3] 10 10 [2, 5, 8, 8] [6, 5, 3, 3] = .ok [0, 0, 0, 0, 0, -1, 1, -1] := by decide +kernel

example : poolPadding false (onnxPoolMethod f32 "SAME_LOWER") "NCHW" [0, 0, 0, 0, 0, 0, 0, 0] [2, 5, 8, 8] [1, 1, 3, 2] [1, 1, 2, 3] = .ok [0, 0, 0, 0, 1, 0, 0, 0] := by decide +kernel

/-- which end of the input gets the larger half, by the method's name: pooling -/
def DragonPoolName (m : String) (upper : Bool) : Prop := (upper = false ∧ (m = "SAME" ∨ m = "SAME_LOWER")) ∨ (upper = true ∧ m = "SAME_UPPER")

/-- **C77** (the operators of Dragon, by the names of the methods). Pooling: every name for "same" gives the documented size, and SAME and SAME_LOWER have the larger half at the start,
SAME_UPPER at the end; convolution without dilation: the size is right, the halves are the other way round; VALID and NOTSET of the convolution leave the padding as it is; other names are
refused -/
theorem C77_dragon_operators_partial {rnd : Rat → Rat} (h : Binary32 rnd) (t b l r n c o xh xw k0 k1 kh kw s0 s1 sh sw yh yw : Int) (T : Nat) (up upper : Bool) (m : String)
    (rh : PadRange xh t b kh sh 1) (rw' : PadRange xw l r kw sw 1) (hh : RoundUp xh sh yh) (hw : RoundUp xw sw yw) :
    (DragonPoolName m upper → ∃ p q p' q',
        poolPadding false (dragonPoolMethod rnd up m) "NCHW" [0, 0, 0, 0, t, b, l, r] [n, c, xh, xw] [k0, k1, kh, kw] [s0, s1, sh, sw] = .ok [0, 0, 0, 0, p, q, p', q'] ∧
        poolForward rnd xh p q kh sh = .ok yh ∧ poolForward rnd xw p' q' kw sw = .ok yw ∧
        Split upper ((yh - 1) * sh + kh - xh) 0 0 p q ∧ Split upper ((yw - 1) * sw + kw - xw) 0 0 p' q') ∧
    (DragonPoolName m upper → ∃ p q p' q',
        convPadding (dragonMethod rnd m) "NCHW" [0, 0, 0, 0, t, b, l, r] [1, 1, 1, 1] [1, 1, sh, sw] T T [n, c, xh, xw] [o, c, kh, kw] = .ok [0, 0, 0, 0, p, q, p', q'] ∧
        convForward xh p q kh sh 1 = .ok yh ∧ convForward xw p' q' kw sw 1 = .ok yw ∧
        Split (!upper) ((yh - 1) * sh + kh - xh) 0 0 p q ∧ Split (!upper) ((yw - 1) * sw + kw - xw) 0 0 p' q') ∧
    (m = "VALID" ∨ m = "NOTSET" →
      convPadding (dragonMethod rnd m) "NCHW" [0, 0, 0, 0, t, b, l, r] [1, 1, 1, 1] [1, 1, sh, sw] T T [n, c, xh, xw] [o, c, kh, kw] = .ok [0, 0, 0, 0, t, b, l, r] ∧
      poolPadding false (dragonPoolMethod rnd up m) "NCHW" [0, 0, 0, 0, t, b, l, r] [n, c, xh, xw] [k0, k1, kh, kw] [s0, s1, sh, sw]
        = poolPadding false (dragonPoolMethod rnd up "VALID") "NCHW" [0, 0, 0, 0, t, b, l, r] [n, c, xh, xw] [k0, k1, kh, kw] [s0, s1, sh, sw]) ∧
    (m ∉ ["SAME", "SAME_LOWER", "SAME_UPPER", "VALID", "NOTSET"] → dragonMethod rnd m = .err ∧ dragonPoolMethod rnd up m = .err) := by
  refine ⟨fun hm => ?_, fun hm => ?_, ?_, fun hm => ?_⟩
  · have em : dragonPoolMethod rnd up m = .ok (dragonPoolSame rnd upper) := by
      rcases hm with ⟨rfl, rfl | rfl⟩ | ⟨rfl, rfl⟩ <;> rfl
    obtain ⟨p, q, e1, c1, d1, -⟩ := C77_dragon_same_pool h upper _ _ _ _ _ _ rh hh
    obtain ⟨p', q', e2, c2, d2, -⟩ := C77_dragon_same_pool h upper _ _ _ _ _ _ rw' hw
    exact ⟨p, q, p', q', by rw [em, (poolPadding_eq ..).1, e1, Res.bind_ok, e2, Res.bind_ok], c1, c2, d1, d2⟩
  · have em : dragonMethod rnd m = .ok (dragonConvSame rnd upper) := by
      rcases hm with ⟨rfl, rfl | rfl⟩ | ⟨rfl, rfl⟩ <;> rfl
    obtain ⟨p, q, e1, c1, d1, -⟩ := C77_dragon_same_conv_partial h upper _ _ _ _ _ _ rh hh
    obtain ⟨p', q', e2, c2, d2, -⟩ := C77_dragon_same_conv_partial h upper _ _ _ _ _ _ rw' hw
    refine ⟨p, q, p', q', ?_, c1, c2, d1, d2⟩
    rw [em]
    have : convPadding (.ok (dragonConvSame rnd upper)) "NCHW" [0, 0, 0, 0, t, b, l, r] [1, 1, 1, 1] [1, 1, sh, sw] T T [n, c, xh, xw] [o, c, kh, kw]
        = (dragonConvSame rnd upper xh t b kh sh 1 >>= fun h => dragonConvSame rnd upper xw l r kw sw 1 >>= fun w => .ok (padOut true h w)) := by
      simp [convPadding, padFormat, spatialPad, spatial, at8, otherPadOk, otherOneOk]
    rw [this, e1, Res.bind_ok, e2, Res.bind_ok]
    rfl
  · rintro (rfl | rfl)
    · refine ⟨?_, rfl⟩
      simp [convPadding, dragonMethod, padFormat, spatialPad, spatial, at8, otherPadOk, otherOneOk, padOut]
    · refine ⟨?_, rfl⟩
      simp [convPadding, dragonMethod, padFormat, spatialPad, spatial, at8, otherPadOk, otherOneOk, padOut]
  · simp only [List.mem_cons, List.not_mem_nil, or_false, not_or] at hm
    unfold dragonMethod dragonPoolMethod
    simp [hm]

example : DragonPoolName "SAME_UPPER" true ∧ DragonPoolName "SAME" false ∧ RoundUp 7 2 4 ∧ PadRange 7 0 0 3 2 1 := by
  refine ⟨Or.inr ⟨rfl, rfl⟩, Or.inl ⟨rfl, Or.inl rfl⟩, ⟨?_, ?_⟩, ⟨?_, ?_, ?_, ?_, ?_, ?_, ?_⟩⟩ <;> decide

/-- **C77** (what is refused): another method or layout, parameters of other lengths, operands that are not of rank 4 or of one type, different numbers of channels; a stride of zero is
undefined, and so is a pooling whose kernel, stride or image has fewer than four numbers -/
theorem C77_rejects (rnd : Rat → Rat) (m fmt : String) (pad dil str : List Int) (xt wt : Nat) (xs ws : List Int) :
    (m ≠ "SAME" → m ≠ "VALID" → convPadding (tfMethod rnd m) fmt pad dil str xt wt xs ws = .err) ∧
    (∀ f : PadConv, fmt ≠ "NCHW" → fmt ≠ "NHWC" → convPadding (.ok f) fmt pad dil str xt wt xs ws = .err) ∧
    (∀ f : PadConv, fmt = "NCHW" ∨ fmt = "NHWC" → pad.length ≠ 8 ∨ dil.length ≠ 4 ∨ str.length ≠ 4 → convPadding (.ok f) fmt pad dil str xt wt xs ws = .err) ∧
    (∀ f : PadConv, fmt = "NCHW" ∨ fmt = "NHWC" → xs.length ≠ 4 ∨ ws.length ≠ 4 ∨ xt ≠ wt ∨ ws[1]? ≠ xs[1]? → convPadding (.ok f) fmt pad dil str xt wt xs ws = .err) ∧
    (∀ x b a k d, 0 ≤ x → 0 ≤ b → 0 ≤ a → x + b + a < 16777216 → 1 ≤ k → 1 ≤ d → extent k d < 16777216 → tfConvSame rnd x b a k 0 d = .ub) ∧
    (∀ (f : PadPool), xs.length < 4 ∨ ws.length < 4 → pad.length = 8 → otherPadOk true pad = true → poolPadding true (.ok f) "NCHW" pad xs ws str = .ub) := by
  have spub : ∀ l : List Int, l.length < 4 → spatial true l = .ub := by
    intro l hl
    unfold spatial at8
    rw [if_pos rfl, if_pos rfl, List.getElem?_eq_none (show l.length ≤ 3 by omega)]
    cases l[2]? <;> rfl
  have spok : ∀ nchw (l : List Int), l.length = 4 → ∃ v, spatial nchw l = .ok v := by
    intro nchw l hl
    match l, hl with
    | [v0, v1, v2, v3], _ => cases nchw <;> exact ⟨_, rfl⟩
  have padok : ∀ nchw (l : List Int), l.length = 8 → ∃ v, spatialPad nchw l = .ok v := by
    intro nchw l hl
    match l, hl with
    | [v0, v1, v2, v3, v4, v5, v6, v7], _ => cases nchw <;> exact ⟨_, rfl⟩
  have fm : ∀ fmt, fmt = "NCHW" ∨ fmt = "NHWC" → ∃ n, padFormat fmt = .ok n := by
    rintro fmt (rfl | rfl)
    · exact ⟨true, rfl⟩
    · exact ⟨false, rfl⟩
  refine ⟨fun h1 h2 => ?_, fun f h1 h2 => ?_, fun f h1 h2 => ?_, fun f h1 h2 => ?_, fun x b a k d hx hb ha hn hk hd he => ?_, fun f hl hp ho => ?_⟩
  · unfold convPadding tfMethod
    rw [if_neg h1, if_neg h2]
    rfl
  · unfold convPadding padFormat
    rw [if_neg h1, if_neg h2]
    rfl
  · obtain ⟨n, e⟩ := fm fmt h1
    unfold convPadding
    rw [Res.bind_ok, e, Res.bind_ok, if_neg (by omega)]
  · obtain ⟨n, e⟩ := fm fmt h1
    unfold convPadding
    rw [Res.bind_ok, e, Res.bind_ok]
    split
    · next hc =>
      obtain ⟨v1, e1⟩ := padok n pad hc.1
      obtain ⟨v2, e2⟩ := spok n dil hc.2.1
      obtain ⟨v3, e3⟩ := spok n str hc.2.2.1
      rw [e1, Res.bind_ok, e2, Res.bind_ok, e3, Res.bind_ok, if_neg]
      rintro ⟨a1, a2, a3, a4⟩
      rcases h2 with h | h | h | h
      · exact h a1
      · exact h a2
      · exact h a3
      · exact h a4
    · rfl
  · unfold tfConvSame
    rw [dilatedKernel_ok hk hd (by omega), Res.bind_ok, padded_ok hx hb ha hn, Res.bind_ok]
    rfl
  · obtain ⟨v1, e1⟩ := padok true pad hp
    unfold poolPadding
    rw [Res.bind_ok]
    show (Res.ok true >>= _) = _
    rw [Res.bind_ok, if_pos ⟨hp, fun _ => ho⟩, e1, Res.bind_ok]
    by_cases hk : ws.length < 4
    · rw [spub ws hk]; rfl
    · rw [spub xs (by omega)]
      have : ∀ l : List Int, spatial true l ≠ .err := by
        intro l
        unfold spatial at8
        rw [if_pos rfl, if_pos rfl]
        cases l[2]? <;> cases l[3]? <;> simp [Bind.bind, Res.bind]
      cases hw : spatial true ws with
      | err => exact absurd hw (this ws)
      | ub => rfl
      | ok v =>
        rw [Res.bind_ok]
        cases hs : spatial true str with
        | err => exact absurd hs (this str)
        | ub => rfl
        | ok u => rfl

/-- **C77** (not so: NHWC convolutions). The check of the channels compares the second extents in both layouts: an NHWC image is refused unless the kernel is as high as it -/
theorem C77_nhwc_false (f : PadConv) (pad dil str : List Int) (T : Nat) (n c o xh xw kh kw : Int) (hne : kh ≠ xh) :
    convPadding (.ok f) "NHWC" pad dil str T T [n, xh, xw, c] [o, kh, kw, c] = .err :=
  (C77_rejects (fun q => q) "" "NHWC" pad dil str T T [n, xh, xw, c] [o, kh, kw, c]).2.2.2.1 f (Or.inr rfl) (Or.inr (Or.inr (Or.inr (by simpa using hne))))

/-- **C77** (not so: kernels shorter than the stride). When nothing is needed, TensorFlow pads nothing and the first window starts at the first element; here half of what is too
much is cut off at the start, so with 6 elements, kernel 1 and stride 3 the windows are the elements 1 and 4 instead of 0 and 3 -/
theorem C77_shift_false : tfConvSame f32 6 0 0 1 3 1 = .ok (-1, -1) ∧ tfPoolSame f32 6 0 0 1 3 = .ok (-1, -1) ∧ onnxSameLower f32 6 0 0 1 3 = .ok (-1, -1) ∧
    dragonPoolSame f32 true 6 0 0 1 3 = .ok (0, -2) := by decide +kernel

/-- **C77** (not so: Dragon convolutions). Dilation is forgotten for what comes at the end: 5 elements with kernel 3 and dilation 2 give 3 outputs instead of 5; SAME_UPPER and
SAME_LOWER are exchanged, compared to the pooling -/
theorem C77_dragon_conv_false : dragonConvSame f32 true 5 0 0 3 1 2 = .ok (2, 0) ∧ convForward 5 2 0 3 1 2 = .ok 3 ∧ RoundUp 5 1 5 ∧
    dragonConvSame f32 true 4 0 0 2 1 1 = .ok (1, 0) ∧ dragonPoolSame f32 true 4 0 0 2 1 = .ok (0, 1) ∧
    dragonConvSame f32 false 4 0 0 2 1 1 = .ok (0, 1) ∧ dragonPoolSame f32 false 4 0 0 2 1 = .ok (1, 0) := by
  refine ⟨by decide +kernel, by decide +kernel, by unfold RoundUp; decide, by decide +kernel, by decide +kernel, by decide +kernel, by decide +kernel⟩

/-- **C77** (not so: other directions). It is enough that one of the paddings of batch and channels is zero, and one of their strides one: the others are dropped silently -/
theorem C77_other_false : convPadding (tfMethod f32 "VALID") "NCHW" [0, 7, 7, 7, 1, 1, 1, 1] [1, 9, 1, 1] [9, 1, 1, 1] 10 10 [1, 2, 4, 4] [3, 2, 3, 3] = .ok [0, 0, 0, 0, 1, 1, 1, 1] := by
  decide +kernel

/-- **C77** (not so: large inputs). 2^24 + 1 elements with stride 1 are counted as 2^24 -/
theorem C77_float_false : tfPoolSame f32 16777217 0 0 1 1 = .ok (0, -1) ∧ RoundUp 16777217 1 16777217 ∧ poolForward f32 16777217 0 (-1) 1 1 = .ok 16777216 := by
  refine ⟨by decide +kernel, by unfold RoundUp; decide, by decide +kernel⟩

end Verif.Props
