import Verif.Core.Sink
import Mathlib.Data.Rat.Floor
import Mathlib.Tactic.Positivity
import Mathlib.Tactic.Linarith
import Mathlib.Tactic.FieldSimp
import Mathlib.Tactic.Ring
/-!
# C33: fixed-point numbers
-/
namespace Verif.Props
open Verif.Core

/-- the rational a `w`-bit code with `q` fraction bits stands for: two's complement over `2^q` -/
def fixedVal (w q : Nat) (v : Nat) : ℚ := ((if v < 2 ^ (w - 1) then (v : ℤ) else (v : ℤ) - 2 ^ w : ℤ) : ℚ) / 2 ^ q

/-- representable: a multiple of `2^-q` between the extremes -/
def InRange (w q : Nat) (r : ℚ) : Prop := -2 ^ (w - 1) ≤ r * 2 ^ q ∧ r * 2 ^ q < 2 ^ (w - 1)

example : fixedVal 8 4 0xF8 = -1 / 2 := by norm_num [fixedVal]

theorem fixedVal_eq (w q v : Nat) : fixedVal w q v = (Sink.toSigned w v : ℚ) / 2 ^ q := rfl

theorem two_pow_pred (w : Nat) (h : 0 < w) : (2 : ℤ) ^ w = 2 * 2 ^ (w - 1) := by
  rw [← pow_succ']; congr 1; omega

/-- codes are recovered from the signed reading, if it is in range -/
theorem toSigned_wrap (w : Nat) (hw : 0 < w) (x : ℤ) (h1 : -2 ^ (w - 1) ≤ x) (h2 : x < 2 ^ (w - 1)) :
    Sink.toSigned w (Sink.wrap w x) = x ∧ Sink.wrap w x < 2 ^ w := by
  have hp : (0 : ℤ) < 2 ^ w := by positivity
  have h2w := two_pow_pred w hw
  have h0 := Int.emod_nonneg x hp.ne'
  have hl := Int.emod_lt_of_pos x hp
  have hn : ((Sink.wrap w x : ℕ) : ℤ) = x % 2 ^ w := by unfold Sink.wrap; omega
  have hc : ((2 ^ (w - 1) : ℕ) : ℤ) = 2 ^ (w - 1) := by push_cast; rfl
  have hc' : ((2 ^ w : ℕ) : ℤ) = 2 ^ w := by push_cast; rfl
  refine ⟨?_, by omega⟩
  unfold Sink.toSigned
  by_cases hx : 0 ≤ x
  · have : x % 2 ^ w = x := Int.emod_eq_of_lt hx (by omega)
    rw [if_pos (by omega)]; omega
  · have : x % 2 ^ w = x + 2 ^ w := by
      rw [← Int.add_emod_right, Int.emod_eq_of_lt (by omega) (by omega)]
    rw [if_neg (by omega)]; omega

theorem wrap_congr (w : Nat) (x y : ℤ) (k : ℤ) (h : x = y + k * 2 ^ w) : Sink.wrap w x = Sink.wrap w y := by
  unfold Sink.wrap; rw [h, Int.add_mul_emod_self_right]

/-- the widened code differs from the signed reading by a multiple of `2^w` -/
theorem widen_signed (w v : Nat) : ∃ k : ℤ, Sink.widen w v = Sink.toSigned w v + k * 2 ^ w := by
  unfold Sink.widen
  split
  · next h => subst h; exact ⟨0, by ring⟩
  · unfold Sink.toSigned
    split
    · exact ⟨0, by ring⟩
    · exact ⟨1, by ring⟩

theorem toSigned_range (w : Nat) (hw : 0 < w) (v : Nat) (hv : v < 2 ^ w) :
    -2 ^ (w - 1) ≤ Sink.toSigned w v ∧ Sink.toSigned w v < 2 ^ (w - 1) := by
  have h2w := two_pow_pred w hw
  have hc : ((2 ^ (w - 1) : ℕ) : ℤ) = 2 ^ (w - 1) := by push_cast; rfl
  have hc' : ((2 ^ w : ℕ) : ℤ) = 2 ^ w := by push_cast; rfl
  unfold Sink.toSigned
  split <;> constructor <;> omega

/-- additions and subtractions of widened codes never overflow unless the signed result does (64 bits) -/
theorem widen_bound {w : Nat} (hw : Sink.Width w) {a b : Nat} (ha : a < 2 ^ w) (hb : b < 2 ^ w) :
    (w = 64 ∧ Sink.widen w a = Sink.toSigned w a ∧ Sink.widen w b = Sink.toSigned w b ∧ Sink.arith w = 64) ∨
    (-(2 ^ w) < Sink.widen w a - Sink.widen w b ∧ Sink.widen w a - Sink.widen w b < 2 ^ w ∧
      0 ≤ Sink.widen w a + Sink.widen w b ∧ Sink.widen w a + Sink.widen w b < 2 * 2 ^ w ∧ (2 : ℤ) * 2 ^ w ≤ 2 ^ (Sink.arith w - 1)) := by
  by_cases h : w = 64
  · left; subst h
    exact ⟨rfl, rfl, rfl, rfl⟩
  · right
    have hc' : ((2 ^ w : ℕ) : ℤ) = 2 ^ w := by push_cast; rfl
    unfold Sink.widen
    rw [if_neg h, if_neg h]
    refine ⟨by omega, by omega, by omega, by omega, ?_⟩
    rcases hw with rfl | rfl | rfl | rfl
    · norm_num [Sink.arith]
    · norm_num [Sink.arith]
    · norm_num [Sink.arith]
    · omega

theorem inRange_int {w q : Nat} {x : ℤ} (h : InRange w q ((x : ℚ) / 2 ^ q)) : -2 ^ (w - 1) ≤ x ∧ x < 2 ^ (w - 1) := by
  unfold InRange at h
  rw [div_mul_cancel₀ _ (by positivity)] at h
  constructor
  · have := h.1; exact_mod_cast this
  · have := h.2; exact_mod_cast this

/-- **C33 (addition, subtraction, negation)** For all widths and fraction sizes, whenever the exact sum (difference, negative)
is representable, the operator returns the number equal to it. -/
theorem C33_add (w q : Nat) (hw : Sink.Width w) (a b : Nat) (ha : a < 2 ^ w) (hb : b < 2 ^ w) :
    (InRange w q (fixedVal w q a + fixedVal w q b) →
      ∃ c, Sink.add w a b = .ok c ∧ c < 2 ^ w ∧ fixedVal w q c = fixedVal w q a + fixedVal w q b) ∧
    (InRange w q (fixedVal w q a - fixedVal w q b) →
      ∃ c, Sink.sub w a b = .ok c ∧ c < 2 ^ w ∧ fixedVal w q c = fixedVal w q a - fixedVal w q b) ∧
    (InRange w q (-fixedVal w q a) → Sink.neg w a < 2 ^ w ∧ fixedVal w q (Sink.neg w a) = -fixedVal w q a) := by
  have hw0 : 0 < w := by rcases hw with rfl | rfl | rfl | rfl <;> omega
  simp only [fixedVal_eq]
  obtain ⟨ka, hka⟩ := widen_signed w a
  obtain ⟨kb, hkb⟩ := widen_signed w b
  have hbd := widen_bound hw ha hb
  refine ⟨?_, ?_, ?_⟩
  · rw [← add_div, ← Int.cast_add]
    intro h
    have hr := inRange_int h
    obtain ⟨hs, hl⟩ := toSigned_wrap w hw0 _ hr.1 hr.2
    have hck : Sink.checked (Sink.arith w) (Sink.widen w a + Sink.widen w b) = .ok (Sink.widen w a + Sink.widen w b) := by
      unfold Sink.checked
      rw [if_pos]
      rcases hbd with ⟨rfl, e1, e2, e3⟩ | ⟨h1, h2, h3, h4, h5⟩
      · rw [e1, e2, e3]; exact hr
      · constructor
        · have : (0 : ℤ) < 2 ^ (Sink.arith w - 1) := by positivity
          omega
        · omega
    have he : Sink.wrap w (Sink.widen w a + Sink.widen w b) = Sink.wrap w (Sink.toSigned w a + Sink.toSigned w b) :=
      wrap_congr w _ _ (ka + kb) (by rw [hka, hkb]; ring)
    refine ⟨_, by unfold Sink.add; rw [hck]; rfl, by rw [he]; exact hl, by rw [he, hs]⟩
  · rw [← sub_div, ← Int.cast_sub]
    intro h
    have hr := inRange_int h
    obtain ⟨hs, hl⟩ := toSigned_wrap w hw0 _ hr.1 hr.2
    have hck : Sink.checked (Sink.arith w) (Sink.widen w a - Sink.widen w b) = .ok (Sink.widen w a - Sink.widen w b) := by
      unfold Sink.checked
      rw [if_pos]
      rcases hbd with ⟨rfl, e1, e2, e3⟩ | ⟨h1, h2, h3, h4, h5⟩
      · rw [e1, e2, e3]; exact hr
      · have : (0 : ℤ) < 2 ^ w := by positivity
        constructor <;> omega
    have he : Sink.wrap w (Sink.widen w a - Sink.widen w b) = Sink.wrap w (Sink.toSigned w a - Sink.toSigned w b) :=
      wrap_congr w _ _ (ka - kb) (by rw [hka, hkb]; ring)
    refine ⟨_, by unfold Sink.sub; rw [hck]; rfl, by rw [he]; exact hl, by rw [he, hs]⟩
  · rw [← neg_div, ← Int.cast_neg]
    intro h
    have hr := inRange_int h
    obtain ⟨hs, hl⟩ := toSigned_wrap w hw0 _ hr.1 hr.2
    have he : Sink.neg w a = Sink.wrap w (-Sink.toSigned w a) := by
      unfold Sink.neg Sink.toSigned
      split
      · rfl
      · exact wrap_congr w _ _ (-1) (by ring)
    rw [he, hs]
    exact ⟨hl, rfl⟩

/-- 0.75 + (-1.25) = -0.5 in sink8<4> -/
example : InRange 8 4 (fixedVal 8 4 12 + fixedVal 8 4 236) ∧ Sink.add 8 12 236 = .ok 248 := by
  constructor
  · norm_num [InRange, fixedVal]
  · decide

/-- **C33 (order, same sign)** The comparisons are the comparisons of the rationals, for two non-negative or two negative
numbers. -/
theorem C33_order_partial (w q : Nat) (a b : Nat)
    (hs : (0 ≤ fixedVal w q a ∧ 0 ≤ fixedVal w q b) ∨ (fixedVal w q a < 0 ∧ fixedVal w q b < 0)) (ha : a < 2 ^ w) (hb : b < 2 ^ w) :
    (Sink.lt a b = true ↔ fixedVal w q a < fixedVal w q b) ∧ (Sink.le a b = true ↔ fixedVal w q a ≤ fixedVal w q b) ∧
    (Sink.eq a b = true ↔ fixedVal w q a = fixedVal w q b) := by
  simp only [fixedVal_eq] at *
  have hp : (0 : ℚ) < 2 ^ q := by positivity
  have hc' : ((2 ^ w : ℕ) : ℤ) = 2 ^ w := by push_cast; rfl
  have s0 : ∀ x : ℤ, (0 : ℚ) ≤ (x : ℚ) / 2 ^ q ↔ 0 ≤ x := fun x => by
    rw [le_div_iff₀ hp, zero_mul]; exact_mod_cast Iff.rfl
  have s1 : ∀ x : ℤ, (x : ℚ) / 2 ^ q < 0 ↔ x < 0 := fun x => by
    rw [div_lt_iff₀ hp, zero_mul]; exact_mod_cast Iff.rfl
  rw [s0, s0, s1, s1] at hs
  rw [div_lt_div_iff_of_pos_right hp, div_le_div_iff_of_pos_right hp, div_left_inj' hp.ne', Int.cast_lt, Int.cast_le, Int.cast_inj]
  unfold Sink.lt Sink.le Sink.eq
  simp only [decide_eq_true_eq, beq_iff_eq]
  have key : (Sink.toSigned w a = a ∧ Sink.toSigned w b = b) ∨ (Sink.toSigned w a = (a : ℤ) - 2 ^ w ∧ Sink.toSigned w b = (b : ℤ) - 2 ^ w) := by
    unfold Sink.toSigned at hs ⊢
    split at hs <;> split at hs <;> omega
  rcases key with ⟨e1, e2⟩ | ⟨e1, e2⟩ <;> rw [e1, e2] <;> omega

example : fixedVal 8 4 240 < 0 ∧ fixedVal 8 4 248 < 0 ∧ Sink.lt 240 248 = true := by
  refine ⟨?_, ?_, by decide⟩ <;> norm_num [fixedVal]

/-- **C33, negation (order)** Every negative number compares greater than every non-negative one. -/
theorem C33_order_false (w q : Nat) (a b : Nat) (ha : fixedVal w q a < 0) (hb : 0 ≤ fixedVal w q b) (hbw : b < 2 ^ w) :
    Sink.lt b a = true ∧ Sink.lt a b = false := by
  simp only [fixedVal_eq] at *
  have hp : (0 : ℚ) < 2 ^ q := by positivity
  have hc' : ((2 ^ w : ℕ) : ℤ) = 2 ^ w := by push_cast; rfl
  rw [le_div_iff₀ hp, zero_mul] at hb
  rw [div_lt_iff₀ hp, zero_mul] at ha
  have ha : Sink.toSigned w a < 0 := by exact_mod_cast ha
  have hb : 0 ≤ Sink.toSigned w b := by exact_mod_cast hb
  unfold Sink.toSigned at ha hb
  unfold Sink.lt
  split at ha
  · omega
  · split at hb
    · simp; omega
    · omega

/-- -1 > 1 in sink8<4> -/
example : fixedVal 8 4 240 = -1 ∧ fixedVal 8 4 16 = 1 ∧ Sink.lt 16 240 = true := by
  refine ⟨?_, ?_, by decide⟩ <;> norm_num [fixedVal]

/-- **C33 (multiplication, non-negative)** For 8, 16 and 32 bits the product of two non-negative numbers is cut off to a
multiple of `2^-q` whenever that is representable. -/
theorem C33_mul_partial (w q : Nat) (hw : Sink.Width w) (h64 : w ≠ 64) (a b : Nat) (ha : a < 2 ^ (w - 1)) (hb : b < 2 ^ (w - 1))
    (hr : fixedVal w q a * fixedVal w q b * 2 ^ q < 2 ^ (w - 1)) :
    ∃ c, Sink.mul w q a b = .ok c ∧ c < 2 ^ w ∧ fixedVal w q c ≤ fixedVal w q a * fixedVal w q b ∧
      fixedVal w q a * fixedVal w q b < fixedVal w q c + 1 / 2 ^ q := by
  have hw0 : 0 < w := by rcases hw with rfl | rfl | rfl | rfl <;> omega
  have hp : (0 : ℚ) < 2 ^ q := by positivity
  have hpz : (0 : ℤ) < 2 ^ q := by positivity
  simp only [fixedVal_eq] at *
  have ea : Sink.toSigned w a = a := by unfold Sink.toSigned; rw [if_pos ha]
  have eb : Sink.toSigned w b = b := by unfold Sink.toSigned; rw [if_pos hb]
  rw [ea, eb] at hr ⊢
  have wa : Sink.widen w a = a := by unfold Sink.widen; rw [if_neg h64]
  have wb : Sink.widen w b = b := by unfold Sink.widen; rw [if_neg h64]
  have hab : (a : ℤ) * b < 2 ^ (Sink.arith w - 1) := by
    have h1 : a * b < 2 ^ (w - 1) * 2 ^ (w - 1) := Nat.mul_lt_mul'' ha hb
    have h2 : ((a * b : ℕ) : ℤ) < ((2 ^ (w - 1) * 2 ^ (w - 1) : ℕ) : ℤ) := by exact_mod_cast h1
    push_cast at h2
    refine lt_of_lt_of_le h2 ?_
    rcases hw with rfl | rfl | rfl | rfl
    · norm_num [Sink.arith]
    · norm_num [Sink.arith]
    · norm_num [Sink.arith]
    · omega
  have hck : Sink.checked (Sink.arith w) ((a : ℤ) * b) = .ok ((a : ℤ) * b) := by
    unfold Sink.checked
    rw [if_pos]
    refine ⟨?_, hab⟩
    have : (0 : ℤ) < 2 ^ (Sink.arith w - 1) := by positivity
    have : (0 : ℤ) ≤ (a : ℤ) * b := by positivity
    omega
  have hd1 : ((a : ℤ) * b) / 2 ^ q * 2 ^ q ≤ (a : ℤ) * b := Int.ediv_mul_le _ hpz.ne'
  have hd2 : (a : ℤ) * b < (((a : ℤ) * b) / 2 ^ q + 1) * 2 ^ q := by
    exact Int.lt_ediv_add_one_mul_self _ hpz
  have d1 : ((((a : ℤ) * b) / 2 ^ q : ℤ) : ℚ) * 2 ^ q ≤ (a : ℚ) * b := by exact_mod_cast hd1
  have d2 : (a : ℚ) * b < ((((a : ℤ) * b) / 2 ^ q : ℤ) : ℚ) * 2 ^ q + 2 ^ q := by
    rw [add_mul, one_mul] at hd2
    exact_mod_cast hd2
  have hx0 : 0 ≤ ((a : ℤ) * b) / 2 ^ q := Int.ediv_nonneg (by positivity) hpz.le
  have hx1 : ((a : ℤ) * b) / 2 ^ q < 2 ^ (w - 1) := by
    have h1 : (a : ℚ) * b / 2 ^ q < 2 ^ (w - 1) := by
      have : (((a : ℤ) : ℚ) / 2 ^ q) * (((b : ℤ) : ℚ) / 2 ^ q) * 2 ^ q = (a : ℚ) * b / 2 ^ q := by
        push_cast; field_simp
      rwa [this] at hr
    have h2 : ((((a : ℤ) * b) / 2 ^ q : ℤ) : ℚ) < 2 ^ (w - 1) := by
      refine lt_of_le_of_lt ?_ h1
      rw [le_div_iff₀ hp]; exact d1
    exact_mod_cast h2
  have hpw : (0 : ℤ) < 2 ^ (w - 1) := by positivity
  obtain ⟨hs, hl⟩ := toSigned_wrap w hw0 (((a : ℤ) * b) / 2 ^ q) (by omega) hx1
  refine ⟨_, by unfold Sink.mul; rw [wa, wb, hck]; rfl, hl, ?_, ?_⟩
  · rw [hs]
    push_cast
    rw [div_mul_div_comm, div_le_div_iff₀ hp (by positivity)]
    have := mul_le_mul_of_nonneg_right d1 hp.le
    push_cast at this
    linarith
  · rw [hs]
    push_cast
    rw [div_mul_div_comm, ← add_div, div_lt_div_iff₀ (by positivity) hp]
    have := mul_lt_mul_of_pos_right d2 hp
    push_cast at this
    linarith

/-- 1.5 * 2.5 = 3.75 in sink8<4> -/
example : Sink.mul 8 4 24 40 = .ok 60 := by decide

/-- **C33, negation (multiplication)** -0.5 * 0.5 is 7.75 in `sink8<4>`; -1 * -1 overflows in `sink16<8>`, and so does 1 * 1 in
`sink64<32>`. -/
theorem C33_mul_false : (fixedVal 8 4 248 = -1 / 2 ∧ fixedVal 8 4 8 = 1 / 2 ∧ Sink.mul 8 4 248 8 = .ok 124 ∧ fixedVal 8 4 124 = 31 / 4) ∧
    (fixedVal 16 8 0xff00 = -1 ∧ Sink.mul 16 8 0xff00 0xff00 = .ub) ∧
    (fixedVal 64 32 (2 ^ 32) = 1 ∧ Sink.mul 64 32 (2 ^ 32) (2 ^ 32) = .ub) := by
  refine ⟨⟨?_, ?_, by decide, ?_⟩, ⟨?_, by decide⟩, ⟨?_, by decide⟩⟩ <;> norm_num [fixedVal]

/-- **C33 (integers)** An integer whose value is representable converts to exactly that value and back to itself. -/
theorem C33_integer_round_trip (w q : Nat) (hw : Sink.Width w) (v : ℤ) (h : InRange w q v) :
    ∃ c, Sink.ofInt w q v = .ok c ∧ c < 2 ^ w ∧ fixedVal w q c = v ∧ Sink.toInt w q c = v := by
  have hw0 : 0 < w := by rcases hw with rfl | rfl | rfl | rfl <;> omega
  have hpz : (0 : ℤ) < 2 ^ q := by positivity
  have hr : -2 ^ (w - 1) ≤ v * 2 ^ q ∧ v * 2 ^ q < 2 ^ (w - 1) := by
    unfold InRange at h
    constructor
    · have := h.1; exact_mod_cast this
    · have := h.2; exact_mod_cast this
  obtain ⟨hs, hl⟩ := toSigned_wrap w hw0 _ hr.1 hr.2
  have hck : Sink.checked 64 (v * 2 ^ q) = .ok (v * 2 ^ q) := by
    unfold Sink.checked
    rw [if_pos]
    have h64 : (2 : ℤ) ^ (w - 1) ≤ 2 ^ (64 - 1) := pow_le_pow_right₀ (by norm_num) (by
      rcases hw with rfl | rfl | rfl | rfl <;> omega)
    constructor <;> omega
  refine ⟨Sink.wrap w (v * 2 ^ q), ?_, hl, ?_, ?_⟩
  · unfold Sink.ofInt
    rw [hck, Res.bind_ok, hs]
  · rw [fixedVal_eq, hs]
    push_cast
    field_simp
  · unfold Sink.toInt
    rw [hs, Int.mul_ediv_cancel _ hpz.ne']

example : InRange 8 4 ((-3 : ℤ) : ℚ) ∧ Sink.ofInt 8 4 (-3) = .ok 208 ∧ Sink.toInt 8 4 208 = -3 := by
  refine ⟨?_, by decide, by decide⟩
  norm_num [InRange]

end Verif.Props
