import Verif.Core.Shape
import Verif.Core.ShapeSpec
namespace Verif.Core
open Verif.Spec

/-- a list of naturals as `int`s -/
def ints (l : List Nat) : List Int := l.map Int.ofNat

@[simp] theorem ints_nil : ints [] = [] := rfl
@[simp] theorem ints_cons (a : Nat) (l : List Nat) : ints (a :: l) = (a : Int) :: ints l := rfl
@[simp] theorem ints_length (l : List Nat) : (ints l).length = l.length := by simp [ints]
theorem ints_append (a b : List Nat) : ints (a ++ b) = ints a ++ ints b := by simp [ints]
theorem ints_reverse (a : List Nat) : ints a.reverse = (ints a).reverse := by simp [ints]
theorem ints_inj {a b : List Nat} (h : ints a = ints b) : a = b := by
  induction a generalizing b with
  | nil => cases b <;> simp_all
  | cons x a ih => cases b with
    | nil => simp at h
    | cons y b =>
      simp only [ints_cons, List.cons.injEq] at h
      rw [ih h.2, Int.ofNat_inj.1 h.1]

/-- products of all suffixes -/
def wts : List Nat → List Nat
  | [] => []
  | s :: ss => prod (s :: ss) :: wts ss

/-- all suffix products are `int`s -/
def Fits : List Nat → Prop
  | [] => True
  | s :: ss => prod (s :: ss) ≤ 2147483647 ∧ Fits ss

theorem fits_of_pos {s : List Nat} (hp : ∀ x ∈ s, 0 < x) (h : prod s ≤ 2147483647) : Fits s := by
  induction s with
  | nil => trivial
  | cons a s ih =>
    refine ⟨h, ih (fun x hx => hp x (by simp [hx])) ?_⟩
    have : 1 * prod s ≤ a * prod s := Nat.mul_le_mul_right _ (hp a (by simp))
    simp only [prod] at h; omega

theorem i32_nat {n : Nat} (h : n ≤ 2147483647) : I32 (n : Int) := by unfold I32; omega

theorem wts_length (s : List Nat) : (wts s).length = s.length := by
  induction s with
  | nil => rfl
  | cons a s ih => simp [wts, ih]

theorem weights_ok {s : List Nat} (h : Fits s) : weights (ints s) = .ok (ints (wts s)) := by
  induction s with
  | nil => rfl
  | cons a s ih =>
    cases s with
    | nil => simp [weights, wts, prod]
    | cons b s =>
      have h2 := ih h.2
      simp only [ints_cons, weights] at h2 ⊢
      rw [h2]
      simp only [wts, ints_cons, Res.bind_ok, List.headD_cons]
      have : ((prod (b :: s) : Nat) : Int) * (a : Int) = ((prod (a :: b :: s) : Nat) : Int) := by
        rw [Int.mul_comm]; exact (Int.natCast_mul a (prod (b :: s))).symm
      rw [this, int32_ok (i32_nat h.1)]
      simp

theorem hypeCount_wts (s : List Nat) : hypeCount (ints (wts s)) = prod s := by
  cases s <;> simp [wts, hypeCount, prod]

/-- the loop computes `acc + lin` as long as the total stays an `int` -/
theorem toIndexLoop_ok {ss : List Nat} {c : List Nat} {s : Nat} {acc : Nat} (hc : InBounds (s :: ss) c)
    (hb : acc + lin (s :: ss) c ≤ 2147483647) :
    toIndexLoop acc (ints (wts ss)) (ints c) = .ok ((acc + lin (s :: ss) c : Nat) : Int) := by
  induction ss generalizing c s acc with
  | nil =>
    match c, hc with
    | [x], _ =>
      simp only [ints_cons, ints_nil, wts, toIndexLoop, lin, prod] at hb ⊢
      have : (acc : Int) + (x : Int) = ((acc + (x * 1 + 0) : Nat) : Int) := by omega
      rw [this, int32_ok (i32_nat hb)]
    | _ :: _ :: _, h => simp [InBounds] at h
  | cons t ss ih =>
    match c, hc with
    | [x], h => simp [InBounds] at h
    | x :: y :: c, h =>
      have e : lin (s :: t :: ss) (x :: y :: c) = x * prod (t :: ss) + lin (t :: ss) (y :: c) := rfl
      rw [e] at hb
      have hx : x * prod (t :: ss) ≤ 2147483647 := by omega
      simp only [ints_cons, wts, toIndexLoop]
      have e1 : ((prod (t :: ss) : Nat) : Int) * (x : Int) = ((x * prod (t :: ss) : Nat) : Int) := by
        rw [Int.mul_comm]; exact (Int.natCast_mul _ _).symm
      rw [e1, int32_ok (i32_nat hx)]
      simp only [Res.bind_ok]
      have e2 : (acc : Int) + ((x * prod (t :: ss) : Nat) : Int) = ((acc + x * prod (t :: ss) : Nat) : Int) := by
        omega
      rw [e2, int32_ok (i32_nat (by omega))]
      simp only [Res.bind_ok]
      rw [← ints_cons, ih h.2 (by omega), e]
      congr 1; omega

theorem toIndex_ok {s c : List Nat} (hc : InBounds s c) (hb : prod s ≤ 2147483647) :
    toIndex (ints (wts s)) (ints c) = .ok ((lin s c : Nat) : Int) := by
  cases s with
  | nil => cases c <;> simp_all [InBounds, toIndex, lin]
  | cons a s =>
    have hl := hc.length
    have := lin_lt hc
    match c, hc with
    | x :: c, hc =>
      unfold toIndex
      rw [if_neg (by simp), if_neg (by simp [wts_length]; simp at hl; omega)]
      have : (ints (wts (a :: s))).drop ((ints (wts (a :: s))).length + 1 - (ints (x :: c)).length) = ints (wts s) := by
        simp only [ints_length, wts_length, List.length_cons] at hl ⊢
        rw [show s.length + 1 + 1 - (c.length + 1) = 1 by omega]
        simp [wts]
      rw [this]
      have := toIndexLoop_ok (acc := 0) hc (by omega)
      simpa using this

theorem toCoordLoop_ok {ss : List Nat} {s i : Nat} (hi : i < prod (s :: ss)) (hb : prod (s :: ss) ≤ 2147483647) :
    toCoordLoop i (ints (wts ss)) = .ok (ints (unlin (s :: ss) i)) := by
  induction ss generalizing s i with
  | nil => simp [toCoordLoop, wts, unlin, prod]
  | cons t ss ih =>
    simp only [prod] at hi hb
    have hp : 0 < prod (t :: ss) := by
      simp only [prod]
      rcases Nat.eq_zero_or_pos (t * prod ss) with h0 | h0
      · simp [h0] at hi
      · exact h0
    have hs : 0 < s := by
      rcases Nat.eq_zero_or_pos s with h0 | h0
      · simp [h0] at hi
      · exact h0
    have hq : i / prod (t :: ss) ≤ i := Nat.div_le_self _ _
    simp only [wts, ints_cons, toCoordLoop, div32, mod32]
    rw [if_neg (by simp only [Int.natCast_eq_zero]; omega)]
    have e1 : ((i : Int)).tdiv ((prod (t :: ss) : Nat) : Int) = ((i / prod (t :: ss) : Nat) : Int) := by
      exact Int.ofNat_tdiv i (prod (t :: ss)) |>.symm
    have e2 : ((i : Int)).tmod ((prod (t :: ss) : Nat) : Int) = ((i % prod (t :: ss) : Nat) : Int) := by
      exact Int.ofNat_tmod i (prod (t :: ss)) |>.symm
    rw [e1, e2, int32_ok (i32_nat (by omega))]
    simp only [Res.bind_ok]
    rw [if_neg (by simp only [Int.natCast_eq_zero]; omega), if_pos (i32_nat (by omega))]
    simp only [Res.bind_ok]
    have : prod (t :: ss) ≤ s * prod (t :: ss) := Nat.le_mul_of_pos_left _ hs
    rw [ih (Nat.mod_lt _ hp) (by simp only [prod] at this ⊢; omega)]
    simp [unlin]

theorem toCoordinate_ok {s : List Nat} {i : Nat} (hi : i < prod s) (hb : prod s ≤ 2147483647) :
    toCoordinate (ints (wts s)) i = .ok (ints (unlin s i)) := by
  cases s with
  | nil => simp [toCoordinate, wts, unlin]
  | cons a s =>
    have := toCoordLoop_ok hi hb
    simpa [toCoordinate, wts] using this

/-! ## the iterator -/

/-- digits of `i`, last dimension first -/
def le : List Nat → Nat → List Nat
  | [], _ => []
  | s :: ss, i => i % s :: le ss (i / s)

theorem incRev_le {rs : List Nat} (hp : ∀ x ∈ rs, 0 < x) (i : Nat) :
    incRev (ints rs) (ints (le rs i)) = ints (le rs (i + 1)) := by
  induction rs generalizing i with
  | nil => simp [incRev, le]
  | cons s rs ih =>
    have hs : 0 < s := hp s (by simp)
    have hih := ih (fun x hx => hp x (by simp [hx]))
    simp only [le, ints_cons, incRev]
    have hd := Nat.div_add_mod i s
    have hlt := Nat.mod_lt i hs
    by_cases h : i % s + 1 = s
    · rw [if_pos (by omega), hih]
      have e : i + 1 = s * (i / s + 1) := by rw [Nat.mul_add]; omega
      have e1 : (i + 1) % s = 0 := by rw [e]; simp
      have e2 : (i + 1) / s = i / s + 1 := by rw [e]; exact Nat.mul_div_cancel_left _ hs
      rw [e1, e2]; simp
    · rw [if_neg (by omega)]
      have e : i + 1 = (i % s + 1) + s * (i / s) := by omega
      have e1 : (i + 1) % s = i % s + 1 := by
        rw [e, Nat.add_mul_mod_self_left, Nat.mod_eq_of_lt (by omega)]
      have e2 : (i + 1) / s = i / s := by
        rw [e, Nat.add_mul_div_left _ _ hs, Nat.div_eq_of_lt (by omega)]; simp
      rw [e1, e2]; simp

theorem decRev_le {rs : List Nat} (hp : ∀ x ∈ rs, 0 < x) (i : Nat) :
    decRev (ints rs) (ints (le rs (i + 1))) = ints (le rs i) := by
  induction rs generalizing i with
  | nil => simp [decRev, le]
  | cons s rs ih =>
    have hs : 0 < s := hp s (by simp)
    have hih := ih (fun x hx => hp x (by simp [hx]))
    simp only [le, ints_cons, decRev]
    have hd := Nat.div_add_mod i s
    have hlt := Nat.mod_lt i hs
    by_cases h : i % s + 1 = s
    · have e : i + 1 = s * (i / s + 1) := by rw [Nat.mul_add]; omega
      have e1 : (i + 1) % s = 0 := by rw [e]; simp
      have e2 : (i + 1) / s = i / s + 1 := by rw [e]; exact Nat.mul_div_cancel_left _ hs
      rw [e1, e2, if_pos (by omega), hih]
      congr 1; omega
    · have e : i + 1 = (i % s + 1) + s * (i / s) := by omega
      have e1 : (i + 1) % s = i % s + 1 := by
        rw [e, Nat.add_mul_mod_self_left, Nat.mod_eq_of_lt (by omega)]
      have e2 : (i + 1) / s = i / s := by
        rw [e, Nat.add_mul_div_left _ _ hs, Nat.div_eq_of_lt (by omega)]; simp
      rw [e1, e2, if_neg (by omega)]
      congr 1; omega

theorem unlin_snoc (ss : List Nat) (s i : Nat) (hi : i < prod (ss ++ [s])) :
    unlin (ss ++ [s]) i = unlin ss (i / s) ++ [i % s] := by
  induction ss generalizing i with
  | nil =>
    simp [prod] at hi
    simp [unlin, prod, Nat.mod_eq_of_lt hi]
  | cons a ss ih =>
    have e : prod (ss ++ [s]) = s * prod ss := by simp [prod_append, prod, Nat.mul_comm]
    simp only [List.cons_append, unlin, prod, e] at hi ⊢
    have hp : 0 < s * prod ss := by
      rcases Nat.eq_zero_or_pos (s * prod ss) with h0 | h0
      · simp [h0] at hi
      · exact h0
    rw [ih _ (by rw [e]; exact Nat.mod_lt _ hp), Nat.mod_mul_right_div_self, Nat.div_div_eq_div_mul,
      Nat.mod_mul_right_mod]

theorem unlin_eq_le {ss : List Nat} {i : Nat} (hi : i < prod ss) : unlin ss i = (le ss.reverse i).reverse := by
  suffices h : ∀ rs : List Nat, ∀ i, i < prod rs.reverse → unlin rs.reverse i = (le rs i).reverse by
    have := h ss.reverse i (by simpa using hi)
    simpa using this
  intro rs
  induction rs with
  | nil => intro i _; simp [unlin, le]
  | cons s rs ih =>
    intro i hi
    simp only [List.reverse_cons] at hi ⊢
    rw [unlin_snoc _ _ _ hi]
    have hs : 0 < s := by
      rcases Nat.eq_zero_or_pos s with h0 | h0
      · simp [h0, prod_append, prod] at hi
      · exact h0
    simp only [prod_append, prod, Nat.mul_one] at hi
    rw [ih _ ((Nat.div_lt_iff_lt_mul hs).2 hi)]
    simp [le]

theorem le_mod (rs : List Nat) (hp : ∀ x ∈ rs, 0 < x) (i : Nat) : le rs (i % prod rs) = le rs i := by
  induction rs generalizing i with
  | nil => rfl
  | cons s rs ih =>
    simp only [le, prod]
    rw [Nat.mod_mul_right_mod, Nat.mod_mul_right_div_self, ih (fun x hx => hp x (by simp [hx]))]

theorem prod_reverse (s : List Nat) : prod s.reverse = prod s := by
  induction s with
  | nil => rfl
  | cons a s ih => simp [prod_append, prod, ih, Nat.mul_comm]

theorem le_zero (rs : List Nat) : le rs 0 = List.replicate rs.length 0 := by
  induction rs with
  | nil => rfl
  | cons a rs ih => simp [le, ih, List.replicate_succ]

/-- the digits are the coordinate of `i` modulo the number of elements -/
theorem le_unlin {s : List Nat} (hp : ∀ x ∈ s, 0 < x) (i : Nat) :
    (le s.reverse i).reverse = unlin s (i % prod s) := by
  rw [unlin_eq_le (Nat.mod_lt _ (prod_pos hp)), ← prod_reverse s, le_mod _ (by simpa using hp)]

theorem increase_unlin {s : List Nat} (hp : ∀ x ∈ s, 0 < x) (i : Nat) :
    increase (ints s) (ints (unlin s (i % prod s))) = ints (unlin s ((i + 1) % prod s)) := by
  rw [← le_unlin hp, ← le_unlin hp, increase, ← ints_reverse, ← ints_reverse, List.reverse_reverse,
    incRev_le (by simpa using hp), ints_reverse]

theorem decrease_unlin {s : List Nat} (hp : ∀ x ∈ s, 0 < x) (i : Nat) :
    decrease (ints s) (ints (unlin s ((i + 1) % prod s))) = ints (unlin s (i % prod s)) := by
  rw [← le_unlin hp, ← le_unlin hp, decrease, ← ints_reverse, ← ints_reverse, List.reverse_reverse,
    decRev_le (by simpa using hp), ints_reverse]

theorem iterStart_unlin {s : List Nat} (hp : ∀ x ∈ s, 0 < x) : iterStart (ints s) = ints (unlin s (0 % prod s)) := by
  rw [← le_unlin hp, le_zero]
  simp [iterStart, ints]

end Verif.Core
