import Verif.Core.Reshape
import Verif.Core.ShapeLemmas
namespace Verif.Core
open Verif.Spec

/-- every prefix product is an `int` -/
def NoOverflow (l : List Nat) : Prop := ∀ n, prod (l.take n) ≤ 2147483647

def PFits : Nat → List Nat → Prop
  | _, [] => True
  | acc, x :: xs => acc * x ≤ 2147483647 ∧ PFits (acc * x) xs

theorem pfits_of (acc : Nat) (l : List Nat) (h : ∀ n, acc * prod (l.take n) ≤ 2147483647) : PFits acc l := by
  induction l generalizing acc with
  | nil => trivial
  | cons x l ih =>
    refine ⟨by simpa [prod] using h 1, ih _ ?_⟩
    intro n
    have := h (n + 1)
    simpa [prod, Nat.mul_assoc] using this

theorem NoOverflow.pfits {l : List Nat} (h : NoOverflow l) : PFits 1 l :=
  pfits_of 1 l (by intro n; simpa using h n)

theorem prod_take_le {l : List Nat} (hp : ∀ x ∈ l, 0 < x) (n : Nat) : prod (l.take n) ≤ prod l := by
  conv => rhs; rw [← List.take_append_drop n l]
  rw [prod_append]
  exact Nat.le_mul_of_pos_right _ (prod_pos fun x hx => hp x (List.mem_of_mem_drop hx))

theorem noOverflow_of_pos {l : List Nat} (hp : ∀ x ∈ l, 0 < x) (h : prod l ≤ 2147483647) : NoOverflow l :=
  fun n => Nat.le_trans (prod_take_le hp n) h

theorem prod32_ok {acc : Nat} {l : List Nat} (h : PFits acc l) :
    prod32 acc (ints l) = .ok ((acc * prod l : Nat) : Int) := by
  induction l generalizing acc with
  | nil => simp [prod32, prod]
  | cons x l ih =>
    simp only [ints_cons, prod32]
    rw [show (acc : Int) * (x : Int) = ((acc * x : Nat) : Int) from (Int.natCast_mul _ _).symm,
      int32_ok (i32_nat h.1)]
    simp only [Res.bind_ok]
    rw [ih h.2]; simp only [prod, Nat.mul_assoc]

theorem prod32_neg {acc : Nat} {l : List Nat} (h : PFits acc l) :
    prod32 (-(acc : Int)) (ints l) = .ok (-((acc * prod l : Nat) : Int)) := by
  induction l generalizing acc with
  | nil => simp [prod32, prod]
  | cons x l ih =>
    simp only [ints_cons, prod32]
    rw [show -(acc : Int) * (x : Int) = -((acc * x : Nat) : Int) by rw [Int.natCast_mul, Int.neg_mul]]
    have h1 := h.1
    rw [int32_ok (by unfold I32; omega)]
    simp only [Res.bind_ok]
    rw [ih h.2]; simp only [prod, Nat.mul_assoc]

theorem prod32_append (acc : Int) (a b : List Int) :
    prod32 acc (a ++ b) = prod32 acc a >>= fun p => prod32 p b := by
  induction a generalizing acc with
  | nil => simp [prod32]
  | cons x a ih =>
    simp only [List.cons_append, prod32]
    cases int32 (acc * x) with
    | ok p => simp [ih]
    | err => rfl
    | ub => rfl

theorem pfits_append {acc : Nat} {a b : List Nat} (h : PFits acc (a ++ b)) :
    PFits acc a ∧ PFits (acc * prod a) b := by
  induction a generalizing acc with
  | nil => exact ⟨trivial, by simpa [prod] using h⟩
  | cons x a ih =>
    have := ih h.2
    exact ⟨⟨h.1, this.1⟩, by simpa [prod, Nat.mul_assoc] using this.2⟩

theorem scanNeg_nat (i : Nat) (k : Option Nat) (r : List Nat) : scanNeg i k (ints r) = .ok (ints r, k) := by
  induction r generalizing i with
  | nil => rfl
  | cons x r ih =>
    simp only [ints_cons, scanNeg]
    rw [if_neg (by omega), ih]; rfl

theorem scanNeg_one (i : Nat) (a : List Nat) (x : Int) (hx : x < 0) (b : List Nat) :
    scanNeg i none (ints a ++ x :: ints b) = .ok (ints a ++ -1 :: ints b, some (i + a.length)) := by
  induction a generalizing i with
  | nil => simp [scanNeg, hx, scanNeg_nat]
  | cons y a ih =>
    simp only [ints_cons, List.cons_append, scanNeg]
    rw [if_neg (by omega), ih]
    simp; omega

theorem scanNeg_some_err (i j : Nat) (l : List Int) (h : ∃ x ∈ l, x < 0) : scanNeg i (some j) l = .err := by
  induction l generalizing i with
  | nil => simp at h
  | cons y l ih =>
    unfold scanNeg
    by_cases hy : y < 0
    · simp [hy]
    · rw [if_neg hy, ih _ (by obtain ⟨x, hx, hn⟩ := h; simp at hx; rcases hx with rfl | hx
                              · exact absurd hn hy
                              · exact ⟨x, hx, hn⟩)]
      rfl

theorem scanNeg_two (i : Nat) (a : List Nat) (x : Int) (hx : x < 0) (l : List Int) (h : ∃ y ∈ l, y < 0) :
    scanNeg i none (ints a ++ x :: l) = .err := by
  induction a generalizing i with
  | nil => simp [scanNeg, hx, scanNeg_some_err _ _ _ h]
  | cons y a ih =>
    simp only [ints_cons, List.cons_append, scanNeg]
    rw [if_neg (by omega), ih]; rfl

theorem nat_or_split (req : List Int) :
    (∃ r, req = ints r) ∨ (∃ a x l, x < 0 ∧ req = ints a ++ x :: l) := by
  induction req with
  | nil => exact .inl ⟨[], rfl⟩
  | cons y req ih =>
    by_cases hy : y < 0
    · exact .inr ⟨[], y, req, hy, rfl⟩
    · obtain ⟨n, rfl⟩ := Int.eq_ofNat_of_zero_le (Int.not_lt.1 hy)
      rcases ih with ⟨r, rfl⟩ | ⟨a, x, l, hx, rfl⟩
      · exact .inl ⟨n :: r, rfl⟩
      · exact .inr ⟨n :: a, x, l, hx, rfl⟩

theorem classify (req : List Int) :
    (∃ r, req = ints r) ∨ (∃ a x b, x < 0 ∧ req = ints a ++ x :: ints b) ∨
    (∃ a x l, x < 0 ∧ req = ints a ++ x :: l ∧ ∃ y ∈ l, y < 0) := by
  rcases nat_or_split req with h | ⟨a, x, l, hx, rfl⟩
  · exact .inl h
  · rcases nat_or_split l with ⟨r, rfl⟩ | ⟨b, y, l', hy, rfl⟩
    · exact .inr (.inl ⟨a, x, r, hx, rfl⟩)
    · exact .inr (.inr ⟨a, x, _, hx, rfl, y, by simp, hy⟩)

theorem reshapeShape_nat {sizes r : List Nat} (hs : NoOverflow sizes) (hr : NoOverflow r) :
    reshapeShape (ints sizes) (ints r) = if prod r = prod sizes then .ok (ints r) else .err := by
  unfold reshapeShape
  rw [scanNeg_nat]
  simp only [Res.bind_ok]
  have e1 := prod32_ok hr.pfits
  have e2 := prod32_ok hs.pfits
  simp only [Int.natCast_one] at e1 e2
  rw [e1, e2]
  simp only [Res.bind_ok, Nat.one_mul]
  by_cases h : prod r = prod sizes
  · rw [if_neg (by simp [h]), if_pos h]
  · rw [if_pos (by omega), if_neg h]

theorem set_append_mid (a : List Int) (x y : Int) (b : List Int) :
    (a ++ x :: b).set a.length y = a ++ y :: b := by
  induction a with
  | nil => rfl
  | cons z a ih => simp [ih]

theorem reshapeShape_one {sizes a b : List Nat} {x : Int} (hx : x < 0) (hs : NoOverflow sizes)
    (hab : NoOverflow (a ++ 1 :: b)) (hpa : ∀ y ∈ a, 0 < y) (hpb : ∀ y ∈ b, 0 < y) :
    reshapeShape (ints sizes) (ints a ++ x :: ints b) =
      if prod (a ++ (prod sizes / (prod a * prod b)) :: b) = prod sizes
      then .ok (ints (a ++ (prod sizes / (prod a * prod b)) :: b)) else .err := by
  unfold reshapeShape
  rw [scanNeg_one _ _ _ hx]
  simp only [Res.bind_ok]
  have e2 := prod32_ok hs.pfits
  simp only [Int.natCast_one] at e2
  have hd : prod (a ++ 1 :: b) = prod a * prod b := by simp [prod_append, prod]
  have hmax : prod a * prod b ≤ 2147483647 := by
    have := hab (a ++ 1 :: b).length
    rwa [List.take_length, hd] at this
  have hdpos : 0 < prod a * prod b := Nat.mul_pos (prod_pos hpa) (prod_pos hpb)
  have hfit := pfits_append hab.pfits
  have edown : prod32 1 (ints a ++ -1 :: ints b) = .ok (-((prod a * prod b : Nat) : Int)) := by
    rw [prod32_append]
    have e := prod32_ok hfit.1
    simp only [Int.natCast_one, Nat.one_mul] at e
    rw [e]
    simp only [Res.bind_ok, prod32]
    have h1 : prod a ≤ 2147483647 := by simpa using hfit.2.1
    rw [int32_ok (by unfold I32; omega)]
    simp only [Res.bind_ok]
    rw [show ((prod a : Nat) : Int) * -1 = -((prod a : Nat) : Int) by omega]
    have h2 : PFits (prod a) b := by simpa using hfit.2.2
    rw [prod32_neg h2]
  have hup : prod sizes ≤ 2147483647 := by
    have := hs sizes.length
    rwa [List.take_length] at this
  rw [e2]
  simp only [Res.bind_ok]
  rw [edown]
  simp only [Res.bind_ok, Int.neg_neg, Nat.one_mul]
  rw [int32_ok (i32_nat hmax)]
  simp only [Res.bind_ok, div32]
  rw [if_neg (by omega), ← Int.ofNat_tdiv]
  have hq : prod sizes / (prod a * prod b) ≤ prod sizes := Nat.div_le_self _ _
  rw [int32_ok (i32_nat (by omega))]
  simp only [Res.bind_ok, Nat.zero_add]
  rw [show (ints a ++ -1 :: ints b).set a.length ((prod sizes / (prod a * prod b) : Nat) : Int)
      = ints (a ++ (prod sizes / (prod a * prod b)) :: b) by
    rw [← ints_length a, set_append_mid, ints_append]; rfl]
  generalize hf : prod sizes / (prod a * prod b) = f at *
  have hmul : f * (prod a * prod b) ≤ prod sizes := by rw [← hf]; exact Nat.div_mul_le_self _ _
  have hnf : NoOverflow (a ++ f :: b) := by
    rcases Nat.eq_zero_or_pos f with h0 | h0
    · intro n
      rw [List.take_append, prod_append]
      have hpa' : prod (a.take n) ≤ 2147483647 :=
        Nat.le_trans (prod_take_le hpa n) (by have := hfit.2.1; simpa using this)
      cases hn : n - a.length with
      | zero => simpa [prod] using hpa'
      | succ m => simp [h0, prod]
    · apply noOverflow_of_pos
      · intro y hy; simp at hy; rcases hy with h | h | h
        · exact hpa y h
        · omega
        · exact hpb y h
      · have : prod (a ++ f :: b) = f * (prod a * prod b) := by
          simp only [prod_append, prod]; rw [Nat.mul_left_comm]
        omega
  have e1 := prod32_ok hnf.pfits
  simp only [Int.natCast_one] at e1
  rw [e1]
  simp only [Res.bind_ok, Nat.one_mul]
  by_cases h : prod (a ++ f :: b) = prod sizes
  · rw [if_neg (by omega), if_pos h]
  · rw [if_pos (by omega), if_neg h]

theorem reshapeShape_two {sizes : List Int} {a : List Nat} {x : Int} {l : List Int} (hx : x < 0)
    (h : ∃ y ∈ l, y < 0) : reshapeShape sizes (ints a ++ x :: l) = .err := by
  unfold reshapeShape
  rw [scanNeg_two _ _ _ hx _ h]; rfl

end Verif.Core
