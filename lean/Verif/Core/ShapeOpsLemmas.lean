import Verif.Core.ShapeOps
import Verif.Core.ReshapeLemmas
/-!
# Lemmas about shape-only operators, and the positions specification `dropAt`
-/
namespace Verif.Spec

/-- the elements of a list at the positions where `p` is false, in order -/
def dropAt {α : Type} (p : Nat → Bool) : List α → List α
  | [] => []
  | x :: xs => if p 0 then dropAt (fun i => p (i + 1)) xs else x :: dropAt (fun i => p (i + 1)) xs

theorem dropAt_congr {α : Type} {p q : Nat → Bool} (l : List α) (h : ∀ i, i < l.length → p i = q i) :
    dropAt p l = dropAt q l := by
  induction l generalizing p q with
  | nil => rfl
  | cons x xs ih =>
    simp only [dropAt, h 0 (by simp)]
    rw [ih fun i hi => h (i + 1) (by simpa using hi)]

theorem dropAt_false {α : Type} (l : List α) : dropAt (fun _ => false) l = l := by
  induction l with
  | nil => rfl
  | cons x xs ih => simp [dropAt, ih]

theorem dropAt_erase {α : Type} {p q : Nat → Bool} {b : Nat} (l : List α) (hb : b < l.length)
    (hp : p b = true) (hlt : ∀ i, i < b → p i = q i) (hgt : ∀ i, b < i → p i = false)
    (hq : ∀ i, b ≤ i → q i = false) : dropAt p l = dropAt q (l.eraseIdx b) := by
  induction l generalizing p q b with
  | nil => simp at hb
  | cons x xs ih =>
    cases b with
    | zero =>
      simp only [dropAt, hp, if_true, List.eraseIdx_cons_zero]
      rw [dropAt_congr (q := fun _ => false) xs (fun i _ => hgt _ (by omega)), dropAt_false,
        dropAt_congr (q := fun _ => false) xs (fun i _ => hq _ (by omega)), dropAt_false]
    | succ b =>
      simp only [dropAt, List.eraseIdx_cons_succ, hlt 0 (by omega)]
      rw [ih (q := fun i => q (i + 1)) (b := b) (by simpa using hb) hp (fun i hi => hlt _ (by omega))
        (fun i hi => hgt _ (by omega)) (fun i hi => hq _ (by omega))]

theorem dropAt_prefix {α : Type} {q : Nat → Bool} {a : Nat} (l : List α) (h : ∀ i, i ≤ a → q i = false) :
    (dropAt q l)[a]? = l[a]? := by
  induction l generalizing q a with
  | nil => rfl
  | cons x xs ih =>
    simp only [dropAt, h 0 (by omega)]
    cases a with
    | zero => simp
    | succ a => simpa using ih (q := fun i => q (i + 1)) (a := a) fun i hi => h _ (by omega)

theorem dropAt_insert {α : Type} {p q : Nat → Bool} {a : Nat} {x : α} (l : List α) (hx : l[a]? = some x)
    (hp : p a = true) (hq : q a = false) (hpq : ∀ i, i ≠ a → p i = q i) (hlt : ∀ i, i < a → p i = false) :
    a ≤ (dropAt p l).length ∧ dropAt q l = (dropAt p l).take a ++ x :: (dropAt p l).drop a := by
  induction l generalizing p q a with
  | nil => simp at hx
  | cons y ys ih =>
    cases a with
    | zero =>
      simp only [List.getElem?_cons_zero, Option.some.injEq] at hx
      subst hx
      simp only [dropAt, hp, hq, if_true, Bool.false_eq_true, if_false, List.take_zero, List.drop_zero,
        List.nil_append, Nat.zero_le, true_and, List.cons.injEq]
      exact dropAt_congr _ fun i _ => (hpq _ (by omega)).symm
    | succ a =>
      have h0 : p 0 = false := hlt 0 (by omega)
      have h0' : q 0 = false := by rw [← hpq 0 (by omega)]; exact h0
      have := ih (p := fun i => p (i + 1)) (q := fun i => q (i + 1)) (a := a) (by simpa using hx) hp hq
        (fun i hi => hpq _ (by omega)) (fun i hi => hlt _ (by omega))
      simp only [dropAt, h0, h0', Bool.false_eq_true, if_false, List.length_cons, List.take_succ_cons,
        List.drop_succ_cons, List.cons_append, List.cons.injEq, true_and]
      exact ⟨by omega, this.2⟩

end Verif.Spec

namespace Verif.Core
open Verif.Spec

theorem ints_get (s : List Nat) (i : Nat) : (ints s)[i]? = Option.map Int.ofNat s[i]? := by
  unfold ints; exact List.getElem?_map

theorem ints_take (s : List Nat) (n : Nat) : (ints s).take n = ints (s.take n) := by simp [ints, List.map_take]
theorem ints_drop (s : List Nat) (n : Nat) : (ints s).drop n = ints (s.drop n) := by simp [ints, List.map_drop]
theorem ints_replicate (n : Nat) : List.replicate n (1 : Int) = ints (List.replicate n 1) := by simp [ints]
theorem ints_eraseIdx (s : List Nat) (n : Nat) : (ints s).eraseIdx n = ints (s.eraseIdx n) := by
  simp [ints, List.eraseIdx_eq_take_drop_succ, List.map_take, List.map_drop]

theorem noOverflow_of_pfits {l : List Nat} (h : PFits 1 l) : NoOverflow l := by
  have : ∀ (acc : Nat) (l : List Nat), acc ≤ 2147483647 → PFits acc l → ∀ n, acc * prod (l.take n) ≤ 2147483647 := by
    intro acc l
    induction l generalizing acc with
    | nil => intro h _ n; simpa [prod] using h
    | cons x l ih =>
      intro h hp n
      cases n with
      | zero => simpa [prod] using h
      | succ n =>
        have := ih (acc * x) hp.1 hp.2 n
        simpa [prod, Nat.mul_assoc] using this
  intro n
  simpa using this 1 l (by omega) h n

theorem pfits_ones {acc : Nat} (hacc : acc ≤ 2147483647) (l : List Nat) :
    PFits acc l ↔ PFits acc (l.filter (· ≠ 1)) := by
  induction l generalizing acc with
  | nil => simp
  | cons x l ih =>
    by_cases hx : x = 1
    · subst hx
      simp only [PFits, Nat.mul_one, ne_eq, not_true_eq_false, decide_false, Bool.false_eq_true, not_false_eq_true,
        List.filter_cons_of_neg]
      rw [ih hacc]
      simp [hacc]
    · rw [List.filter_cons_of_pos (by simpa using hx)]
      simp only [PFits]
      constructor
      · rintro ⟨h1, h2⟩; exact ⟨h1, (ih h1).1 h2⟩
      · rintro ⟨h1, h2⟩; exact ⟨h1, (ih h1).2 h2⟩

theorem prod_ones (l : List Nat) : prod (l.filter (· ≠ 1)) = prod l := by
  induction l with
  | nil => rfl
  | cons x l ih =>
    by_cases hx : x = 1
    · subst hx; simpa [prod] using ih
    · rw [List.filter_cons_of_pos (by simpa using hx)]; simp only [prod, ih]

/-- two shapes that differ only in extents `1` have the same count, and neither or both overflow -/
theorem sameOnes {r s : List Nat} (h : r.filter (· ≠ 1) = s.filter (· ≠ 1)) (hs : NoOverflow s) :
    NoOverflow r ∧ prod r = prod s := by
  refine ⟨noOverflow_of_pfits ?_, ?_⟩
  · rw [pfits_ones (by omega), h, ← pfits_ones (by omega)]; exact hs.pfits
  · rw [← prod_ones r, h, prod_ones]

/-- the tensor with the same elements, element type and packed members under another shape -/
def keeps (t : Tensor) (r : List Nat) : Tensor := .mk ⟨t.own.dtype, ints r, t.own.mem⟩ t.fields

theorem reshape_ok {t : Tensor} {sizes r : List Nat} (ht : t.own.shape = ints sizes) (hs : NoOverflow sizes)
    (hr : NoOverflow r) (hp : prod r = prod sizes) : reshape t (ints r) = .ok (keeps t r) := by
  unfold reshape
  rw [ht, reshapeShape_nat hs hr, if_pos hp]
  rfl

theorem newShapeRun_ok {ns : List Int → Res (List Int)} {t : Tensor} {sizes r : List Nat}
    (ht : t.own.shape = ints sizes) (hs : NoOverflow sizes) (hn : ns (ints sizes) = .ok (ints r))
    (hr : NoOverflow r) (hp : prod r = prod sizes) : newShapeRun ns t = .ok (keeps t r) := by
  unfold newShapeRun
  have e1 := prod32_ok hs.pfits
  have e2 := prod32_ok hr.pfits
  simp only [Int.natCast_one, Nat.one_mul] at e1 e2
  rw [ht, hn]
  simp only [Res.bind_ok]
  rw [e1, e2, hp]
  simp only [Res.bind_ok]
  rw [if_neg (by simp)]
  exact reshape_ok ht hs hr hp

theorem newShapeRun_err {ns : List Int → Res (List Int)} {t : Tensor} {sizes : List Nat}
    (ht : t.own.shape = ints sizes) (hn : ns (ints sizes) = .err) : newShapeRun ns t = .err := by
  unfold newShapeRun; rw [ht, hn]; rfl

theorem squeezeOnes_eq (s : List Nat) : squeezeOnes (ints s) = ints (s.filter (· ≠ 1)) := by
  induction s with
  | nil => rfl
  | cons x s ih =>
    simp only [ints_cons, squeezeOnes, ih]
    by_cases hx : x = 1
    · simp [hx]
    · rw [if_neg (by omega), List.filter_cons_of_pos (by simpa using hx)]; rfl

theorem squeezeStep_nat (s : List Nat) (b : Nat) :
    squeezeStep (ints s) b = if s[b]? = some 1 then .ok (ints (s.eraseIdx b)) else .err := by
  unfold squeezeStep
  simp only [ints_length, ge_iff_le, Int.natCast_nonneg, if_true, Int.toNat_natCast, ints_get]
  by_cases hb : s.length ≤ b
  · rw [if_pos (.inr (by omega)), List.getElem?_eq_none hb, if_neg (by simp)]
  · rw [if_neg (by omega), List.getElem?_eq_getElem (by omega)]
    simp only [Option.map_some, Option.some.injEq]
    by_cases e : s[b] = 1
    · rw [if_pos e, e, ints_eraseIdx]; rfl
    · rw [if_neg e]
      split
      · rename_i h
        simp only [Option.some.injEq, Int.ofNat_eq_natCast] at h
        exact absurd h (by omega)
      · rfl

theorem squeeze_down (rs : List Nat) (hp : rs.Pairwise (· > ·)) (s : List Nat) :
    overAxes squeezeStep (ints rs) (ints s) =
      if ∀ a ∈ rs, s[a]? = some 1 then .ok (ints (dropAt (fun i => decide (i ∈ rs)) s)) else .err := by
  induction rs generalizing s with
  | nil => simp [overAxes, dropAt_false, ints]
  | cons b rs ih =>
    rw [List.pairwise_cons] at hp
    simp only [ints_cons, overAxes, squeezeStep_nat]
    by_cases hb : s[b]? = some 1
    · have hlt : b < s.length := by
        rcases Nat.lt_or_ge b s.length with h | h
        · exact h
        · rw [List.getElem?_eq_none h] at hb; cases hb
      rw [if_pos hb]
      simp only [Res.bind_ok, ih hp.2]
      have e : ∀ a ∈ rs, (s.eraseIdx b)[a]? = s[a]? := by
        intro a ha
        rw [List.getElem?_eraseIdx_of_lt (hp.1 a ha)]
      have e2 : (∀ a ∈ rs, (s.eraseIdx b)[a]? = some 1) ↔ ∀ a ∈ b :: rs, s[a]? = some 1 := by
        constructor
        · intro h a ha
          rcases List.mem_cons.1 ha with rfl | ha
          · exact hb
          · rw [← e a ha]; exact h a ha
        · intro h a ha
          rw [e a ha]; exact h a (List.mem_cons_of_mem _ ha)
      simp only [e2]
      rw [← dropAt_erase (p := fun i => decide (i ∈ b :: rs)) s hlt (by simp)]
      · intro i hi; simp; omega
      · intro i hi
        simp only [List.mem_cons, decide_eq_false_iff_not, not_or]
        exact ⟨by omega, fun h => by have := hp.1 i h; omega⟩
      · intro i hi
        simp only [decide_eq_false_iff_not]
        exact fun h => by have := hp.1 i h; omega
    · rw [if_neg hb, if_neg (fun h => hb (h b (by simp)))]; rfl

theorem dropAt_filter {p : Nat → Bool} (s : List Nat) (h : ∀ i : Nat, p i = true → i < s.length → s[i]? = some 1) :
    (dropAt p s).filter (· ≠ 1) = s.filter (· ≠ 1) := by
  induction s generalizing p with
  | nil => rfl
  | cons x s ih =>
    have := ih (p := fun i => p (i + 1)) fun i hi hl => by simpa using h (i + 1) hi (by simpa using hl)
    simp only [dropAt]
    by_cases h0 : p 0 = true
    · have hx := h 0 h0 (by simp)
      simp only [List.getElem?_cons_zero, Option.some.injEq] at hx
      subst hx
      simp only [h0, if_true]
      rw [this]; simp
    · simp only [h0, Bool.false_eq_true, if_false, List.filter_cons, this]

theorem insertOne_nat {s : List Nat} {i : Nat} (hi : i ≤ s.length) (hs : s.length < 7) :
    insertOne (ints s) i = .ok (ints (s.take i ++ 1 :: s.drop i)) := by
  unfold insertOne
  rw [if_neg (by omega), if_neg (by rw [ints_length]; omega), ints_take, ints_drop, ints_append]
  rfl

theorem insertOnes_nat {s : List Nat} {i n : Nat} (hi : i ≤ s.length) (hs : s.length + n ≤ 7) :
    insertOnes (ints s) i n = .ok (ints (s.take i ++ List.replicate n 1 ++ s.drop i)) := by
  unfold insertOnes
  rw [if_neg (by omega), if_neg (by omega), if_neg (by rw [ints_length]; omega), ints_take, ints_drop, ints_append,
    ints_append, ints_replicate]

/-- unsqueezing with increasing axes reaches exactly the shapes from which the axes can be squeezed again -/
theorem unsqueeze_up (as : List Nat) (hp : as.Pairwise (· < ·)) (s : List Nat) (hl : s.length + as.length ≤ 7) :
    overAxes unsqueezeStep (ints as) (ints s) ≠ .ub ∧
    ∀ l, overAxes unsqueezeStep (ints as) (ints s) = .ok l ↔
      ∃ r : List Nat, l = ints r ∧ r.length = s.length + as.length ∧ (∀ a ∈ as, r[a]? = some 1) ∧
        dropAt (fun i => decide (i ∈ as)) r = s := by
  induction as generalizing s with
  | nil =>
    simp only [ints_nil, overAxes, List.not_mem_nil, decide_false, dropAt_false]
    refine ⟨by simp, fun l => ?_⟩
    constructor
    · intro h; cases h; exact ⟨s, rfl, by simp⟩
    · rintro ⟨r, rfl, _, _, rfl⟩; rfl
  | cons a as ih =>
    rw [List.pairwise_cons] at hp
    simp only [List.length_cons] at hl
    have hp1 : ∀ i, i ≤ a → decide (i ∈ as) = false := by
      intro i hi
      simp only [decide_eq_false_iff_not]
      exact fun h => by have := hp.1 i h; omega
    -- the key equivalence, for any target r
    have key : ∀ r : List Nat, ((∀ x ∈ a :: as, r[x]? = some 1) ∧ dropAt (fun i => decide (i ∈ a :: as)) r = s) ↔
        (a ≤ s.length ∧ (∀ x ∈ as, r[x]? = some 1) ∧
          dropAt (fun i => decide (i ∈ as)) r = s.take a ++ 1 :: s.drop a) := by
      intro r
      have ins : r[a]? = some 1 → a ≤ (dropAt (fun i => decide (i ∈ a :: as)) r).length ∧
          dropAt (fun i => decide (i ∈ as)) r = (dropAt (fun i => decide (i ∈ a :: as)) r).take a ++
            1 :: (dropAt (fun i => decide (i ∈ a :: as)) r).drop a := by
        intro hr
        apply dropAt_insert r hr (by simp) (hp1 a (Nat.le_refl _))
        · intro i hi; simp [hi]
        · intro i hi
          simp only [List.mem_cons, decide_eq_false_iff_not, not_or]
          exact ⟨by omega, fun h => by have := hp.1 i h; omega⟩
      constructor
      · rintro ⟨h1, h2⟩
        have := ins (h1 a (by simp))
        rw [h2] at this
        exact ⟨this.1, fun x hx => h1 x (List.mem_cons_of_mem _ hx), this.2⟩
      · rintro ⟨h1, h2, h3⟩
        have hra : r[a]? = some 1 := by
          rw [← dropAt_prefix r hp1, h3, List.getElem?_append_right (by simp; omega)]
          simp [h1]
        have h4 := ins hra
        refine ⟨fun x hx => ?_, ?_⟩
        · rcases List.mem_cons.1 hx with rfl | hx
          · exact hra
          · exact h2 x hx
        · have e := h3.symm.trans h4.2
          have e2 := List.append_inj e (by rw [List.length_take, List.length_take]; omega)
          rw [← List.take_append_drop a s, ← List.take_append_drop a (dropAt _ r), e2.1]
          have := e2.2
          simp only [List.cons.injEq, true_and] at this
          rw [this]
    have hstep : unsqueezeStep (ints s) a =
        if a ≤ s.length then .ok (ints (s.take a ++ 1 :: s.drop a)) else .err := by
      unfold unsqueezeStep
      simp only [ints_length]
      by_cases ha : a ≤ s.length
      · rw [if_neg (by omega), if_pos (by omega), if_pos ha]
        simp only [Int.toNat_natCast]
        exact insertOne_nat ha (by omega)
      · rw [if_pos (by omega), if_neg ha]
    simp only [ints_cons, overAxes, hstep]
    by_cases ha : a ≤ s.length
    · rw [if_pos ha]
      simp only [Res.bind_ok]
      have hlen : (s.take a ++ 1 :: s.drop a).length = s.length + 1 := by simp; omega
      have := ih hp.2 (s.take a ++ 1 :: s.drop a) (by rw [hlen]; omega)
      refine ⟨this.1, fun l => ?_⟩
      rw [this.2 l]
      constructor
      · rintro ⟨r, h1, h2, h3, h4⟩
        have := (key r).2 ⟨ha, h3, h4⟩
        exact ⟨r, h1, by rw [h2, hlen, List.length_cons]; omega, this.1, this.2⟩
      · rintro ⟨r, h1, h2, h3, h4⟩
        have := (key r).1 ⟨h3, h4⟩
        exact ⟨r, h1, by rw [h2, hlen, List.length_cons]; omega, this.2.1, this.2.2⟩
    · rw [if_neg ha]
      refine ⟨by simp, fun l => ?_⟩
      simp only [Res.bind_err, reduceCtorEq, false_iff]
      rintro ⟨r, h1, h2, h3, h4⟩
      exact ha ((key r).1 ⟨h3, h4⟩).1

end Verif.Core
