import Verif.Runtime.InferRules
/-!
# Lemmas for the agreement of the shape rules with the operators
-/
namespace Verif.Runtime.Infer
open Verif.Core Verif.Kernels

/-- **Specification**: the prototype `p` describes the shape `s`: same rank, and every extent that is not unknown
(negative) is the extent of `s`. -/
def Fits : List Int → List Int → Prop
  | [], [] => True
  | a :: p, b :: s => (0 ≤ a → a = b) ∧ Fits p s
  | _, _ => False

theorem Fits.length {p s : List Int} (h : Fits p s) : p.length = s.length := by
  induction p generalizing s with
  | nil => cases s <;> simp_all [Fits]
  | cons a p ih => cases s with
    | nil => simp [Fits] at h
    | cons b s => simp [ih h.2]

theorem Fits.refl (p : List Int) : Fits p p := by
  induction p with
  | nil => trivial
  | cons a p ih => exact ⟨fun _ => rfl, ih⟩

theorem Fits.trans {p q r : List Int} (h1 : Fits p q) (h2 : Fits q r) : Fits p r := by
  induction p generalizing q r with
  | nil => cases q <;> simp_all [Fits]
  | cons a p ih =>
    cases q with
    | nil => simp [Fits] at h1
    | cons b q =>
      cases r with
      | nil => simp [Fits] at h2
      | cons c r =>
        refine ⟨fun ha => ?_, ih h1.2 h2.2⟩
        have e := h1.1 ha
        rw [e]; exact h2.1 (by omega)

/-- a prototype without unknown extents is the shape -/
theorem Fits.eq {p s : List Int} (h : Fits p s) (hp : ∀ a ∈ p, 0 ≤ a) : p = s := by
  induction p generalizing s with
  | nil => cases s <;> simp_all [Fits]
  | cons a p ih => cases s with
    | nil => simp [Fits] at h
    | cons b s =>
      rw [h.1 (hp a (by simp)), ih h.2 (fun c hc => hp c (by simp [hc]))]

theorem Fits.append {p s q t : List Int} (h : Fits p s) (h' : Fits q t) : Fits (p ++ q) (s ++ t) := by
  induction p generalizing s with
  | nil => cases s <;> simp_all [Fits]
  | cons a p ih => cases s with
    | nil => simp [Fits] at h
    | cons b s => exact ⟨h.1, ih h.2⟩

theorem Fits.take {p s : List Int} (h : Fits p s) (n : Nat) : Fits (p.take n) (s.take n) := by
  induction p generalizing s n with
  | nil => cases s <;> simp_all [Fits]
  | cons a p ih => cases s with
    | nil => simp [Fits] at h
    | cons b s => cases n with
      | zero => trivial
      | succ n => exact ⟨h.1, ih h.2 n⟩

theorem Fits.drop {p s : List Int} (h : Fits p s) (n : Nat) : Fits (p.drop n) (s.drop n) := by
  induction p generalizing s n with
  | nil => cases s <;> simp_all [Fits]
  | cons a p ih => cases s with
    | nil => simp [Fits] at h
    | cons b s => cases n with
      | zero => exact h
      | succ n => exact ih h.2 n

theorem Fits.eraseIdx {p s : List Int} (h : Fits p s) (n : Nat) : Fits (p.eraseIdx n) (s.eraseIdx n) := by
  induction p generalizing s n with
  | nil => cases s <;> simp_all [Fits]
  | cons a p ih => cases s with
    | nil => simp [Fits] at h
    | cons b s => cases n with
      | zero => exact h.2
      | succ n => exact ⟨h.1, ih h.2 n⟩

theorem Fits.get {p s : List Int} (h : Fits p s) (i : Nat) (a : Int) (ha : p[i]? = some a) :
    ∃ b, s[i]? = some b ∧ (0 ≤ a → a = b) := by
  induction p generalizing s i with
  | nil => simp at ha
  | cons c p ih => cases s with
    | nil => simp [Fits] at h
    | cons b s => cases i with
      | zero => simp at ha; subst ha; exact ⟨b, rfl, h.1⟩
      | succ i => simpa using ih h.2 i (by simpa using ha)

theorem Fits.set {p s : List Int} (h : Fits p s) (i : Nat) (a b : Int) (hab : 0 ≤ a → a = b) :
    Fits (p.set i a) (s.set i b) := by
  induction p generalizing s i with
  | nil => cases s <;> simp_all [Fits]
  | cons c p ih => cases s with
    | nil => simp [Fits] at h
    | cons d s => cases i with
      | zero => exact ⟨hab, h.2⟩
      | succ i => exact ⟨h.1, ih h.2 i⟩

theorem Fits.ofGet {p s : List Int} (hl : p.length = s.length)
    (h : ∀ (i : Nat) a b, p[i]? = some a → s[i]? = some b → 0 ≤ a → a = b) : Fits p s := by
  induction p generalizing s with
  | nil => cases s <;> simp_all [Fits]
  | cons a p ih => cases s with
    | nil => simp at hl
    | cons b s =>
      refine ⟨h 0 a b rfl rfl, ih (by simpa using hl) ?_⟩
      intro i x y hx hy
      exact h (i + 1) x y (by simpa using hx) (by simpa using hy)

/-- the product -/
def iprod : List Int → Int
  | [] => 1
  | x :: xs => x * iprod xs

theorem prod32_eq {acc : Int} {l : List Int} {r : Int} (h : prod32 acc l = .ok r) : r = acc * iprod l := by
  induction l generalizing acc with
  | nil => simp only [prod32, Res.ok.injEq] at h; simp [iprod, h]
  | cons x l ih =>
    simp only [prod32, Res.bind_eq_ok, int32_eq_ok] at h
    obtain ⟨a, ⟨_, ha⟩, h⟩ := h
    rw [ih h, ha, iprod]; ring

/-- how many extents are unknown -/
def unknowns (p : List Int) : Nat := p.countP (· < 0)

theorem unknowns_cons (a : Int) (p : List Int) : unknowns (a :: p) = unknowns p + if a < 0 then 1 else 0 := by
  unfold unknowns
  rw [List.countP_cons]
  simp

theorem unknowns_zero {p : List Int} (h : unknowns p = 0) : ∀ a ∈ p, 0 ≤ a := by
  unfold unknowns at h
  rw [List.countP_eq_zero] at h
  intro a ha
  have := h a ha
  simpa using this

theorem unknowns_of_nonneg {p : List Int} (h : ∀ a ∈ p, 0 ≤ a) : unknowns p = 0 := by
  unfold unknowns
  rw [List.countP_eq_zero]
  intro a ha
  have := h a ha
  simpa using this

theorem iprod_nonneg {p : List Int} (h : ∀ a ∈ p, 0 ≤ a) : 0 ≤ iprod p := by
  induction p with
  | nil => simp [iprod]
  | cons a p ih =>
    exact Int.mul_nonneg (h a (by simp)) (ih fun b hb => h b (by simp [hb]))

/-- With at most one unknown extent the product is right or negative. -/
theorem Fits.iprod {p s : List Int} (h : Fits p s) (hu : unknowns p ≤ 1) (hn : 0 ≤ iprod p) : iprod p = iprod s := by
  induction p generalizing s with
  | nil => cases s <;> simp_all [Fits]
  | cons a p ih => cases s with
    | nil => simp [Fits] at h
    | cons b s =>
      rw [unknowns_cons] at hu
      simp only [Infer.iprod] at hn ⊢
      by_cases ha : a < 0
      · rw [if_pos ha] at hu
        have h0 := unknowns_zero (p := p) (by omega)
        have hp := h.2.eq h0
        have h1 := iprod_nonneg h0
        have h2 : Infer.iprod p = 0 := by
          by_contra hne
          have : 0 < Infer.iprod p := by omega
          have := Int.mul_neg_of_neg_of_pos ha this
          omega
        rw [← hp, h2]; simp
      · have e := h.1 (by omega)
        by_cases hp : 0 ≤ Infer.iprod p
        · rw [ih h.2 (by split at hu <;> omega) hp, e]
        · have : a = 0 := by
            by_contra hne
            have : 0 < a := by omega
            have := Int.mul_neg_of_pos_of_neg this (show Infer.iprod p < 0 by omega)
            omega
          rw [← e, this]; simp

/-- Two completions of the same prototype with at most one unknown extent and the same non-zero product are equal. -/
theorem Fits.unique {p r1 r2 : List Int} (h1 : Fits p r1) (h2 : Fits p r2) (hu : unknowns p ≤ 1)
    (he : Infer.iprod r1 = Infer.iprod r2) (hne : Infer.iprod r1 ≠ 0) : r1 = r2 := by
  induction p generalizing r1 r2 with
  | nil => cases r1 <;> cases r2 <;> simp_all [Fits]
  | cons a p ih => cases r1 with
    | nil => simp [Fits] at h1
    | cons b1 r1 => cases r2 with
      | nil => simp [Fits] at h2
      | cons b2 r2 =>
        rw [unknowns_cons] at hu
        simp only [Infer.iprod] at he hne
        by_cases ha : a < 0
        · rw [if_pos ha] at hu
          have h0 := unknowns_zero (p := p) (by omega)
          have e1 := h1.2.eq h0
          have e2 := h2.2.eq h0
          rw [← e1] at he hne ⊢
          rw [← e2] at he ⊢
          have : Infer.iprod p ≠ 0 := fun h => hne (by rw [h]; simp)
          rw [Int.eq_of_mul_eq_mul_right this he]
        · have e1 := h1.1 (by omega)
          have e2 := h2.1 (by omega)
          rw [← e1] at he hne ⊢
          rw [← e2] at he ⊢
          have ha0 : a ≠ 0 := fun h => hne (by rw [h]; simp)
          have := Int.eq_of_mul_eq_mul_left ha0 he
          rw [ih h1.2 h2.2 (by split at hu <;> omega) this (fun h => hne (by rw [h]; simp))]

end Verif.Runtime.Infer
