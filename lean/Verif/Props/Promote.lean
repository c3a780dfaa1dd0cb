import Verif.Kernels.Promote
/-!
# C20: type promotion
-/
namespace Verif.Props
open Verif.Core Verif.Kernels

/-- The types that may be mixed: the integer, floating, character and boolean types (include/core/dtype.h:11-49: 1–11
are INT8…FLOAT64, 13–15 CHAR8…CHAR32, 21 BOOLEAN). -/
def Mixable (t : Nat) : Prop := (1 ≤ t ∧ t ≤ 11) ∨ (13 ≤ t ∧ t ≤ 15) ∨ t = 21
instance (t : Nat) : Decidable (Mixable t) := by unfold Mixable; infer_instance

theorem uncorr_iff (t : Nat) : uncorrCast t = false ↔ Mixable t := by
  unfold uncorrCast Mixable
  simp only [Bool.or_eq_false_iff, beq_eq_false_iff_ne, Bool.and_eq_false_iff, decide_eq_false_iff_not,
    bne_eq_false_iff_eq, ne_eq]
  omega

theorem mixable_lt {t : Nat} (h : Mixable t) : t < 22 := by unfold Mixable at h; omega

/-- C20, outcome: promotion of two types is an error exactly when they differ and one of them cannot be mixed; it is
never undefined; a mixable pair gives a mixable type, so never an unsupported one. -/
theorem C20_outcome (l r : Nat) :
    (upcast l r = .err ↔ l ≠ r ∧ (¬ Mixable l ∨ ¬ Mixable r)) ∧
    (Mixable l → Mixable r → ∃ t, upcast l r = .ok t ∧ Mixable t) ∧ upcast l r ≠ .ub := by
  have main : ∀ l < 22, ∀ r < 22, Mixable l → Mixable r → ∃ t, t < 22 ∧ upcast l r = .ok t ∧ Mixable t := by decide
  have m2 : Mixable l → Mixable r → ∃ t, upcast l r = .ok t ∧ Mixable t := by
    intro h1 h2
    obtain ⟨t, _, h3, h4⟩ := main l (mixable_lt h1) r (mixable_lt h2) h1 h2
    exact ⟨t, h3, h4⟩
  by_cases hm : Mixable l ∧ Mixable r
  · obtain ⟨t, h3, h4⟩ := m2 hm.1 hm.2
    refine ⟨⟨?_, ?_⟩, m2, by rw [h3]; simp⟩
    · rw [h3]; intro h; cases h
    · rintro ⟨_, h | h⟩
      · exact absurd hm.1 h
      · exact absurd hm.2 h
  · have hu : (uncorrCast l || uncorrCast r) = true := by
      cases h1 : uncorrCast l with
      | true => rfl
      | false =>
        cases h2 : uncorrCast r with
        | true => rfl
        | false => exact absurd ⟨(uncorr_iff l).1 h1, (uncorr_iff r).1 h2⟩ hm
    refine ⟨?_, m2, ?_⟩
    · unfold upcast
      split
      · rename_i h; simp [h]
      · rename_i h
        simp only [true_iff]
        refine ⟨h, ?_⟩
        by_cases h1 : Mixable l
        · exact .inr fun h2 => hm ⟨h1, h2⟩
        · exact .inl h1
    · unfold upcast
      rw [if_pos hu]
      split <;> simp

example : upcast 5 10 = .ok 10 ∧ upcast 5 12 = .err ∧ upcast 12 12 = .ok 12 := by decide

/-- C20, commutativity over all type numbers. -/
theorem C20_comm (l r : Nat) : upcast l r = upcast r l := by
  have main : ∀ l < 22, ∀ r < 22, upcast l r = upcast r l := by decide
  by_cases hm : Mixable l ∧ Mixable r
  · exact main l (mixable_lt hm.1) r (mixable_lt hm.2)
  · by_cases h : l = r
    · subst h; rfl
    · have h1 := ((C20_outcome l r).1).2 ⟨h, by
        by_cases h1 : Mixable l
        · exact .inr fun h2 => hm ⟨h1, h2⟩
        · exact .inl h1⟩
      have h2 := ((C20_outcome r l).1).2 ⟨fun e => h e.symm, by
        by_cases h1 : Mixable r
        · exact .inr fun h2 => hm ⟨h2, h1⟩
        · exact .inl h1⟩
      rw [h1, h2]

/-- C20, idempotence: equal types are left alone, also unsupported ones. -/
theorem C20_idem (t : Nat) : upcast t t = .ok t := by simp [upcast]

/-- C20: BOOLEAN promotes to any mixable type, and FLOAT64 absorbs all of them. -/
theorem C20_bounds (t : Nat) (h : Mixable t) : upcast 21 t = .ok t ∧ upcast 11 t = .ok 11 := by
  have main : ∀ t < 22, Mixable t → upcast 21 t = .ok t ∧ upcast 11 t = .ok 11 := by decide
  exact main t (mixable_lt h) h

/-- Associativity is false: UINT8, UINT16, UINT32 promote to INT32 from the left and to UINT32 from the right. -/
theorem C20_assoc_false : ¬ ∀ a b c, Mixable a → Mixable b → Mixable c →
    (upcast a b >>= fun x => upcast x c) = (upcast b c >>= fun x => upcast a x) := by
  intro h
  have := h 2 4 6 (by decide) (by decide) (by decide)
  exact absurd this (by decide)

/-- signed integers, floating types and boolean -/
def SignedOrFloat (t : Nat) : Prop := t = 1 ∨ t = 3 ∨ t = 5 ∨ t = 7 ∨ t = 9 ∨ t = 10 ∨ t = 11 ∨ t = 21
instance (t : Nat) : Decidable (SignedOrFloat t) := by unfold SignedOrFloat; infer_instance

/-- C20, associativity as far as it holds: without unsigned and character types. -/
theorem C20_assoc_partial (a b c : Nat) (ha : SignedOrFloat a) (hb : SignedOrFloat b) (hc : SignedOrFloat c) :
    (upcast a b >>= fun x => upcast x c) = (upcast b c >>= fun x => upcast a x) := by
  unfold SignedOrFloat at ha hb hc
  rcases ha with rfl | rfl | rfl | rfl | rfl | rfl | rfl | rfl <;>
  rcases hb with rfl | rfl | rfl | rfl | rfl | rfl | rfl | rfl <;>
  rcases hc with rfl | rfl | rfl | rfl | rfl | rfl | rfl | rfl <;> decide

example : SignedOrFloat 5 ∧ SignedOrFloat 9 ∧ SignedOrFloat 7 ∧
    (upcast 5 9 >>= fun x => upcast x 7) = .ok 11 := by decide

/-- smallest and largest value of the integer types 1–8 -/
def intRange : Nat → Option (Int × Int)
  | 1 => some (-128, 127)
  | 2 => some (0, 255)
  | 3 => some (-32768, 32767)
  | 4 => some (0, 65535)
  | 5 => some (-2147483648, 2147483647)
  | 6 => some (0, 4294967295)
  | 7 => some (-9223372036854775808, 9223372036854775807)
  | 8 => some (0, 18446744073709551615)
  | _ => none

/-- every value of the first type is a value of the second -/
def Fits (a b : Nat) : Prop := match intRange a, intRange b with
  | some (l, h), some (l', h') => l' ≤ l ∧ h ≤ h'
  | _, _ => False
instance (a b : Nat) : Decidable (Fits a b) := by unfold Fits; split <;> infer_instance

/-- Promotion of integer types can lose values: UINT8 with UINT16 promotes to INT16, which does not hold 65535. -/
theorem C20_lossy : upcast 2 4 = .ok 3 ∧ ¬ Fits 4 3 := by decide

/-- Among signed integer types promotion is lossless. -/
theorem C20_signed_fits (a b t : Nat) (ha : a = 1 ∨ a = 3 ∨ a = 5 ∨ a = 7) (hb : b = 1 ∨ b = 3 ∨ b = 5 ∨ b = 7)
    (h : upcast a b = .ok t) : Fits a t ∧ Fits b t := by
  have main : ∀ a ∈ [1, 3, 5, 7], ∀ b ∈ [1, 3, 5, 7], ∃ t, t < 22 ∧ upcast a b = .ok t ∧ Fits a t ∧ Fits b t := by decide
  obtain ⟨t', -, h1, h2⟩ := main a (by simpa using ha) b (by simpa using hb)
  rw [h1] at h
  cases h
  exact h2

example : upcast 1 5 = .ok 5 := by decide

end Verif.Props
