import Verif.Kernels.Buf
/-!
# Effects of loops that write a buffer

A step writes the positions `D`, and every position it writes gets the value `g` of that position.
-/
namespace Verif.Kernels
open Verif.Core

variable {α : Type} {L : Nat} {g : Nat → α}

def Eff (L : Nat) (g : Nat → α) (f : List α → Res (List α)) (D : Nat → Prop) : Prop :=
  ∀ out, out.length = L → ∃ out', f out = .ok out' ∧ out'.length = L ∧ (∀ p, D p → out'[p]? = some (g p)) ∧
    ∀ p, ¬ D p → out'[p]? = out[p]?

theorem Eff.wr {p : Nat} {v : α} (hp : p < L) (hv : v = g p) : Eff L g (fun out => wr out p v) (· = p) := by
  intro out hl
  refine ⟨_, wr_ok v (by omega), by simp [hl], ?_, ?_⟩
  · rintro q rfl; rw [set_eq (by omega), hv]
  · intro q hq; exact set_ne (fun h => hq h.symm)

theorem Eff.congr {f f' : List α → Res (List α)} {D D' : Nat → Prop} (h : Eff L g f D) (hf : ∀ out, out.length = L → f' out = f out)
    (hD : ∀ p, D' p ↔ D p) : Eff L g f' D' := by
  intro out hl
  obtain ⟨out', e, h1, h2, h3⟩ := h out hl
  exact ⟨out', by rw [hf out hl, e], h1, fun p hp => h2 p ((hD p).1 hp), fun p hp => h3 p (fun hc => hp ((hD p).2 hc))⟩

theorem Eff.loop {f : List α → Nat → Res (List α)} {n : Nat} {D : Nat → Nat → Prop}
    (h : ∀ i, i < n → Eff L g (fun out => f out i) (D i)) : Eff L g (fun out => loop f n out) (fun p => ∃ i, i < n ∧ D i p) := by
  intro out hl
  obtain ⟨out', e, h1, h2, h3⟩ := loop_inv (f := f) (n := n) (s := out)
    (fun k o => o.length = L ∧ (∀ p, (∃ i, i < k ∧ D i p) → o[p]? = some (g p)) ∧ ∀ p, (¬ ∃ i, i < k ∧ D i p) → o[p]? = out[p]?)
    ⟨hl, by rintro p ⟨i, hi, _⟩; omega, fun _ _ => rfl⟩
    (by
      intro i o hi ⟨a1, a2, a3⟩
      obtain ⟨o', e, b1, b2, b3⟩ := h i hi o a1
      refine ⟨o', e, b1, ?_, ?_⟩
      · rintro p ⟨j, hj, hd⟩
        by_cases hp : D i p
        · exact b2 p hp
        · rw [b3 p hp]
          have : j ≠ i := fun hc => hp (hc ▸ hd)
          exact a2 p ⟨j, by omega, hd⟩
      · intro p hp
        rw [b3 p (fun hc => hp ⟨i, by omega, hc⟩)]
        exact a3 p (fun ⟨j, hj, hd⟩ => hp ⟨j, by omega, hd⟩))
  exact ⟨out', e, h1, h2, h3⟩

/-- the same with a counter, which is `k` before and `k + m` after -/
def EffC (L : Nat) (g : Nat → α) (k m : Nat) (f : Nat × List α → Res (Nat × List α)) (D : Nat → Prop) : Prop :=
  ∀ out, out.length = L → ∃ out', f (k, out) = .ok (k + m, out') ∧ out'.length = L ∧ (∀ p, D p → out'[p]? = some (g p)) ∧
    ∀ p, ¬ D p → out'[p]? = out[p]?

theorem EffC.loop {f : Nat × List α → Nat → Res (Nat × List α)} {n k m : Nat} {D : Nat → Nat → Prop}
    (h : ∀ i, i < n → EffC L g (k + i * m) m (fun st => f st i) (D i)) :
    EffC L g k (n * m) (fun st => loop f n st) (fun p => ∃ i, i < n ∧ D i p) := by
  intro out hl
  obtain ⟨st', e, h0, h1, h2, h3⟩ := loop_inv (f := f) (n := n) (s := (k, out))
    (fun q st => st.1 = k + q * m ∧ st.2.length = L ∧ (∀ p, (∃ i, i < q ∧ D i p) → st.2[p]? = some (g p)) ∧
      ∀ p, (¬ ∃ i, i < q ∧ D i p) → st.2[p]? = out[p]?)
    ⟨by simp, hl, by rintro p ⟨i, hi, _⟩; omega, fun _ _ => rfl⟩
    (by
      rintro i ⟨k', o⟩ hi ⟨a0, a1, a2, a3⟩
      simp only at a0 a1 a2 a3
      subst a0
      obtain ⟨o', e, b1, b2, b3⟩ := h i hi o a1
      refine ⟨_, e, by simp only; rw [Nat.add_mul]; omega, b1, ?_, ?_⟩
      · rintro p ⟨j, hj, hd⟩
        by_cases hp : D i p
        · exact b2 p hp
        · simp only
          rw [b3 p hp]
          have : j ≠ i := fun hc => hp (hc ▸ hd)
          exact a2 p ⟨j, by omega, hd⟩
      · intro p hp
        simp only
        rw [b3 p (fun hc => hp ⟨i, by omega, hc⟩)]
        exact a3 p (fun ⟨j, hj, hd⟩ => hp ⟨j, by omega, hd⟩))
  obtain ⟨k', o⟩ := st'
  simp only at h0 h1 h2 h3
  subst h0
  exact ⟨o, e, h1, h2, h3⟩

end Verif.Kernels
