import Verif.Core.Res
import Mathlib.Tactic.Ring
/-!
# Buffers and counted loops

A C++ array is a list; reading or writing outside it is undefined behaviour. `for (int i = 0; i < n; ++i)` is `loop n`.
-/
namespace Verif.Kernels
open Verif.Core

variable {α σ : Type}

/-- `b[i]` -/
def rd (b : List α) (i : Nat) : Res α :=
  match b[i]? with
  | some v => .ok v
  | none => .ub

/-- `b[i] = v` -/
def wr (b : List α) (i : Nat) (v : α) : Res (List α) := if i < b.length then .ok (b.set i v) else .ub

/-- `for (int i = 0; i < n; ++i) s = f(s, i)` -/
def loop (f : σ → Nat → Res σ) : Nat → σ → Res σ
  | 0, s => .ok s
  | n + 1, s => do
    let s' ← loop f n s
    f s' n

theorem rd_ok {b : List α} {i : Nat} {v : α} (h : b[i]? = some v) : rd b i = .ok v := by simp [rd, h]

theorem rd_ub {b : List α} {i : Nat} (h : b.length ≤ i) : rd b i = .ub := by simp [rd, List.getElem?_eq_none h]

theorem wr_ok {b : List α} {i : Nat} (v : α) (h : i < b.length) : wr b i v = .ok (b.set i v) := by simp [wr, h]

theorem wr_ub {b : List α} {i : Nat} (v : α) (h : b.length ≤ i) : wr b i v = .ub := by simp [wr]; omega

/-- the invariant rule -/
theorem loop_inv {f : σ → Nat → Res σ} {n : Nat} {s : σ} (I : Nat → σ → Prop) (h0 : I 0 s)
    (hs : ∀ i s, i < n → I i s → ∃ s', f s i = .ok s' ∧ I (i + 1) s') : ∃ s', loop f n s = .ok s' ∧ I n s' := by
  induction n with
  | zero => exact ⟨s, rfl, h0⟩
  | succ n ih =>
    obtain ⟨s', e, hi⟩ := ih fun i s hi => hs i s (by omega)
    obtain ⟨s'', e', hi'⟩ := hs n s' (by omega) hi
    exact ⟨s'', by simp [loop, e, e'], hi'⟩

/-- the loop stops being defined at step `k` -/
theorem loop_ub {f : σ → Nat → Res σ} {n k : Nat} {s : σ} (I : Nat → σ → Prop) (h0 : I 0 s) (hk : k < n)
    (hs : ∀ i s, i < k → I i s → ∃ s', f s i = .ok s' ∧ I (i + 1) s') (hu : ∀ s, I k s → f s k = .ub) :
    loop f n s = .ub := by
  obtain ⟨s', e, hi⟩ := loop_inv I h0 hs
  have : loop f (k + 1) s = .ub := by simp [loop, e, hu s' hi]
  obtain ⟨d, rfl⟩ : ∃ d, n = k + 1 + d := ⟨n - (k + 1), by omega⟩
  clear hk
  induction d with
  | zero => exact this
  | succ d ih => show (loop f (k + 1 + d) s >>= fun s' => f s' (k + 1 + d)) = _; rw [ih]; rfl

/-- no step ever refuses and the last one is undefined, so the loop is undefined -/
theorem loop_ub_of {f : σ → Nat → Res σ} {n k : Nat} {s : σ} (hk : k < n) (hs : ∀ i s, i < n → f s i ≠ .err)
    (hu : ∀ s, f s k = .ub) : loop f n s = .ub := by
  have hne : ∀ m, m ≤ n → loop f m s ≠ .err := by
    intro m
    induction m with
    | zero => intro _; simp [loop]
    | succ m ih =>
      intro hm
      simp only [loop]
      rcases h : loop f m s with s' | _ | _
      · exact hs m s' (by omega)
      · exact absurd h (ih (by omega))
      · simp
  obtain ⟨d, rfl⟩ : ∃ d, n = k + 1 + d := ⟨n - (k + 1), by omega⟩
  clear hk
  have h1 : loop f (k + 1) s = .ub := by
    simp only [loop]
    rcases h : loop f k s with s' | _ | _
    · exact hu s'
    · exact absurd h (hne k (by omega))
    · rfl
  clear hs hne
  induction d with
  | zero => exact h1
  | succ d ih => show (loop f (k + 1 + d) s >>= fun s' => f s' (k + 1 + d)) = _; rw [ih]; rfl

theorem loop_ne_err {f : σ → Nat → Res σ} {n : Nat} {s : σ} (hs : ∀ i s, i < n → f s i ≠ .err) : loop f n s ≠ .err := by
  induction n with
  | zero => simp [loop]
  | succ n ih =>
    simp only [loop]
    rcases h : loop f n s with s' | _ | _
    · exact hs n s' (by omega)
    · exact absurd h (ih fun i s hi => hs i s (by omega))
    · simp

theorem set_eq {b : List α} {i : Nat} {v : α} (h : i < b.length) : (b.set i v)[i]? = some v := by simp [h]

theorem set_ne {b : List α} {i j : Nat} {v : α} (h : i ≠ j) : (b.set i v)[j]? = b[j]? := by simp [h]

theorem cell2_lt {A B i j : Nat} (hi : i < A) (hj : j < B) : i * B + j < A * B := by
  have : (i + 1) * B ≤ A * B := Nat.mul_le_mul_right _ hi
  rw [Nat.add_mul] at this; omega

theorem cell2_inj {B i j i' j' : Nat} (hj : j < B) (hj' : j' < B) (h : i * B + j = i' * B + j') : i = i' ∧ j = j' := by
  have hB : 0 < B := by omega
  have h1 : (i * B + j) / B = i := by rw [Nat.add_comm, Nat.add_mul_div_right _ _ hB, Nat.div_eq_of_lt hj]; omega
  have h2 : (i' * B + j') / B = i' := by rw [Nat.add_comm, Nat.add_mul_div_right _ _ hB, Nat.div_eq_of_lt hj']; omega
  have : i = i' := by rw [← h1, ← h2, h]
  subst this
  exact ⟨rfl, by omega⟩

end Verif.Kernels
