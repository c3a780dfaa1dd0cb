/-!
# Row-major indexing: the specification

Independent of the code: shapes and coordinates are lists of natural numbers, outermost dimension first.
-/
namespace Verif.Spec

/-- number of elements of a shape -/
def prod : List Nat → Nat
  | [] => 1
  | s :: ss => s * prod ss

/-- `c` is a coordinate inside `shape` (same rank, every component below the extent) -/
def InBounds : List Nat → List Nat → Prop
  | [], [] => True
  | s :: ss, c :: cs => c < s ∧ InBounds ss cs
  | _, _ => False

instance decInBounds : (s c : List Nat) → Decidable (InBounds s c)
  | [], [] => isTrue trivial
  | s :: ss, c :: cs => by unfold InBounds; exact @instDecidableAnd _ _ _ (decInBounds ss cs)
  | [], _ :: _ => isFalse id
  | _ :: _, [] => isFalse id

/-- row-major position of a coordinate: the last dimension varies fastest -/
def lin : List Nat → List Nat → Nat
  | _ :: ss, c :: cs => c * prod ss + lin ss cs
  | _, _ => 0

/-- the coordinate at a row-major position -/
def unlin : List Nat → Nat → List Nat
  | [], _ => []
  | _ :: ss, i => i / prod ss :: unlin ss (i % prod ss)

theorem InBounds.length {s c : List Nat} (h : InBounds s c) : c.length = s.length := by
  induction s generalizing c with
  | nil => cases c <;> simp_all [InBounds]
  | cons a s ih => cases c with
    | nil => simp [InBounds] at h
    | cons b c => simp [ih h.2]

theorem lin_lt {s c : List Nat} (h : InBounds s c) : lin s c < prod s := by
  induction s generalizing c with
  | nil => cases c <;> simp_all [InBounds, lin, prod]
  | cons a s ih => cases c with
    | nil => simp [InBounds] at h
    | cons b c =>
      simp only [lin, prod]
      have h1 := ih h.2
      have : (b + 1) * prod s ≤ a * prod s := Nat.mul_le_mul_right _ h.1
      rw [Nat.add_mul] at this
      omega

theorem prod_pos_of_inBounds {s c : List Nat} (h : InBounds s c) : 0 < prod s :=
  Nat.lt_of_le_of_lt (Nat.zero_le _) (lin_lt h)

theorem unlin_lin {s c : List Nat} (h : InBounds s c) : unlin s (lin s c) = c := by
  induction s generalizing c with
  | nil => cases c <;> simp_all [InBounds, unlin]
  | cons a s ih => cases c with
    | nil => simp [InBounds] at h
    | cons b c =>
      have h1 := lin_lt h.2
      simp only [unlin, lin]
      have hp : 0 < prod s := by omega
      rw [Nat.add_comm, Nat.add_mul_div_right _ _ hp, Nat.div_eq_of_lt h1, Nat.add_mul_mod_self_right,
        Nat.mod_eq_of_lt h1, ih h.2]
      simp

theorem unlin_inBounds {s : List Nat} {i : Nat} (h : i < prod s) : InBounds s (unlin s i) := by
  induction s generalizing i with
  | nil => simp [unlin, InBounds]
  | cons a s ih =>
    simp only [prod] at h
    have hp : 0 < prod s := by
      rcases Nat.eq_zero_or_pos (prod s) with h0 | h0
      · simp [h0] at h
      · exact h0
    refine ⟨(Nat.div_lt_iff_lt_mul hp).2 h, ih (Nat.mod_lt _ hp)⟩

theorem lin_unlin {s : List Nat} {i : Nat} (h : i < prod s) : lin s (unlin s i) = i := by
  induction s generalizing i with
  | nil => simp [prod] at h; simp [unlin, lin, h]
  | cons a s ih =>
    simp only [prod] at h
    have hp : 0 < prod s := by
      rcases Nat.eq_zero_or_pos (prod s) with h0 | h0
      · simp [h0] at h
      · exact h0
    simp only [unlin, lin]
    rw [ih (Nat.mod_lt _ hp)]
    exact Nat.div_add_mod' i (prod s)

theorem lin_inj {s c d : List Nat} (hc : InBounds s c) (hd : InBounds s d) (h : lin s c = lin s d) : c = d := by
  rw [← unlin_lin hc, ← unlin_lin hd, h]

theorem prod_append (a b : List Nat) : prod (a ++ b) = prod a * prod b := by
  induction a with
  | nil => simp [prod]
  | cons x a ih => simp [prod, ih, Nat.mul_assoc]

theorem prod_pos {s : List Nat} (h : ∀ x ∈ s, 0 < x) : 0 < prod s := by
  induction s with
  | nil => simp [prod]
  | cons a s ih => exact Nat.mul_pos (h a (by simp)) (ih fun x hx => h x (by simp [hx]))

theorem lin_append {s1 s2 c1 c2 : List Nat} (h : c1.length = s1.length) :
    lin (s1 ++ s2) (c1 ++ c2) = lin s1 c1 * prod s2 + lin s2 c2 := by
  induction s1 generalizing c1 with
  | nil => cases c1 <;> simp_all [lin]
  | cons a s ih => cases c1 with
    | nil => simp at h
    | cons b c =>
      simp only [List.cons_append, lin, prod_append, ih (by simpa using h)]
      rw [Nat.add_mul, Nat.mul_assoc]; omega

theorem inBounds_append {s1 s2 c1 c2 : List Nat} (h : c1.length = s1.length) :
    InBounds (s1 ++ s2) (c1 ++ c2) ↔ InBounds s1 c1 ∧ InBounds s2 c2 := by
  induction s1 generalizing c1 with
  | nil => cases c1 <;> simp_all [InBounds]
  | cons a s ih => cases c1 with
    | nil => simp at h
    | cons b c => simp [InBounds, ih (by simpa using h), and_assoc]

theorem inBounds_iff {s c : List Nat} :
    InBounds s c ↔ c.length = s.length ∧ ∀ k (h : k < s.length) (h' : k < c.length), c[k] < s[k] := by
  induction s generalizing c with
  | nil => cases c <;> simp [InBounds]
  | cons a s ih => cases c with
    | nil => simp [InBounds]
    | cons b c =>
      simp only [InBounds, ih, List.length_cons]
      constructor
      · rintro ⟨h1, h2, h3⟩
        refine ⟨by omega, ?_⟩
        intro k hk hk'
        cases k with
        | zero => simpa using h1
        | succ k => simpa using h3 k (by omega) (by omega)
      · rintro ⟨h1, h2⟩
        refine ⟨by simpa using h2 0 (by omega) (by omega), by omega, ?_⟩
        intro k hk hk'
        have := h2 (k + 1) (by omega) (by omega)
        simpa only [List.getElem_cons_succ] using this

end Verif.Spec
