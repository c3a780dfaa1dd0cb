import Verif.Encryption.AesLemmas
/-! # The standard determines the S-box and the schedule -/
namespace Verif.Encryption

theorem mul_xor (a b c : UInt8) : Fips197.mul a (b ^^^ c) = Fips197.mul a b ^^^ Fips197.mul a c := by
  have h : ∀ (l : List Nat) (x y : UInt8),
      l.foldl (fun acc i => if (b ^^^ c).toNat.testBit i then acc ^^^ Fips197.mulXPow a i else acc) (x ^^^ y) =
        l.foldl (fun acc i => if b.toNat.testBit i then acc ^^^ Fips197.mulXPow a i else acc) x ^^^
          l.foldl (fun acc i => if c.toNat.testBit i then acc ^^^ Fips197.mulXPow a i else acc) y := by
    intro l
    induction l with
    | nil => intro x y; rfl
    | cons i l ih =>
      intro x y
      simp only [List.foldl_cons]
      rw [← ih]
      congr 1
      rw [UInt8.toNat_xor, Nat.testBit_xor]
      generalize Fips197.mulXPow a i = z
      cases b.toNat.testBit i <;> cases c.toNat.testBit i <;> simp [UInt8.xor_comm, xlc]
  have := h (List.range 8) 0 0
  rw [UInt8.xor_self] at this
  exact this

theorem basis (x : UInt8) (hx : x ≠ 0) (i : Nat) (hi : i < 8) :
    Fips197.mul (inv256 x) (Fips197.mulXPow x i) = UInt8.ofNat (2 ^ i) := by
  have h : ∀ n : Nat, n < 256 → UInt8.ofNat n ≠ 0 → ∀ i : Nat, i < 8 →
      Fips197.mul (inv256 (UInt8.ofNat n)) (Fips197.mulXPow (UInt8.ofNat n) i) = UInt8.ofNat (2 ^ i) := by decide +kernel
  have := forall_byte (P := fun x => x ≠ 0 → ∀ i : Nat, i < 8 → Fips197.mul (inv256 x) (Fips197.mulXPow x i) = UInt8.ofNat (2 ^ i)) h x
  exact this hx i hi

theorem bits (y : UInt8) :
    (List.range 8).foldl (fun acc i => if y.toNat.testBit i then acc ^^^ UInt8.ofNat (2 ^ i) else acc) 0 = y := by
  revert y; apply forall_byte; decide +kernel

theorem mul_zero' (a : UInt8) : Fips197.mul a 0 = 0 := by
  have := mul_xor a 0 0
  rw [UInt8.xor_self] at this
  rw [this, UInt8.xor_self]

theorem mul_left_inv (x : UInt8) (hx : x ≠ 0) (y : UInt8) : Fips197.mul (inv256 x) (Fips197.mul x y) = y := by
  have h : ∀ (l : List Nat), (∀ i ∈ l, i < 8) → ∀ acc acc' : UInt8, Fips197.mul (inv256 x) acc = acc' →
      Fips197.mul (inv256 x) (l.foldl (fun acc i => if y.toNat.testBit i then acc ^^^ Fips197.mulXPow x i else acc) acc) =
        l.foldl (fun acc i => if y.toNat.testBit i then acc ^^^ UInt8.ofNat (2 ^ i) else acc) acc' := by
    intro l
    induction l with
    | nil => intro _ acc acc' h; exact h
    | cons i l ih =>
      intro hl acc acc' h
      simp only [List.foldl_cons]
      apply ih (fun j hj => hl j (by simp [hj]))
      split
      · rw [mul_xor, h, basis x hx i (hl i (by simp))]
      · exact h
  have := h (List.range 8) (fun i hi => List.mem_range.1 hi) 0 0 (mul_zero' _)
  rw [bits] at this
  exact this

theorem zero_mul' (y : UInt8) : Fips197.mul 0 y = 0 := by
  revert y; apply forall_byte; decide +kernel

/-- the S-box of the standard is determined -/
theorem isSBox_unique (x s : UInt8) (h : Fips197.IsSBox x s) : s = sbox x := by
  obtain ⟨y, hy, rfl⟩ := h
  obtain ⟨h1, h2⟩ := sbox_inv x
  rw [h2]
  congr 1
  by_cases hx : x = 0
  · subst hx
    rcases hy with ⟨_, hy⟩ | hy
    · rcases h1 with ⟨_, h1⟩ | h1
      · rw [hy, h1]
      · rw [zero_mul'] at h1; exact absurd h1 (by decide)
    · rw [zero_mul'] at hy; exact absurd hy (by decide)
  · rcases hy with ⟨hy, _⟩ | hy
    · exact absurd hy hx
    · rcases h1 with ⟨h1, _⟩ | h1
      · exact absurd h1 hx
      · have e1 := mul_left_inv x hx y
        have e2 := mul_left_inv x hx (inv256 x)
        rw [hy] at e1
        rw [h1] at e2
        exact e1.symm.trans e2

theorem schedule_unique (S : UInt8 → UInt8) (key : List UInt8) (w w' : Nat → Fin 4 → UInt8) (h : Fips197.IsSchedule S key w)
    (h' : Fips197.IsSchedule S key w') (i : Nat) (hi : i < 60) : w i = w' i := by
  induction i using Nat.strongRecOn with
  | _ i ih =>
    funext j
    by_cases h8 : i < 8
    · rw [h.first i h8, h'.first i h8]
    · have e1 := ih (i - 8) (by omega) (by omega)
      have e2 := ih (i - 1) (by omega) (by omega)
      by_cases m0 : i % 8 = 0
      · rw [h.rot i (by omega) hi m0, h'.rot i (by omega) hi m0, e1, e2]
      · by_cases m4 : i % 8 = 4
        · rw [h.sub i (by omega) hi m4, h'.sub i (by omega) hi m4, e1, e2]
        · rw [h.plain i (by omega) hi m0 m4, h'.plain i (by omega) hi m0 m4, e1, e2]

theorem rounds_congr (S : UInt8 → UInt8) (w w' : Nat → Fin 4 → UInt8) (hw : ∀ i, i < 60 → w i = w' i) (n first : Nat) (hn : first + n ≤ 14)
    (m : Fips197.Matrix) : Fips197.rounds S w first n m = Fips197.rounds S w' first n m := by
  induction n generalizing first m with
  | zero => rfl
  | succ n ih =>
    unfold Fips197.rounds
    rw [ih _ (by omega)]
    congr 1
    unfold Fips197.addRoundKey
    funext r c
    rw [hw _ (by omega)]

theorem cipher_congr (S : UInt8 → UInt8) (w w' : Nat → Fin 4 → UInt8) (hw : ∀ i, i < 60 → w i = w' i)
    (m : Fips197.Matrix) : Fips197.cipher S w m = Fips197.cipher S w' m := by
  have ha : ∀ round m, round ≤ 14 → Fips197.addRoundKey w round m = Fips197.addRoundKey w' round m := by
    intro round m hr
    funext r c
    unfold Fips197.addRoundKey
    rw [hw _ (by omega)]
  unfold Fips197.cipher
  rw [ha 14 _ (by omega), ha 0 _ (by omega), rounds_congr S w w' hw 13 1 (by omega)]
end Verif.Encryption
