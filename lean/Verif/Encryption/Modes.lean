import Verif.Encryption.AesLemmas
/-! # CBC and CTR -/
namespace Verif.Encryption

/-- the number a list of bytes stands for, least significant byte first -/
def leVal : List UInt8 → Nat
  | [] => 0
  | b :: r => b.toNat + 256 * leVal r

attribute [local irreducible] cipher invCipher

theorem leVal_lt (l : List UInt8) : leVal l < 256 ^ l.length := by
  induction l with
  | nil => simp [leVal]
  | cons b r ih =>
    have := b.toNat_lt
    simp only [leVal, List.length_cons, Nat.pow_succ]
    omega

theorem incRev_length (l : List UInt8) : (incRev l).length = l.length := by
  induction l with
  | nil => rfl
  | cons b r ih => unfold incRev; split <;> simp [ih]

theorem incRev_val (l : List UInt8) : leVal (incRev l) = (leVal l + 1) % 256 ^ l.length := by
  induction l with
  | nil => rfl
  | cons b r ih =>
    have hlt := leVal_lt r
    have hb := b.toNat_lt
    have hpos : 0 < 256 ^ r.length := Nat.pow_pos (by decide)
    unfold incRev
    split
    · rename_i h
      subst h
      simp only [leVal, ih, List.length_cons, Nat.pow_succ]
      have : UInt8.toNat 255 = 255 := rfl
      rw [this, show 255 + 256 * leVal r + 1 = (leVal r + 1) * 256 by omega, Nat.mul_mod_mul_right, Nat.mul_comm]
      simp
    · rename_i h
      have hb' : b.toNat ≠ 255 := fun hc => h (UInt8.toNat_inj.1 hc)
      have h1 : (b + 1).toNat = b.toNat + 1 := by
        rw [UInt8.toNat_add]
        have : UInt8.toNat 1 = 1 := rfl
        rw [this]; omega
      simp only [leVal, h1, List.length_cons, Nat.pow_succ]
      rw [Nat.mod_eq_of_lt (by omega)]
      omega

theorem leVal_inj {a b : List UInt8} (hl : a.length = b.length) (h : leVal a = leVal b) : a = b := by
  induction a generalizing b with
  | nil => exact (List.length_eq_zero_iff.1 hl.symm).symm
  | cons x a ih =>
    cases b with
    | nil => simp at hl
    | cons y b =>
      have hx := x.toNat_lt
      have hy := y.toNat_lt
      simp only [leVal] at h
      have e1 : x.toNat = y.toNat := by omega
      have e2 : leVal a = leVal b := by omega
      rw [UInt8.toNat_inj.1 e1, ih (by simpa using hl) e2]

/-- the counter after `k` increments -/
def counter (iv : List UInt8) : Nat → List UInt8
  | 0 => iv
  | k + 1 => (incRev (counter iv k).reverse).reverse

theorem counter_length (iv : List UInt8) (k : Nat) : (counter iv k).length = iv.length := by
  induction k with
  | zero => rfl
  | succ k ih => simp [counter, incRev_length, ih]

theorem counter_val (iv : List UInt8) (k : Nat) : leVal (counter iv k).reverse = (leVal iv.reverse + k) % 256 ^ iv.length := by
  induction k with
  | zero =>
    have := leVal_lt iv.reverse
    rw [List.length_reverse] at this
    rw [Nat.add_zero, Nat.mod_eq_of_lt this]; rfl
  | succ k ih =>
    simp only [counter, List.reverse_reverse]
    rw [incRev_val, ih, List.length_reverse, counter_length, Nat.mod_add_mod, Nat.add_assoc]

theorem counter_succ (iv : List UInt8) (k : Nat) : counter (counter iv 1) k = counter iv (k + 1) := by
  induction k with
  | zero => rfl
  | succ k ih => simp only [counter] at ih ⊢; rw [ih]

/-- the bytes from the middle of a block on -/
theorem ctr_get (rk iv : List UInt8) (bi : Nat) (hbi : bi ≤ 16) (buffer data : List UInt8) :
    (ctrXcrypt rk iv bi buffer data).1.length = data.length ∧
    (∀ n x, data[n]? = some x → (ctrXcrypt rk iv bi buffer data).1[n]? = some (x ^^^
      if bi + n < 16 then buffer.getD (bi + n) 0 else (cipher rk (counter iv ((bi + n) / 16 - 1))).getD ((bi + n) % 16) 0)) := by
  induction data generalizing iv bi buffer with
  | nil => exact ⟨rfl, fun n x h => by simp at h⟩
  | cons y rest ih =>
    unfold ctrXcrypt
    by_cases h16 : bi = 16
    · subst h16
      rw [if_pos rfl]
      simp only
      obtain ⟨h1, h2⟩ := ih (counter iv 1) 1 (by omega) (cipher rk iv)
      refine ⟨by simp [counter] at h1 ⊢; exact h1, ?_⟩
      intro n x hx
      cases n with
      | zero =>
        simp at hx
        simp [hx, counter]
      | succ n =>
        have := h2 n x (by simpa using hx)
        simp only [counter] at this
        simp only [List.getElem?_cons_succ, Nat.zero_add]
        rw [this, if_neg (by omega : ¬ 16 + (n + 1) < 16)]
        congr 2
        by_cases hn : 1 + n < 16
        · rw [if_pos hn, show (16 + (n + 1)) / 16 - 1 = 0 by omega, show (16 + (n + 1)) % 16 = 1 + n by omega]; rfl
        · rw [if_neg hn, show (16 + (n + 1)) % 16 = (1 + n) % 16 by omega]
          have := counter_succ iv ((1 + n) / 16 - 1)
          simp only [counter] at this
          rw [this]
          have e : (16 + (n + 1)) / 16 - 1 = (1 + n) / 16 - 1 + 1 := by omega
          rw [e]
          rfl
    · rw [if_neg h16]
      simp only
      obtain ⟨h1, h2⟩ := ih iv (bi + 1) (by omega) buffer
      refine ⟨by simp [h1], ?_⟩
      intro n x hx
      cases n with
      | zero =>
        simp at hx
        rw [if_pos (by omega)]
        simp [hx]
      | succ n =>
        have := h2 n x (by simpa using hx)
        simp only [List.getElem?_cons_succ]
        rw [this, show bi + 1 + n = bi + (n + 1) by omega]

theorem ctr_iv (rk iv : List UInt8) (bi : Nat) (h1 : 1 ≤ bi) (hbi : bi ≤ 16) (buffer data : List UInt8) :
    (ctrXcrypt rk iv bi buffer data).2 = counter iv ((bi + data.length + 15) / 16 - 1) ∨ data = [] := by
  induction data generalizing iv bi buffer with
  | nil => exact .inr rfl
  | cons y rest ih =>
    left
    unfold ctrXcrypt
    by_cases h16 : bi = 16
    · subst h16
      rw [if_pos rfl]
      simp only
      rcases ih (counter iv 1) 1 (by omega) (by omega) (cipher rk iv) with h | h
      · refine Eq.trans (b := counter (counter iv 1) ((1 + rest.length + 15) / 16 - 1)) h ?_
        rw [counter_succ]
        congr 1
        simp only [List.length_cons]; omega
      · subst h
        rw [show (16 + [y].length + 15) / 16 - 1 = 1 by simp]
        unfold ctrXcrypt
        rfl
    · rw [if_neg h16]
      simp only
      rcases ih iv (bi + 1) (by omega) (by omega) buffer with h | h
      · rw [h]
        congr 1
        simp only [List.length_cons]; omega
      · subst h
        rw [show (bi + [y].length + 15) / 16 - 1 = 0 by simp; omega]
        unfold ctrXcrypt
        rfl

theorem xor_back (a b : List UInt8) (h : a.length = b.length) : xorBytes (xorBytes a b) b = a := zip_xor_twice a b h

theorem cbc_round_trip (rk : List UInt8) (n : Nat) (iv buf : List UInt8) (hiv : iv.length = 16) (hb : buf.length = 16 * n) :
    (cbcEncrypt rk n iv buf).1.length = 16 * n ∧
      cbcDecrypt rk n iv (cbcEncrypt rk n iv buf).1 = (buf, (cbcEncrypt rk n iv buf).2) := by
  induction n generalizing iv buf with
  | zero =>
    have : buf = [] := List.length_eq_zero_iff.1 (by omega)
    subst this
    exact ⟨rfl, rfl⟩
  | succ n ih =>
    have ht : (buf.take 16).length = 16 := by rw [List.length_take]; omega
    have hx : (xorBytes (buf.take 16) iv).length = 16 := by simp [xorBytes, hiv]; omega
    have hc : (cipher rk (xorBytes (buf.take 16) iv)).length = 16 := cipher_length rk hx
    obtain ⟨h1, h2⟩ := ih (cipher rk (xorBytes (buf.take 16) iv)) (buf.drop 16) hc (by rw [List.length_drop]; omega)
    unfold cbcEncrypt
    simp only
    refine ⟨by rw [List.length_append, hc, h1]; omega, ?_⟩
    unfold cbcDecrypt
    simp only
    rw [List.take_left' hc, List.drop_left' hc, h2, invCipher_cipher rk hx, xor_back _ _ (by rw [ht, hiv]), List.take_append_drop]

/-- block `i` of a buffer -/
def blockAt (l : List UInt8) (i : Nat) : List UInt8 := (l.drop (16 * i)).take 16

theorem cbc_chain (rk : List UInt8) (n : Nat) (iv buf : List UInt8) (hiv : iv.length = 16) (hb : buf.length = 16 * n) (i : Nat) (hi : i < n) :
    blockAt (cbcEncrypt rk n iv buf).1 i =
      cipher rk (xorBytes (blockAt buf i) (if i = 0 then iv else blockAt (cbcEncrypt rk n iv buf).1 (i - 1))) := by
  induction n generalizing iv buf i with
  | zero => omega
  | succ n ih =>
    have hx : (xorBytes (buf.take 16) iv).length = 16 := by simp [xorBytes, hiv]; omega
    have hc : (cipher rk (xorBytes (buf.take 16) iv)).length = 16 := cipher_length rk hx
    unfold cbcEncrypt
    simp only
    have hshift : ∀ (a b : List UInt8) k, a.length = 16 → blockAt (a ++ b) (k + 1) = blockAt b k := by
      intro a b k ha
      unfold blockAt
      rw [show 16 * (k + 1) = a.length + 16 * k by omega, ← List.drop_drop, List.drop_left]
    have hshift' : ∀ (b : List UInt8) k, blockAt b (k + 1) = blockAt (b.drop 16) k := by
      intro b k
      unfold blockAt
      rw [List.drop_drop, show 16 + 16 * k = 16 * (k + 1) by omega]
    cases i with
    | zero =>
      rw [if_pos rfl]
      unfold blockAt
      simp only [Nat.mul_zero, List.drop_zero]
      rw [List.take_left' hc]
    | succ i =>
      rw [if_neg (by omega), hshift _ _ _ hc, hshift' buf, ih _ (buf.drop 16) hc (by rw [List.length_drop]; omega) i (by omega)]
      congr 2
      cases i with
      | zero =>
        rw [if_pos rfl]
        unfold blockAt
        simp only [Nat.add_sub_cancel, Nat.mul_zero, List.drop_zero, Nat.zero_add, Nat.sub_self]
        rw [List.take_left' hc]
      | succ i =>
        rw [if_neg (by omega)]
        simp only [Nat.add_sub_cancel]
        rw [hshift _ _ _ hc]

end Verif.Encryption
