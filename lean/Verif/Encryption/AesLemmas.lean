import Verif.Encryption.Aes
import Verif.Encryption.AesSpec
/-! # Lemmas about AES -/
namespace Verif.Encryption

theorem forall_byte {P : UInt8 → Prop} (h : ∀ n : Nat, n < 256 → P (UInt8.ofNat n)) (x : UInt8) : P x := by
  have := h x.toNat (UInt8.toNat_lt x)
  rwa [UInt8.ofNat_toNat] at this
theorem xlc (x y z : UInt8) : x ^^^ (y ^^^ z) = y ^^^ (x ^^^ z) := by rw [← UInt8.xor_assoc, UInt8.xor_comm x y, UInt8.xor_assoc]
theorem xor_cancel (x y : UInt8) : x ^^^ (x ^^^ y) = y := by rw [← UInt8.xor_assoc]; simp
theorem xtime_eq (x : UInt8) : xtime x = (x <<< 1) ^^^ (if x.toNat.testBit 7 then 0x1b else 0) := by
  revert x; apply forall_byte; decide +kernel
theorem shl_xor (x y : UInt8) : (x ^^^ y) <<< 1 = (x <<< 1) ^^^ (y <<< 1) := by
  apply UInt8.toBitVec_inj.1
  simp [BitVec.shiftLeft_xor_distrib]
theorem xtime_xor (x y : UInt8) : xtime (x ^^^ y) = xtime x ^^^ xtime y := by
  rw [xtime_eq, xtime_eq, xtime_eq, shl_xor, UInt8.toNat_xor, Nat.testBit_xor]
  cases x.toNat.testBit 7 <;> cases y.toNat.testBit 7 <;> simp [UInt8.xor_assoc, UInt8.xor_comm, xlc]

theorem xtime_mulX (x : UInt8) : xtime x = Fips197.mulX x := by
  revert x; apply forall_byte; decide +kernel

theorem mul_two (x : UInt8) : Fips197.mul x 2 = xtime x := by
  revert x; apply forall_byte; decide +kernel
theorem mul_three (x : UInt8) : Fips197.mul x 3 = xtime x ^^^ x := by
  revert x; apply forall_byte; decide +kernel

theorem mult_e (x : UInt8) : multiply x 0x0e = xtime x ^^^ (xtime (xtime x) ^^^ xtime (xtime (xtime x))) := by
  revert x; apply forall_byte; decide +kernel
theorem mult_b (x : UInt8) : multiply x 0x0b = x ^^^ (xtime x ^^^ xtime (xtime (xtime x))) := by
  revert x; apply forall_byte; decide +kernel
theorem mult_d (x : UInt8) : multiply x 0x0d = x ^^^ (xtime (xtime x) ^^^ xtime (xtime (xtime x))) := by
  revert x; apply forall_byte; decide +kernel
theorem mult_9 (x : UInt8) : multiply x 0x09 = x ^^^ xtime (xtime (xtime x)) := by
  revert x; apply forall_byte; decide +kernel

/-- the inverse as a power, `x^254` -/
def inv256 (x : UInt8) : UInt8 :=
  let p2 := Fips197.mul x x
  let p4 := Fips197.mul p2 p2
  let p8 := Fips197.mul p4 p4
  let p16 := Fips197.mul p8 p8
  let p32 := Fips197.mul p16 p16
  let p64 := Fips197.mul p32 p32
  let p128 := Fips197.mul p64 p64
  Fips197.mul p2 (Fips197.mul p4 (Fips197.mul p8 (Fips197.mul p16 (Fips197.mul p32 (Fips197.mul p64 p128)))))

theorem sbox_inv (x : UInt8) : ((x = 0 ∧ inv256 x = 0) ∨ Fips197.mul x (inv256 x) = 1) ∧ sbox x = Fips197.affine (inv256 x) := by
  revert x; apply forall_byte; decide +kernel

theorem rsbox_sbox (x : UInt8) : rsbox (sbox x) = x := by
  revert x; apply forall_byte; decide +kernel

set_option maxHeartbeats 4000000 in
theorem invMix0 (a b c d : UInt8) :
    multiply (a ^^^ (xtime (a ^^^ b) ^^^ (a ^^^ b ^^^ c ^^^ d))) 0x0e ^^^
    multiply (b ^^^ (xtime (b ^^^ c) ^^^ (a ^^^ b ^^^ c ^^^ d))) 0x0b ^^^
    multiply (c ^^^ (xtime (c ^^^ d) ^^^ (a ^^^ b ^^^ c ^^^ d))) 0x0d ^^^
    multiply (d ^^^ (xtime (d ^^^ a) ^^^ (a ^^^ b ^^^ c ^^^ d))) 0x09 = a := by
  simp only [mult_e, mult_b, mult_d, mult_9, xtime_xor]
  generalize xtime (xtime (xtime (xtime a))) = a4
  generalize xtime (xtime (xtime (xtime b))) = b4
  generalize xtime (xtime (xtime (xtime c))) = c4
  generalize xtime (xtime (xtime (xtime d))) = d4
  generalize xtime (xtime (xtime a)) = a3
  generalize xtime (xtime (xtime b)) = b3
  generalize xtime (xtime (xtime c)) = c3
  generalize xtime (xtime (xtime d)) = d3
  generalize xtime (xtime a) = a2
  generalize xtime (xtime b) = b2
  generalize xtime (xtime c) = c2
  generalize xtime (xtime d) = d2
  generalize xtime a = a1
  generalize xtime b = b1
  generalize xtime c = c1
  generalize xtime d = d1
  simp only [UInt8.xor_assoc, UInt8.xor_comm, xlc, UInt8.xor_self, UInt8.xor_zero, UInt8.zero_xor, xor_cancel]

set_option maxHeartbeats 4000000 in
theorem invMix1 (a b c d : UInt8) :
    multiply (a ^^^ (xtime (a ^^^ b) ^^^ (a ^^^ b ^^^ c ^^^ d))) 0x09 ^^^
    multiply (b ^^^ (xtime (b ^^^ c) ^^^ (a ^^^ b ^^^ c ^^^ d))) 0x0e ^^^
    multiply (c ^^^ (xtime (c ^^^ d) ^^^ (a ^^^ b ^^^ c ^^^ d))) 0x0b ^^^
    multiply (d ^^^ (xtime (d ^^^ a) ^^^ (a ^^^ b ^^^ c ^^^ d))) 0x0d = b := by
  simp only [mult_e, mult_b, mult_d, mult_9, xtime_xor]
  generalize xtime (xtime (xtime (xtime a))) = a4
  generalize xtime (xtime (xtime (xtime b))) = b4
  generalize xtime (xtime (xtime (xtime c))) = c4
  generalize xtime (xtime (xtime (xtime d))) = d4
  generalize xtime (xtime (xtime a)) = a3
  generalize xtime (xtime (xtime b)) = b3
  generalize xtime (xtime (xtime c)) = c3
  generalize xtime (xtime (xtime d)) = d3
  generalize xtime (xtime a) = a2
  generalize xtime (xtime b) = b2
  generalize xtime (xtime c) = c2
  generalize xtime (xtime d) = d2
  generalize xtime a = a1
  generalize xtime b = b1
  generalize xtime c = c1
  generalize xtime d = d1
  simp only [UInt8.xor_assoc, UInt8.xor_comm, xlc, UInt8.xor_self, UInt8.xor_zero, UInt8.zero_xor, xor_cancel]

set_option maxHeartbeats 4000000 in
theorem invMix2 (a b c d : UInt8) :
    multiply (a ^^^ (xtime (a ^^^ b) ^^^ (a ^^^ b ^^^ c ^^^ d))) 0x0d ^^^
    multiply (b ^^^ (xtime (b ^^^ c) ^^^ (a ^^^ b ^^^ c ^^^ d))) 0x09 ^^^
    multiply (c ^^^ (xtime (c ^^^ d) ^^^ (a ^^^ b ^^^ c ^^^ d))) 0x0e ^^^
    multiply (d ^^^ (xtime (d ^^^ a) ^^^ (a ^^^ b ^^^ c ^^^ d))) 0x0b = c := by
  simp only [mult_e, mult_b, mult_d, mult_9, xtime_xor]
  generalize xtime (xtime (xtime (xtime a))) = a4
  generalize xtime (xtime (xtime (xtime b))) = b4
  generalize xtime (xtime (xtime (xtime c))) = c4
  generalize xtime (xtime (xtime (xtime d))) = d4
  generalize xtime (xtime (xtime a)) = a3
  generalize xtime (xtime (xtime b)) = b3
  generalize xtime (xtime (xtime c)) = c3
  generalize xtime (xtime (xtime d)) = d3
  generalize xtime (xtime a) = a2
  generalize xtime (xtime b) = b2
  generalize xtime (xtime c) = c2
  generalize xtime (xtime d) = d2
  generalize xtime a = a1
  generalize xtime b = b1
  generalize xtime c = c1
  generalize xtime d = d1
  simp only [UInt8.xor_assoc, UInt8.xor_comm, xlc, UInt8.xor_self, UInt8.xor_zero, UInt8.zero_xor, xor_cancel]

set_option maxHeartbeats 4000000 in
theorem invMix3 (a b c d : UInt8) :
    multiply (a ^^^ (xtime (a ^^^ b) ^^^ (a ^^^ b ^^^ c ^^^ d))) 0x0b ^^^
    multiply (b ^^^ (xtime (b ^^^ c) ^^^ (a ^^^ b ^^^ c ^^^ d))) 0x0d ^^^
    multiply (c ^^^ (xtime (c ^^^ d) ^^^ (a ^^^ b ^^^ c ^^^ d))) 0x09 ^^^
    multiply (d ^^^ (xtime (d ^^^ a) ^^^ (a ^^^ b ^^^ c ^^^ d))) 0x0e = d := by
  simp only [mult_e, mult_b, mult_d, mult_9, xtime_xor]
  generalize xtime (xtime (xtime (xtime a))) = a4
  generalize xtime (xtime (xtime (xtime b))) = b4
  generalize xtime (xtime (xtime (xtime c))) = c4
  generalize xtime (xtime (xtime (xtime d))) = d4
  generalize xtime (xtime (xtime a)) = a3
  generalize xtime (xtime (xtime b)) = b3
  generalize xtime (xtime (xtime c)) = c3
  generalize xtime (xtime (xtime d)) = d3
  generalize xtime (xtime a) = a2
  generalize xtime (xtime b) = b2
  generalize xtime (xtime c) = c2
  generalize xtime (xtime d) = d2
  generalize xtime a = a1
  generalize xtime b = b1
  generalize xtime c = c1
  generalize xtime d = d1
  simp only [UInt8.xor_assoc, UInt8.xor_comm, xlc, UInt8.xor_self, UInt8.xor_zero, UInt8.zero_xor, xor_cancel]

/-- sixteen bytes -/
theorem bytes16 {s : List UInt8} (h : s.length = 16) : ∃ a b c d e f g i j k l m n o p q : UInt8, s = [a, b, c, d, e, f, g, i, j, k, l, m, n, o, p, q] := by
  match s, h with
  | [a, b, c, d, e, f, g, i, j, k, l, m, n, o, p, q], _ => exact ⟨_, _, _, _, _, _, _, _, _, _, _, _, _, _, _, _, rfl⟩

theorem shiftRows_eq (a b c d e f g i j k l m n o p q : UInt8) : shiftRows [a, b, c, d, e, f, g, i, j, k, l, m, n, o, p, q] =
    [a, f, l, q, e, k, p, d, j, o, c, i, n, b, g, m] := by
  simp [shiftRows, at4, put4]

theorem invShiftRows_eq (a b c d e f g i j k l m n o p q : UInt8) :
    invShiftRows [a, f, l, q, e, k, p, d, j, o, c, i, n, b, g, m] = [a, b, c, d, e, f, g, i, j, k, l, m, n, o, p, q] := by
  simp [invShiftRows, at4, put4]

theorem subBytes_eq (a b c d e f g i j k l m n o p q : UInt8) : subBytes [a, b, c, d, e, f, g, i, j, k, l, m, n, o, p, q] =
    [a, b, c, d, e, f, g, i, j, k, l, m, n, o, p, q].map sbox := by
  simp [subBytes, at4, put4, show List.range 4 = [0, 1, 2, 3] from rfl]

theorem invSubBytes_eq (a b c d e f g i j k l m n o p q : UInt8) : invSubBytes [a, b, c, d, e, f, g, i, j, k, l, m, n, o, p, q] =
    [a, b, c, d, e, f, g, i, j, k, l, m, n, o, p, q].map rsbox := by
  simp [invSubBytes, at4, put4, show List.range 4 = [0, 1, 2, 3] from rfl]

theorem addRoundKey_eq (round : Nat) (rk : List UInt8) (a b c d e f g i j k l m n o p q : UInt8) :
    addRoundKey round rk [a, b, c, d, e, f, g, i, j, k, l, m, n, o, p, q] =
      List.zipWith (· ^^^ ·) [a, b, c, d, e, f, g, i, j, k, l, m, n, o, p, q] ((List.range 16).map fun t => rk.getD (round * 4 * 4 + t) 0) := by
  simp [addRoundKey, at4, put4, show List.range 4 = [0, 1, 2, 3] from rfl, show List.range 16 = [0, 1, 2, 3, 4, 5, 6, 7, 8, 9, 10, 11, 12, 13, 14, 15] from rfl,
    Nat.add_assoc]

/-- what `MixColumns` makes of a column, with its four rows -/
def mixed (a b c d : UInt8) : List UInt8 :=
  [(a ^^^ (xtime (a ^^^ b) ^^^ (a ^^^ b ^^^ c ^^^ d))), (b ^^^ (xtime (b ^^^ c) ^^^ (a ^^^ b ^^^ c ^^^ d))),
    (c ^^^ (xtime (c ^^^ d) ^^^ (a ^^^ b ^^^ c ^^^ d))), (d ^^^ (xtime (d ^^^ a) ^^^ (a ^^^ b ^^^ c ^^^ d)))]

theorem mixColumns_eq (a b c d e f g i j k l m n o p q : UInt8) : mixColumns [a, b, c, d, e, f, g, i, j, k, l, m, n, o, p, q] =
    mixed a b c d ++ mixed e f g i ++ mixed j k l m ++ mixed n o p q := by
  simp [mixColumns, mixColumn, mixed, at4, put4, show List.range 4 = [0, 1, 2, 3] from rfl]

/-- what `InvMixColumns` makes of a column -/
def unmixed (a b c d : UInt8) : List UInt8 :=
  [multiply a 0x0e ^^^ multiply b 0x0b ^^^ multiply c 0x0d ^^^ multiply d 0x09,
    multiply a 0x09 ^^^ multiply b 0x0e ^^^ multiply c 0x0b ^^^ multiply d 0x0d,
    multiply a 0x0d ^^^ multiply b 0x09 ^^^ multiply c 0x0e ^^^ multiply d 0x0b,
    multiply a 0x0b ^^^ multiply b 0x0d ^^^ multiply c 0x09 ^^^ multiply d 0x0e]

theorem invMixColumns_eq (a b c d e f g i j k l m n o p q : UInt8) : invMixColumns [a, b, c, d, e, f, g, i, j, k, l, m, n, o, p, q] =
    unmixed a b c d ++ unmixed e f g i ++ unmixed j k l m ++ unmixed n o p q := by
  simp [invMixColumns, invMixColumn, unmixed, at4, put4, show List.range 4 = [0, 1, 2, 3] from rfl]

theorem unmixed_mixed (a b c d : UInt8) : unmixed (a ^^^ (xtime (a ^^^ b) ^^^ (a ^^^ b ^^^ c ^^^ d)))
    (b ^^^ (xtime (b ^^^ c) ^^^ (a ^^^ b ^^^ c ^^^ d)))
    (c ^^^ (xtime (c ^^^ d) ^^^ (a ^^^ b ^^^ c ^^^ d)))
    (d ^^^ (xtime (d ^^^ a) ^^^ (a ^^^ b ^^^ c ^^^ d))) = [a, b, c, d] := by
  simp only [unmixed, invMix0, invMix1, invMix2, invMix3]

/-! ## Each step is undone -/

theorem invShiftRows_shiftRows {s : List UInt8} (h : s.length = 16) : invShiftRows (shiftRows s) = s := by
  obtain ⟨a, b, c, d, e, f, g, i, j, k, l, m, n, o, p, q, rfl⟩ := bytes16 h
  rw [shiftRows_eq, invShiftRows_eq]

theorem invSubBytes_subBytes {s : List UInt8} (h : s.length = 16) : invSubBytes (subBytes s) = s := by
  obtain ⟨a, b, c, d, e, f, g, i, j, k, l, m, n, o, p, q, rfl⟩ := bytes16 h
  rw [subBytes_eq]
  simp only [List.map_cons, List.map_nil]
  rw [invSubBytes_eq]
  simp only [List.map_cons, List.map_nil, rsbox_sbox]

theorem invMixColumns_mixColumns {s : List UInt8} (h : s.length = 16) : invMixColumns (mixColumns s) = s := by
  obtain ⟨a, b, c, d, e, f, g, i, j, k, l, m, n, o, p, q, rfl⟩ := bytes16 h
  rw [mixColumns_eq]
  simp only [mixed, List.cons_append, List.nil_append]
  rw [invMixColumns_eq, unmixed_mixed, unmixed_mixed, unmixed_mixed, unmixed_mixed]
  rfl

theorem shiftRows_length {s : List UInt8} (h : s.length = 16) : (shiftRows s).length = 16 := by
  obtain ⟨a, b, c, d, e, f, g, i, j, k, l, m, n, o, p, q, rfl⟩ := bytes16 h
  rw [shiftRows_eq]; rfl

theorem subBytes_length {s : List UInt8} (h : s.length = 16) : (subBytes s).length = 16 := by
  obtain ⟨a, b, c, d, e, f, g, i, j, k, l, m, n, o, p, q, rfl⟩ := bytes16 h
  rw [subBytes_eq]; rfl

theorem mixColumns_length {s : List UInt8} (h : s.length = 16) : (mixColumns s).length = 16 := by
  obtain ⟨a, b, c, d, e, f, g, i, j, k, l, m, n, o, p, q, rfl⟩ := bytes16 h
  rw [mixColumns_eq]; rfl

theorem invShiftRows_length {s : List UInt8} (h : s.length = 16) : (invShiftRows s).length = 16 := by
  obtain ⟨a, b, c, d, e, f, g, i, j, k, l, m, n, o, p, q, rfl⟩ := bytes16 h
  rw [invShiftRows_eq]; rfl

theorem invSubBytes_length {s : List UInt8} (h : s.length = 16) : (invSubBytes s).length = 16 := by
  obtain ⟨a, b, c, d, e, f, g, i, j, k, l, m, n, o, p, q, rfl⟩ := bytes16 h
  rw [invSubBytes_eq]; rfl

theorem invMixColumns_length {s : List UInt8} (h : s.length = 16) : (invMixColumns s).length = 16 := by
  obtain ⟨a, b, c, d, e, f, g, i, j, k, l, m, n, o, p, q, rfl⟩ := bytes16 h
  rw [invMixColumns_eq]; rfl

/-- the bytes `AddRoundKey` adds -/
def keyBytes (round : Nat) (rk : List UInt8) : List UInt8 := (List.range 16).map fun t => rk.getD (round * 4 * 4 + t) 0

theorem addRoundKey_zip (round : Nat) (rk : List UInt8) {s : List UInt8} (h : s.length = 16) :
    addRoundKey round rk s = List.zipWith (· ^^^ ·) s (keyBytes round rk) := by
  obtain ⟨a, b, c, d, e, f, g, i, j, k, l, m, n, o, p, q, rfl⟩ := bytes16 h
  exact addRoundKey_eq round rk a b c d e f g i j k l m n o p q

theorem addRoundKey_length (round : Nat) (rk : List UInt8) {s : List UInt8} (h : s.length = 16) :
    (addRoundKey round rk s).length = 16 := by
  rw [addRoundKey_zip round rk h]; simp [h, keyBytes]

theorem zip_xor_twice (s t : List UInt8) (h : s.length = t.length) :
    List.zipWith (· ^^^ ·) (List.zipWith (· ^^^ ·) s t) t = s := by
  induction s generalizing t with
  | nil => cases t <;> rfl
  | cons x s ih =>
    cases t with
    | nil => simp at h
    | cons y t =>
      simp only [List.zipWith_cons_cons, ih t (by simpa using h)]
      rw [UInt8.xor_assoc, UInt8.xor_self, UInt8.xor_zero]

theorem addRoundKey_twice (round : Nat) (rk : List UInt8) {s : List UInt8} (h : s.length = 16) :
    addRoundKey round rk (addRoundKey round rk s) = s := by
  rw [addRoundKey_zip round rk (addRoundKey_length round rk h), addRoundKey_zip round rk h]
  exact zip_xor_twice _ _ (by simp [h, keyBytes])

attribute [local irreducible] addRoundKey mixColumns shiftRows subBytes invMixColumns invSubBytes invShiftRows

theorem rounds_length (rk : List UInt8) (L : List Nat) {s : List UInt8} (h : s.length = 16) :
    (L.foldl (fun s round => addRoundKey round rk (mixColumns (shiftRows (subBytes s)))) s).length = 16 := by
  induction L generalizing s with
  | nil => exact h
  | cons r L ih => exact ih (addRoundKey_length _ _ (mixColumns_length (shiftRows_length (subBytes_length h))))

theorem cipher_length (rk : List UInt8) {s : List UInt8} (h : s.length = 16) : (cipher rk s).length = 16 :=
  addRoundKey_length _ _ (shiftRows_length (subBytes_length (rounds_length rk _ (addRoundKey_length _ _ h))))

theorem invRounds_length (rk : List UInt8) (L : List Nat) {s : List UInt8} (h : s.length = 16) :
    (L.foldl (fun s round => invMixColumns (addRoundKey round rk (invSubBytes (invShiftRows s)))) s).length = 16 := by
  induction L generalizing s with
  | nil => exact h
  | cons r L ih => exact ih (invMixColumns_length (addRoundKey_length _ _ (invSubBytes_length (invShiftRows_length h))))

theorem invCipher_length (rk : List UInt8) {s : List UInt8} (h : s.length = 16) : (invCipher rk s).length = 16 :=
  addRoundKey_length _ _ (invSubBytes_length (invShiftRows_length (invRounds_length rk _ (addRoundKey_length _ _ h))))

theorem rounds_undone (rk : List UInt8) (L : List Nat) {s : List UInt8} (h : s.length = 16) :
    L.reverse.foldl (fun s round => invMixColumns (addRoundKey round rk (invSubBytes (invShiftRows s))))
      (shiftRows (subBytes (L.foldl (fun s round => addRoundKey round rk (mixColumns (shiftRows (subBytes s)))) s))) =
      shiftRows (subBytes s) := by
  induction L generalizing s with
  | nil => rfl
  | cons r L ih =>
    have h1 := mixColumns_length (shiftRows_length (subBytes_length h))
    have h2 := addRoundKey_length r rk h1
    rw [List.reverse_cons, List.foldl_append]
    simp only [List.foldl_cons, List.foldl_nil]
    rw [ih h2]
    rw [invShiftRows_shiftRows (subBytes_length h2), invSubBytes_subBytes h2, addRoundKey_twice _ _ h1,
      invMixColumns_mixColumns (shiftRows_length (subBytes_length h))]

/-- decryption undoes encryption -/
theorem invCipher_cipher (rk : List UInt8) {s : List UInt8} (h : s.length = 16) : invCipher rk (cipher rk s) = s := by
  have h0 := addRoundKey_length 0 rk h
  have h1 := rounds_length rk (List.range' 1 13) h0
  unfold cipher invCipher
  simp only
  rw [addRoundKey_twice _ _ (shiftRows_length (subBytes_length h1)), rounds_undone rk _ h0,
    invShiftRows_shiftRows (subBytes_length h0), invSubBytes_subBytes h0, addRoundKey_twice _ _ h]

end Verif.Encryption
