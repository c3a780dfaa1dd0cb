/-!
# AES-256 as specified by FIPS-197

Independent of the code: the field GF(2^8), the S-box as an affine map of the inverse, the rounds on a matrix of four rows and
four columns, and the key expansion by words.
-/
namespace Verif.Fips197

/-- multiplication by `x` in GF(2)[x] / (x^8 + x^4 + x^3 + x + 1); bit `i` of a byte is the coefficient of `x^i` (§4.2.1) -/
def mulX (b : UInt8) : UInt8 := if b.toNat ≥ 128 then UInt8.ofNat ((2 * b.toNat) ^^^ 0x11b) else UInt8.ofNat (2 * b.toNat)

/-- multiplication by `x^n` -/
def mulXPow (b : UInt8) : Nat → UInt8
  | 0 => b
  | n + 1 => mulX (mulXPow b n)

/-- multiplication in the field: the sum of `a * x^i` over the bits `i` of `b` (§4.2) -/
def mul (a b : UInt8) : UInt8 :=
  (List.range 8).foldl (fun acc i => if b.toNat.testBit i then acc ^^^ mulXPow a i else acc) 0

/-- the affine map of §5.1.1: bit `i` is `b_i + b_(i+4) + b_(i+5) + b_(i+6) + b_(i+7) + c_i`, indices modulo 8, `c = 0x63` -/
def affine (b : UInt8) : UInt8 :=
  let bit (i : Nat) : Bool := b.toNat.testBit (i % 8)
  UInt8.ofNat ((List.range 8).foldl (fun acc i =>
    acc + if ((((bit i).xor (bit (i + 4))).xor (bit (i + 5))).xor (bit (i + 6))).xor (bit (i + 7)) |>.xor (Nat.testBit 0x63 i)
      then 2 ^ i else 0) 0)

/-- `s` is the S-box value of `x`: the affine map of the inverse of `x`, or of zero if `x` is zero -/
def IsSBox (x s : UInt8) : Prop := ∃ y, ((x = 0 ∧ y = 0) ∨ mul x y = 1) ∧ s = affine y

/-- the state: row, column -/
abbrev Matrix := Fin 4 → Fin 4 → UInt8

/-- §3.4: byte `r + 4c` of the input is at row `r`, column `c` -/
def toMatrix (b : List UInt8) : Matrix := fun r c => b.getD (r + 4 * c) 0

/-- §5.1.2: row `r` is rotated left by `r` -/
def shiftRows (m : Matrix) : Matrix := fun r c => m r (c + r)

/-- §5.1.3 -/
def mixColumns (m : Matrix) : Matrix := fun r c =>
  mul (m r c) 2 ^^^ mul (m (r + 1) c) 3 ^^^ m (r + 2) c ^^^ m (r + 3) c

/-- §5.1.4: column `c` is added to word `4 * round + c` of the schedule -/
def addRoundKey (w : Nat → Fin 4 → UInt8) (round : Nat) (m : Matrix) : Matrix := fun r c => m r c ^^^ w (4 * round + c) r

/-- the S-box on every byte, for a function `S` with `IsSBox` -/
def subBytes (S : UInt8 → UInt8) (m : Matrix) : Matrix := fun r c => S (m r c)

/-- rounds `round`, …, `round + n - 1` of the loop of figure 5 -/
def rounds (S : UInt8 → UInt8) (w : Nat → Fin 4 → UInt8) : Nat → Nat → Matrix → Matrix
  | _, 0, m => m
  | round, n + 1, m => rounds S w (round + 1) n (addRoundKey w round (mixColumns (shiftRows (subBytes S m))))

/-- figure 5, for 14 rounds -/
def cipher (S : UInt8 → UInt8) (w : Nat → Fin 4 → UInt8) (m : Matrix) : Matrix :=
  addRoundKey w 14 (shiftRows (subBytes S (rounds S w 1 13 (addRoundKey w 0 m))))

/-- §5.2 and figure 11, `Nk = 8`: `w` is the key schedule of `key`. `Rcon[j]` is `x^(j-1)` in the first byte. -/
structure IsSchedule (S : UInt8 → UInt8) (key : List UInt8) (w : Nat → Fin 4 → UInt8) : Prop where
  first : ∀ i, i < 8 → ∀ j, w i j = key.getD (4 * i + j) 0
  rot : ∀ i, 8 ≤ i → i < 60 → i % 8 = 0 → ∀ j,
    w i j = w (i - 8) j ^^^ (S (w (i - 1) (j + 1)) ^^^ if j = 0 then mulXPow 1 (i / 8 - 1) else 0)
  sub : ∀ i, 8 ≤ i → i < 60 → i % 8 = 4 → ∀ j, w i j = w (i - 8) j ^^^ S (w (i - 1) j)
  plain : ∀ i, 8 ≤ i → i < 60 → i % 8 ≠ 0 → i % 8 ≠ 4 → ∀ j, w i j = w (i - 8) j ^^^ w (i - 1) j

end Verif.Fips197
