import Verif.Core.Res
/-!
# AES

Source: src/encryption/aes.cpp with the configuration of aes.h (AES256: `Nk = 8`, `Nr = 14`, key of 32 bytes).

`state_t` is the buffer of 16 bytes itself, `(*state)[i][j]` is byte `4 * i + j`. All indices in these functions are constants
inside the arrays, so reads and writes are total here; `getD`'s default and `set` beyond the end do not occur on 16 bytes.
-/
namespace Verif.Encryption

/-- aes.cpp:80-97 -/
def sboxTable : List UInt8 := [
  0x63, 0x7c, 0x77, 0x7b, 0xf2, 0x6b, 0x6f, 0xc5, 0x30, 0x01, 0x67, 0x2b, 0xfe, 0xd7, 0xab, 0x76,
  0xca, 0x82, 0xc9, 0x7d, 0xfa, 0x59, 0x47, 0xf0, 0xad, 0xd4, 0xa2, 0xaf, 0x9c, 0xa4, 0x72, 0xc0,
  0xb7, 0xfd, 0x93, 0x26, 0x36, 0x3f, 0xf7, 0xcc, 0x34, 0xa5, 0xe5, 0xf1, 0x71, 0xd8, 0x31, 0x15,
  0x04, 0xc7, 0x23, 0xc3, 0x18, 0x96, 0x05, 0x9a, 0x07, 0x12, 0x80, 0xe2, 0xeb, 0x27, 0xb2, 0x75,
  0x09, 0x83, 0x2c, 0x1a, 0x1b, 0x6e, 0x5a, 0xa0, 0x52, 0x3b, 0xd6, 0xb3, 0x29, 0xe3, 0x2f, 0x84,
  0x53, 0xd1, 0x00, 0xed, 0x20, 0xfc, 0xb1, 0x5b, 0x6a, 0xcb, 0xbe, 0x39, 0x4a, 0x4c, 0x58, 0xcf,
  0xd0, 0xef, 0xaa, 0xfb, 0x43, 0x4d, 0x33, 0x85, 0x45, 0xf9, 0x02, 0x7f, 0x50, 0x3c, 0x9f, 0xa8,
  0x51, 0xa3, 0x40, 0x8f, 0x92, 0x9d, 0x38, 0xf5, 0xbc, 0xb6, 0xda, 0x21, 0x10, 0xff, 0xf3, 0xd2,
  0xcd, 0x0c, 0x13, 0xec, 0x5f, 0x97, 0x44, 0x17, 0xc4, 0xa7, 0x7e, 0x3d, 0x64, 0x5d, 0x19, 0x73,
  0x60, 0x81, 0x4f, 0xdc, 0x22, 0x2a, 0x90, 0x88, 0x46, 0xee, 0xb8, 0x14, 0xde, 0x5e, 0x0b, 0xdb,
  0xe0, 0x32, 0x3a, 0x0a, 0x49, 0x06, 0x24, 0x5c, 0xc2, 0xd3, 0xac, 0x62, 0x91, 0x95, 0xe4, 0x79,
  0xe7, 0xc8, 0x37, 0x6d, 0x8d, 0xd5, 0x4e, 0xa9, 0x6c, 0x56, 0xf4, 0xea, 0x65, 0x7a, 0xae, 0x08,
  0xba, 0x78, 0x25, 0x2e, 0x1c, 0xa6, 0xb4, 0xc6, 0xe8, 0xdd, 0x74, 0x1f, 0x4b, 0xbd, 0x8b, 0x8a,
  0x70, 0x3e, 0xb5, 0x66, 0x48, 0x03, 0xf6, 0x0e, 0x61, 0x35, 0x57, 0xb9, 0x86, 0xc1, 0x1d, 0x9e,
  0xe1, 0xf8, 0x98, 0x11, 0x69, 0xd9, 0x8e, 0x94, 0x9b, 0x1e, 0x87, 0xe9, 0xce, 0x55, 0x28, 0xdf,
  0x8c, 0xa1, 0x89, 0x0d, 0xbf, 0xe6, 0x42, 0x68, 0x41, 0x99, 0x2d, 0x0f, 0xb0, 0x54, 0xbb, 0x16]

/-- aes.cpp:99-115 -/
def rsboxTable : List UInt8 := [
  0x52, 0x09, 0x6a, 0xd5, 0x30, 0x36, 0xa5, 0x38, 0xbf, 0x40, 0xa3, 0x9e, 0x81, 0xf3, 0xd7, 0xfb,
  0x7c, 0xe3, 0x39, 0x82, 0x9b, 0x2f, 0xff, 0x87, 0x34, 0x8e, 0x43, 0x44, 0xc4, 0xde, 0xe9, 0xcb,
  0x54, 0x7b, 0x94, 0x32, 0xa6, 0xc2, 0x23, 0x3d, 0xee, 0x4c, 0x95, 0x0b, 0x42, 0xfa, 0xc3, 0x4e,
  0x08, 0x2e, 0xa1, 0x66, 0x28, 0xd9, 0x24, 0xb2, 0x76, 0x5b, 0xa2, 0x49, 0x6d, 0x8b, 0xd1, 0x25,
  0x72, 0xf8, 0xf6, 0x64, 0x86, 0x68, 0x98, 0x16, 0xd4, 0xa4, 0x5c, 0xcc, 0x5d, 0x65, 0xb6, 0x92,
  0x6c, 0x70, 0x48, 0x50, 0xfd, 0xed, 0xb9, 0xda, 0x5e, 0x15, 0x46, 0x57, 0xa7, 0x8d, 0x9d, 0x84,
  0x90, 0xd8, 0xab, 0x00, 0x8c, 0xbc, 0xd3, 0x0a, 0xf7, 0xe4, 0x58, 0x05, 0xb8, 0xb3, 0x45, 0x06,
  0xd0, 0x2c, 0x1e, 0x8f, 0xca, 0x3f, 0x0f, 0x02, 0xc1, 0xaf, 0xbd, 0x03, 0x01, 0x13, 0x8a, 0x6b,
  0x3a, 0x91, 0x11, 0x41, 0x4f, 0x67, 0xdc, 0xea, 0x97, 0xf2, 0xcf, 0xce, 0xf0, 0xb4, 0xe6, 0x73,
  0x96, 0xac, 0x74, 0x22, 0xe7, 0xad, 0x35, 0x85, 0xe2, 0xf9, 0x37, 0xe8, 0x1c, 0x75, 0xdf, 0x6e,
  0x47, 0xf1, 0x1a, 0x71, 0x1d, 0x29, 0xc5, 0x89, 0x6f, 0xb7, 0x62, 0x0e, 0xaa, 0x18, 0xbe, 0x1b,
  0xfc, 0x56, 0x3e, 0x4b, 0xc6, 0xd2, 0x79, 0x20, 0x9a, 0xdb, 0xc0, 0xfe, 0x78, 0xcd, 0x5a, 0xf4,
  0x1f, 0xdd, 0xa8, 0x33, 0x88, 0x07, 0xc7, 0x31, 0xb1, 0x12, 0x10, 0x59, 0x27, 0x80, 0xec, 0x5f,
  0x60, 0x51, 0x7f, 0xa9, 0x19, 0xb5, 0x4a, 0x0d, 0x2d, 0xe5, 0x7a, 0x9f, 0x93, 0xc9, 0x9c, 0xef,
  0xa0, 0xe0, 0x3b, 0x4d, 0xae, 0x2a, 0xf5, 0xb0, 0xc8, 0xeb, 0xbb, 0x3c, 0x83, 0x53, 0x99, 0x61,
  0x17, 0x2b, 0x04, 0x7e, 0xba, 0x77, 0xd6, 0x26, 0xe1, 0x69, 0x14, 0x63, 0x55, 0x21, 0x0c, 0x7d]

/-- `getSBoxValue`, aes.cpp:142 -/
def sbox (x : UInt8) : UInt8 := sboxTable.getD x.toNat 0
/-- `getSBoxInvert`, aes.cpp:149 -/
def rsbox (x : UInt8) : UInt8 := rsboxTable.getD x.toNat 0

/-- aes.cpp:119-120 -/
def rcon : List UInt8 := [0x8d, 0x01, 0x02, 0x04, 0x08, 0x10, 0x20, 0x40, 0x80, 0x1b, 0x36]

/-! ## Key expansion -/

/-- the body of the second loop of `KeyExpansion` for the word `i`, aes.cpp:168-222; the words computed so far are in `rk` -/
def expandStep (rk : List UInt8) (i : Nat) : List UInt8 :=
  let k := (i - 1) * 4
  let a0 := rk.getD (k + 0) 0
  let a1 := rk.getD (k + 1) 0
  let a2 := rk.getD (k + 2) 0
  let a3 := rk.getD (k + 3) 0
  let (a0, a1, a2, a3) :=
    if i % 8 = 0 then
      let (a0, a1, a2, a3) := (a1, a2, a3, a0)
      let (a0, a1, a2, a3) := (sbox a0, sbox a1, sbox a2, sbox a3)
      (a0 ^^^ rcon.getD (i / 8) 0, a1, a2, a3)
    else (a0, a1, a2, a3)
  let (a0, a1, a2, a3) := if i % 8 = 4 then (sbox a0, sbox a1, sbox a2, sbox a3) else (a0, a1, a2, a3)
  let k := (i - 8) * 4
  rk ++ [rk.getD (k + 0) 0 ^^^ a0, rk.getD (k + 1) 0 ^^^ a1, rk.getD (k + 2) 0 ^^^ a2, rk.getD (k + 3) 0 ^^^ a3]

/-- `KeyExpansion`, aes.cpp:152-223: the key, then the words 8 to 59; `RoundKey` is filled in order, so it is a growing list -/
def keyExpansion (key : List UInt8) : List UInt8 :=
  (List.range' 8 52).foldl expandStep (key.take 32)

/-- `default_key`, aes.cpp:227-228 -/
def defaultKey : List UInt8 := [
  0x60, 0x3d, 0xeb, 0x10, 0x15, 0xca, 0x71, 0xbe, 0x2b, 0x73, 0xae, 0xf0, 0x85, 0x7d, 0x77, 0x81,
  0x1f, 0x35, 0x2c, 0x07, 0x3b, 0x61, 0x08, 0xd7, 0x2d, 0x98, 0x10, 0xa3, 0x09, 0x14, 0xdf, 0xf4]

/-- the key used by `AES_init_ctx`, aes.cpp:230-236: the beginning of the default key is overwritten by (at most 32 bytes of) the
given key; the length is passed as `uint32_t` -/
def effectiveKey (key : List UInt8) : List UInt8 :=
  let len := key.length % 4294967296
  if len ≥ 32 then key.take 32 else key.take len ++ defaultKey.drop len

/-- `AES_init_ctx`, aes.cpp:225-238 -/
def initCtx (key : List UInt8) : List UInt8 := keyExpansion (effectiveKey key)

/-! ## The state -/

/-- `(*state)[i][j]` -/
def at4 (s : List UInt8) (i j : Nat) : UInt8 := s.getD (4 * i + j) 0
/-- `(*state)[i][j] = v` -/
def put4 (s : List UInt8) (i j : Nat) (v : UInt8) : List UInt8 := s.set (4 * i + j) v

/-- `AddRoundKey`, aes.cpp:279-289 -/
def addRoundKey (round : Nat) (rk : List UInt8) (s : List UInt8) : List UInt8 :=
  (List.range 4).foldl (fun s i => (List.range 4).foldl (fun s j =>
    put4 s i j (at4 s i j ^^^ rk.getD (round * 4 * 4 + i * 4 + j) 0)) s) s

/-- `SubBytes`, aes.cpp:293-303 -/
def subBytes (s : List UInt8) : List UInt8 :=
  (List.range 4).foldl (fun s i => (List.range 4).foldl (fun s j => put4 s j i (sbox (at4 s j i))) s) s

/-- `ShiftRows`, aes.cpp:308-334 -/
def shiftRows (s : List UInt8) : List UInt8 :=
  let temp := at4 s 0 1
  let s := put4 s 0 1 (at4 s 1 1)
  let s := put4 s 1 1 (at4 s 2 1)
  let s := put4 s 2 1 (at4 s 3 1)
  let s := put4 s 3 1 temp
  let temp := at4 s 0 2
  let s := put4 s 0 2 (at4 s 2 2)
  let s := put4 s 2 2 temp
  let temp := at4 s 1 2
  let s := put4 s 1 2 (at4 s 3 2)
  let s := put4 s 3 2 temp
  let temp := at4 s 0 3
  let s := put4 s 0 3 (at4 s 3 3)
  let s := put4 s 3 3 (at4 s 2 3)
  let s := put4 s 2 3 (at4 s 1 3)
  put4 s 1 3 temp

/-- `xtime`, aes.cpp:336-339; the product is an `int`, cut to a byte on return -/
def xtime (x : UInt8) : UInt8 := (x <<< 1) ^^^ (((x >>> 7) &&& 1) * 0x1b)

/-- the body of the loop of `MixColumns`, aes.cpp:348-353 -/
def mixColumn (s : List UInt8) (i : Nat) : List UInt8 :=
  let t := at4 s i 0
  let tmp := at4 s i 0 ^^^ at4 s i 1 ^^^ at4 s i 2 ^^^ at4 s i 3
  let tm := xtime (at4 s i 0 ^^^ at4 s i 1)
  let s := put4 s i 0 (at4 s i 0 ^^^ (tm ^^^ tmp))
  let tm := xtime (at4 s i 1 ^^^ at4 s i 2)
  let s := put4 s i 1 (at4 s i 1 ^^^ (tm ^^^ tmp))
  let tm := xtime (at4 s i 2 ^^^ at4 s i 3)
  let s := put4 s i 2 (at4 s i 2 ^^^ (tm ^^^ tmp))
  let tm := xtime (at4 s i 3 ^^^ t)
  put4 s i 3 (at4 s i 3 ^^^ (tm ^^^ tmp))

/-- `MixColumns`, aes.cpp:342-355 -/
def mixColumns (s : List UInt8) : List UInt8 := (List.range 4).foldl mixColumn s

/-- `Multiply`, aes.cpp:371-376 -/
def multiply (x y : UInt8) : UInt8 :=
  let bit (n : UInt8) : UInt8 := (y >>> n) &&& 1
  ((y &&& 1) * x) ^^^ (bit 1 * xtime x) ^^^ (bit 2 * xtime (xtime x)) ^^^ (bit 3 * xtime (xtime (xtime x))) ^^^
    (bit 4 * xtime (xtime (xtime (xtime x))))

/-- the body of the loop of `InvMixColumns`, aes.cpp:390-398 -/
def invMixColumn (s : List UInt8) (i : Nat) : List UInt8 :=
  let a := at4 s i 0
  let b := at4 s i 1
  let c := at4 s i 2
  let d := at4 s i 3
  let s := put4 s i 0 (multiply a 0x0e ^^^ multiply b 0x0b ^^^ multiply c 0x0d ^^^ multiply d 0x09)
  let s := put4 s i 1 (multiply a 0x09 ^^^ multiply b 0x0e ^^^ multiply c 0x0b ^^^ multiply d 0x0d)
  let s := put4 s i 2 (multiply a 0x0d ^^^ multiply b 0x09 ^^^ multiply c 0x0e ^^^ multiply d 0x0b)
  put4 s i 3 (multiply a 0x0b ^^^ multiply b 0x0d ^^^ multiply c 0x09 ^^^ multiply d 0x0e)

/-- `InvMixColumns`, aes.cpp:384-400 -/
def invMixColumns (s : List UInt8) : List UInt8 := (List.range 4).foldl invMixColumn s

/-- `InvSubBytes`, aes.cpp:405-415 -/
def invSubBytes (s : List UInt8) : List UInt8 :=
  (List.range 4).foldl (fun s i => (List.range 4).foldl (fun s j => put4 s j i (rsbox (at4 s j i))) s) s

/-- `InvShiftRows`, aes.cpp:417-443 -/
def invShiftRows (s : List UInt8) : List UInt8 :=
  let temp := at4 s 3 1
  let s := put4 s 3 1 (at4 s 2 1)
  let s := put4 s 2 1 (at4 s 1 1)
  let s := put4 s 1 1 (at4 s 0 1)
  let s := put4 s 0 1 temp
  let temp := at4 s 0 2
  let s := put4 s 0 2 (at4 s 2 2)
  let s := put4 s 2 2 temp
  let temp := at4 s 1 2
  let s := put4 s 1 2 (at4 s 3 2)
  let s := put4 s 3 2 temp
  let temp := at4 s 0 3
  let s := put4 s 0 3 (at4 s 1 3)
  let s := put4 s 1 3 (at4 s 2 3)
  let s := put4 s 2 3 (at4 s 3 3)
  put4 s 3 3 temp

/-- `Cipher`, aes.cpp:447-470 -/
def cipher (rk : List UInt8) (s : List UInt8) : List UInt8 :=
  let s := addRoundKey 0 rk s
  let s := (List.range' 1 13).foldl (fun s round => addRoundKey round rk (mixColumns (shiftRows (subBytes s)))) s
  addRoundKey 14 rk (shiftRows (subBytes s))

/-- `InvCipher`, aes.cpp:473-495 -/
def invCipher (rk : List UInt8) (s : List UInt8) : List UInt8 :=
  let s := addRoundKey 14 rk s
  let s := (List.range' 1 13).reverse.foldl
    (fun s round => invMixColumns (addRoundKey round rk (invSubBytes (invShiftRows s)))) s
  addRoundKey 0 rk (invSubBytes (invShiftRows s))

/-! ## CBC and CTR -/

/-- `XorWithIv`, aes.cpp:527-534 -/
def xorBytes (buf iv : List UInt8) : List UInt8 := List.zipWith (· ^^^ ·) buf iv

/-- `AES_CBC_encrypt_buffer`, aes.cpp:536-550, for `n` blocks: the new buffer, and the new `Iv` -/
def cbcEncrypt (rk : List UInt8) : Nat → List UInt8 → List UInt8 → List UInt8 × List UInt8
  | 0, iv, _ => ([], iv)
  | n + 1, iv, buf =>
    let b := cipher rk (xorBytes (buf.take 16) iv)
    let r := cbcEncrypt rk n b (buf.drop 16)
    (b ++ r.1, r.2)

/-- `AES_CBC_decrypt_buffer`, aes.cpp:552-565 -/
def cbcDecrypt (rk : List UInt8) : Nat → List UInt8 → List UInt8 → List UInt8 × List UInt8
  | 0, iv, _ => ([], iv)
  | n + 1, iv, buf =>
    let b := xorBytes (invCipher rk (buf.take 16)) iv
    let r := cbcDecrypt rk n (buf.take 16) (buf.drop 16)
    (b ++ r.1, r.2)

/-- the increment of `Iv`, aes.cpp:589-599: from the last byte on, 255 becomes 0 and carries; the list is reversed here -/
def incRev : List UInt8 → List UInt8
  | [] => []
  | b :: r => if b = 255 then 0 :: incRev r else (b + 1) :: r

/-- `AES_CTR_xcrypt_buffer`, aes.cpp:574-605: `bi` bytes of `buffer` are used; 16 asks for the next ones. Gives the new buffer,
and the new `Iv`. -/
def ctrXcrypt (rk : List UInt8) : List UInt8 → Nat → List UInt8 → List UInt8 → List UInt8 × List UInt8
  | iv, _, _, [] => ([], iv)
  | iv, bi, buffer, x :: rest =>
    let (iv', bi', buffer') := if bi = 16 then ((incRev iv.reverse).reverse, 0, cipher rk iv) else (iv, bi, buffer)
    let r := ctrXcrypt rk iv' (bi' + 1) buffer' rest
    ((x ^^^ buffer'.getD bi' 0) :: r.1, r.2)

/-- `AES_init_ctx_iv`, aes.cpp:241-269: `KeyExpansion` is given the caller's key and not the completed one, so 32 bytes are read
from it. (`std::string` keys have a terminating zero, not modelled.) -/
def initCtxIv (key iv : List UInt8) : Verif.Core.Res (List UInt8 × List UInt8) :=
  let defaultIv : List UInt8 := (List.range 16).map fun i => UInt8.ofNat (0xf0 + i)
  let iv' := if iv.length > 0 then (if iv.length ≥ 16 then iv.take 16 else iv ++ defaultIv.drop iv.length) else defaultIv
  if key.length < 32 then .ub else .ok (keyExpansion key, iv')

end Verif.Encryption
