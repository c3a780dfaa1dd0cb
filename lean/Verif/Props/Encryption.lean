import Verif.Encryption.StreamSafe
import Verif.Encryption.AesFips
import Verif.Encryption.AesUnique
import Verif.Encryption.Modes
import Mathlib.Tactic.Ring
/-!
# C52, C53, C54: encrypted module files

Clients of the streams (`save`, `load`), and the specification of what they should get (`cut`).
-/
namespace Verif.Props
open Verif.Core Verif.Encryption

attribute [local irreducible] cipher invCipher initCtx

/-- a client writes the pieces one after the other -/
def writes (enc : List UInt8 → List UInt8) : Writer → List (List UInt8) → Res Writer
  | w, [] => .ok w
  | w, b :: bs => do
    let w' ← w.write enc b
    writes enc w' bs

/-- a client opens a file with a key for writing, writes the pieces, closes: the file -/
def save (key : List UInt8) (pieces : List (List UInt8)) : Res (List UInt8) := do
  let w ← writes (cipher (initCtx key)) Writer.new pieces
  .ok (w.close (cipher (initCtx key)))

/-- a client reads `s` bytes for every `s` of the list; an exception ends it -/
def reads (dec : List UInt8 → List UInt8) : Reader → List Nat → Res (List (List UInt8))
  | _, [] => .ok []
  | r, s :: ss => do
    let x ← r.read dec s
    let xs ← reads dec x.2 ss
    .ok (x.1 :: xs)

/-- a client opens a file with a key and reads -/
def load (key file : List UInt8) (sizes : List Nat) : Res (List (List UInt8)) :=
  reads (invCipher (initCtx key)) (Reader.new file) sizes

/-- specification: data cut into pieces of the given sizes -/
def cut : List Nat → List UInt8 → List (List UInt8)
  | [], _ => []
  | s :: ss, d => d.take s :: cut ss (d.drop s)

/-- every request is below 2 GiB (a request beyond the end counts as the end) -/
def Requests (sizes : List Nat) (data : List UInt8) : Prop := ∀ s ∈ sizes, min s data.length + 16 < 2147483648

theorem aes_inverse (key : List UInt8) : Inverse (cipher (initCtx key)) (invCipher (initCtx key)) :=
  ⟨fun _ h => cipher_length _ h, fun _ h => invCipher_cipher _ h⟩

theorem writes_has (enc : List UInt8 → List UInt8) (w : Writer) (pieces : List (List UInt8)) (data : List UInt8) (h : w.Has enc data) :
    ∃ w', writes enc w pieces = .ok w' ∧ w'.Has enc (data ++ pieces.flatten) := by
  induction pieces generalizing w data with
  | nil => exact ⟨w, rfl, by simpa using h⟩
  | cons b bs ih =>
    obtain ⟨w1, e1, h1⟩ := write_has enc w b data h
    obtain ⟨w2, e2, h2⟩ := ih w1 _ h1
    refine ⟨w2, ?_, by simpa using h2⟩
    unfold writes
    rw [e1, Res.bind_ok, e2]

theorem save_isFile (key : List UInt8) (pieces : List (List UInt8)) :
    ∃ file, save key pieces = .ok file ∧ IsFile (cipher (initCtx key)) file pieces.flatten := by
  obtain ⟨w, e, h⟩ := writes_has (cipher (initCtx key)) Writer.new pieces [] ⟨by simp [Writer.new], [], by intro b hb; simp at hb, by simp [Writer.new], by simp [Writer.new]⟩
  refine ⟨_, by unfold save; rw [e, Res.bind_ok], ?_⟩
  rw [List.nil_append] at h
  exact close_isFile _ w _ h

theorem reads_ok {enc dec : List UInt8 → List UInt8} (hi : Inverse enc dec) (ss : List Nat) (r : Reader) (data : List UInt8)
    (h : r.Has enc data) (hsum : ss.sum ≤ data.length) (hreq : Requests ss data) :
    ∃ r', r'.Has enc (data.drop ss.sum) ∧
      ∀ tail, reads dec r (ss ++ tail) = (do let xs ← reads dec r' tail; .ok (cut ss data ++ xs)) := by
  induction ss generalizing r data with
  | nil =>
    refine ⟨r, by simpa using h, fun tail => ?_⟩
    rw [List.nil_append]
    cases reads dec r tail <;> rfl
  | cons s ss ih =>
    rw [List.sum_cons] at hsum
    rcases read_ok hi r s data h (hreq s (by simp)) with ⟨hd, hs, _⟩ | ⟨r1, e, h1, _⟩
    · rw [hd] at hsum; simp at hsum; omega
    · obtain ⟨r2, h2, e2⟩ := ih r1 (data.drop s) h1 (by rw [List.length_drop]; omega)
        (fun t ht => by have := hreq t (by simp [ht]); rw [List.length_drop]; omega)
      refine ⟨r2, by rw [List.sum_cons, ← List.drop_drop]; exact h2, fun tail => ?_⟩
      have hr : reads dec r (s :: ss ++ tail) = (do
          let x ← r.read dec s
          let xs ← reads dec x.2 (ss ++ tail)
          .ok (x.1 :: xs)) := rfl
      rw [hr, e, Res.bind_ok]
      simp only
      rw [e2 tail]
      cases reads dec r2 tail <;> rfl

/-- C52. Whatever the key, the data and the way it is written in pieces: the file read back with the same key gives the data, in
pieces of the sizes asked for. -/
theorem C52_round_trip (key : List UInt8) (pieces : List (List UInt8)) :
    ∃ file, save key pieces = .ok file ∧ ∀ sizes, sizes.sum ≤ pieces.flatten.length → Requests sizes pieces.flatten →
      load key file sizes = .ok (cut sizes pieces.flatten) := by
  obtain ⟨file, e, hf⟩ := save_isFile key pieces
  refine ⟨file, e, fun sizes hs hr => ?_⟩
  obtain ⟨r', _, h⟩ := reads_ok (aes_inverse key) sizes _ _ (new_has file _ hf) hs hr
  have := h []
  rw [List.append_nil] at this
  unfold load
  rw [this, reads, Res.bind_ok, List.append_nil]

/-- C52. A request that goes beyond the end gets what is left. -/
theorem C52_short_read (key : List UInt8) (pieces : List (List UInt8)) :
    ∃ file, save key pieces = .ok file ∧ ∀ sizes s, sizes.sum < pieces.flatten.length → Requests (sizes ++ [s]) pieces.flatten →
      load key file (sizes ++ [s]) = .ok (cut sizes pieces.flatten ++ [(pieces.flatten.drop sizes.sum).take s]) := by
  obtain ⟨file, e, hf⟩ := save_isFile key pieces
  refine ⟨file, e, fun sizes s hs hr => ?_⟩
  obtain ⟨r', h', h⟩ := reads_ok (aes_inverse key) sizes _ _ (new_has file _ hf) (by omega) (fun t ht => hr t (by simp [ht]))
  unfold load
  rw [h [s], reads]
  rcases read_ok (aes_inverse key) r' s _ h' (by have := hr s (by simp); rw [List.length_drop]; omega) with ⟨hd, _⟩ | ⟨r1, e1, _⟩
  · have := congrArg List.length hd
    rw [List.length_drop] at this; simp only [List.length_nil] at this; omega
  · rw [e1, Res.bind_ok, reads, Res.bind_ok, Res.bind_ok]

/-- C52. After a request beyond the end, the next one is refused: nothing is invented. -/
theorem C52_past_the_end (key : List UInt8) (pieces : List (List UInt8)) :
    ∃ file, save key pieces = .ok file ∧ ∀ sizes s s', sizes.sum ≤ pieces.flatten.length → pieces.flatten.length < sizes.sum + s → 0 < s' →
      Requests (sizes ++ [s]) pieces.flatten → load key file (sizes ++ [s, s']) = .err := by
  obtain ⟨file, e, hf⟩ := save_isFile key pieces
  refine ⟨file, e, fun sizes s s' hs hlt hs' hr => ?_⟩
  obtain ⟨r', h', h⟩ := reads_ok (aes_inverse key) sizes _ _ (new_has file _ hf) (by omega) (fun t ht => hr t (by simp [ht]))
  unfold load
  rw [h [s, s'], reads]
  rcases read_ok (aes_inverse key) r' s _ h' (by have := hr s (by simp); rw [List.length_drop]; omega) with ⟨_, _, _, e1⟩ | ⟨r1, e1, h1, h2, _⟩
  · rw [e1]; rfl
  · rw [e1, Res.bind_ok]
    simp only
    rw [List.drop_eq_nil_of_le (by rw [List.length_drop]; omega)] at h1
    rw [reads, read_end r1 s' h1 (h2 (by rw [List.length_drop]; omega)) hs']
    rfl

/-- C52. The file: the data with 1 to 16 bytes of padding that fill the last block, each holding the number of them (PKCS #7),
in blocks of 16 that are encrypted one by one (ECB). -/
theorem C52_file_format (key : List UInt8) (pieces : List (List UInt8)) :
    ∃ (blocks : List (List UInt8)) (p : Nat), save key pieces = .ok (blocks.map (cipher (initCtx key))).flatten ∧
      (∀ b ∈ blocks, b.length = 16) ∧ 1 ≤ p ∧ p ≤ 16 ∧ blocks.flatten = pieces.flatten ++ List.replicate p (UInt8.ofNat p) ∧
      (blocks.map (cipher (initCtx key))).flatten.length = (pieces.flatten.length / 16 + 1) * 16 := by
  obtain ⟨file, e, bs, p, h1, h2, h3, h4, h5⟩ := save_isFile key pieces
  refine ⟨bs, p, by rw [e, h5], h1, h2, h3, h4, ?_⟩
  rw [(h1.map (fun b hb => cipher_length (initCtx key) hb)).flatten_length, List.length_map]
  have := congrArg List.length h4
  rw [Blocks.flatten_length h1, List.length_append, List.length_replicate] at this
  omega

example : Requests [3, 0, 5, 40] ((List.range 20).map UInt8.ofNat) ∧ ([3, 0, 5] : List Nat).sum < 20 := by
  constructor
  · intro s hs; simp at hs ⊢; rcases hs with h | h | h | h <;> omega
  · decide

/-! ## C53 -/

/-- C53. Encryption of a block is AES-256 of FIPS-197: for the S-box and the key schedule of the standard. -/
theorem C53_aes (key block : List UInt8) (hk : key.length = 32) (hb : block.length = 16)
    (S : UInt8 → UInt8) (hS : ∀ x, Fips197.IsSBox x (S x)) (w : Nat → Fin 4 → UInt8) (hw : Fips197.IsSchedule S key w) :
    (cipher (initCtx key) block).length = 16 ∧
      Fips197.toMatrix (cipher (initCtx key) block) = Fips197.cipher S w (Fips197.toMatrix block) := by
  refine ⟨cipher_length _ hb, ?_⟩
  have hSS : S = sbox := funext fun x => isSBox_unique x _ (hS x)
  subst hSS
  rw [toMatrix_cipher _ hb]
  have hi : initCtx key = keyExpansion key := by
    have : effectiveKey key = key := by
      unfold effectiveKey
      simp only
      rw [if_pos (by rw [hk]), List.take_of_length_le (by rw [hk])]
    unfold initCtx
    rw [this]
  rw [hi]
  exact cipher_congr _ _ _ (fun i hi => schedule_unique _ key _ _ (schedule key hk) hw i hi) _

/-- the hypotheses of `C53_aes` can be met, for every key -/
theorem C53_standard_exists (key : List UInt8) (hk : key.length = 32) :
    ∃ S : UInt8 → UInt8, (∀ x, Fips197.IsSBox x (S x)) ∧ ∃ w, Fips197.IsSchedule S key w :=
  ⟨sbox, fun x => ⟨_, sbox_inv x⟩, _, schedule key hk⟩

/-- C53. Decryption undoes encryption, for keys of any length. -/
theorem C53_decrypt (key block : List UInt8) (hb : block.length = 16) :
    invCipher (initCtx key) (cipher (initCtx key) block) = block := invCipher_cipher _ hb

/-- C53. A key of fewer than 32 bytes is completed by the end of the default key, one of more is cut. -/
theorem C53_short_key (key : List UInt8) (hk : key.length < 4294967296) :
    initCtx key = initCtx (if key.length < 32 then key ++ defaultKey.drop key.length else key.take 32) := by
  have h : ∀ k : List UInt8, k.length = 32 → effectiveKey k = k := by
    intro k hk
    unfold effectiveKey
    simp only
    rw [if_pos (by rw [hk]), List.take_of_length_le (by rw [hk])]
  have hd : defaultKey.length = 32 := rfl
  unfold initCtx
  have e : effectiveKey key = if key.length < 32 then key ++ defaultKey.drop key.length else key.take 32 := by
    unfold effectiveKey
    simp only
    rw [Nat.mod_eq_of_lt hk]
    by_cases hlt : key.length < 32
    · rw [if_neg (by omega), if_pos hlt, List.take_of_length_le (Nat.le_refl _)]
    · rw [if_pos (by omega), if_neg hlt]
  rw [h (if key.length < 32 then key ++ defaultKey.drop key.length else key.take 32) (by
    split
    · rw [List.length_append, List.length_drop]; omega
    · rw [List.length_take]; omega), e]

/-- the vector of FIPS-197, appendix C.3 -/
example : cipher (initCtx ((List.range 32).map UInt8.ofNat)) ((List.range 16).map fun i => UInt8.ofNat (0x11 * i)) =
    [0x8e, 0xa2, 0xb7, 0xca, 0x51, 0x67, 0x45, 0xbf, 0xea, 0xfc, 0x49, 0x90, 0x4b, 0x49, 0x60, 0x89] := by decide +kernel

/-- specification: the bytes of a number, most significant first -/
def bigEndian : Nat → Nat → List UInt8
  | 0, _ => []
  | n + 1, v => bigEndian n (v / 256) ++ [UInt8.ofNat v]

/-- specification: the number that bytes stand for, most significant first -/
def bigValue (l : List UInt8) : Nat := l.foldl (fun v b => 256 * v + b.toNat) 0

example : bigEndian 4 0x01020304 = [1, 2, 3, 4] ∧ bigValue [1, 2, 3, 4] = 0x01020304 := by decide

theorem bigValue_eq (l : List UInt8) : bigValue l = leVal l.reverse := by
  have h : ∀ (l : List UInt8) v, l.foldl (fun v b => 256 * v + b.toNat) v = leVal l.reverse + 256 ^ l.length * v := by
    intro l
    induction l using List.reverseRecOn with
    | nil => intro v; simp [leVal]
    | append_singleton l b ih =>
      intro v
      rw [List.foldl_append]
      simp only [List.foldl_cons, List.foldl_nil, List.reverse_append, List.reverse_cons, List.reverse_nil, List.nil_append, List.cons_append,
        leVal, List.length_append, List.length_cons, List.length_nil, Nat.zero_add, Nat.pow_succ]
      rw [ih]
      ring
  have := h l 0
  rw [Nat.mul_zero, Nat.add_zero] at this
  exact this

theorem bigEndian_val (n v : Nat) : leVal (bigEndian n v).reverse = v % 256 ^ n := by
  induction n generalizing v with
  | zero => simp [bigEndian, leVal, Nat.mod_one]
  | succ n ih =>
    simp only [bigEndian, List.reverse_append, List.reverse_cons, List.reverse_nil, List.nil_append, List.cons_append, leVal]
    rw [ih, Nat.pow_succ, Nat.mul_comm (256 ^ n), Nat.mod_mul]
    congr 1

theorem bigEndian_length (n v : Nat) : (bigEndian n v).length = n := by
  induction n generalizing v with
  | zero => rfl
  | succ n ih => simp [bigEndian, ih]

theorem counter_bigEndian (iv : List UInt8) (hiv : iv.length = 16) (k : Nat) : counter iv k = bigEndian 16 ((bigValue iv + k) % 2 ^ 128) := by
  have h : (counter iv k).reverse = (bigEndian 16 ((bigValue iv + k) % 2 ^ 128)).reverse := by
    apply leVal_inj
    · rw [List.length_reverse, List.length_reverse, counter_length, bigEndian_length, hiv]
    · rw [counter_val, bigEndian_val, bigValue_eq, hiv, show (256 : Nat) ^ 16 = 2 ^ 128 by decide, Nat.mod_mod]
  exact List.reverse_injective h

/-- C53. `AES_CTR_xcrypt_buffer`: byte `n` of the data is added to byte `n % 16` of the encrypted counter, which starts at the
initialisation vector, a big-endian number of 128 bits, and goes up by one every 16 bytes; the vector left behind is the
next counter, so that no part of the key stream is used twice. -/
theorem C53_ctr (rk iv data : List UInt8) (hiv : iv.length = 16) :
    (ctrXcrypt rk iv 16 [] data).1.length = data.length ∧
    (∀ (n : Nat) (x : UInt8), data[n]? = some x → (ctrXcrypt rk iv 16 [] data).1[n]? = some (x ^^^
      (cipher rk (bigEndian 16 ((bigValue iv + n / 16) % 2 ^ 128))).getD (n % 16) 0)) ∧
    (ctrXcrypt rk iv 16 [] data).2 = bigEndian 16 ((bigValue iv + (data.length + 15) / 16) % 2 ^ 128) := by
  obtain ⟨h1, h2⟩ := ctr_get rk iv 16 (Nat.le_refl _) [] data
  refine ⟨h1, fun n x hx => ?_, ?_⟩
  · have := h2 n x hx
    rw [if_neg (by omega), counter_bigEndian iv hiv, show (16 + n) / 16 - 1 = n / 16 by omega, show (16 + n) % 16 = n % 16 by omega] at this
    exact this
  · rw [← counter_bigEndian iv hiv]
    rcases ctr_iv rk iv 16 (by omega) (Nat.le_refl _) [] data with h | h
    · rw [h]; congr 1; omega
    · subst h
      unfold ctrXcrypt
      rfl

/-- C53. Applied twice, `AES_CTR_xcrypt_buffer` gives the data back. -/
theorem C53_ctr_twice (rk iv data : List UInt8) (hiv : iv.length = 16) :
    (ctrXcrypt rk iv 16 [] (ctrXcrypt rk iv 16 [] data).1).1 = data := by
  obtain ⟨h1, h2, _⟩ := C53_ctr rk iv data hiv
  obtain ⟨h3, h4, _⟩ := C53_ctr rk iv (ctrXcrypt rk iv 16 [] data).1 hiv
  apply List.ext_getElem?
  intro n
  by_cases hn : n < data.length
  · have hx : data[n]? = some data[n] := List.getElem?_eq_getElem hn
    rw [h4 n _ (h2 n _ hx), hx, UInt8.xor_assoc, UInt8.xor_self, UInt8.xor_zero]
  · rw [List.getElem?_eq_none (by omega), List.getElem?_eq_none (by omega)]

/-- C53. `AES_CBC_encrypt_buffer`: every block is the encryption of the sum of the data and of the block before, the first of the
data and the initialisation vector. -/
theorem C53_cbc (rk iv buf : List UInt8) (n : Nat) (hiv : iv.length = 16) (hb : buf.length = 16 * n) (i : Nat) (hi : i < n) :
    blockAt (cbcEncrypt rk n iv buf).1 i = cipher rk (List.zipWith (· ^^^ ·) (blockAt buf i)
      (if i = 0 then iv else blockAt (cbcEncrypt rk n iv buf).1 (i - 1))) := cbc_chain rk n iv buf hiv hb i hi

/-- C53. `AES_CBC_decrypt_buffer` undoes `AES_CBC_encrypt_buffer`, and leaves the same initialisation vector. -/
theorem C53_cbc_round_trip (rk iv buf : List UInt8) (n : Nat) (hiv : iv.length = 16) (hb : buf.length = 16 * n) :
    cbcDecrypt rk n iv (cbcEncrypt rk n iv buf).1 = (buf, (cbcEncrypt rk n iv buf).2) := (cbc_round_trip rk n iv buf hiv hb).2

example : ((List.range 16).map UInt8.ofNat).length = 16 ∧ (List.replicate 48 (7 : UInt8)).length = 16 * 3 := by decide

/-- C54. `AES_init_ctx_iv` sets up the key schedule as `AES_init_ctx` does: false for every key of fewer than 32 bytes, because the
key expansion is given the caller's key and reads 32 bytes of it. -/
theorem C54_init_with_iv_false : ¬ ∀ key iv : List UInt8, ∃ v, initCtxIv key iv = .ok (initCtx key, v) := by
  intro h
  obtain ⟨v, hv⟩ := h [1, 2, 3] []
  unfold initCtxIv at hv
  simp only [List.length_cons, List.length_nil] at hv
  rw [if_pos (by decide)] at hv
  cases hv

/-- C54. For keys of 32 bytes it does, and a vector of 16 bytes is taken as it is. -/
theorem C54_init_with_iv_partial (key iv : List UInt8) (hk : key.length = 32) (hiv : iv.length = 16) :
    initCtxIv key iv = .ok (initCtx key, iv) := by
  have : effectiveKey key = key := by
    unfold effectiveKey
    simp only
    rw [if_pos (by rw [hk]), List.take_of_length_le (by rw [hk])]
  unfold initCtxIv initCtx
  simp only
  rw [if_neg (by omega), if_pos (by omega), if_pos (by omega), this, List.take_of_length_le (by omega)]

/-! ## C54 -/

/-- C54. A file can be read only with its key: false, the default key that completes short keys makes different keys equal. -/
theorem C54_key_needed_false : ¬ ∀ key key' : List UInt8, key ≠ key' → key.length ≤ 32 → key'.length ≤ 32 →
    ∃ file, save key [[1, 2, 3]] = .ok file ∧ load key' file [3] ≠ .ok [[1, 2, 3]] := by
  intro h
  obtain ⟨file, e, hl⟩ := h [] [0x60] (by simp) (by simp) (by simp)
  obtain ⟨f2, e2, hr⟩ := C52_round_trip [] [[1, 2, 3]]
  rw [e] at e2
  cases e2
  apply hl
  have hk : initCtx [0x60] = initCtx [] := by unfold initCtx; rfl
  unfold load
  rw [hk]
  exact hr [3] (by decide) (by intro s hs; simp at hs ⊢; omega)

/-- C54. Reading a file never goes outside the memory of the reader, whatever the file: false, for every key. The last byte of the
last block is taken for the number of padding bytes without a check; when it is above 16 the number of bytes in hand is
negative, which as a `size_t` is more than any request, and a request for more than 16 bytes is copied from the 16 there are. -/
theorem C54_reader_in_bounds_false (key : List UInt8) : ¬ ∀ file sizes, load key file sizes ≠ .ub := by
  intro h
  have hb : (List.replicate 16 (17 : UInt8)).length = 16 := by decide
  apply h (cipher (initCtx key) (List.replicate 16 17)) [17]
  have hl := cipher_length (initCtx key) hb
  have hi := invCipher_cipher (initCtx key) hb
  unfold load reads
  generalize cipher (initCtx key) (List.replicate 16 17) = c at hl hi
  have hf : (Reader.new c).fetch = ⟨[], false, List.replicate 16 0, 0, 0, c⟩ := by
    rw [fetch_full _ rfl (by simp only [Reader.new]; omega)]
    show (⟨c.drop 16, false, List.replicate 16 0, 0, 0, c.take 16⟩ : Reader) = _
    rw [List.take_of_length_le (by omega), List.drop_eq_nil_of_le (by omega)]
  have h1 : (Reader.new c).first (invCipher (initCtx key)) = .ok (some ⟨[], false, List.replicate 16 0, 0, 0, List.replicate 16 17⟩) := by
    unfold Reader.first
    rw [if_pos (show (Reader.new c).second.length = 0 from rfl), hf]
    simp only
    rw [if_neg (by omega), if_neg (by omega), hi]
  have h2 : Reader.advance (invCipher (initCtx key)) ⟨[], false, List.replicate 16 0, 0, 0, List.replicate 16 17⟩ =
      .ok (⟨[], true, List.replicate 16 17, -1, 0, []⟩, true) := by rfl
  have h3 : Reader.deliver 17 [] ⟨[], true, List.replicate 16 17, -1, 0, []⟩ = .ub := by rfl
  have h4 : (Reader.new c).read (invCipher (initCtx key)) 17 = .ub := by
    unfold Reader.read
    rw [if_neg (by simp [Reader.new, toSize]), show (Reader.new c).drain = .ok ([], Reader.new c) from rfl, Res.bind_ok]
    simp only
    rw [if_neg (by simp [Reader.new])]
    unfold Reader.loop
    rw [if_pos (by simp), h1, Res.bind_ok]
    simp only
    rw [h2, Res.bind_ok, h3]
    rfl
  rw [h4]
  rfl

theorem reads_safe {dec : List UInt8 → List UInt8} (hdec : ∀ b : List UInt8, b.length = 16 → (dec b).length = 16) (sizes : List Nat)
    (hs : ∀ s ∈ sizes, s + 16 < 2147483648) (r : Reader) (h : Safe dec r) : reads dec r sizes ≠ .ub := by
  induction sizes generalizing r with
  | nil => simp [reads]
  | cons s ss ih =>
    unfold reads
    rcases read_safe hdec r s (hs s (by simp)) h with e | ⟨out, r', e, h', _⟩
    · rw [e]; simp
    · rw [e, Res.bind_ok]
      have := ih (fun t ht => hs t (by simp [ht])) r' h'
      simp only
      cases hx : reads dec r' ss with
      | ok a => simp
      | err => simp
      | ub => exact absurd hx this

theorem new_safe {dec : List UInt8 → List UInt8} (file : List UInt8)
    (h : file.length % 16 ≠ 0 ∨ file = [] ∨ ((dec (file.drop (file.length - 16))).getD 15 0).toNat ≤ 16) : Safe dec (Reader.new file) := by
  refine ⟨by simp [Reader.new], by simp [Reader.new], by simp [Reader.new], by simp [Reader.new], .inl rfl, fun _ => ?_⟩
  simp only [Reader.new]
  rcases h with h | h | h
  · exact .inl h
  · exact .inr (.inl ⟨h, fun hc => absurd rfl hc⟩)
  · by_cases hf : file = []
    · exact .inr (.inl ⟨hf, fun hc => absurd rfl hc⟩)
    · exact .inr (.inr ⟨hf, h⟩)

/-- C54. Reading a file, whatever it holds, stays within the memory of the reader, unless its length is a multiple of 16 and its last
block, decrypted with the key given, ends in a byte above 16. (Missing: that case, see above.) -/
theorem C54_reader_in_bounds_partial (key file : List UInt8) (sizes : List Nat) (hs : ∀ s ∈ sizes, s + 16 < 2147483648)
    (h : file.length % 16 ≠ 0 ∨ file = [] ∨ ((invCipher (initCtx key) (file.drop (file.length - 16))).getD 15 0).toNat ≤ 16) :
    load key file sizes ≠ .ub :=
  reads_safe (fun _ hb => invCipher_length _ hb) sizes hs _ (new_safe file h)

/-- the last hypothesis is met by every file that was written with the key -/
example (key : List UInt8) : ((invCipher (initCtx key) ((cipher (initCtx key) (List.replicate 16 16)).drop
    ((cipher (initCtx key) (List.replicate 16 16)).length - 16))).getD 15 0).toNat ≤ 16 := by
  have hb : (List.replicate 16 (16 : UInt8)).length = 16 := by decide
  rw [cipher_length _ hb, Nat.sub_self, List.drop_zero, invCipher_cipher _ hb]
  decide

/-- C54. A file that has been cut, so that its length is not a multiple of 16, is refused: a client that reads to its end gets an
exception. -/
theorem C54_truncated (key file : List UInt8) (sizes : List Nat) (hs : ∀ s ∈ sizes, s + 16 < 2147483648)
    (h : file.length % 16 ≠ 0) (hsum : file.length < sizes.sum) : load key file sizes = .err := by
  have main : ∀ (sizes : List Nat) (r : Reader), (∀ s ∈ sizes, s + 16 < 2147483648) → Safe (invCipher (initCtx key)) r → r.eof = false →
      r.rest.length % 16 ≠ 0 → r.remaining < sizes.sum → reads (invCipher (initCtx key)) r sizes = .err := by
    intro sizes
    induction sizes with
    | nil =>
      intro r _ hsafe _ _ hlt
      have h1 := hsafe.le
      unfold Reader.remaining at hlt
      simp at hlt; omega
    | cons s ss ih =>
      intro r hs hsafe he hm hlt
      unfold reads
      rcases read_safe (fun _ hb => invCipher_length _ hb) r s (hs s (by simp)) hsafe with e | ⟨out, r', e, h', _, himp⟩
      · rw [e]; rfl
      · obtain ⟨a1, a2, a3, a4⟩ := himp he hm
        rw [e, Res.bind_ok]
        simp only
        rw [ih r' (fun t ht => hs t (by simp [ht])) h' a2 a3 (by rw [List.sum_cons] at hlt; push_cast at hlt ⊢; omega)]
        rfl
  exact main sizes _ hs (new_safe file (.inl h)) rfl h (by simp [Reader.new, Reader.remaining]; exact_mod_cast hsum)

example : ([1, 2, 3] : List UInt8).length % 16 ≠ 0 ∧ ([1, 2, 3] : List UInt8).length < ([2, 2] : List Nat).sum := by decide

end Verif.Props
