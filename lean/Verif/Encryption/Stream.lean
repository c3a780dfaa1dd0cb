import Verif.Encryption.Aes
/-!
# The encrypted file streams

Source: src/encryption/aes_fstream.cpp. `EncryptedFileStreamReader` and `EncryptedFileStreamWriter`
(src/encryption/encrypted_fstream.cpp) only forward to them.

The block cipher is a parameter: `enc` and `dec` act on blocks of 16 bytes; with the key fixed by the constructor they are
`cipher` and `invCipher` of its round keys. The file is a list of bytes; that the disk accepts every write is assumed
(`m_stream.bad()` is false).
-/
namespace Verif.Encryption
open Verif.Core

/-! ## Writer -/

/-- `AESFileStreamWriter`, aes_fstream.h:84-89: the file so far, and the first `m_master_datalen` bytes of `m_master` -/
structure Writer where
  file : List UInt8
  master : List UInt8

/-- the constructor, aes_fstream.cpp:159-168 -/
def Writer.new : Writer := ⟨[], []⟩

/-- `write`, aes_fstream.cpp:136-157. One round of the loop per unit of fuel; the loop ends because every round but the last
consumes at least a byte, or because `master` was full and is empty afterwards. -/
def Writer.writeLoop (enc : List UInt8 → List UInt8) : Nat → Writer → List UInt8 → Res Writer
  | 0, _, _ => .ub
  | fuel + 1, w, buf =>
    if buf = [] then .ok w
    else if 16 - w.master.length ≥ buf.length then .ok ⟨w.file, w.master ++ buf⟩
    else
      writeLoop enc fuel ⟨w.file ++ enc (w.master ++ buf.take (16 - w.master.length)), []⟩ (buf.drop (16 - w.master.length))

/-- `write`, with enough fuel -/
def Writer.write (enc : List UInt8 → List UInt8) (w : Writer) (buf : List UInt8) : Res Writer :=
  w.writeLoop enc (buf.length + 2) buf

/-- `close`, aes_fstream.cpp:174-197: the file -/
def Writer.close (enc : List UInt8 → List UInt8) (w : Writer) : List UInt8 :=
  let (file, master) := if w.master.length = 16 then (w.file ++ enc w.master, []) else (w.file, w.master)
  let npadding := UInt8.ofNat (16 - master.length)
  file ++ enc (master ++ List.replicate (16 - master.length) npadding)

/-! ## Reader -/

/-- `AESFileStreamReader`, aes_fstream.h:44-52. `rest` is what `m_stream` has not delivered yet, `eof` its `eof()`. Of `m_second`
only the delivered bytes are kept (`m_second_datalen` is their number). -/
structure Reader where
  rest : List UInt8
  eof : Bool
  master : List UInt8
  datalen : Int
  offset : Int
  second : List UInt8

/-- the constructor on an open file, aes_fstream.cpp:109-120; `m_master` is not initialised (zeros here) -/
def Reader.new (file : List UInt8) : Reader := ⟨file, false, List.replicate 16 0, 0, 0, []⟩

/-- `m_stream.read(m_second, AES_BLOCKLEN)`, `m_second_datalen = gcount()`: a stream that meets the end of the file delivers what
there is and sets `eof`; one that has `eof` set delivers nothing -/
def Reader.fetch (r : Reader) : Reader :=
  if r.eof then { r with second := [] }
  else if r.rest.length < 16 then { r with second := r.rest, rest := [], eof := true }
  else { r with second := r.rest.take 16, rest := r.rest.drop 16 }

/-- an `int` converted to `size_t` for a comparison with one -/
def toSize (x : Int) : Int := if x < 0 then x + 18446744073709551616 else x

/-- `memcpy` of `n` bytes from `m_master + offset` -/
def Reader.copy (r : Reader) (offset : Int) (n : Int) : Res (List UInt8) :=
  if 0 ≤ offset ∧ 0 ≤ n ∧ offset + n ≤ r.master.length then .ok ((r.master.drop offset.toNat).take n.toNat) else .ub

/-- the first half of the body of the loop, aes_fstream.cpp:43-60: a block in `m_second`, or none (the loop is left), or an error -/
def Reader.first (dec : List UInt8 → List UInt8) (r : Reader) : Res (Option Reader) :=
  if r.second.length = 0 then
    let r := r.fetch
    if r.second.length = 0 then if r.eof then .ok none else .err
    else if r.second.length ≠ 16 then .err
    else .ok (some { r with second := dec r.second })
  else .ok (some r)

/-- the middle of the body, aes_fstream.cpp:62-86: the block goes to `m_master`, the next one is fetched, and if there is none the
padding is taken off; also whether there was none -/
def Reader.advance (dec : List UInt8 → List UInt8) (r : Reader) : Res (Reader × Bool) :=
  let r := { r with master := r.second, datalen := 16, offset := 0 }
  let r := r.fetch
  if r.second.length = 0 then
    if r.eof then .ok ({ r with datalen := 16 - (r.master.getD 15 0).toNat }, true) else .err
  else if r.second.length ≠ 16 then .err
  else .ok ({ r with second := dec r.second }, false)

/-- the end of the body, aes_fstream.cpp:89-99: bytes are copied after the ones in `buf` (`buffer_offset` is their number, an `int`);
also whether the buffer is full, which ends the loop -/
def Reader.deliver (size : Nat) (buf : List UInt8) (r : Reader) : Res (List UInt8 × Reader × Bool) := do
  let end' ← int32 (buf.length + r.datalen)
  if toSize end' ≥ size then do
    let c ← r.copy 0 (size - buf.length)
    .ok (buf ++ c, { r with offset := size - buf.length }, true)
  else do
    let c ← r.copy 0 r.datalen
    .ok (buf ++ c, { r with offset := 0, datalen := 0 }, false)

/-- the loop, aes_fstream.cpp:42-106, one round per unit of fuel. A round either ends the loop or takes 16 bytes off the file. -/
def Reader.loop (dec : List UInt8 → List UInt8) (size : Nat) : Nat → Reader → List UInt8 → Res (List UInt8 × Reader)
  | 0, _, _ => .ub
  | fuel + 1, r, buf =>
    if buf.length < size then do
      match ← r.first dec with
      | none => .ok (buf, r.fetch)
      | some r => do
        let a ← r.advance dec
        let d ← a.1.deliver size buf
        if d.2.2 ∨ a.2 then .ok (d.1, d.2.1) else loop dec size fuel d.2.1 d.1
    else .ok (buf, r)

/-- what is left in `m_master` is delivered first, aes_fstream.cpp:24-30 -/
def Reader.drain (r : Reader) : Res (List UInt8 × Reader) :=
  if r.datalen - r.offset > 0 then do
    let c ← r.copy r.offset (r.datalen - r.offset)
    .ok (c, { r with offset := 0, datalen := 0 })
  else .ok ([], r)

/-- `read`, aes_fstream.cpp:16-107 -/
def Reader.read (dec : List UInt8 → List UInt8) (r : Reader) (size : Nat) : Res (List UInt8 × Reader) :=
  if toSize (r.datalen - r.offset) ≥ size then do
    let c ← r.copy r.offset size
    .ok (c, { r with offset := r.offset + size })
  else do
    let d ← r.drain
    if d.2.eof then if d.1.length > 0 then .ok d else .err
    else d.2.loop dec size (d.2.rest.length + 2) d.1

end Verif.Encryption
