import Verif.Core.Res
import Verif.Module.Serial
/-!
# Streams on strings and files: src/module/io/sstream.cpp, src/module/io/fstream.cpp, and the loaders that read them
(`Module::LoadV2`, src/module/module.cpp:344-367, src/global/module_loader_factory.cpp, src/module/loaders/open.cpp)

The streams of the C++ library are modelled by their state: the bytes, the positions and the state bits, as the C++11 standard
describes `std::basic_istream::read`, `std::basic_ostream::write`, `seekg`, `open` and `str`. Not modelled: sizes above the greatest
`std::streamsize`, failing allocations, buffering of files (an error of the disk is noticed at the write that meets it; the real buffer
can only notice it later).
-/
namespace Verif.Module.Io
open Verif.Core

/-- the state bits of `std::ios` -/
structure Ios where
  eof : Bool
  fail : Bool
  bad : Bool
  deriving DecidableEq, Repr

/-- `good()` -/
def Ios.good (s : Ios) : Bool := !s.eof && !s.fail && !s.bad

/-- no bit is set -/
def Ios.clean : Ios := ⟨false, false, false⟩

/-! ## Strings -/

/-- `std::stringstream` (also its reading and writing halves): the string of the buffer, where the next byte is read and where the next
byte is written -/
structure StrStream where
  data : List UInt8
  get : Nat
  put : Nat
  ios : Ios
  deriving DecidableEq, Repr

/-- `StringStream()`, `StringStreamReader()`, `StringStreamWriter()` (sstream.h:29, 61, 93) -/
def StrStream.empty : StrStream := ⟨[], 0, 0, .clean⟩

/-- `StringStream(buffer)` and the two others, sstream.cpp:24-25, 44-45, 70-71: without `std::ios::ate` both positions are at the beginning -/
def StrStream.of (b : List UInt8) : StrStream := ⟨b, 0, 0, .clean⟩

/-- `read(buffer, size)`, sstream.cpp:19-22, 60-63: the bytes that were stored (their number is returned). A stream that is not good stores nothing -/
def StrStream.read (s : StrStream) (n : Nat) : List UInt8 × StrStream :=
  if s.ios.good then
    let got := (s.data.drop s.get).take n
    if got.length < n then (got, { s with get := s.get + got.length, ios := { s.ios with eof := true, fail := true } })
    else (got, { s with get := s.get + got.length })
  else ([], { s with ios := { s.ios with fail := true } })

/-- `write(buffer, size)`, sstream.cpp:39-42, 65-68: the number that is returned. A stream that is not good stores nothing, and that alone is not `bad()` -/
def StrStream.write (s : StrStream) (b : List UInt8) : Nat × StrStream :=
  let s' := if s.ios.good then
      { s with data := s.data.take s.put ++ b ++ s.data.drop (s.put + b.length), put := s.put + b.length }
    else s
  (if s'.ios.bad then 0 else b.length, s')

/-- `str(buffer)` of `StringStream` and `StringStreamReader`, sstream.cpp:27-29, 73-75: the state bits stay as they are -/
def StrStream.setStr (s : StrStream) (b : List UInt8) : StrStream := { s with data := b, get := 0, put := 0 }

/-- `clear()`, sstream.cpp:15-17, 35-37, 56-58 -/
def StrStream.clear (s : StrStream) : StrStream := s.setStr []

/-- `str(buffer)` of `StringStreamWriter`, sstream.cpp:47-49: asks for the string and forgets it -/
def StrStream.writerSetStr (s : StrStream) (_b : List UInt8) : StrStream := s

/-- `str()`, sstream.cpp:11-13, 31-33, 52-54 -/
def StrStream.str (s : StrStream) : List UInt8 := s.data

/-! ## Files that are read -/

/-- the files that can be read -/
abbrev Files := List UInt8 → Option (List UInt8)

/-- `std::ifstream`: `file` is the open file -/
structure FileIn where
  file : Option (List UInt8)
  pos : Nat
  ios : Ios
  deriving DecidableEq, Repr

/-- `FileStreamReader()`, `FileStreamReaderV2()`, fstream.cpp:29, 56 -/
def FileIn.closed : FileIn := ⟨none, 0, .clean⟩

/-- `open(path)`, fstream.cpp:21-23, 48-50: `std::ifstream::open` fails if a file is open already or cannot be opened, and clears the state otherwise -/
def FileIn.openPath (fs : Files) (s : FileIn) (path : List UInt8) : FileIn :=
  match s.file, fs path with
  | none, some b => ⟨some b, 0, .clean⟩
  | _, _ => { s with ios := { s.ios with fail := true } }

/-- `FileStreamReader(path)`, `FileStreamReaderV2(path)`, fstream.cpp:18-19, 45-46 -/
def FileIn.new (fs : Files) (path : List UInt8) : FileIn := FileIn.closed.openPath fs path

/-- `is_open()`, fstream.cpp:9-11, 31-33 -/
def FileIn.isOpen (s : FileIn) : Bool := s.file.isSome

/-- `close()`, fstream.cpp:25-27, 52-54: the state bits stay; closing a file that is not open fails -/
def FileIn.close (s : FileIn) : FileIn :=
  match s.file with
  | some _ => { s with file := none }
  | none => { s with ios := { s.ios with fail := true } }

/-- `read(buffer, size)`, fstream.cpp:13-16, 35-38: the bytes that were stored -/
def FileIn.read (s : FileIn) (n : Nat) : List UInt8 × FileIn :=
  if s.ios.good then
    let got := ((s.file.getD []).drop s.pos).take n
    if got.length < n then (got, { s with pos := s.pos + got.length, ios := { s.ios with eof := true, fail := true } })
    else (got, { s with pos := s.pos + got.length })
  else ([], { s with ios := { s.ios with fail := true } })

/-- `rewind()`, fstream.cpp:40-42: `seekg` clears `eofbit`, but does nothing else to a stream that has failed -/
def FileIn.rewind (s : FileIn) : FileIn :=
  if s.ios.fail || s.ios.bad then { s with ios := ⟨false, true, s.ios.bad⟩ }
  else match s.file with
    | some _ => { s with pos := 0, ios := { s.ios with eof := false } }
    | none => { s with ios := ⟨false, true, s.ios.bad⟩ }

/-! ## Files that are written -/

/-- `std::ofstream` or `std::fstream` that is written: the file (if open), how many more bytes the disk takes, the state -/
structure FileOut where
  file : Option (List UInt8)
  room : Nat
  ios : Ios
  deriving DecidableEq, Repr

/-- `FileStreamWriter(path)`, fstream.cpp:69-70; `can`: may the path be written (the file is emptied), `room`: how many bytes the disk takes -/
def FileOut.new (can : Bool) (room : Nat) : FileOut :=
  if can then ⟨some [], room, .clean⟩ else ⟨none, room, ⟨false, true, false⟩⟩

/-- `is_open()`, fstream.cpp:60-62 -/
def FileOut.isOpen (s : FileOut) : Bool := s.file.isSome

/-- `write(buffer, size)`, fstream.cpp:64-67, 91-94: the number that is returned -/
def FileOut.write (s : FileOut) (b : List UInt8) : Nat × FileOut :=
  let s' := if s.ios.good then
      match s.file with
      | none => if b = [] then s else { s with ios := { s.ios with bad := true } }
      | some f =>
        if b.length ≤ s.room then { s with file := some (f ++ b), room := s.room - b.length }
        else { file := some (f ++ b.take s.room), room := 0, ios := { s.ios with bad := true } }
    else s
  (if s'.ios.bad then 0 else b.length, s')

/-- `FileStream(path)`, fstream.cpp:96-97: `std::fstream` opens with exactly the given mode, and `std::ios::binary` alone is not one of the modes
that `std::basic_filebuf::open` accepts, so the open fails whatever the path is -/
def FileStream.new (_fs : Files) (_path : List UInt8) (room : Nat) : FileOut := ⟨none, room, ⟨false, true, false⟩⟩

/-- `FileStream::read`, fstream.cpp:86-89, for a stream on which nothing is open -/
def FileStream.read (s : FileOut) (_n : Nat) : List UInt8 × FileOut := ([], { s with ios := { s.ios with fail := true, eof := s.ios.eof || s.ios.good } })

/-- `Module::Save(stream, …)` as far as the stream goes, module.cpp:258-273: one `write` after the other, what they return is not looked at -/
def writeAll (s : FileOut) : List (List UInt8) → FileOut
  | [] => s
  | b :: bs => writeAll (s.write b).2 bs

/-- `Module::Save(filename, …)`, module.cpp:276-282, and `tensor::save(filename, …)`, tensor_builder.cpp:307-311: the file afterwards -/
def saveFile (can : Bool) (room : Nat) (chunks : List (List UInt8)) : Res (Option (List UInt8)) :=
  let s := FileOut.new can room
  if s.isOpen then .ok (writeAll s chunks).file else .err

/-! ## Loaders -/

/-- what a loader answers: a module, `FormatMismatchException`, another exception, undefined behaviour -/
inductive Answer (M : Type) where
  | module (m : M)
  | mismatch
  | error
  | undefined
  deriving DecidableEq, Repr

/-- a loader (module_loader_factory.h): any program that reads from the stream and sees nothing else of it -/
inductive Loader (M : Type) where
  | done (a : Answer M)
  | read (n : Nat) (k : List UInt8 → Loader M)

/-- a loader at work on a file stream -/
def Loader.run {M : Type} : Loader M → FileIn → Answer M × FileIn
  | .done a, s => (a, s)
  | .read n k, s => (k (s.read n).1).run (s.read n).2

/-- `Module::LoadV2(stream, …)`, module.cpp:344-359: the loaders in the order of their names (`AllKeys` is a `std::set`) -/
def loadV2 {M : Type} : List (Loader M) → FileIn → Res M
  | [], _ => .err
  | l :: ls, s =>
    match l.run s with
    | (.module m, _) => .ok m
    | (.mismatch, s') => loadV2 ls s'.rewind
    | (.error, _) => .err
    | (.undefined, _) => .ub

/-- `Module::LoadV2(filename, …)`, module.cpp:361-367: whether the file could be opened is not checked; the check of the format only logs -/
def loadV2File {M : Type} (fs : Files) (path : List UInt8) (ls : List (Loader M)) : Res M := loadV2 ls (FileIn.new fs path)

/-- the number in a `uint32_t` that was zero, after `got` was read into it (stream.h:44-47) -/
def codeOf (got : List UInt8) : Nat :=
  match readU32 (some 0) got with
  | .ok c _ => c
  | _ => 0

/-- the beginning of `open_loader`, open.cpp:14-19, header.cpp:18-24; `rest` is what follows the header -/
def openLoader {M : Type} (rest : Loader M) : Loader M :=
  .read 4 fun _ => .read 4 fun code => .read 120 fun _ => if codeOf code = 0x19910929 then rest else .done .mismatch

/-- `ModuleLoader::Register`, module_loader_factory.cpp:20-23, on the map kept in the order of the names -/
def registerLoader {M : Type} (m : List (List Nat × Loader M)) (name : List Nat) (l : Loader M) : List (List Nat × Loader M) :=
  match m with
  | [] => [(name, l)]
  | e :: m' => if e.1 = name then (name, l) :: m' else if name < e.1 then (name, l) :: e :: m' else e :: registerLoader m' name l

end Verif.Module.Io
