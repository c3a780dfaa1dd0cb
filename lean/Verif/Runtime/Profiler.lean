import Verif.Core.Res
import Mathlib.Data.Nat.Digits.Defs
/-!
# Profiling: src/board/profiler.cpp, include/board/profiler.h, include/board/board.h, src/runtime/instruction.cpp:25-33, 49-55

Text is a list of bytes. Time is a parameter: the number that is appended. Not modelled: the clock, `log`, the pointer to the profiler that a
running timer keeps (the profiler outlives its timers), the counter being an `int32_t` (fewer than 2^31 names).
-/
namespace Verif.Runtime.Profiler
open Verif.Core

/-- the bytes of a literal -/
def bytes (s : String) : List Nat := s.toList.map Char.toNat

/-- decimal digits of a positive number -/
def decimal (n : Nat) : List Nat := ((Nat.digits 10 n).reverse).map (48 + ·)

/-- `%0wd` of a positive number -/
def padded (w n : Nat) : List Nat := List.replicate (w - (decimal n).length) 48 ++ decimal n

/-- `printf` of a format with one `int` argument. `used`: the argument was consumed. A `%` starts a conversion: `%%` prints one `%`, `%0<digit>d`
prints the argument with leading zeros; every other conversion is undefined when the argument is used up, and is not modelled (taken as undefined)
before that -/
def format (n : Nat) : Bool → List Nat → Res (List Nat)
  | _, [] => .ok []
  | used, 37 :: 37 :: r => do
    let o ← format n used r
    .ok (37 :: o)
  | false, 37 :: 48 :: w :: 100 :: r => do
    let o ← format n true r
    .ok (padded (w - 48) n ++ o)
  | _, 37 :: _ => .ub
  | used, c :: r => do
    let o ← format n used r
    .ok (c :: o)

/-- `c_str()`: up to the first zero byte -/
def cstr (s : List Nat) : List Nat := s.takeWhile (· != 0)

/-- `snprintf(buffer, size, format, n)` and the text in the buffer: at most `size - 1` bytes -/
def snprintf (size n : Nat) (s : List Nat) : Res (List Nat) := do
  let o ← format n false (cstr s)
  .ok (o.take (size - 1))

/-- `std::unordered_map<std::string, int32_t> m_serial` in the order of insertion -/
abbrev Serials := List (List Nat × Nat)

/-- `Profiler::serial_of`, profiler.cpp:20-26 -/
def serialOf (m : Serials) (name : List Nat) : Serials × Nat :=
  match m.find? (fun e => e.1 == name) with
  | some e => (m, e.2)
  | none => (m ++ [(name, m.length + 1)], m.length + 1)

variable {R : Type}

/-- `Board<float>`, board.h:88-167: for each name the list of numbers -/
abbrev Board (R : Type) := List (List Nat × List R)

/-- `Board::query`, board.h:155-159: a copy -/
def Board.query (b : Board R) (name : List Nat) : List R :=
  match b.find? (fun e => e.1 == name) with
  | some e => e.2
  | none => []

/-- `Board::append`, board.h:105-107 -/
def Board.append : Board R → List Nat → R → Board R
  | [], name, x => [(name, [x])]
  | e :: b, name, x => if e.1 = name then (e.1, e.2 ++ [x]) :: b else e :: Board.append b name x

/-- `Board::clear(name)`, board.h:109-111: clears the copy that `query` returns -/
def Board.clear (b : Board R) (_name : List Nat) : Board R := b

/-- `Statistics::sum`, board.h:53-55 -/
def sum [Add R] [OfNat R 0] (l : List R) : R := l.foldl (· + ·) 0

/-- `Statistics::avg`, board.h:49-51 -/
def avg [Add R] [OfNat R 0] [Div R] [NatCast R] (l : List R) : R := if l.isEmpty then 0 else sum l / (l.length : R)

/-- the profiler -/
structure Prof (R : Type) where
  board : Board R
  serials : Serials

/-- `Profiler::clean`, profiler.h:58-60 -/
def Prof.clean (p : Prof R) : Prof R := { p with serials := [] }

/-- the format for an operator, instruction.cpp:27-31 -/
def opFormat (op name : List Nat) : List Nat := bytes "op(%04d):" ++ (op ++ (bytes ":" ++ name))

/-- `profiler_serial_timer`, profiler.cpp:74-83: the label of the timer; the buffer has twice the length of the format, and one -/
def serialTimer (p : Prof R) (name : List Nat) : Res (Prof R × List Nat) := do
  let (m, n) := serialOf p.serials name
  let label ← snprintf (name.length * 2 + 1) n name
  .ok ({ p with serials := m }, label)

/-- one run of an operator, instruction.cpp:49-55: the timer is made before, and appends after, whether the operator returns or throws
(the destructor of `Later`, profiler.h:39-41); `t` is the time that it took -/
def runOp (p : Prof R) (op name : List Nat) (t : R) : Res (Prof R) := do
  let (p, label) ← serialTimer p (opFormat op name)
  .ok { p with board := p.board.append label t }

/-- a sequence of runs: operator, name, time -/
def runAll (p : Prof R) : List (List Nat × List Nat × R) → Res (Prof R)
  | [] => .ok p
  | (op, name, t) :: l => do
    let p ← runOp p op name t
    runAll p l

/-! ## `Later`, profiler.h:22-53 -/

/-- the objects that live, by number, with their action -/
abbrev Laters (A : Type) := List (Nat × Option A)

/-- what a program does with them: construct from an action or empty, move-construct, move-assign, destroy -/
inductive LOp (A : Type) where
  | make (i : Nat) (a : Option A)
  | moveNew (i j : Nat)
  | moveAssign (i j : Nat)
  | destroy (i : Nat)

def Laters.get {A : Type} (m : Laters A) (i : Nat) : Option (Option A) := (m.find? (fun e => e.1 == i)).map Prod.snd
def Laters.set {A : Type} (m : Laters A) (i : Nat) (v : Option A) : Laters A := m.map (fun e => if e.1 = i then (i, v) else e)

/-- one call: the objects afterwards and the actions that were run. `none`: an object is used that does not live, or made twice -/
def lstep {A : Type} (m : Laters A) : LOp A → Option (Laters A × List A)
  | .make i a => if (m.get i).isSome then none else some ((i, a) :: m, [])
  | .moveNew i j =>                       -- profiler.h:46-48: swaps with an empty one
    if (m.get i).isSome then none
    else match m.get j with
      | none => none
      | some v => some ((i, v) :: m.set j none, [])
  | .moveAssign i j =>                    -- profiler.h:50-53: swaps
    match m.get i, m.get j with
    | some u, some v => some ((m.set i v).set j u, [])
    | _, _ => none
  | .destroy i =>
    match m.get i with
    | none => none
    | some v => some (m.filter (fun e => e.1 != i), v.toList)

def lrun {A : Type} (m : Laters A) : List (LOp A) → Option (Laters A × List A)
  | [] => some (m, [])
  | o :: l => do
    let (m1, a) ← lstep m o
    let (m2, b) ← lrun m1 l
    some (m2, a ++ b)

end Verif.Runtime.Profiler
