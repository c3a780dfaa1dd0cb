import Verif.Kernels.Generate
/-!
# Conversion of element types and reading numbers from tensors (src/core/tensor_builder.cpp, src/backend/base/base_cast.cpp, base_cast_v2.cpp)

An element is given by its exact value, a rational number; infinities and not-a-number are not modelled. What a conversion to `FLOAT16`, `FLOAT32` or
`FLOAT64` rounds to is a parameter (`rnd`).
-/
namespace Verif.Kernels
open Verif.Core

/-- the types between which elements can be converted -/
inductive NumTy where
  | int (t : IntTy)
  | real
  deriving DecidableEq

/-- the element type of a dtype, include/core/dtype.h:12-47, 128-146, and whether `type_cast_to_from` has a case for it, tensor_builder.cpp:70-120 -/
def numTy : Nat → Option NumTy
  | 1 => some (.int ⟨true, 8⟩)
  | 2 => some (.int ⟨false, 8⟩)
  | 3 => some (.int ⟨true, 16⟩)
  | 4 => some (.int ⟨false, 16⟩)
  | 5 => some (.int ⟨true, 32⟩)
  | 6 => some (.int ⟨false, 32⟩)
  | 7 => some (.int ⟨true, 64⟩)
  | 8 => some (.int ⟨false, 64⟩)
  | 9 => some .real
  | 10 => some .real
  | 11 => some .real
  | 13 => some (.int ⟨true, 8⟩)
  | 14 => some (.int ⟨false, 16⟩)
  | 15 => some (.int ⟨false, 32⟩)
  | 21 => some (.int ⟨false, 8⟩)
  | _ => none

/-- rounding towards zero -/
def truncQ (v : Rat) : Int := if 0 ≤ v then ⌊v⌋ else ⌈v⌉

/-- `static_cast` of one element, tensor_builder.cpp:46-52: a floating point number outside the integer type is undefined -/
def castCell (rnd : Nat → Rat → Rat) (src dst : NumTy) (dtype : Nat) (v : Rat) : Res Rat :=
  match src, dst with
  | _, .real => .ok (rnd dtype v)
  | .int _, .int t => .ok (t.conv v.num : Int)
  | .real, .int t => if t.has (truncQ v) then .ok (truncQ v : Int) else .ub

/-- one step of the conversion loops: read, convert, write, tensor_builder.cpp:47 -/
def castStep (rnd : Nat → Rat → Rat) (src dst : NumTy) (dtype : Nat) (x : List Rat) (out : List Rat) (i : Nat) : Res (List Rat) := do
  let v ← rd x i
  let w ← castCell rnd src dst dtype v
  wr out i w

/-- `type_cast_template::cast`, tensor_builder.cpp:43-55: four at a time, then the rest -/
def castLoop (rnd : Nat → Rat → Rat) (src dst : NumTy) (dtype : Nat) (x : List Rat) (n : Nat) (out : List Rat) : Res (List Rat) := do
  let out ← loop (fun out k => loop (fun out j => castStep rnd src dst dtype x out (4 * k + j)) 4 out) (n / 4) out
  loop (fun out k => castStep rnd src dst dtype x out (n / 4 * 4 + k)) (n - n / 4 * 4) out

/-- `tensor::cast`, tensor_builder.cpp:123-145; `x` are the elements of a tensor of the type `sd`. The list of unsupported types is contained in the
types without a case. -/
def tensorCast (rnd : Nat → Rat → Rat) (dtype sd : Nat) (x : List Rat) (fresh : Nat → List Rat) : Res (List Rat) :=
  if sd = dtype then .ok x
  else match numTy sd, numTy dtype with
    | some s, some d => castLoop rnd s d dtype x x.length (fresh x.length)
    | _, _ => .err

/-- `Cast::run` and `CastV2::run`, base_cast.cpp:30-44, base_cast_v2.cpp:43-57: a tensor of the type already asked for is returned as it is -/
def castRun (rnd : Nat → Rat → Rat) (dtype sd : Nat) (x : List Rat) (fresh : Nat → List Rat) : Res (List Rat) :=
  if sd = dtype then .ok x
  else do
    let temp ← tensorCast rnd dtype sd x fresh
    Verif.Memory.copyWhole (fresh x.length) temp

/-- `isspace` of the C locale -/
def isSpace (c : Nat) : Bool := c == 32 || (9 ≤ c && c ≤ 13)

/-- the digits at the front -/
def digitsFront : List Nat → List Nat
  | [] => []
  | c :: cs => if 48 ≤ c ∧ c ≤ 57 then (c - 48) :: digitsFront cs else []

/-- a value clamped to a `long` of 64 bits -/
def clampLong (v : Int) : Int := if v < -2 ^ 63 then -2 ^ 63 else if 2 ^ 63 ≤ v then 2 ^ 63 - 1 else v

/-- the number that the digits at the front denote -/
def numberFront (s : List Nat) : Int := ((digitsFront s).foldl (fun a d => a * 10 + d) 0 : Nat)

/-- `std::strtol(s, nullptr, 10)` with a `long` of 64 bits: white space, a sign, digits; the value is clamped -/
def strtol (s : List Nat) : Int :=
  match s.dropWhile isSpace with
  | 45 :: r => clampLong (-numberFront r)
  | 43 :: r => clampLong (numberFront r)
  | r => clampLong (numberFront r)

/-- the characters of a string tensor as `char` counts them: bytes -/
def charByte (v : Rat) : Nat := (v.num % 256).toNat

/-- `cast(INT32, value).data<int32_t>(0)`, tensor_builder.cpp:161-162 -/
def firstAs (rnd : Nat → Rat → Rat) (dtype sd : Nat) (x : List Rat) (fresh : Nat → List Rat) : Res Rat :=
  if x.length = 0 then .err
  else do
    let t ← tensorCast rnd dtype sd x fresh
    rd t 0

/-- `tensor::to_int`, tensor_builder.cpp:155-163; `rank` is the number of dimensions. `to_string` throws for strings that are not of rank one
(tensor_builder.cpp:29-31), which is caught. -/
def toInt (rnd : Nat → Rat → Rat) (sd rank : Nat) (x : List Rat) (fresh : Nat → List Rat) : Res Rat :=
  if sd = 13 ∧ rank = 1 then .ok (cInt.conv (strtol (x.map charByte)) : Int) else firstAs rnd 5 sd x fresh

/-- `to_lower(to_string(value)) == "true"`, tensor_builder.cpp:196-204 -/
def isTrueString (s : List Nat) : Bool := s.map (fun c => if 65 ≤ c ∧ c ≤ 90 then c + 32 else c) == [116, 114, 117, 101]

/-- `tensor::to_bool`, tensor_builder.cpp:202-210 -/
def toBool (rnd : Nat → Rat → Rat) (sd rank : Nat) (x : List Rat) (fresh : Nat → List Rat) : Res Bool :=
  if sd = 13 ∧ rank = 1 then .ok (isTrueString (x.map charByte))
  else do
    let v ← firstAs rnd 21 sd x fresh
    .ok (v != 0)

end Verif.Kernels
