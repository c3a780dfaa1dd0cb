import Verif.Kernels.Buf
import Verif.Memory.Fill
import Mathlib.Algebra.Order.Floor.Defs
import Mathlib.Data.Rat.Floor
/-!
# Operators that make tensors from numbers (src/kernels/cpu/range.cpp, constant_of_shape.cpp, src/backend/base/base_shape.cpp, src/kernels/cpu/dims.cpp)

Integers have the widths and the wrapping or undefined overflow of C++; the arithmetic of `float` and `double` is exact (on rationals).
A negative extent of an output is reported as undefined: what the allocator then does with a size of almost 2^64 bytes is not modelled.
-/
namespace Verif.Kernels
open Verif.Core

/-- an integer type of C++ -/
structure IntTy where
  signed : Bool
  bits : Nat
  deriving DecidableEq, Repr

namespace IntTy

/-- the smallest value -/
def lo (t : IntTy) : Int := if t.signed then -2 ^ (t.bits - 1) else 0

/-- one more than the largest value -/
def hi (t : IntTy) : Int := if t.signed then 2 ^ (t.bits - 1) else 2 ^ t.bits

/-- is this a value of the type? -/
def has (t : IntTy) (x : Int) : Prop := t.lo ≤ x ∧ x < t.hi

instance (t : IntTy) (x : Int) : Decidable (t.has x) := inferInstanceAs (Decidable (_ ∧ _))

/-- conversion to the type: the value that differs by a multiple of 2^bits (what all compilers do for signed types as well) -/
def conv (t : IntTy) (x : Int) : Int := (x - t.lo) % 2 ^ t.bits + t.lo

/-- the type in which C++ computes with a value of the type and an `int`: narrower types are promoted to `int` -/
def arith (t : IntTy) : IntTy := if t.bits < 32 then ⟨true, 32⟩ else t

/-- the result of an arithmetic operation: overflow of a signed type is undefined, unsigned types wrap -/
def result (t : IntTy) (x : Int) : Res Int :=
  if t.signed then if t.has x then .ok x else .ub else .ok (t.conv x)

end IntTy

/-- `int` -/
def cInt : IntTy := ⟨true, 32⟩

/-- the types of `range`, range.cpp:60-69: INT8, UINT8, INT16, UINT16, INT32, UINT32, INT64, UINT64 -/
def rangeTypes : List IntTy := [⟨true, 8⟩, ⟨false, 8⟩, ⟨true, 16⟩, ⟨false, 16⟩, ⟨true, 32⟩, ⟨false, 32⟩, ⟨true, 64⟩, ⟨false, 64⟩]

/-- `steps * delta + start < limit`, then `steps++`, range.cpp:26-28 -/
def rangeRound (t : IntTy) (start limit delta steps : Int) : Res Int := do
  let p ← t.arith.result (t.arith.conv steps * delta)
  let s ← t.arith.result (p + start)
  if s < limit then cInt.result (steps + 1) else .ok steps

/-- `cpu_range_infer`, range.cpp:17-30 -/
def rangeSteps (t : IntTy) (start limit delta : Int) : Res Int := do
  let d ← t.arith.result (limit - start)
  if delta = 0 then .ub
  else do
    let q ← t.arith.result (Int.tdiv d delta)
    rangeRound t start limit delta (cInt.conv q)

/-- one element, range.cpp:40-42: `pout[i] = start + i * delta` -/
def rangeCell (t : IntTy) (start delta : Int) (i : Nat) : Res Int := do
  let p ← t.arith.result (t.arith.conv i * delta)
  let s ← t.arith.result (start + p)
  .ok (t.conv s)

/-- the elements, range.cpp:32-43; `fresh` is the new memory of the output -/
def rangeFill (t : IntTy) (start delta steps : Int) (fresh : Nat → List Int) : Res (List Int) :=
  if steps < 0 then .ub
  else loop (fun out i => do
    let v ← rangeCell t start delta i
    wr out i v) steps.toNat (fresh steps.toNat)

/-- `tensor.data<T>()[0]` of an operand of the integer type `u` and one element `v`, range.cpp:20-22: the type is not checked, the low bytes are taken
(little-endian), and an operand of a smaller type is read behind its end -/
def rangeOperand (t u : IntTy) (v : Int) : Res Int := if u.bits < t.bits then .ub else .ok (t.conv v)

/-- `Range::run` for an integer type (that of `start`), range.cpp:45-82, 84-124. An operand is its type and its elements. -/
def rangeRun (start limit delta : IntTy × List Int) (fresh : Nat → List Int) : Res (List Int) :=
  match start, limit, delta with
  | (t, [s]), (u, [l]), (v, [d]) => do
    let l ← rangeOperand t u l
    let d ← rangeOperand t v d
    let steps ← rangeSteps t s l d
    rangeFill t s d steps fresh
  | _, _, _ => .err

/-- `int(x)` of a floating point number: towards zero, undefined outside `int` -/
def truncInt (x : Rat) : Res Int :=
  let n := if 0 ≤ x then ⌊x⌋ else ⌈x⌉
  if cInt.has n then .ok n else .ub

/-- `cpu_range_infer` for `float` and `double`, range.cpp:17-30; a zero `delta` makes an infinity or not-a-number, whose conversion is undefined -/
def rangeStepsQ (start limit delta : Rat) : Res Int :=
  if delta = 0 then .ub
  else do
    let steps ← truncInt ((limit - start) / delta)
    if steps * delta + start < limit then cInt.result (steps + 1) else .ok steps

/-- `Range::run` for `float` and `double`, range.cpp:32-43, 45-124 -/
def rangeRunQ (start limit delta : Rat) (fresh : Nat → List Rat) : Res (List Rat) := do
  let steps ← rangeStepsQ start limit delta
  if steps < 0 then .ub
  else loop (fun out i => wr out i (start + i * delta)) steps.toNat (fresh steps.toNat)

/-- the count of elements of a shape, include/core/tensor.h:68-75, on mathematical integers -/
def countOf (shape : List Int) : Int := shape.foldl (· * ·) 1

/-- `ConstantOfShape::run`, constant_of_shape.cpp:22-74: `value` are the bytes of the value, `bytes` the size of an element, `supported` says that
the type of the value is one of the eleven listed; `fresh` is the new memory. `none` when the fuel is used up. -/
def constantOfShape (fuel : Nat) (supported : Bool) (bytes : Nat) (value : List Nat) (shape : List Int) (fresh : Nat → List Nat) :
    Option (Res (List Nat)) :=
  if countOf shape < 0 then some .ub
  else if !supported then some .err
  else
    let n := (countOf shape).toNat * bytes
    Verif.Memory.fill fuel (fresh n) n value

/-- `GetShape::run`, base_shape.cpp:24-40 -/
def shapeRun (shape : List Int) (fresh : Nat → List Int) : Res (List Int) :=
  loop (fun out i => do
    let v ← rd shape i
    wr out i v) shape.length (fresh shape.length)

/-- `Dims::run`, dims.cpp:13-18: a scalar -/
def dimsRun (shape : List Int) : Int := shape.length

end Verif.Kernels
