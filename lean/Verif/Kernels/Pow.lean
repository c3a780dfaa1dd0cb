import Verif.Kernels.Activation
import Verif.Kernels.Cast
/-!
# The operator `pow` (src/backend/base/base_pow.cpp, src/kernels/cpu/pow.cpp)

Elements of the operand are of any kind, infinities and not-a-number included; `std::pow` of `float`s and of `double`s is a parameter. The exponent is a
number (`Kernels.Cast`). The number of elements is an `int` in the code, its overflow is not modelled. Iterations of the OpenMP loop are run in order: each
writes an element of its own (C27). Views to other memory devices are not modelled.
-/
namespace Verif.Kernels.Power
open Verif.Core Verif.Kernels

variable {α : Type}

/-- a tensor: type, extents, elements -/
structure Tensor (α : Type) where
  dtype : Nat
  dims : List Nat
  cells : List α
  deriving Repr, DecidableEq

/-- `Pow::init`, base_pow.cpp:11-17, with `field("y", REQUIRED)`, :8, and `tensor::to_float` of a `FLOAT32` tensor, tensor_builder.cpp:176-184 (type 10; it is
not a text, so only the count is checked; converting it again does nothing). `rnd 10` rounds to `FLOAT32`. The parameter is given as type and elements. -/
def init (rnd : Nat → Rat → Rat) (fresh : Nat → List Rat) (y : Option (Nat × List Rat)) : Res Rat :=
  match y with
  | none => .err
  | some (sd, v) => do
    let t ← tensorCast rnd 10 sd v fresh
    if t.length = 0 then .err else rd t 0

/-- `cpu_pow_compute_run` and `Pow::pow`, pow.cpp:19-57: `FLOAT32` (10) and `FLOAT64` (11); `T(y)` keeps the `float` -/
def kernel (pow : Nat → α → Rat → α) (y : Rat) (dtype : Nat) (x out : List α) : Res (List α) :=
  if dtype = 10 ∨ dtype = 11 then mapAll (fun v => .ok (pow dtype v y)) x out.length out else .err

/-- `Pow::run`, base_pow.cpp:28-39: one operand, an output of the same prototype; `raw n` is fresh memory for `n` elements -/
def run (pow : Nat → α → Rat → α) (y : Rat) (raw : Nat → List α) (args : List (Tensor α)) : Res (Tensor α) :=
  match args with
  | [x] => do
    let cells ← kernel pow y x.dtype x.cells (raw x.cells.length)
    .ok { x with cells := cells }
  | _ => .err

/-- `Pow::infer`, base_pow.cpp:19-26: type and extents of the output -/
def infer (args : List (Tensor α)) : Res (Nat × List Nat) :=
  match args with
  | [x] => .ok (x.dtype, x.dims)
  | _ => .err

/-- the operator with its parameter on its operands: `init` when the program is made, then `run` -/
def powOp (rnd : Nat → Rat → Rat) (pow : Nat → α → Rat → α) (y : Option (Nat × List Rat)) (fresh : Nat → List Rat) (raw : Nat → List α)
    (args : List (Tensor α)) : Res (Tensor α) := do
  let e ← init rnd fresh y
  run pow e raw args

end Verif.Kernels.Power
