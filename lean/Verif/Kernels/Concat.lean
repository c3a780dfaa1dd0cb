import Verif.Core.Tensor
import Verif.Core.ShapeSpec
import Verif.Kernels.Moves
/-!
# Concat (src/backend/base/base_concat.cpp, src/kernels/cpu/concat.cpp)

Extents are naturals. Index products are natural numbers: they stay below the element count of the output, which
`Tensor::Prototype::count` already computes as an `int` when the output is allocated.
-/
namespace Verif.Kernels
open Verif.Core

/-- one operand: `DTYPE` code, shape, elements in row-major order -/
structure Operand (α : Type) where
  dtype : Nat
  shape : List Nat
  data : List α

/-- `m_dim >= 0 ? m_dim : output_dims + m_dim` and its range check, base_concat.cpp:65-73 and 114-121 -/
def fixDim (dim : Int) (rank : Nat) : Res Nat :=
  let d := if dim ≥ 0 then dim else (rank : Int) + dim
  if d < 0 ∨ d ≥ (rank : Int) then .err else .ok d.toNat

/-- The shape loop of `Concat::infer`, base_concat.cpp:78-93. -/
def concatLoop (d : Nat) (s0 : List Nat) : List (List Nat) → Nat → Res Nat
  | [], acc => .ok acc
  | s :: ss, acc =>
    if s.length ≠ s0.length then .err
    else if (List.range s.length).any fun j => j != d && s.getD j 0 != s0.getD j 0 then .err
    else if acc + s.getD d 0 ≤ 2147483647 then concatLoop d s0 ss (acc + s.getD d 0) else .ub

/-- `Concat::infer`, base_concat.cpp:37-101. -/
def concatInfer {α : Type} (dim : Int) : List (Operand α) → Res (List Nat)
  | [] => .err
  | [x] => .ok x.shape
  | x :: xs =>
    if xs.any fun y => y.dtype != x.dtype then .err
    else do
      let d ← fixDim dim x.shape.length
      let n ← concatLoop d x.shape (xs.map Operand.shape) (x.shape.getD d 0)
      .ok (x.shape.set d n)

/-- the inner loop, concat.cpp:43-50: for every `j` one `memcpy` of `axis * size` elements -/
def blockMoves (num outAxis off size axis : Nat) : List (Nat × Nat) :=
  (List.range num).flatMap fun j => (List.range (axis * size)).map fun t =>
    ((j * outAxis + off) * size + t, j * axis * size + t)

/-- the loop over the inputs, concat.cpp:40-52 -/
def concatCopy {α : Type} (d num outAxis size : Nat) : Nat → List (Operand α) → List α → Res (List α)
  | _, [], dst => .ok dst
  | off, x :: xs, dst => do
    let dst' ← runMoves x.data (blockMoves num outAxis off size (x.shape.getD d 0)) dst
    concatCopy d num outAxis size (off + x.shape.getD d 0) xs dst'

/-- `Concat::run` with the CPU kernel, base_concat.cpp:103-126 and concat.cpp:12-86; `dst` is the initial content of
the output buffer. -/
def concatRun {α : Type} (dim : Int) (xs : List (Operand α)) (dst : List α) : Res (List Nat × List α) := do
  let out ← concatInfer dim xs
  match xs with
  | [] => .err
  | x :: _ => do
    let d ← fixDim dim x.shape.length
    if typeBytes x.dtype ∈ [1, 2, 4, 8, 16] then do
      let r ← concatCopy d (Spec.prod (x.shape.take d)) (out.getD d 0) (Spec.prod (x.shape.drop (d + 1))) 0 xs dst
      .ok (out, r)
    else .err

end Verif.Kernels
