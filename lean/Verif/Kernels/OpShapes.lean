import Verif.Kernels.Geometry
import Verif.Core.ShapeOps
/-!
# Output shapes of further operators (`infer` of src/backend/base/base_*.cpp)

Shapes are lists of `int`; a tensor's extents are never negative. Data type checks are not repeated here. A `Shape` holds
seven extents (see Verif/Core/ShapeOps.lean).
-/
namespace Verif.Kernels
open Verif.Core

/-- `x.size(i)`, tensor.h:184 and 64: an unchecked read of the shape -/
def sizeAt (s : List Int) (i : Nat) : Res Int :=
  match s[i]? with
  | some v => .ok v
  | none => .ub

/-- `otl::vector::insert(it, first, last)`, otl.h:391-395 and 440-447, for a shape of rank `≥ i` -/
def insertRow (s : List Int) (i : Nat) (r : List Int) : Res (List Int) :=
  if i + r.length > 7 then .err
  else if s.length + r.length > 7 then .ub
  else .ok (s.take i ++ r ++ s.drop i)

/-- the two image layouts -/
inductive Format where
  | nchw
  | nhwc
  deriving DecidableEq, Repr

/-- The attributes of a convolution or pooling: `padding` (4x2), `stride` (4), `dilation` (4), `ksize` (4). The checks of
`init` (shapes of the attributes, neutral entries for batch and channel) are not modelled. -/
structure ConvAttrs where
  pad : Nat → Int
  stride : Nat → Int
  dilation : Nat → Int
  ksize : Nat → Int

/-- `Conv2D::infer`, base_conv2d.cpp:115-165 -/
def conv2dShape (f : Format) (w : ConvAttrs) (x k : List Int) : Res (List Int) :=
  match x, k with
  | [x0, x1, x2, x3], [k0, k1, k2, k3] =>
    if k1 ≠ x1 then .err
    else match f with
      | .nchw => do
        let h ← convForward x2 (w.pad 4) (w.pad 5) k2 (w.stride 2) (w.dilation 2)
        let v ← convForward x3 (w.pad 6) (w.pad 7) k3 (w.stride 3) (w.dilation 3)
        .ok [x0, k0, h, v]
      | .nhwc => do
        let h ← convForward x1 (w.pad 2) (w.pad 3) k1 (w.stride 1) (w.dilation 1)
        let v ← convForward x2 (w.pad 4) (w.pad 5) k2 (w.stride 2) (w.dilation 2)
        .ok [x0, h, v, k0]
  | _, _ => .err

/-- `Pooling2D::infer`, base_pooling2d.cpp:100-142 -/
def pooling2dShape (rnd : Rat → Rat) (f : Format) (w : ConvAttrs) (x : List Int) : Res (List Int) :=
  match x with
  | [x0, x1, x2, x3] =>
    match f with
    | .nchw => do
      let h ← poolForward rnd x2 (w.pad 4) (w.pad 5) (w.ksize 2) (w.stride 2)
      let v ← poolForward rnd x3 (w.pad 6) (w.pad 7) (w.ksize 3) (w.stride 3)
      .ok [x0, x1, h, v]
    | .nhwc => do
      let h ← poolForward rnd x1 (w.pad 2) (w.pad 3) (w.ksize 1) (w.stride 1)
      let v ← poolForward rnd x2 (w.pad 4) (w.pad 5) (w.ksize 2) (w.stride 2)
      .ok [x0, h, v, x3]
  | _ => .err

/-- `GlobalPooling2D::infer`, base_global_pooling2d.cpp:36-56 -/
def globalPoolShape (f : Format) (x : List Int) : Res (List Int) :=
  match x with
  | [x0, x1, _, x3] =>
    match f with
    | .nchw => .ok [x0, x1, 1, 1]
    | .nhwc => .ok [x0, 1, 1, x3]
  | _ => .err

/-- `infer_gather`, base_gather.cpp:23-40 -/
def gatherShape (axis : Int) (x indices : List Int) : Res (List Int) :=
  let n : Int := x.length
  if x.length < 1 then .err
  else if ¬ (axis ≥ -n ∧ axis < n) then .err
  else
    let a := (if axis < 0 then n + axis else axis).toNat
    insertRow (x.eraseIdx a) a indices

/-- `infer_argmax`, base_argmax.cpp:20-31 -/
def argmaxShape (dim : Int) (x : List Int) : Res (List Int) :=
  let d := if dim < 0 then dim + x.length else dim
  if d ≥ 0 ∧ d < x.length then .ok (x.eraseIdx d.toNat) else .err

/-- `StackTensor::infer`, base_stack_tensor.cpp:25-52; `xs` are the shapes of the inputs -/
def stackShape (axis : Int) (xs : List (List Int)) : Res (List Int) :=
  match xs with
  | [] => .err
  | x :: ys =>
    if ys.any (fun y => y != x) then .err
    else
      let n : Int := x.length + 1
      let a := if axis ≥ 0 then axis else n + axis
      if a < 0 ∨ a ≥ n then .err
      else insertRow x a.toNat [xs.length]

/-- the padding of the shorter of shape and repeats with leading ones, base_tile.cpp:41-50 and factory.cpp:1874-1883 -/
def tilePad (s : List Int) (n : Nat) : Res (List Int) :=
  if s.length < n ∧ n > 7 then .ub else .ok (List.replicate (n - s.length) 1 ++ s)

/-- the product of the extents with the repeats, base_tile.cpp:51-54 -/
def tileMul : List Int → List Int → Res (List Int)
  | x :: xs, r :: rs => do
    let p ← int32 (x * r)
    let l ← tileMul xs rs
    .ok (p :: l)
  | _, _ => .ok []

/-- `Tile::init` and `Tile::infer`, base_tile.cpp:16-72 -/
def tileShape (repeats x : List Int) : Res (List Int) :=
  if repeats.any (· < 0) then .err
  else do
    let r ← tilePad repeats x.length
    let y ← tilePad x repeats.length
    tileMul y r

/-- the loop of `Pad::infer`, base_pad.cpp:36-39; `p` are the paddings of the remaining dimensions, two each -/
def padLoop : List Int → List Int → Res (List Int)
  | x :: xs, a :: b :: p => do
    let q ← int32 (a + b)
    let v ← int32 (x + q)
    let l ← padLoop xs p
    .ok ((if v < 1 then 1 else v) :: l)
  | _, _ => .ok []

/-- `Pad::infer`, base_pad.cpp:24-45; `ps` is the shape of the padding tensor and `p` its elements -/
def padShapeOp (x ps p : List Int) : Res (List Int) :=
  match ps with
  | [n, two] => if two ≠ 2 then .err else if n ≠ x.length then .err else padLoop x p
  | _ => .err

/-- the checks of the two matrices, base_inner_prod.cpp:37-58 -/
def innerProd2 (transpose : Bool) (l r : List Int) : Res (List Int) :=
  match l, r with
  | [a, b], [c, d] =>
    if transpose then (if b = d then .ok [a, c] else .err)
    else (if b = c then .ok [a, d] else .err)
  | _, _ => .err

/-- `infer_size`, base_inner_prod.cpp:29-60; the left operand is flattened to a matrix -/
def innerProdShape (transpose : Bool) (l r : List Int) : Res (List Int) :=
  match l with
  | [] => .err
  | n :: _ =>
    if l.length ≠ 2 then do
      let l' ← reshapeShape l [n, -1]
      innerProd2 transpose l' r
    else innerProd2 transpose l r

/-- `infer_gemm`, base_gemm.cpp:19-74 -/
def gemmShape (transA transB : Bool) (a b c : List Int) : Res (List Int) :=
  match a, b with
  | [a0, a1], [b0, b1] =>
    if c.length > 2 then .err
    else
      let m := if transA then a1 else a0
      let ak := if transA then a0 else a1
      let n := if transB then b0 else b1
      let bk := if transB then b1 else b0
      if ak ≠ bk then .err
      else
        match List.replicate (2 - c.length) 1 ++ c with
        | [c0, c1] => if (c0 ≠ 1 ∧ c0 ≠ m) ∨ (c1 ≠ 1 ∧ c1 ≠ n) then .err else .ok [m, n]
        | _ => .err
  | _, _ => .err

end Verif.Kernels
