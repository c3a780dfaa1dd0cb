import Verif.Runtime.Inferer
import Verif.Kernels.OpShapes
import Verif.Kernels.ElementWise
import Verif.Kernels.Concat
import Verif.Kernels.Transpose
/-!
# Shape rules of the static inference (src/runtime/inferer/factory.cpp) and the operators they stand for

Prototypes are lists of extents; a negative extent means "unknown". Data types are not modelled. Results: `ok none` is
`VOID`, `err` an exception, `ub` undefined behaviour. Attributes are taken as given; for the rules that return `VOID` when
an attribute is missing only the present attribute is modelled.
-/
namespace Verif.Runtime.Infer
open Verif.Core Verif.Kernels

/-- a tensor, as far as the rules look at one: its shape and its elements as integers (`tensor::array::to_int`) -/
structure Val where
  shape : List Int
  ints : List Int
  deriving DecidableEq, Repr

/-- `eltwise_infer_dim`, factory.cpp:269-286 -/
def eltDim (a b : Int) : Int :=
  if a ≤ 0 then (if b = 1 then -1 else b)
  else if a = 1 then b
  else if b ≤ 0 then a
  else if b = 1 then a
  else if a = b then a
  else -1

/-- `begin_insert_ones` as called in `_eltwise`, factory.cpp:288-291 and 297-301: ones in front up to rank `n` -/
def eltPad (l : List Int) (n : Nat) : Res (List Int) :=
  if n > l.length then insertOnes l 0 (n - l.length) else .ok l

/-- `_eltwise`, factory.cpp:293-313 -/
def ruleEltwise (l r : List Int) : Res (Option (List Int)) := do
  let l' ← eltPad l r.length
  let r' ← eltPad r l.length
  .ok (some (List.zipWith eltDim l' r'))

/-- `flatten`, factory.cpp:320-345: the statements of base_flatten.cpp:22-43 -/
def ruleFlatten (dim : Int) (x : List Int) : Res (Option (List Int)) := do
  let s ← flattenShape dim x
  .ok (some s)

/-- `flatten2d`, factory.cpp:349-368: the statements of flatten2d.cpp:23-36 -/
def ruleFlatten2d (dim : Int) (x : List Int) : Res (Option (List Int)) := do
  let s ← flatten2dShape dim x
  .ok (some s)

/-- the loop over the axes in `squeeze`, factory.cpp:1817-1821; `n` is the rank of the input. `_erase` past the end of
the shape (otl.h:423-428) does nothing exactly at the end and is undefined further right. -/
def ruleSqueezeLoop (n : Nat) : List Int → List Int → Res (Option (List Int))
  | [], y => .ok (some y)
  | axis :: as, y =>
    let a := if axis < 0 then axis + n else axis
    if a < 0 ∨ a ≥ n then .ok none
    else if a.toNat > y.length then .ub
    else ruleSqueezeLoop n as (y.eraseIdx a.toNat)

/-- `squeeze`, factory.cpp:1802-1826; with no axes the loop runs over the (empty) axes instead of the shape -/
def ruleSqueeze (axes x : List Int) : Res (Option (List Int)) :=
  if axes = [] then .ok (some x) else ruleSqueezeLoop x.length axes.reverse x

/-- `unsqueeze`, factory.cpp:1830-1850 -/
def ruleUnsqueeze : List Int → List Int → Res (Option (List Int))
  | [], y => .ok (some y)
  | axis :: as, y =>
    let m : Int := y.length
    if axis > m ∨ axis < -m then .ok none
    else do
      let y' ← if axis ≥ 0 then insertOne y axis.toNat else insertOne y (m + axis + 1).toNat
      ruleUnsqueeze as y'

/-- the loop copying extents for zeros, factory.cpp:401-408 and 844-851 -/
def ruleCopyZeros : List Int → List Int → Option (List Int)
  | _, [] => some []
  | [], r :: rs => if r = 0 then none else (ruleCopyZeros [] rs).map (r :: ·)
  | s :: ss, r :: rs => (ruleCopyZeros ss rs).map ((if r = 0 then s else r) :: ·)

/-- `_reshape`, factory.cpp:397-417 (`valid_dims` 390-395), and `_reshape_v2`, 837-860, after the requested shape was read -/
def ruleReshape (req x : List Int) : Res (Option (List Int)) :=
  if req.length > 7 then .ub
  else match ruleCopyZeros x req with
    | none => .ok none
    | some l =>
      if x.all (0 < ·) then do
        let s ← reshapeShape x l
        .ok (some s)
      else .ok (some l)

/-- `while (y.size() < dims && front > 0) y.insert(y.begin(), 1)`, factory.cpp:705-707 and 715-717; `dims` is a `size_t`
made from an `int`. The eighth insertion at the front writes past the buffer. -/
def ruleExpandFront (dims limit : Int) (y : List Int) : Res (List Int) :=
  if limit ≤ 0 then .ok y
  else if dims < 0 ∨ 7 < dims then .ub
  else .ok (List.replicate (dims.toNat - y.length) 1 ++ y)

/-- `while (y.size() < dims && end > 0) y.insert(y.end(), 1)`, factory.cpp:708-710 and 712-714; inserting at the end of a
full shape throws -/
def ruleExpandEnd (dims limit : Int) (y : List Int) : Res (List Int) :=
  if limit ≤ 0 then .ok y
  else if dims < 0 ∨ 7 < dims then .err
  else .ok (y ++ List.replicate (dims.toNat - y.length) 1)

/-- `_expand`, factory.cpp:687-722, after `dims` was read from the second input; the limits are not counted down -/
def ruleExpand (front last : Option Int) (inverse : Bool) (dims : Int) (x : List Int) : Res (Option (List Int)) := do
  let f := front.getD dims
  let e := last.getD dims
  if inverse then do
    let y ← ruleExpandEnd dims e x
    let y ← ruleExpandFront dims f y
    .ok (some y)
  else do
    let y ← ruleExpandFront dims f x
    let y ← ruleExpandEnd dims e y
    .ok (some y)

/-- the permuting loop of `_transpose`, factory.cpp:131-134; a negative entry is a huge `size_t` in the comparison -/
def rulePermLoop (x : List Int) : List Int → Option (List Int)
  | [] => some []
  | k :: ks =>
    if k < 0 then none
    else match x[k.toNat]? with
      | none => none
      | some v => (rulePermLoop x ks).map (v :: ·)

/-- `_transpose`, factory.cpp:111-137; without `permute` the local `tmp` is filled and `permute` stays empty -/
def ruleTranspose (param : Option (List Int)) (x : List Int) : Res (Option (List Int)) :=
  match param with
  | none => if x.length < 2 then .ok (some x) else .ok (some [])
  | some p => do
    let x' ← padShape x p.length
    .ok (rulePermLoop x' p)

/-- the loop of `concat`, factory.cpp:627-634 -/
def ruleConcatLoop (d : Nat) : List (List Int) → Int → Res Int
  | [], acc => .ok acc
  | s :: ss, acc => do
    let inc ← sizeAt s d
    if inc < 0 then .ok (-1)
    else do
      let acc' ← int32 (acc + inc)
      ruleConcatLoop d ss acc'

/-- `concat`, factory.cpp:616-637 -/
def ruleConcat (dim : Int) : List (List Int) → Res (Option (List Int))
  | [] => .ok none
  | x :: xs =>
    let d := if dim < 0 then (x.length : Int) + dim else dim
    if d < 0 ∨ d ≥ (x.length : Int) then .ok none
    else do
      let v ← sizeAt x d.toNat
      let n ← ruleConcatLoop d.toNat xs v
      .ok (some (x.set d.toNat n))

/-- one spatial dimension of `conv2d`, factory.cpp:199-211 and 166-168 -/
def ruleConvDim (w : ConvAttrs) (dim : Nat) (x k : Int) : Res Int :=
  if x < 0 then .ok (-1)
  else do
    let p ← int32 (w.pad (2 * dim) + w.pad (2 * dim + 1))
    convForward x p 0 k (w.stride dim) (w.dilation dim)

/-- `conv2d`, factory.cpp:170-214: the kernel extents are those at positions 2 and 3 in both layouts -/
def ruleConv2d (f : Format) (w : ConvAttrs) (x k : List Int) : Res (Option (List Int)) := do
  let x0 ← sizeAt x 0
  let k0 ← sizeAt k 0
  let k2 ← sizeAt k 2
  let k3 ← sizeAt k 3
  match f with
  | .nchw => do
    let x2 ← sizeAt x 2
    let h ← ruleConvDim w 2 x2 k2
    let x3 ← sizeAt x 3
    let v ← ruleConvDim w 3 x3 k3
    .ok (some [x0, k0, h, v])
  | .nhwc => do
    let x1 ← sizeAt x 1
    let h ← ruleConvDim w 1 x1 k2
    let x2 ← sizeAt x 2
    let v ← ruleConvDim w 2 x2 k3
    .ok (some [x0, h, v, k0])

/-- one spatial dimension of `pooling2d`, factory.cpp:251-262 and 221-223 -/
def rulePoolDim (rnd : Rat → Rat) (w : ConvAttrs) (dim : Nat) (x : Int) : Res Int :=
  if x < 0 then .ok (-1)
  else do
    let p ← int32 (w.pad (2 * dim) + w.pad (2 * dim + 1))
    poolForward rnd x p 0 (w.ksize dim) (w.stride dim)

/-- `pooling2d`, factory.cpp:225-265 -/
def rulePooling2d (rnd : Rat → Rat) (f : Format) (w : ConvAttrs) (x : List Int) : Res (Option (List Int)) := do
  let x0 ← sizeAt x 0
  match f with
  | .nchw => do
    let x1 ← sizeAt x 1
    let x2 ← sizeAt x 2
    let h ← rulePoolDim rnd w 2 x2
    let x3 ← sizeAt x 3
    let v ← rulePoolDim rnd w 3 x3
    .ok (some [x0, x1, h, v])
  | .nhwc => do
    let x3 ← sizeAt x 3
    let x1 ← sizeAt x 1
    let h ← rulePoolDim rnd w 1 x1
    let x2 ← sizeAt x 2
    let v ← rulePoolDim rnd w 2 x2
    .ok (some [x0, h, v, x3])

/-- `global_pooling2d`, factory.cpp:641-668 -/
def ruleGlobalPool (f : Format) (x : List Int) : Res (Option (List Int)) := do
  let x0 ← sizeAt x 0
  match f with
  | .nchw => do
    let x1 ← sizeAt x 1
    .ok (some [x0, x1, 1, 1])
  | .nhwc => do
    let x3 ← sizeAt x 3
    .ok (some [x0, 1, 1, x3])

/-- `gather`, factory.cpp:1406-1422 -/
def ruleGather (axis : Int) (x indices : List Int) : Res (Option (List Int)) :=
  let a := if axis < 0 then axis + x.length else axis
  if a < 0 ∨ a ≥ x.length then .ok none
  else do
    let y ← insertRow (x.eraseIdx a.toNat) a.toNat indices
    .ok (some y)

/-- `argmax`, factory.cpp:898-911 -/
def ruleArgmax (dim : Int) (x : List Int) : Res (Option (List Int)) :=
  let d := if dim < 0 then dim + x.length else dim
  if d < 0 ∨ d ≥ x.length then .ok none else .ok (some (x.eraseIdx d.toNat))

/-- `stack`, factory.cpp:1854-1869: no check of the axis, `begin() + axis` outside the shape is undefined -/
def ruleStack (axis : Int) : List (List Int) → Res (Option (List Int))
  | [] => .ok none
  | x :: ys =>
    let a := if axis ≥ 0 then axis else (x.length : Int) + axis + 1
    if a < 0 ∨ a > x.length then .ub
    else do
      let y ← insertRow x a.toNat [((x :: ys).length : Int)]
      .ok (some y)

/-- the product loop of `infer_tile`, factory.cpp:1885-1891 -/
def ruleTileMul : List Int → List Int → Res (List Int)
  | x :: xs, r :: rs => do
    let p ← if x < 0 then .ok (-1) else int32 (x * r)
    let l ← ruleTileMul xs rs
    .ok (p :: l)
  | _, _ => .ok []

/-- `tile`, factory.cpp:1873-1904 -/
def ruleTile (repeats x : List Int) : Res (Option (List Int)) := do
  let r ← tilePad repeats x.length
  let y ← tilePad x repeats.length
  let l ← ruleTileMul y r
  .ok (some l)

/-- the loop of `pad`, factory.cpp:1597-1600 -/
def rulePadLoop : List Int → List Int → Res (List Int)
  | x :: xs, a :: b :: p => do
    let v ← if x < 0 then .ok x else do
      let q ← int32 (a + b)
      int32 (x + q)
    let l ← rulePadLoop xs p
    .ok (v :: l)
  | _, _ => .ok []

/-- `pad`, factory.cpp:1587-1603, after the padding was read from the second input -/
def rulePad (p x : List Int) : Res (Option (List Int)) :=
  if p.length ≠ x.length * 2 then .ok none
  else do
    let l ← rulePadLoop x p
    .ok (some l)

/-- `inner_prod`, factory.cpp:372-386 -/
def ruleInnerProd (transpose : Bool) (x w : List Int) : Res (Option (List Int)) := do
  let a ← sizeAt x 0
  let b ← sizeAt w (if transpose then 0 else 1)
  .ok (some [a, b])

/-- `gemm`, factory.cpp:600-612 -/
def ruleGemm (transA transB : Bool) (a b : List Int) : Res (Option (List Int)) := do
  let m ← sizeAt a (if transA then 1 else 0)
  let n ← sizeAt b (if transB then 0 else 1)
  .ok (some [m, n])

/-! ## The operators -/

/-- the operators covered, with their attributes -/
inductive Op where
  /-- a parameter with its declared `#shape` -/
  | param (shape : List Int)
  | const (v : Val)
  /-- the operators whose output has the shape of their first input (`_copy` in factory.cpp): relu, sigmoid, softmax,
  add_bias, batch_norm, … -/
  | copy
  | eltwise
  | flatten (dim : Int)
  | flatten2d (dim : Int)
  | squeeze (axes : List Int)
  | unsqueeze (axes : List Int)
  | reshape (req : List Int)
  | reshapeV2
  | expand (front last : Option Int) (inverse : Bool)
  | transpose (permute : Option (List Int))
  | concat (dim : Int)
  | shape
  | dims
  | conv2d (f : Format) (w : ConvAttrs)
  | pooling2d (f : Format) (w : ConvAttrs)
  | globalPool (f : Format)
  | gather (axis : Int)
  | argmax (dim : Int)
  | stack (axis : Int)
  | tile (repeats : List Int)
  | pad
  | innerProd (transpose : Bool)
  | gemm (transA transB : Bool)

/-- one integer from a tensor (`tensor::to_int`, which throws for an empty tensor) -/
def toInt (v : Val) : Res Int :=
  match v.ints with
  | i :: _ => .ok i
  | [] => .err

/-- extents of an existing tensor as natural numbers, the form Verif/Kernels/ElementWise.lean and Concat.lean use -/
def nats (s : List Int) : List Nat := s.map Int.toNat

/-- The shape an operator's execution gives its output: the `infer` functions of src/backend/base. -/
def opShape (rnd : Rat → Rat) : Op → List Val → Res (List Int)
  | .copy, x :: _ => .ok x.shape
  | .eltwise, [l, r] => do
    let (_, _, o, _) ← reduceShapes (nats l.shape) (nats r.shape)
    .ok (o.map Int.ofNat)
  | .flatten d, [x] => flattenShape d x.shape
  | .flatten2d d, [x] => flatten2dShape d x.shape
  | .squeeze a, [x] => squeezeShape a x.shape
  | .unsqueeze a, [x] => unsqueezeShape a x.shape
  | .reshape req, [x] => do
    let t ← reshapeV1 req (.mk ⟨0, x.shape, []⟩ [])
    .ok t.own.shape
  | .reshapeV2, [x, s] => do
    let t ← Core.reshapeV2 (.mk ⟨0, x.shape, []⟩ []) s.ints
    .ok t.own.shape
  | .expand f e i, [x, d] => do
    let n ← toInt d
    let t ← Core.expand (f.getD (-1)) (e.getD (-1)) i n (.mk ⟨0, x.shape, []⟩ [])
    .ok t.own.shape
  | .transpose p, [x] => do
    let m ← initPermute p
    let q ← getPermute m x.shape.length
    permutedShape x.shape q
  | .concat d, xs => do
    let o ← concatInfer d (xs.map fun x => (⟨0, nats x.shape, []⟩ : Operand Unit))
    .ok (o.map Int.ofNat)
  | .shape, [x] => .ok [x.shape.length]
  | .dims, [_] => .ok []
  | .conv2d f w, [x, k] => conv2dShape f w x.shape k.shape
  | .pooling2d f w, [x] => pooling2dShape rnd f w x.shape
  | .globalPool f, [x] => globalPoolShape f x.shape
  | .gather a, [x, i] => gatherShape a x.shape i.shape
  | .argmax d, [x] => argmaxShape d x.shape
  | .stack a, xs => stackShape a (xs.map Val.shape)
  | .tile r, [x] => tileShape r x.shape
  | .pad, [x, p] => padShapeOp x.shape p.shape p.ints
  | .innerProd t, [x, w] => innerProdShape t x.shape w.shape
  | .gemm ta tb, [a, b, c] => gemmShape ta tb a.shape b.shape c.shape
  | _, _ => .err

/-- Executing an operator. `kern` is what the kernels compute; only `_shape` (base_shape.cpp:22-38) and `_dims`
(dims.cpp) are fixed here. -/
def opRun (rnd : Rat → Rat) (kern : Op → List Val → List Int) (op : Op) (vs : List Val) : Option Val :=
  match opShape rnd op vs with
  | .ok s =>
    match op, vs with
    | .shape, [x] => some ⟨s, x.shape⟩
    | .dims, [x] => some ⟨s, [x.shape.length]⟩
    | _, _ => some ⟨s, kern op vs⟩
  | _ => none

/-- a result and no stored value -/
def plain : Res (Option (List Int)) → RuleOut (List Int) Val
  | .ok none => .void
  | .ok (some s) => .ok s none
  | .err => .fails .exception
  | .ub => .fails .undefined

/-- The registered rule of an operator (`ShapeInferer::Register` in factory.cpp). A missing input is read out of
bounds. -/
def opRule (rnd : Rat → Rat) : Op → List (List Int) → List (Option Val) → RuleOut (List Int) Val
  | .param s, _, _ => .ok s none
  | .const v, _, _ => .ok v.shape none
  | .copy, x :: _, _ => .ok x none
  | .eltwise, l :: r :: _, _ => plain (ruleEltwise l r)
  | .flatten d, x :: _, _ => plain (ruleFlatten d x)
  | .flatten2d d, x :: _, _ => plain (ruleFlatten2d d x)
  | .squeeze a, x :: _, _ => plain (ruleSqueeze a x)
  | .unsqueeze a, x :: _, _ => plain (ruleUnsqueeze a x)
  | .reshape req, x :: _, _ => plain (ruleReshape req x)
  | .reshapeV2, x :: _, _ :: k :: _ =>
    match k with
    | none => .void
    | some v => plain (ruleReshape v.ints x)
  | .expand f e i, x :: _, _ :: k :: _ =>
    match k with
    | none => .void
    | some v => plain (toInt v >>= fun n => ruleExpand f e i n x)
  | .transpose p, x :: _, _ => plain (ruleTranspose p x)
  | .concat d, xs, _ => plain (ruleConcat d xs)
  | .shape, x :: _, _ => .ok [x.length] (some ⟨[x.length], x⟩)
  | .dims, x :: _, _ => .ok [] (some ⟨[], [x.length]⟩)
  | .conv2d f w, x :: k :: _, _ => plain (ruleConv2d f w x k)
  | .pooling2d f w, x :: _, _ => plain (rulePooling2d rnd f w x)
  | .globalPool f, x :: _, _ => plain (ruleGlobalPool f x)
  | .gather a, x :: i :: _, _ => plain (ruleGather a x i)
  | .argmax d, x :: _, _ => plain (ruleArgmax d x)
  | .stack a, xs, _ => plain (ruleStack a xs)
  | .tile r, x :: _, _ => plain (ruleTile r x)
  | .pad, x :: _, _ :: k :: _ =>
    match k with
    | none => .void
    | some v => plain (rulePad v.ints x)
  | .innerProd t, x :: w :: _, _ => plain (ruleInnerProd t x w)
  | .gemm ta tb, a :: b :: _, _ => plain (ruleGemm ta tb a b)
  | _, _, _ => .fails .undefined

/-- The inference environment of a graph of these operators. -/
def opEnv {N : Type} (rnd : Rat → Rat) (kern : Op → List Val → List Int) (op : N → Op) (inputs : N → List N) :
    Env N (List Int) Val where
  inputs := inputs
  isEnd n := match op n with | .param _ => true | .const _ => true | _ => false
  const? n := match op n with | .const v => some v | _ => none
  rule n := some (opRule rnd (op n))
  run n := opRun rnd kern (op n)

end Verif.Runtime.Infer
