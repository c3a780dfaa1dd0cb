import Verif.Runtime.InferRules2
import Verif.Kernels.StridedSlice
/-!
# A third group of shape rules of the static inference (src/runtime/inferer/factory.cpp)

As in Verif/Runtime/InferRules.lean and InferRules2.lean: negative extents are unknown, `ok none` is `VOID`, attributes are taken as given. First the
shapes that the executions give, then the rules.
-/
namespace Verif.Kernels.Exec
open Verif.Core Verif.Kernels

/-- one element of `tensor_long_to_int`, base_slice_v2.cpp:47-54 -/
def clampInt (v : Int) : Int :=
  if v > 0 ∧ v > 2147483647 then 2147483647 else if v < 0 ∧ v < -2147483648 then -2147483648 else v

/-- `SliceV2::infer`, base_slice_v2.cpp:61-72: `infer_slice` (20-42) has the statements of base_slice.cpp:43-65 -/
def sliceV2 (begins sizes x : List Int) : Res (List Int) := slice (begins.map clampInt) (sizes.map clampInt) x

/-- `int32_t(std::floor(extent * scale))`, sample2d.cpp:117-118, sample2d_v2.cpp:66; `rnd` is the rounding of `float` -/
def floorScaled (rnd : Rat → Rat) (scale : Rat) (a : Int) : Res Int := int32 (rnd (rnd a * scale)).floor

/-- `Sample2D::init` and `run`, sample2d.cpp:48-50, 102-127 -/
def sample2d (rnd : Rat → Rat) (scale : Rat) (dim : Int) (x : List Int) : Res (List Int) :=
  let d := if dim < 0 then (x.length : Int) + dim else dim
  if scale < 1 / 100000 then .err
  else if d < 0 ∨ d ≥ (x.length : Int) - 1 then .err
  else do
    let a ← sizeAt x d.toNat
    let h ← floorScaled rnd scale a
    let b ← sizeAt x (d.toNat + 1)
    let w ← floorScaled rnd scale b
    affineSample dim x [h, w]

/-- the loop of `GetSizeTensor`, sample2d_v2.cpp:65-67 -/
def floorLoop (rnd : Rat → Rat) : List Int → List Rat → Res (List Int)
  | a :: x, s :: ss => do
    let y ← floorScaled rnd s a
    let r ← floorLoop rnd x ss
    .ok (y :: r)
  | _, _ => .ok []

/-- `Sample2DV2::run`, sample2d_v2.cpp:55-69, 81-88: `_resize2d` to the scaled extents -/
def sample2dV2 (rnd : Rat → Rat) (scales : List Rat) (x : List Int) : Res (List Int) :=
  if scales.length ≠ x.length then .err
  else do
    let s ← floorLoop rnd x scales
    resize2d x [(x.length : Int)] s

/-- the shape of `BroadcastV2::run`, base_broadcast_v2.cpp:117-156; see `broadcastRun` -/
def broadcast (x : List Nat) (request : List Int) : Res (List Nat) :=
  let xs := frontOnes x request.length
  let ys := List.replicate (x.length - request.length) 1 ++ request
  if xs.map Int.ofNat = ys then .ok xs else broadcastExtents xs ys

/-- the transformed extent for a mode, base_winograd_transform_kernel.cpp:19-27, 41-48, factory.cpp:1563-1578 -/
def winogradExtent (mode : String) : Option Int :=
  if mode = "winograd_f63" then some 8 else if mode = "winograd_f23" then some 4 else none

/-- `WinogradTransKernel::init` and `infer`, base_winograd_transform_kernel.cpp:19-54 -/
def winograd (mode : String) (x : List Int) : Res (List Int) :=
  match winogradExtent mode, x with
  | some m, [a, b, c, d] => if c = 3 ∧ d = 3 then .ok [a, b, m, m] else .err
  | _, _ => .err

/-- `DepthwiseConv2D::infer`, base_depthwise_conv2d.cpp:10-25: the shape of the convolution with the extent at position 1 replaced, in both layouts -/
def depthwise (f : Format) (w : ConvAttrs) (x k : List Int) : Res (List Int) := do
  let y ← conv2dShape f w x k
  let k0 ← sizeAt k 0
  if k0 ≠ 1 then .err
  else do
    let x1 ← sizeAt x 1
    let n ← int32 (x1 * k0)
    .ok (y.set 1 n)

/-- `Conv2DV2::run`, kernels/cpu/conv2d_v2.cpp:73-90: the padding is an operand, checked in base_conv2d.cpp:62. That the operator keeps the
padding between calls: C89, Verif/Runtime/Delegate.lean. -/
def conv2dV2 (f : Format) (w : ConvAttrs) (x ps pad k : List Int) : Res (List Int) :=
  if ps ≠ [4, 2] then .err else conv2dShape f { w with pad := fun i => pad.getD i 0 } x k

/-- `Pooling2DV2::run`, kernels/cpu/pooling2d_v2.cpp:84-117: padding, size and stride are operands -/
def pooling2dV2 (rnd : Rat → Rat) (f : Format) (w : ConvAttrs) (x ps pad ks ksize ss stride : List Int) : Res (List Int) :=
  if ps ≠ [4, 2] ∨ ks ≠ [4] ∨ ss ≠ [4] then .err
  else pooling2dShape rnd f { w with pad := fun i => pad.getD i 0, ksize := fun i => ksize.getD i 0, stride := fun i => stride.getD i 0 } x

/-- `ROIAlign::infer`, base_roi_align.cpp:28-36; `TS_AUTO_ASSERT` of the number of operands is not modelled -/
def roiAlign (h w : Int) (x r : List Int) : Res (List Int) := do
  let n ← sizeAt r 0
  let c ← sizeAt x 1
  .ok [n, c, h, w]

/-- `StridedSlice::run`, base_strided_slice.cpp:290-322, without ellipsis and new axes -/
def stridedSlice (begins ends strides : List Int) (bm em shrink : Nat) (x : List Int) : Res (List Int) := do
  let p ← slicePlan x ⟨begins, ends, strides, bm, em, 0, 0, shrink⟩
  let _ ← reshapeShape x p.inShape
  reshapeShape p.raw p.out

end Verif.Kernels.Exec

namespace Verif.Runtime.Infer3
open Verif.Core Verif.Kernels Verif.Runtime.Infer Verif.Runtime.Infer2

/-- `int32_t(v)` of an INT64 element, `tensor::array::to_int` -/
def wrapInt (v : Int) : Int := (v + 2147483648) % 4294967296 - 2147483648

/-- `slice_v2`, factory.cpp:2269-2294: the statements of `slice` (1985-2011), begins and sizes are operands -/
def ruleSliceV2 (begins sizes x : List Int) : Res (Option (List Int)) := ruleSlice (begins.map wrapInt) (sizes.map wrapInt) x

/-- `int32_t(q)` of a float: the fraction is cut off -/
def truncInt (q : Rat) : Res Int := int32 (if q < 0 then q.ceil else q.floor)

/-- factory.cpp:1767-1770 for one extent -/
def scaleKnown (rnd : Rat → Rat) (scale : Rat) (a : Int) : Res Int := if a > 0 then truncInt (rnd (rnd a * scale)) else .ok a

/-- `sample2d`, factory.cpp:1758-1774 -/
def ruleSample2d (rnd : Rat → Rat) (scale : Rat) (dim : Int) (x : List Int) : Res (Option (List Int)) :=
  let d := if dim < 0 then dim + x.length else dim
  if d < 0 ∨ d + 1 ≥ x.length then .ok none
  else do
    let a ← sizeAt x d.toNat
    let h ← scaleKnown rnd scale a
    let b ← sizeAt x (d.toNat + 1)
    let w ← scaleKnown rnd scale b
    .ok (some ((x.set d.toNat h).set (d.toNat + 1) w))

/-- the loop of `sample2d_v2`, factory.cpp:2258-2261: an unknown extent is used as a number -/
def scaleLoop (rnd : Rat → Rat) : List Int → List Rat → Res (List Int)
  | a :: x, s :: ss => do
    let y ← truncInt (rnd (rnd a * s))
    let r ← scaleLoop rnd x ss
    .ok (y :: r)
  | _, _ => .ok []

/-- `sample2d_v2`, factory.cpp:2251-2264 -/
def ruleSample2dV2 (rnd : Rat → Rat) (scales : List Rat) (x : List Int) : Res (Option (List Int)) :=
  if x.length ≠ scales.length then .ok none
  else do
    let y ← scaleLoop rnd x scales
    .ok (some y)

/-- `winograd_transform_kernel`, factory.cpp:1551-1582 -/
def ruleWinograd (mode : String) (x : List Int) : Res (Option (List Int)) :=
  match Exec.winogradExtent mode with
  | none => .ok none
  | some m => if x.length < 4 then .ub else .ok (some ((x.set 2 m).set 3 m))

/-- `depthwise_conv2d`, factory.cpp:1256-1299: unknown extents are multiplied as numbers -/
def ruleDepthwise (f : Format) (w : ConvAttrs) (x k : List Int) : Res (Option (List Int)) := do
  let x0 ← sizeAt x 0
  let k0 ← sizeAt k 0
  let k2 ← sizeAt k 2
  let k3 ← sizeAt k 3
  match f with
  | .nchw => do
    let c ← sizeAt x 1
    let n ← int32 (k0 * c)
    let x2 ← sizeAt x 2
    let h ← ruleConvDim w 2 x2 k2
    let x3 ← sizeAt x 3
    let v ← ruleConvDim w 3 x3 k3
    .ok (some [x0, n, h, v])
  | .nhwc => do
    let c ← sizeAt x 3
    let n ← int32 (k0 * c)
    let x1 ← sizeAt x 1
    let h ← ruleConvDim w 1 x1 k2
    let x2 ← sizeAt x 2
    let v ← ruleConvDim w 2 x2 k3
    .ok (some [x0, h, v, n])

/-- `conv2d_v2`, factory.cpp:544-596, once the padding was read; padding of other length is read out of bounds or does not become the 4x2 tensor of line 592 -/
def ruleConv2dV2 (f : Format) (w : ConvAttrs) (pad x k : List Int) : Res (Option (List Int)) :=
  if pad.length ≠ 8 then .ub else ruleConv2d f { w with pad := fun i => pad.getD i 0 } x k

/-- `pooling2d_v2`, factory.cpp:488-540, once the operands were read; shorter ones are read out of bounds -/
def rulePooling2dV2 (rnd : Rat → Rat) (f : Format) (w : ConvAttrs) (pad ksize stride x : List Int) : Res (Option (List Int)) :=
  if pad.length ≠ 8 ∨ ksize.length < 4 ∨ stride.length < 4 then .ub
  else rulePooling2d rnd f { w with pad := fun i => pad.getD i 0, ksize := fun i => ksize.getD i 0, stride := fun i => stride.getD i 0 } x

/-- `roi_align`, factory.cpp:1745-1754 -/
def ruleRoiAlign (h w : Int) (x r : List Int) : Res (Option (List Int)) := do
  let n ← sizeAt r 0
  let c ← sizeAt x 1
  .ok (some [n, c, h, w])

/-- the last part of `infer_output`, factory.cpp:2047-2053: a zero stride gives -1 -/
def ruleCount (b e s : Int) : Res Int := if s = 0 then .ok (-1) else sliceCount b e s

/-- `infer_output`, factory.cpp:2012-2054: begin and end of an unknown extent are used as they are; 2016-2045 are the statements of
base_strided_slice.cpp:52-77 -/
def ruleDim (x b e s : Int) (bf ef : Bool) : Res Int := do
  if x ≥ 0 then
    match ← sliceBegin x b s bf with
    | none => .ok 0
    | some b' =>
      match ← sliceEnd x e s ef with
      | none => .ok 0
      | some e' => ruleCount b' e' s
  else ruleCount b e s

/-- the loop of `strided_slice`, factory.cpp:2212-2216, without ellipsis and new axes: dimensions without an entry are selected as a whole (2192-2196) -/
def ruleStridedLoop (bm em : Nat) : Nat → List Int → List Int → List Int → List Int → Res (List Int)
  | i, x :: xs, b :: bs, e :: es, s :: ss => do
    let n ← ruleDim x b e s (bit bm i) (bit em i)
    let ns ← ruleStridedLoop bm em (i + 1) xs bs es ss
    .ok (n :: ns)
  | i, x :: xs, bs, es, ss => do
    let n ← ruleDim x 0 0 1 true true
    let ns ← ruleStridedLoop bm em (i + 1) xs bs es ss
    .ok (n :: ns)
  | _, [], _, _, _ => .ok []

/-- the loop that removes axes, factory.cpp:2229-2237, for the indices given (descending); the extent is not looked at -/
def ruleShrink (shrink : Nat) : List Nat → List Int → List Int
  | [], y => y
  | i :: is, y => ruleShrink shrink is (if bit shrink i then y.eraseIdx i else y)

/-- `strided_slice`, factory.cpp:2132-2240, without ellipsis and new axes; the strides are given -/
def ruleStrided (begins ends strides : List Int) (bm em shrink : Nat) (x : List Int) : Res (Option (List Int)) :=
  if begins.length ≠ strides.length then .ok none
  else if begins.length ≠ ends.length then .ok none
  else if begins.length > x.length then .ok none
  else do
    let y ← ruleStridedLoop bm em 0 x begins ends strides
    .ok (some (ruleShrink shrink (List.range begins.length).reverse y))

/-! ## The operators -/

/-- the operators covered: those of Verif/Runtime/InferRules2.lean and more, with their attributes -/
inductive Op3 where
  | base (o : Op2)
  | equal
  | sliceV2
  | sample2d (scale : Rat) (dim : Int)
  /-- `real` reads the elements of the second operand as `float` -/
  | sample2dV2 (real : Int → Rat)
  | broadcast
  | winograd (mode : String)
  | depthwise (f : Format) (w : ConvAttrs)
  | conv2dV2 (f : Format) (w : ConvAttrs)
  | pooling2dV2 (f : Format) (w : ConvAttrs)
  | roiAlign (h w : Int)
  | strided (begins ends strides : List Int) (beginMask endMask shrinkMask : Nat)

/-- The shape an operator's execution gives its output. -/
def opShape3 (rnd : Rat → Rat) : Op3 → List Val → Res (List Int)
  | .base o, vs => opShape2 rnd o vs
  | .equal, vs => opShape rnd .eltwise vs
  | .sliceV2, [x, b, s] => Exec.sliceV2 b.ints s.ints x.shape
  | .sample2d c d, [x] => Exec.sample2d rnd c d x.shape
  | .sample2dV2 real, [x, s] => Exec.sample2dV2 rnd (s.ints.map real) x.shape
  | .broadcast, [x, s] => do
    let o ← Exec.broadcast (nats x.shape) s.ints
    .ok (o.map Int.ofNat)
  | .winograd m, [x] => Exec.winograd m x.shape
  | .depthwise f w, [x, k] => Exec.depthwise f w x.shape k.shape
  | .conv2dV2 f w, [x, p, k] => Exec.conv2dV2 f w x.shape p.shape p.ints k.shape
  | .pooling2dV2 f w, [x, p, k, s] => Exec.pooling2dV2 rnd f w x.shape p.shape p.ints k.shape k.ints s.shape s.ints
  | .roiAlign h w, [x, r] => Exec.roiAlign h w x.shape r.shape
  | .strided b e s bm em sm, [x] => Exec.stridedSlice b e s bm em sm x.shape
  | _, _ => .err

/-- Executing an operator; `kern` is what the kernels compute. -/
def opRun3 (rnd : Rat → Rat) (kern : Op3 → List Val → List Int) (op : Op3) (vs : List Val) : Option Val :=
  match op with
  | .base o => opRun2 rnd (fun o => kern (.base o)) o vs
  | op =>
    match opShape3 rnd op vs with
    | .ok s => some ⟨s, kern op vs⟩
    | _ => none

/-- The registered rule of an operator (`ShapeInferer::Register` in factory.cpp). A missing input is read out of bounds, except where the rule counts its
inputs; `slice_v2` takes a missing operand for an empty list (factory.cpp:1698-1706). -/
def opRule3 (rnd : Rat → Rat) : Op3 → List (List Int) → List (Option Val) → RuleOut (List Int) Val
  | .base o, ps, ks => opRule2 rnd o ps ks
  | .equal, [l, r], _ => plain (ruleEltwise l r)
  | .equal, _, _ => .void
  | .sliceV2, [], _ => .void
  | .sliceV2, x :: _, [_] => plain (ruleSliceV2 [] [] x)
  | .sliceV2, x :: _, [_, b] => withValue b fun b => ruleSliceV2 b [] x
  | .sliceV2, x :: _, _ :: b :: s :: _ =>
    withValue b fun b => match s with
      | none => .ok none
      | some s => ruleSliceV2 b s.ints x
  | .sample2d c d, [x], _ => plain (ruleSample2d rnd c d x)
  | .sample2d _ _, _, _ => .void
  | .sample2dV2 real, [x, _], _ :: k :: _ => withValue k fun s => ruleSample2dV2 rnd (s.map real) x
  | .sample2dV2 _, _, _ => .void
  | .broadcast, x :: _, _ :: k :: _ => withValue k fun s => ruleEltwise x s
  | .winograd m, x :: _, _ => plain (ruleWinograd m x)
  | .depthwise f w, x :: k :: _, _ => plain (ruleDepthwise f w x k)
  | .conv2dV2 f w, x :: _ :: k :: _, _ :: p :: _ => withValue p fun p => ruleConv2dV2 f w p x k
  | .pooling2dV2 f w, x :: _, _ :: p :: k :: s :: _ =>
    withValue p fun p => match k, s with
      | some k, some s => rulePooling2dV2 rnd f w p k.ints s.ints x
      | _, _ => .ok none
  | .roiAlign h w, [x, r], _ => plain (ruleRoiAlign h w x r)
  | .roiAlign _ _, _, _ => .void
  | .strided b e s bm em sm, x :: _, _ => plain (ruleStrided b e s bm em sm x)
  | .strided _ _ _ _ _ _, [], _ => .void
  | _, _, _ => .fails .undefined

/-- The inference environment of a graph of these operators. -/
def opEnv3 {N : Type} (rnd : Rat → Rat) (kern : Op3 → List Val → List Int) (op : N → Op3) (inputs : N → List N) :
    Env N (List Int) Val where
  inputs := inputs
  isEnd n := match op n with | .base (.base (.param _)) => true | .base (.base (.const _)) => true | _ => false
  const? n := match op n with | .base (.base (.const v)) => some v | _ => none
  rule n := some (opRule3 rnd (op n))
  run n := opRun3 rnd kern (op n)

end Verif.Runtime.Infer3
