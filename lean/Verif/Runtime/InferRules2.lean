import Verif.Runtime.InferRules
import Verif.Kernels.OpShapes2
/-!
# Further shape rules of the static inference (src/runtime/inferer/factory.cpp)

As in Verif/Runtime/InferRules.lean: negative extents are unknown, `ok none` is `VOID`. Attributes are taken as given.
-/
namespace Verif.Runtime.Infer2
open Verif.Core Verif.Kernels Verif.Runtime.Infer

/-- `_resize2d`, factory.cpp:96-107, and `crop_nd`, 151-162, after the size was read from the second input -/
def ruleResize2d (size x : List Int) : Res (Option (List Int)) :=
  if size.length ≠ x.length then .ok none
  else .ok (some (List.zipWith (fun s a => if s > 0 then s else a) size x))

/-- `resize_nearest_neighbor`, factory.cpp:1722-1741 -/
def ruleNearest (dim : Int) (size x : List Int) : Res (Option (List Int)) :=
  match size with
  | h :: w :: _ =>
    let d := if dim < 0 then dim + x.length else dim
    if d < 0 ∨ d + 1 ≥ x.length then .ok none
    else .ok (some ((x.set d.toNat h).set (d.toNat + 1) w))
  | _ => .ok none

/-- `affine_sample2d`, factory.cpp:875-894: the number of sizes is not checked -/
def ruleAffine (dim : Int) (size x : List Int) : Res (Option (List Int)) :=
  let d := if dim < 0 then dim + x.length else dim
  if d < 0 ∨ d + 1 ≥ x.length then .ok none
  else match size with
    | h :: w :: _ => .ok (some ((x.set d.toNat h).set (d.toNat + 1) w))
    | _ => .ub

/-- `_dimshuffle`, factory.cpp:738-751 -/
def ruleDimshuffle (dim : Int) (shuffle x : List Int) : Res (Option (List Int)) :=
  let d := if dim < 0 then dim + x.length else dim
  if d < 0 ∨ d ≥ x.length then .ok none else .ok (some (x.set d.toNat shuffle.length))

/-- `_limit`, factory.cpp:755-764 -/
def ruleLimit (size x : List Int) : Res (Option (List Int)) :=
  if size.length ≠ x.length then .ok none
  else .ok (some (List.zipWith (fun s a => if s > 0 ∧ a > s then s else a) size x))

/-- `_nhwc_center_crop2d`, factory.cpp:768-782 -/
def ruleCenterCrop (size x : List Int) : Res (Option (List Int)) :=
  match size, x with
  | [w, h], [x0, _, _, x3] => .ok (some [x0, h, w, x3])
  | _, _ => .ok none

/-- `_nhwc_letterbox`, factory.cpp:786-800 -/
def ruleLetterbox (size x : List Int) : Res (Option (List Int)) :=
  match size, x with
  | [s], [x0, _, _, x3] => .ok (some [x0, s, s, x3])
  | w :: h :: _, [x0, _, _, x3] => .ok (some [x0, h, w, x3])
  | _, _ => .ok none

/-- `_nhwc_scale_resize2d`, factory.cpp:804-832: an unknown extent is used as a number -/
def ruleScaleResize (size x : List Int) : Res (Option (List Int)) :=
  match size, x with
  | [s], [x0, h, w, x3] => do
    let r ← Exec.scaledSize s h w
    .ok (some [x0, r.1, r.2, x3])
  | w :: h :: _, [x0, _, _, x3] => .ok (some [x0, h, w, x3])
  | _, _ => .ok none

/-- `divided`, factory.cpp:1359-1378: an unknown extent is used as a number -/
def ruleDivided (rnd : Rat → Rat) (size x : List Int) : Res (Option (List Int)) :=
  if size.length > x.length then .ok none
  else do
    let y ← Exec.dividedLoop rnd x (List.replicate (x.length - size.length) 1 ++ size)
    .ok (some y)

/-- `force_color`, factory.cpp:1382-1390, and `force_gray`, 1394-1402, with the new number of channels -/
def ruleForce (n : Int) (x : List Int) : Res (Option (List Int)) :=
  if x = [] then .ok none else .ok (some (Exec.withLast x n))

/-- an extent if it is known, else `-1`, factory.cpp:932-935, 961-964 -/
def known (a : Int) (v : Res Int) : Res Int := if a < 0 then .ok (-1) else v

/-- `space_to_batch4d`, factory.cpp:943-968 -/
def ruleSpaceToBatch (pad block x : List Int) : Res (Option (List Int)) :=
  match pad, block with
  | pt :: pb :: pl :: pr :: _, bh :: bw :: _ => do
    let x0 ← sizeAt x 0
    let n ← known x0 (do
      let a ← int32 (x0 * bh)
      int32 (a * bw))
    let x2 ← sizeAt x 2
    let h ← known x2 (do
      let a ← int32 (x2 + pt)
      let b ← int32 (a + pb)
      div32 b bh)
    let x3 ← sizeAt x 3
    let w ← known x3 (do
      let a ← int32 (x3 + pl)
      let b ← int32 (a + pr)
      div32 b bw)
    let x1 ← sizeAt x 1
    let c ← known x1 (.ok x1)
    .ok (some [n, c, h, w])
  | _, _ => .ok none

/-- `batch_to_space4d`, factory.cpp:915-939 -/
def ruleBatchToSpace (crop block x : List Int) : Res (Option (List Int)) :=
  match crop, block with
  | ct :: cb :: cl :: cr :: _, bh :: bw :: _ => do
    let x0 ← sizeAt x 0
    let n ← known x0 (do
      let bb ← int32 (bh * bw)
      div32 x0 bb)
    let x2 ← sizeAt x 2
    let h ← known x2 (do
      let a ← int32 (x2 * bh)
      let b ← int32 (a - ct)
      int32 (b - cb))
    let x3 ← sizeAt x 3
    let w ← known x3 (do
      let a ← int32 (x3 * bw)
      let b ← int32 (a - cl)
      int32 (b - cr))
    let x1 ← sizeAt x 1
    let c ← known x1 (.ok x1)
    .ok (some [n, c, h, w])
  | _, _ => .ok none

/-- `gatherv2`, factory.cpp:1426-1443; the last extent of the indices is compared as an unsigned number, so an unknown one gives `VOID` -/
def ruleGatherV2 (x indices : List Int) : Res (Option (List Int)) :=
  match indices.getLast? with
  | none => .ok none
  | some k =>
    if x = [] then .ok none
    else if k < 0 ∨ k > x.length then .ok none
    else do
      let y ← insertRow indices.dropLast indices.dropLast.length (x.drop k.toNat)
      .ok (some y)

/-- the axes from the start, factory.cpp:1462-1465 -/
def fixAxes (n : Int) : List Int → Option (List Int)
  | [] => some []
  | a :: r =>
    let d := if a < 0 then a + n else a
    if d < 0 ∨ d ≥ n then none else (fixAxes n r).map (d :: ·)

/-- put a number into a descending list -/
def insertDesc (a : Int) : List Int → List Int
  | [] => [a]
  | b :: r => if a < b then b :: insertDesc a r else a :: b :: r

/-- `std::sort` with `>`, factory.cpp:1467 -/
def sortDesc (l : List Int) : List Int := l.foldr insertDesc []

/-- the loop over the sorted axes, factory.cpp:1470-1475; `_erase` behind the last element does nothing at the end and is undefined further right
(otl.h:423-428) -/
def reduceLoop (keep : Bool) : List Int → List Int → Res (List Int)
  | [], y => .ok y
  | a :: r, y =>
    if a.toNat > y.length then .ub
    else do
      let z := y.eraseIdx a.toNat
      let z' ← if keep then (if a.toNat > z.length then .ub else insertRow z a.toNat [1]) else .ok z
      reduceLoop keep r z'

/-- `ReductionOp`, factory.cpp:1447-1479, for `max` and `reduce_sum` -/
def ruleReduce (axes : List Int) (keep : Bool) (x : List Int) : Res (Option (List Int)) :=
  match fixAxes x.length axes with
  | none => .ok none
  | some l => do
    let y ← reduceLoop keep (sortDesc l) x
    .ok (some y)

/-- `non_max_suppression_v3`, factory.cpp:1485-1496 -/
def ruleNms (maxOut : Int) (scores : List Int) : Res (Option (List Int)) :=
  match scores with
  | [] => .ok none
  | n :: _ => .ok (some [min n maxOut])

/-- `conv2d_backward` of the inference, factory.cpp:1500-1502 -/
def ruleBackward (y padding dilation kernel stride : Int) : Res Int := do
  let a ← int32 (y - 1)
  let b ← int32 (a * stride)
  let e ← dilatedKernel kernel dilation
  let c ← int32 (b + e)
  int32 (c - padding)

/-- one spatial dimension of `transpose_conv2d`, factory.cpp:1533-1545 -/
def ruleTransposeDim (a : ConvAttrs) (dim : Nat) (x k : Int) : Res Int :=
  if x < 0 then .ok (-1)
  else do
    let p ← int32 (a.pad (2 * dim) + a.pad (2 * dim + 1))
    ruleBackward x p (a.dilation dim) k (a.stride dim)

/-- `transpose_conv2d`, factory.cpp:1504-1548: the kernel extents are those at positions 2 and 3 in both layouts -/
def ruleTransposeConv (f : Format) (a : ConvAttrs) (x w : List Int) : Res (Option (List Int)) := do
  let x0 ← sizeAt x 0
  let w1 ← sizeAt w 1
  let w2 ← sizeAt w 2
  let w3 ← sizeAt w 3
  match f with
  | .nchw => do
    let x2 ← sizeAt x 2
    let h ← ruleTransposeDim a 2 x2 w2
    let x3 ← sizeAt x 3
    let v ← ruleTransposeDim a 3 x3 w3
    .ok (some [x0, w1, h, v])
  | .nhwc => do
    let x1 ← sizeAt x 1
    let h ← ruleTransposeDim a 1 x1 w2
    let x2 ← sizeAt x 2
    let v ← ruleTransposeDim a 2 x2 w3
    .ok (some [x0, h, v, w1])

/-- one dimension of `slice`, factory.cpp:1998-2007 -/
def ruleSliceOne (x b s : Int) : Res Int :=
  if x < 0 then .ok s
  else if b ≥ x then .ok 0
  else do
    let e ← int32 (b + s)
    int32 (min x e - b)

/-- the loop of `slice`, factory.cpp:1997-2008, over the first dimensions; the others stay -/
def ruleSliceLoop : List Int → List Int → List Int → Res (List Int)
  | x :: xs, b :: bs, s :: ss => do
    let y ← ruleSliceOne x b s
    let r ← ruleSliceLoop xs bs ss
    .ok (y :: r)
  | xs, _, _ => .ok xs

/-- `slice`, factory.cpp:1985-2011 -/
def ruleSlice (begins sizes x : List Int) : Res (Option (List Int)) :=
  if begins.length > x.length then .ok none
  else if begins.length ≠ sizes.length then .ok none
  else do
    let y ← ruleSliceLoop x begins sizes
    .ok (some y)

/-- the loop of `where`, factory.cpp:2343-2356: unknown extents are compared as numbers -/
def ruleWhereLoop : List Int → List Int → List Int → Option (List Int)
  | c :: cs, l :: ls, r :: rs =>
    if ¬(c = l ∧ c = r) ∧ ((c ≠ 1 ∧ l ≠ 1 ∧ c ≠ l) ∨ (c ≠ 1 ∧ r ≠ 1 ∧ c ≠ r) ∨ (l ≠ 1 ∧ r ≠ 1 ∧ l ≠ r)) then none
    else (ruleWhereLoop cs ls rs).map ((if c = l ∧ c = r then c else max (max c l) r) :: ·)
  | _, _, _ => some []

/-- `where`, factory.cpp:2318-2360 -/
def ruleWhere (c l r : List Int) : Res (Option (List Int)) := do
  let n := max (max c.length l.length) r.length
  let c' ← eltPad c n
  let l' ← eltPad l n
  let r' ← eltPad r n
  .ok (ruleWhereLoop c' l' r')

/-! ## The operators -/

/-- the operators covered: those of Verif/Runtime/InferRules.lean and more, with their attributes -/
inductive Op2 where
  | base (o : Infer.Op)
  | resize2d
  | nearest (dim : Int)
  | affine (dim : Int)
  | dimshuffle (dim : Int) (shuffle : List Int)
  | limit (shape : List Int)
  | centerCrop (size : List Int)
  | cropNd (shift : List Int)
  | letterbox (size : List Int)
  | scaleResize (size : List Int)
  | divided (size : List Int)
  | forceColor
  | forceGray (scales : Nat)
  | spaceToBatch (pad block : List Int)
  | batchToSpace (crop block : List Int)
  | gatherV2
  /-- `max`: the attribute `keep_dims` as the number it is -/
  | maxOver (axes : List Int) (keep : Int)
  | reduceSum (axes : List Int) (keep : Bool)
  | nms (maxOut : Int)
  | constantOfShape
  | transposeConv (f : Format) (a : ConvAttrs)
  | slice (begins sizes : List Int)
  | whereOp

/-- The shape an operator's execution gives its output. -/
def opShape2 (rnd : Rat → Rat) : Op2 → List Val → Res (List Int)
  | .base o, vs => opShape rnd o vs
  | .resize2d, [x, s] => Exec.resize2d x.shape s.shape s.ints
  | .nearest d, [x, s] => Exec.resizeNearest d x.shape s.ints
  | .affine d, [x, s, _] => Exec.affineSample d x.shape s.ints
  | .dimshuffle d s, [x] => Exec.dimshuffle d s x.shape
  | .limit s, [x] => Exec.limit s x.shape
  | .centerCrop s, [x] => Exec.centerCrop s x.shape
  | .cropNd t, [x, s] => Exec.cropNd t x.shape s.ints
  | .letterbox s, [x] => Exec.letterbox s x.shape
  | .scaleResize s, [x] => Exec.scaleResize s x.shape
  | .divided s, [x] => Exec.divided rnd s x.shape
  | .forceColor, [x] => Exec.forceColor x.shape
  | .forceGray n, [x] => Exec.forceGray n x.shape
  | .spaceToBatch p b, [x] => Exec.spaceToBatch p b x.shape
  | .batchToSpace c b, [x] => Exec.batchToSpace c b x.shape
  | .gatherV2, [x, i] => Exec.gatherV2 x.shape i.shape
  | .maxOver a k, [x] => Exec.reduceAxis a (k == 1) x.shape
  | .reduceSum a k, [x] => Exec.reduceAxis a k x.shape
  | .nms m, [x, s] => Exec.nms m x.shape s.shape
  | .constantOfShape, [x] => .ok x.ints
  | .transposeConv f a, [x, w] => Exec.transposeConv f a x.shape w.shape
  | .slice b s, [x] => Exec.slice b s x.shape
  | .whereOp, [c, l, r] => Exec.whereOp c.shape l.shape r.shape
  | _, _ => .err

/-- Executing an operator; `kern` is what the kernels compute. -/
def opRun2 (rnd : Rat → Rat) (kern : Op2 → List Val → List Int) (op : Op2) (vs : List Val) : Option Val :=
  match op with
  | .base o => opRun rnd (fun o => kern (.base o)) o vs
  | op =>
    match opShape2 rnd op vs with
    | .ok s => some ⟨s, kern op vs⟩
    | _ => none

/-- the rules that read the second input: without its value they answer `VOID` -/
def withValue (k : Option Val) (f : List Int → Res (Option (List Int))) : RuleOut (List Int) Val :=
  match k with
  | none => .void
  | some v => plain (f v.ints)

/-- The registered rule of an operator (`ShapeInferer::Register` in factory.cpp). A missing input is read out of bounds, except where the rule counts its
inputs. -/
def opRule2 (rnd : Rat → Rat) : Op2 → List (List Int) → List (Option Val) → RuleOut (List Int) Val
  | .base o, ps, ks => opRule rnd o ps ks
  | .resize2d, x :: _, _ :: k :: _ => withValue k fun s => ruleResize2d s x
  | .nearest d, x :: _, _ :: k :: _ => withValue k fun s => ruleNearest d s x
  | .affine d, x :: _, _ :: k :: _ => withValue k fun s => ruleAffine d s x
  | .dimshuffle d s, x :: _, _ => plain (ruleDimshuffle d s x)
  | .limit s, x :: _, _ => plain (ruleLimit s x)
  | .centerCrop s, x :: _, _ => plain (ruleCenterCrop s x)
  | .cropNd _, x :: _, _ :: k :: _ => withValue k fun s => ruleResize2d s x
  | .letterbox s, x :: _, _ => plain (ruleLetterbox s x)
  | .scaleResize s, x :: _, _ => plain (ruleScaleResize s x)
  | .divided s, x :: _, _ => plain (ruleDivided rnd s x)
  | .forceColor, x :: _, _ => plain (ruleForce 3 x)
  | .forceGray _, x :: _, _ => plain (ruleForce 1 x)
  | .spaceToBatch p b, x :: _, _ => plain (ruleSpaceToBatch p b x)
  | .batchToSpace c b, x :: _, _ => plain (ruleBatchToSpace c b x)
  | .gatherV2, x :: i :: _, _ => plain (ruleGatherV2 x i)
  | .maxOver a k, x :: _, _ => plain (ruleReduce a (k != 0) x)
  | .reduceSum a k, x :: _, _ => plain (ruleReduce a k x)
  | .nms m, _ :: s :: _, _ => plain (ruleNms m s)
  | .constantOfShape, [x], _ => .ok x none
  | .constantOfShape, _, _ => .void
  | .transposeConv f a, x :: w :: _, _ => plain (ruleTransposeConv f a x w)
  | .slice b s, x :: _, _ => plain (ruleSlice b s x)
  | .slice _ _, [], _ => .void
  | .whereOp, [c, l, r], _ => plain (ruleWhere c l r)
  | .whereOp, _, _ => .void
  | _, _, _ => .fails .undefined

/-- The inference environment of a graph of these operators. -/
def opEnv2 {N : Type} (rnd : Rat → Rat) (kern : Op2 → List Val → List Int) (op : N → Op2) (inputs : N → List N) :
    Env N (List Int) Val where
  inputs := inputs
  isEnd n := match op n with | .base (.param _) => true | .base (.const _) => true | _ => false
  const? n := match op n with | .base (.const v) => some v | _ => none
  rule n := some (opRule2 rnd (op n))
  run n := opRun2 rnd kern (op n)

end Verif.Runtime.Infer2
