import Verif.Kernels.OpShapes
import Verif.Kernels.Resample
import Verif.Kernels.Broadcast
import Verif.Kernels.Pad
/-!
# Shapes of the tensors that further operators compute

As in Verif/Kernels/OpShapes.lean: shapes are lists of `int`, only shapes are modelled. Operators that are made of others (crop, limit, letterbox, …) have
the shape that the inner operator computes in `run`.
-/
namespace Verif.Kernels.Exec
open Verif.Core Verif.Kernels

/-- `Pad::run`, base_pad.cpp:47-78: nothing to pad gives the operand itself, else the shape of `Pad::infer`; `p` are the paddings, two for each dimension -/
def padExec (x p : List Int) : Res (List Int) :=
  if p.all (fun a => a == 0) then .ok x else padLoop x p

/-- `Resize2D::run`, base_resize2d.cpp:64-96, 108-127; `ss` is the shape of the tensor of wanted extents and `size` its elements -/
def resize2d (x ss size : List Int) : Res (List Int) :=
  if ss ≠ [(x.length : Int)] then .err
  else do
    let r ← resizeCheck (x.map Int.toNat) size
    .ok (r.2.map Int.ofNat)

/-- `Resize_Nearest_Neighbor::run`, resize_nearest_neighbor.cpp:76-104: `_resize2d` with unknown for all but two extents -/
def resizeNearest (dim : Int) (x size : List Int) : Res (List Int) :=
  match size with
  | [h, w] =>
    if dim < 0 then .err
    else if x.length < 2 then (if dim + 1 < 7 then .err else .ub)
    else if (x.length : Int) - 2 < dim ∨ h ≤ 0 ∨ w ≤ 0 then .err
    else resize2d x [(x.length : Int)] (((List.replicate x.length (-1)).set dim.toNat h).set (dim.toNat + 1) w)
  | _ => .err

/-- `Affine_Sample2D::infer`, base_affine_sample2d.cpp:48-75, which `run` uses; `size` are the elements of the second operand -/
def affineSample (dim : Int) (x size : List Int) : Res (List Int) :=
  let d := if dim < 0 then (x.length : Int) + dim else dim
  if x.length < 2 then .err
  else if ¬(0 ≤ d ∧ d + 1 < x.length) then .err
  else match size with
    | [h, w] => .ok ((x.set d.toNat h).set (d.toNat + 1) w)
    | _ => .err

/-- `Dimshuffle::init` and `infer`, base_dimshuffle.cpp:20-64: the extent is read before the dimension is checked -/
def dimshuffle (dim : Int) (shuffle x : List Int) : Res (List Int) :=
  if dim < 0 then .err
  else if shuffle = [] ∨ shuffle.any (· < 0) then .err
  else if dim ≥ x.length then (if dim < 7 then .err else .ub)
  else if shuffle.any (fun i => decide (i ≥ x.getD dim.toNat 0)) then .err
  else .ok (x.set dim.toNat shuffle.length)

/-- the loop of `if_overflow`, limit.cpp:53-60, for a limit as long as the shape: the extents that are kept -/
def limited : List Int → List Int → List Int
  | x :: xs, l :: ls => (if l ≤ 0 ∨ x ≤ l then x else l) :: limited xs ls
  | _, _ => []

/-- the paddings that turn the first shape into the second, half of them in front, limit.cpp:93-98, crop_nd.cpp:79-84, nhwc_center_crop2d.cpp:53-57 -/
def halves : List Int → List Int → Res (List Int)
  | x :: xs, y :: ys => do
    let n ← int32 (y - x)
    let b ← int32 (n - n.tdiv 2)
    let r ← halves xs ys
    .ok (n.tdiv 2 :: b :: r)
  | _, _ => .ok []

/-- `Limit::run`, limit.cpp:80-105 -/
def limit (shape x : List Int) : Res (List Int) :=
  if shape.length > x.length then .err
  else
    let l := limited x (List.replicate (x.length - shape.length) (-1) ++ shape)
    if l = x then .ok x
    else do
      let p ← halves x l
      padExec x p

/-- `NHWCCenterCrop2D::run`, nhwc_center_crop2d.cpp:44-72; `size` is width and height -/
def centerCrop (size x : List Int) : Res (List Int) :=
  match size, x with
  | [w, h], [x0, x1, x2, x3] => do
    let p ← halves [x0, x1, x2, x3] [x0, h, w, x3]
    padExec [x0, x1, x2, x3] p
  | _, _ => .err

/-- the paddings of `CropND::run`, crop_nd.cpp:71-101; `shift` is empty if there is none -/
def cropPads : List Int → List Int → Option (List Int) → Res (List Int)
  | x :: xs, s :: ss, none => do
    let r ← cropPads xs ss none
    if s ≤ 0 then .ok (0 :: 0 :: r)
    else do
      let n ← int32 (s - x)
      let b ← int32 (n - n.tdiv 2)
      .ok (n.tdiv 2 :: b :: r)
  | x :: xs, s :: ss, some (t :: ts) => do
    let a ← int32 (-t)
    let r ← cropPads xs ss (some ts)
    if s ≤ 0 then .ok (a :: t :: r)
    else do
      let u ← int32 (t + s)
      let b ← int32 (u - x)
      .ok (a :: b :: r)
  | _, _, _ => .ok []

/-- `CropND::run`, crop_nd.cpp:53-113; the padding of an operand without dimensions is read from an empty vector -/
def cropNd (shift x size : List Int) : Res (List Int) :=
  if ¬((shift = [] ∨ shift.length = x.length) ∧ size.length = x.length) then .err
  else if x = [] then .ub
  else do
    let p ← cropPads x size (if shift = [] then none else some shift)
    padExec x p

/-- `NHWCLetterBox`, nhwc_letterbox.cpp:19-57, 84-107: `affine_sample2d` from dimension 1 -/
def letterbox (size x : List Int) : Res (List Int) :=
  if x.length ≠ 4 then .err
  else match size with
    | [s] => affineSample 1 x [s, s]
    | [w, h] => affineSample 1 x [h, w]
    | _ => .err

/-- `infer_size`, nhwc_scale_resize2d.cpp:51-61, for one wanted size; the same statements in factory.cpp:813-824 -/
def scaledSize (s h w : Int) : Res (Int × Int) :=
  if h > w then do
    let m ← int32 (s * h)
    let q ← div32 m w
    .ok (q, s)
  else do
    let m ← int32 (s * w)
    let q ← div32 m h
    .ok (s, q)

/-- `NHWCScaleResize2D`, nhwc_scale_resize2d.cpp:21-43, 79-98: `_resize2d` of two dimensions -/
def scaleResize (size x : List Int) : Res (List Int) :=
  match x with
  | [_, h, w, _] =>
    match size with
    | [s] => do
      let r ← scaledSize s h w
      resize2d x [4] [-1, r.1, r.2, -1]
    | [a, b] => resize2d x [4] [-1, b, a, -1]
    | _ => .err
  | _ => .err

/-- `int(std::ceil(float(y) / stride)) * stride`, divided.cpp:58, factory.cpp:1374; `rnd` is the rounding of `float`. The quotient by zero has no `int`. -/
def roundUp (rnd : Rat → Rat) (y s : Int) : Res Int :=
  if s = 0 then .ub
  else do
    let c ← int32 (⌈rnd (rnd y / rnd s)⌉)
    int32 (c * s)

/-- one extent, divided.cpp:58, factory.cpp:1373-1374 -/
def dividedOne (rnd : Rat → Rat) (x s : Int) : Res Int := if s = 1 then .ok x else roundUp rnd x s

/-- the loop of `divided_shape`, divided.cpp:53-62, over strides as long as the shape -/
def dividedLoop (rnd : Rat → Rat) : List Int → List Int → Res (List Int)
  | x :: xs, s :: ss => do
    let y ← dividedOne rnd x s
    let r ← dividedLoop rnd xs ss
    .ok (y :: r)
  | _, _ => .ok []

/-- the paddings behind the last elements, divided.cpp:97-100 -/
def behindPads : List Int → List Int → Res (List Int)
  | x :: xs, y :: ys => do
    let n ← int32 (y - x)
    let r ← behindPads xs ys
    .ok (0 :: n :: r)
  | _, _ => .ok []

/-- `Divided::run`, divided.cpp:48-64, 83-108 -/
def divided (rnd : Rat → Rat) (size x : List Int) : Res (List Int) :=
  if size.length > x.length then .err
  else do
    let y ← dividedLoop rnd x (List.replicate (x.length - size.length) 1 ++ size)
    let p ← behindPads x y
    padExec x p

/-- the shape with another last extent -/
def withLast (x : List Int) (n : Int) : List Int := x.set (x.length - 1) n

/-- `ForceColor::run`, base_force_color.cpp:31-55 -/
def forceColor (x : List Int) : Res (List Int) :=
  match x.getLast? with
  | none => .err
  | some c => if c = 3 then .ok x else if c ≠ 1 then .err else .ok (withLast x 3)

/-- `ForceGray::run`, base_force_gray.cpp:37-72; `scales` is the number of factors, 0 if there are none -/
def forceGray (scales : Nat) (x : List Int) : Res (List Int) :=
  match x.getLast? with
  | none => .err
  | some c =>
    if c = 1 then .ok x
    else if scales = 0 then (if c ≠ 3 then .err else .ok (withLast x 1))
    else if c ≠ (scales : Int) then .err else .ok (withLast x 1)

/-- `SpaceToBatch4D`, base_spacetobatch4d.cpp:31-66 -/
def spaceToBatch (pad block x : List Int) : Res (List Int) :=
  match pad, block, x with
  | [pt, pb, pl, pr], [bh, bw], [n, c, h, w] =>
    if ¬(1 ≤ bh ∧ 1 ≤ bw) then .err
    else do
      let hs ← spanS h.toNat pt pb
      if hs.tmod bh ≠ 0 then .err
      else do
        let ws ← spanS w.toNat pl pr
        if ws.tmod bw ≠ 0 then .err
        else do
          let o ← s2bShape n.toNat c.toNat hs ws bh bw
          .ok (o.map Int.ofNat)
  | _, _, _ => .err

/-- `BatchToSpace4D`, base_batchtospace4d.cpp:33-68 -/
def batchToSpace (crop block x : List Int) : Res (List Int) :=
  match crop, block, x with
  | [ct, cb, cl, cr], [bh, bw], [n, c, h, w] =>
    if ¬(1 ≤ bh ∧ 1 ≤ bw) then .err
    else if n ≤ 0 then .err
    else do
      let bb ← int32 (bh * bw)
      if n.tmod bb ≠ 0 then .err
      else do
        let o ← b2sShape n.toNat c.toNat h.toNat w.toNat bb ct cb cl cr bh bw
        .ok (o.map Int.ofNat)
  | _, _, _ => .err

/-- `infer_gather`, base_gatherv2.cpp:21-37 -/
def gatherV2 (x indices : List Int) : Res (List Int) :=
  match indices.getLast? with
  | none => .err
  | some k =>
    if x = [] then .err
    else if k > x.length then .err
    else insertRow indices.dropLast indices.dropLast.length (x.drop k.toNat)

/-- one reduced dimension: `infer_max`, base_max.cpp:29-45, and `checkout`, base_reduce_sum.cpp:24-50. Of the axes the first is taken (`tensor::to_int`,
base_max.cpp:21, base_reduce_sum.cpp:19). -/
def reduceAxis (axes : List Int) (keep : Bool) (x : List Int) : Res (List Int) :=
  match axes with
  | [] => .err
  | axis :: _ =>
    let d := if axis < 0 then axis + x.length else axis
    if ¬(0 ≤ d ∧ d < x.length) then .err
    else if keep then .ok (x.set d.toNat 1) else .ok (x.eraseIdx d.toNat)

/-- `Non_Max_Suppression_V3`, base_non_max_suppression_v3.cpp:30, 33-76 -/
def nms (maxOut : Int) (x scores : List Int) : Res (List Int) :=
  match x, scores with
  | [n, four], [m] => if maxOut ≤ 0 ∨ four ≠ 4 ∨ m ≠ n then .err else .ok [maxOut]
  | _, _ => .err

/-- `Conv2DTranspose::infer`, base_conv2d_transpose.cpp:145-222, which `run` uses -/
def transposeConv (f : Format) (a : ConvAttrs) (x w : List Int) : Res (List Int) :=
  match x, w with
  | [x0, x1, x2, x3], [w0, w1, w2, w3] =>
    if w0 ≠ x1 then .err
    else match f with
      | .nchw => do
        let h ← convBackward x2 (a.pad 4) (a.pad 5) w2 (a.stride 2) (a.dilation 2)
        let v ← convBackward x3 (a.pad 6) (a.pad 7) w3 (a.stride 3) (a.dilation 3)
        .ok [x0, w1, h, v]
      | .nhwc => do
        let h ← convBackward x1 (a.pad 2) (a.pad 3) w1 (a.stride 1) (a.dilation 1)
        let v ← convBackward x2 (a.pad 4) (a.pad 5) w2 (a.stride 2) (a.dilation 2)
        .ok [x0, h, v, w1]
  | _, _ => .err

/-- one dimension of `infer_slice`, base_slice.cpp:53-61 -/
def sliceOne (x b s : Int) : Res Int :=
  if ¬(0 ≤ b ∧ b < x) then .err
  else if s < 0 then .ok (x - b)
  else do
    let e ← int32 (b + s)
    if e > x then .err else .ok s

/-- the loop of `infer_slice`, base_slice.cpp:52-62 -/
def sliceLoop : List Int → List Int → List Int → Res (List Int)
  | x :: xs, b :: bs, s :: ss => do
    let d ← sliceOne x b s
    let r ← sliceLoop xs bs ss
    .ok (d :: r)
  | _, _, _ => .ok []

/-- `infer_slice`, base_slice.cpp:43-65 -/
def slice (begins sizes x : List Int) : Res (List Int) :=
  if sizes.length ≠ begins.length ∨ sizes.length ≠ x.length then .err
  else sliceLoop x begins sizes

/-- `Where::reduce`, base_where.cpp:11-73 -/
def whereOp (c l r : List Int) : Res (List Int) := do
  let s ← whereShapes (c.map Int.toNat) (l.map Int.toNat) (r.map Int.toNat)
  .ok (s.2.2.2.1.map Int.ofNat)

end Verif.Kernels.Exec
