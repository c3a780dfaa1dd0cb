import Verif.Kernels.ShapeIndex
import Verif.Kernels.Buf
import Verif.Kernels.Concat
/-!
# proposal

Models `src/kernels/cpu/proposal.cpp`, `src/kernels/cpu/dragon/proposal_op.{h,cpp}` and `bbox_utils.{h,cpp}`, with what
`include/kernels/common/third/dragon/tensor.h` does to the outputs, and the shape inference of `src/backend/base/base_proposal.cpp`.

Numbers are given by their exact values: `fl` rounds to `float`, `ex`, `sq` and `lg` are `exp`, `sqrt` and `log2` of a `float`; infinities and
not-a-number are not modelled. Buffers of rows of five (or four) floats are lists of rows: every access in the code is to element `5 * row + k` with
`k < 5`. Products of extents and of indices, `int`s in the code, are natural numbers. `pre_nms_top_n` and `post_nms_top_n` are taken not to be negative.
Scores of type FLOAT16 are not modelled, nor is the GPU kernel.
-/
namespace Verif.Kernels
open Verif.Core

/-- the arithmetic of the platform -/
structure PropArith where
  fl : Rat → Rat
  ex : Rat → Rat
  sq : Rat → Rat
  lg : Rat → Rat

/-- an anchor, and the box of a proposal -/
structure PBox where
  x1 : Rat
  y1 : Rat
  x2 : Rat
  y2 : Rat
  deriving DecidableEq

/-- a row of `proposals_` -/
structure PRow where
  box : PBox
  score : Rat
  deriving DecidableEq

/-- a row of the outputs -/
structure Roi where
  image : Rat
  box : PBox
  deriving DecidableEq

/-- the fields, proposal_op.h:27-40 -/
structure PropParams where
  strides : List Int
  ratios : List Rat
  scales : List Rat
  preTop : Nat
  postTop : Nat
  thresh : Rat
  minSize : Int
  minLevel : Int
  maxLevel : Int
  canonLevel : Int
  canonScale : Int

/-! ## anchors -/

/-- the anchors of one ratio, bbox_utils.h:81-93: `ROUND` adds one half and truncates. A ratio that is not positive gives an infinity or not-a-number,
whose conversion to `int` is undefined (taken so for `base = 0` as well). -/
def anchorsOfRatio (A : PropArith) (area center : Rat) (scales : List Rat) (r : Rat) : Res (List PBox) :=
  if r ≤ 0 then .ub else do
    let w ← intOfReal (A.fl (A.sq (A.fl (area / r)) + 1 / 2))
    let h ← intOfReal (A.fl (A.fl (A.fl w * r) + 1 / 2))
    .ok (scales.map fun s =>
      let sw := A.fl (1 / 2 * A.fl (A.fl (A.fl w * s) - 1))
      let sh := A.fl (1 / 2 * A.fl (A.fl (A.fl h * s) - 1))
      ⟨A.fl (center - sw), A.fl (center - sh), A.fl (center + sw), A.fl (center + sh)⟩)

/-- `GenerateAnchors`, bbox_utils.h:70-94 -/
def genAnchors (A : PropArith) (base : Int) (ratios scales : List Rat) : Res (List PBox) := do
  let area ← int32 (base * base)
  let rows ← forEach (anchorsOfRatio A (A.fl area) (A.fl (1 / 2 * A.fl (A.fl base - 1))) scales) ratios
  .ok rows.flatten

/-- an anchor at a cell, bbox_utils.cpp:29-30 and 40-43, bbox_utils.h:108-113 -/
def shiftAnchor (A : PropArith) (stride : Int) (h w : Nat) (a : PBox) : PBox :=
  let x := A.fl (A.fl w * A.fl stride)
  let y := A.fl (A.fl h * A.fl stride)
  ⟨A.fl (x + a.x1), A.fl (y + a.y1), A.fl (x + a.x2), A.fl (y + a.y2)⟩

/-- the sizes that `BBoxTransform` works with -/
structure PropImage where
  imW : Rat
  imH : Rat
  minW : Rat
  minH : Rat

/-- the predicted shift and scaling -/
structure Delta where
  dx : Rat
  dy : Rat
  lw : Rat
  lh : Rat

/-- `std::max((T)0, std::min(v, im - 1))`, bbox_utils.h:58-61 -/
def clipSide (A : PropArith) (v im : Rat) : Rat := max 0 (min v (A.fl (im - 1)))

/-- `BBoxTransform`, bbox_utils.h:32-66: the box, and whether it is large enough -/
def bboxTransform (A : PropArith) (im : PropImage) (d : Delta) (b : PBox) : PBox × Bool :=
  let w := A.fl (A.fl (b.x2 - b.x1) + 1)
  let h := A.fl (A.fl (b.y2 - b.y1) + 1)
  let cx := A.fl (b.x1 + A.fl (1 / 2 * w))
  let cy := A.fl (b.y1 + A.fl (1 / 2 * h))
  let px := A.fl (A.fl (d.dx * w) + cx)
  let py := A.fl (A.fl (d.dy * h) + cy)
  let pw := A.fl (A.ex d.lw * w)
  let ph := A.fl (A.ex d.lh * h)
  let r : PBox := ⟨clipSide A (A.fl (px - A.fl (1 / 2 * pw))) im.imW, clipSide A (A.fl (py - A.fl (1 / 2 * ph))) im.imH,
    clipSide A (A.fl (px + A.fl (1 / 2 * pw))) im.imW, clipSide A (A.fl (py + A.fl (1 / 2 * ph))) im.imH⟩
  (r, decide (im.minW ≤ A.fl (A.fl (r.x2 - r.x1) + 1)) && decide (im.minH ≤ A.fl (A.fl (r.y2 - r.y1) + 1)))

/-- the row of a proposal: the score counts if the box is large enough, bbox_utils.cpp:44-47 and 72-75 -/
def propRow (A : PropArith) (im : PropImage) (d : Delta) (score : Rat) (b : PBox) : PRow :=
  let t := bboxTransform A im d b
  ⟨t.1, if t.2 then score else 0⟩

/-- `GenerateProposals`, bbox_utils.cpp:11-52; the rows are written in this order into a buffer of just as many -/
def genProposals (A : PropArith) (im : PropImage) (anchors : List PBox) (H W : Nat) (stride : Int) (scores deltas : List Rat) : Res (List PRow) := do
  let rows ← forEach (fun (h : Nat) => do
    let rs ← forEach (fun (w : Nat) => forEach (fun (a : Nat) => do
      let dx ← rd deltas ((a * 4 + 0) * (H * W) + (h * W + w))
      let dy ← rd deltas ((a * 4 + 1) * (H * W) + (h * W + w))
      let lw ← rd deltas ((a * 4 + 2) * (H * W) + (h * W + w))
      let lh ← rd deltas ((a * 4 + 3) * (H * W) + (h * W + w))
      let b ← rd anchors a
      let s ← rd scores (a * (H * W) + (h * W + w))
      .ok (propRow A im ⟨dx, dy, lw, lh⟩ s (shiftAnchor A stride h w b))) (List.range anchors.length)) (List.range W)
    .ok rs.flatten) (List.range H)
  .ok rows.flatten

/-- `GenerateGridAnchors`, bbox_utils.h:96-118 -/
def gridAnchors (A : PropArith) (anchors : List PBox) (H W : Nat) (stride : Int) : List PBox :=
  anchors.flatMap fun b => (List.range H).flatMap fun (h : Nat) => (List.range W).map fun (w : Nat) => shiftAnchor A stride h w b

/-- `GenerateProposals_v2`, bbox_utils.cpp:54-78 -/
def genProposals2 (A : PropArith) (im : PropImage) (boxes : List PBox) (scores deltas : List Rat) : Res (List PRow) :=
  forEach (fun (i : Nat) => do
    let dx ← rd deltas i
    let dy ← rd deltas (boxes.length + i)
    let lw ← rd deltas (2 * boxes.length + i)
    let lh ← rd deltas (3 * boxes.length + i)
    let b ← rd boxes i
    let s ← rd scores i
    .ok (propRow A im ⟨dx, dy, lw, lh⟩ s b)) (List.range boxes.length)

/-! ## sorting -/

/-- `while (left <= end && score[left] >= pivot) ++left`, bbox_utils.h:159; `k` steps are possible -/
def scanUp (rows : List PRow) (pivot : Rat) : Nat → Nat → Res Nat
  | 0, left => .ok left
  | k + 1, left => do
    let v ← rd rows left
    if pivot ≤ v.score then scanUp rows pivot k (left + 1) else .ok left

/-- `while (right > start && score[right] <= pivot) --right`, bbox_utils.h:160; `k` steps are possible -/
def scanDown (rows : List PRow) (pivot : Rat) : Nat → Nat → Res Nat
  | 0, right => .ok right
  | k + 1, right => do
    let v ← rd rows right
    if v.score ≤ pivot then scanDown rows pivot k (right - 1) else .ok right

/-- the exchange of two rows, bbox_utils.h:162-163 and 169-170 -/
def swapRows (rows : List PRow) (i j : Nat) : Res (List PRow) := do
  let a ← rd rows i
  let b ← rd rows j
  let rows ← wr rows i b
  wr rows j a

/-- the partition, bbox_utils.h:157-167. The number bounds the rounds; that it is never reached is proved. -/
def partLoop (pivot : Rat) (start end_ : Nat) : Nat → List PRow → Nat → Nat → Res (List PRow × Nat)
  | 0, _, _, _ => .ub
  | f + 1, rows, left, right =>
    if left ≤ right then do
      let left ← scanUp rows pivot (end_ + 1 - left) left
      let right ← scanDown rows pivot (right - start) right
      if left ≤ right then do
        let rows ← swapRows rows left right
        partLoop pivot start end_ f rows (left + 1) (right - 1)
      else partLoop pivot start end_ f rows left right
    else .ok (rows, right)

/-- `if (right > start)` exchange, bbox_utils.h:168-171 -/
def placePivot (rows : List PRow) (start right : Nat) : Res (List PRow) :=
  if right > start then swapRows rows start right else .ok rows

/-- `SortProposals`, bbox_utils.h:150-175. The number bounds the depth of the recursion; that it is never reached is proved. -/
def sortProposals (top : Nat) : Nat → Nat → Nat → List PRow → Res (List PRow)
  | 0, _, _, _ => .ub
  | f + 1, start, end_, rows => do
    let p ← rd rows start
    let q ← partLoop p.score start end_ (end_ + 2) rows (start + 1) end_
    let rows ← placePivot q.1 start q.2
    (if start + 1 < q.2 then sortProposals top f start (q.2 - 1) rows else .ok rows) >>= fun rows =>
    if q.2 + 1 < top ∧ q.2 + 1 < end_ then sortProposals top f (q.2 + 1) end_ rows else .ok rows

/-! ## suppression -/

/-- `iou`, bbox_utils.cpp:82-96 -/
def propIou (A : PropArith) (a b : PBox) : Rat :=
  if a.x1 > b.x2 ∨ a.y1 > b.y2 ∨ a.x2 < b.x1 ∨ a.y2 < b.y1 then 0
  else
    let w := max 0 (A.fl (A.fl (min a.x2 b.x2 - max a.x1 b.x1) + 1))
    let h := max 0 (A.fl (A.fl (min a.y2 b.y2 - max a.y1 b.y1) + 1))
    let area := A.fl (w * h)
    let aa := A.fl (A.fl (A.fl (a.x2 - a.x1) + 1) * A.fl (A.fl (a.y2 - a.y1) + 1))
    let ba := A.fl (A.fl (A.fl (b.x2 - b.x1) + 1) * A.fl (A.fl (b.y2 - b.y1) + 1))
    A.fl (area / A.fl (A.fl (aa + ba) - area))

/-- the boxes that `i` puts out, bbox_utils.cpp:113-116 -/
def markDead (A : PropArith) (thresh : Rat) (rows : List PRow) (n i : Nat) (dead : List Bool) : Res (List Bool) :=
  loop (fun dead k => do
    let d ← rd dead (i + 1 + k)
    if d then .ok dead else do
      let a ← rd rows i
      let b ← rd rows (i + 1 + k)
      if propIou A a.box b.box > thresh then wr dead (i + 1 + k) true else .ok dead) (n - (i + 1)) dead

/-- the main loop of `ApplyNMS`, bbox_utils.cpp:109-117, from box `i` on; `k` boxes are left, `kept` are the first elements of `keep_indices`,
a buffer of `cap` elements -/
def propNms (A : PropArith) (thresh : Rat) (cap : Nat) (rows : List PRow) (n : Nat) : Nat → Nat → List Bool → List Nat → Res (List Nat)
  | 0, _, _, kept => .ok kept
  | k + 1, i, dead, kept => do
    let d ← rd dead i
    if d then propNms A thresh cap rows n k (i + 1) dead kept
    else if kept.length < cap then
      if kept.length + 1 = cap then .ok (kept ++ [i])
      else do
        let dead ← markDead A thresh rows n i dead
        propNms A thresh cap rows n k (i + 1) dead (kept ++ [i])
    else .ub

/-- `ApplyNMS`, bbox_utils.cpp:98-119 -/
def applyNms (A : PropArith) (thresh : Rat) (cap : Nat) (rows : List PRow) (n : Nat) : Res (List Nat) :=
  propNms A thresh cap rows n n 0 (List.replicate n false) []

/-- one image: sorting, suppression and `RetrieveRoIs` (bbox_utils.h:177-192), proposal_op.cpp:48-59 and 106-116 -/
def propKeep (A : PropArith) (p : PropParams) (image : Nat) (rows : List PRow) : Res (List Roi) := do
  let sorted ← sortProposals p.preTop (rows.length + 1) 0 (rows.length - 1) rows
  let keep ← applyNms A p.thresh p.postTop sorted (min rows.length p.preTop)
  forEach (fun (i : Nat) => do
    let r ← rd sorted i
    .ok (⟨A.fl image, r.box⟩ : Roi)) keep

/-! ## the operator -/

/-- the proposals with one stride, proposal_op.cpp:25-46; `feat` is the shape of the first operand. The scores and shifts are those of the operands from
their beginning, whatever the image. -/
def propSingle (A : PropArith) (p : PropParams) (im : PropImage) (stride : Int) (feat : List Nat) (scores deltas : List Rat) : Res (List PRow) :=
  if feat.length < 4 then .ub
  else do
    let anchors ← genAnchors A stride p.ratios p.scales
    genProposals A im anchors (feat.getD 2 0) (feat.getD 3 0) stride scores deltas

/-- the anchors of all strides, proposal_op.cpp:76-95: the scale is the first one for every stride; `total` rows are there to be written -/
def propLevels (A : PropArith) (p : PropParams) (total : Nat) : List (Int × List Nat) → List PBox → Res (List PBox)
  | [], acc => .ok acc
  | (stride, feat) :: l, acc =>
    if feat.length < 4 then .ub
    else do
      let anchors ← genAnchors A stride p.ratios (p.scales.take 1)
      let acc := acc ++ gridAnchors A anchors (feat.getD 2 0) (feat.getD 3 0) stride
      if acc.length ≤ total then propLevels A p total l acc else .ub

/-- the proposals with several strides, proposal_op.cpp:63-104; `feats` are the shapes of all operands -/
def propMulti (A : PropArith) (p : PropParams) (im : PropImage) (feats : List (List Nat)) (scoreShape : List Nat) (scores deltas : List Rat) :
    Res (List PRow) :=
  if p.strides.length + 3 = feats.length then
    if p.strides.length = p.scales.length then
      if scoreShape.length < 2 then .ub
      else do
        let boxes ← propLevels A p (scoreShape.getD 1 0) (p.strides.zip feats) []
        if boxes.length = scoreShape.getD 1 0 then genProposals2 A im boxes scores deltas else .err
    else .err
  else .err

/-- the proposals of one image, proposal_op.cpp:19-25, 61 and 118-120; `row` is where its size begins in the last operand -/
def propOfImage (A : PropArith) (p : PropParams) (feats : List (List Nat)) (scores deltas info : Operand Rat) (row : Nat) : Res (List PRow) := do
  let imH ← rd info.data row
  let imW ← rd info.data (row + 1)
  let scale ← rd info.data (row + 2)
  let m := A.fl (A.fl p.minSize * scale)
  match p.strides with
  | [] => .err
  | [s] => propSingle A p ⟨imW, imH, m, m⟩ s (feats.getD 0 []) scores.data deltas.data
  | _ => propMulti A p ⟨imW, imH, m, m⟩ feats scores.shape scores.data deltas.data

/-- the loop over the images, proposal_op.cpp:18-124: the rows found, in order. They go into a buffer of `post_nms_top_n` rows per image, and an image has
at most that many. -/
def propImages (A : PropArith) (p : PropParams) (feats : List (List Nat)) (scores deltas info : Operand Rat) (n : Nat) : Res (List Roi) := do
  let rs ← forEach (fun (i : Nat) => do
    let rows ← propOfImage A p feats scores deltas info (i * info.shape.getD 1 0)
    propKeep A p i rows) (List.range n)
  .ok rs.flatten

/-- `roi_level`, bbox_utils.h:194-207 -/
def roiLevel (A : PropArith) (p : PropParams) (r : Roi) : Res Int := do
  let w := A.fl (A.fl (r.box.x2 - r.box.x1) + 1)
  let h := A.fl (A.fl (r.box.y2 - r.box.y1) + 1)
  let level ← intOfReal (A.fl (A.fl p.canonLevel + A.lg (A.fl (max (A.sq (A.fl (w * h))) 1 / A.fl p.canonScale))))
  .ok (min p.maxLevel (max p.minLevel level))

/-- `CollectRoIs`, bbox_utils.h:209-226: the bin of every row -/
def roiBin (A : PropArith) (p : PropParams) (r : Roi) : Res Nat := do
  let l ← roiLevel A p r
  .ok (max (l - p.minLevel) 0).toNat

/-- `DistributeRoIs`, bbox_utils.h:228-246, for one bin -/
def binRows (rois : List Roi) (bins : List Nat) (i : Nat) : List Roi :=
  let l := ((rois.zip bins).filter fun q => q.2 = i).map (·.1)
  if l.isEmpty then [⟨0, ⟨0, 0, 1, 1⟩⟩] else l

/-- the distribution over the outputs, proposal_op.cpp:127-152. The number of outputs is `max_level - min_level + 1` (proposal.cpp:29-31), as checked; a bin is
then one of the outputs. -/
def propDistribute (A : PropArith) (p : PropParams) (outputs : Nat) (rois : List Roi) : Res (List (List Roi)) :=
  if p.maxLevel - p.minLevel + 1 = outputs then do
    let bins ← forEach (roiBin A p) rois
    .ok ((List.range outputs).map (binRows rois bins))
  else .err

/-- `run`, proposal.cpp:34-42 and proposal_op.cpp:125-184; `ops` are all operands. `Output(0)` is allocated with `post_nms_top_n` rows per image (`fresh`:
what its memory held) and then given the shape of the rows found. A tensor of Dragon notes the new shape and, when its data is asked for the next time,
replaces its memory if the shape is another one (tensor.h:145-156, 203-215 and 231-239), keeping nothing: `fresh2` is what the new memory holds. With one
output the data is not asked for again, and the tensor keeps the memory and the shape it has. -/
def propRun (A : PropArith) (p : PropParams) (ops : List (Operand Rat)) (fresh fresh2 : Nat → List Roi) : Res (List (List Roi)) :=
  if ops.length < 3 ∨ p.maxLevel - p.minLevel + 1 < 1 then .ub
  else
    let feats := ops.map (·.shape)
    match ops[0]?, ops[ops.length - 3]?, ops[ops.length - 2]?, ops[ops.length - 1]? with
    | some f, some scores, some deltas, some info =>
      if f.shape.length < 1 ∨ info.shape.length < 2 then .ub
      else if info.shape.getD 0 0 = f.shape.getD 0 0 then
        if scores.dtype = 9 then .ub
        else if scores.dtype = 10 ∧ deltas.dtype = 10 ∧ info.dtype = 10 then do
          let n := f.shape.getD 0 0
          let found ← propImages A p feats scores deltas info n
          let total := n * p.postTop
          if p.maxLevel - p.minLevel + 1 = 1 then .ok [found ++ (fresh total).drop found.length]
          else propDistribute A p (p.maxLevel - p.minLevel + 1).toNat (if found.length = total then found else fresh2 found.length)
        else .err
      else .err
    | _, _, _, _ => .ub

/-- `infer`, base_proposal.cpp:40-53: the members are those of `base::Proposal::init`, which the operator's own `init` (proposal.cpp:26-32) does not call, so
they keep their initial values 300, 2 and 5 (base_proposal.h:44-48). `ops` are types and shapes of the operands; fewer than three end the process (C83).
A product beyond `int` is undefined. -/
def propInfer (ops : List (Nat × List Nat)) : Res (List (Nat × List Nat)) :=
  if ops.length < 3 then .ub
  else
    match ops[0]?, ops[ops.length - 3]? with
    | some f, some s =>
      if f.2.length < 1 then .ub
      else do
        let _ ← int32 (f.2.getD 0 0 * 300)
        .ok (List.replicate 4 (s.1, [f.2.getD 0 0 * 300, 5]))
    | _, _ => .ub

end Verif.Kernels
