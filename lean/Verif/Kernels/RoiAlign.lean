import Verif.Kernels.ShapeIndex
import Verif.Kernels.Buf
import Verif.Kernels.Concat
/-!
# roi_align

Models `src/kernels/cpu/roi_align.cpp`, `src/kernels/cpu/dragon/roi_align_op.{h,cpp}`, `roi_align_op_kernel.cpp` and the shape inference of
`src/backend/base/base_roi_align.cpp`. Numbers are given by their exact values and `fl` rounds to `float`; infinities and not-a-number are not
modelled. Offsets are natural numbers: `H * W`, `pool_h * pool_w` and `n * 5` are `int`s in the code, the others 64 bits wide. A run takes exactly
two operands (10 is FLOAT32): with fewer the code reads past a `std::vector`, further ones are ignored. The GPU kernel is not modelled.
-/
namespace Verif.Kernels
open Verif.Core

/-- the fields, base_roi_align.cpp:10-15 and roi_align_op.h:27-30 -/
structure RoiParams where
  poolH : Int
  poolW : Int
  scale : Rat
  sampling : Int
  deriving DecidableEq

/-- the constructor of the Dragon operator, roi_align_op.h:25-33, which `init` calls (roi_align.cpp:25-28) -/
def roiInit (p : RoiParams) : Res RoiParams :=
  if p.poolH > 0 then (if p.poolW > 0 then .ok p else .err) else .err

/-- one coordinate: the two neighbours and the weight of the second, roi_align_op_kernel.cpp:26-50 -/
def roiAxis (fl : Rat → Rat) (n : Nat) (t : Rat) : Res (Int × Int × Rat) := do
  let t := if t ≤ 0 then 0 else t
  let low ← intOfReal t
  if (n : Int) - 1 ≤ low then .ok ((n : Int) - 1, (n : Int) - 1, fl (fl ((n : Int) - 1 : Int) - fl ((n : Int) - 1 : Int)))
  else .ok (low, low + 1, fl (t - fl low))

/-- `_ROIAlignInterpolate`, roi_align_op_kernel.cpp:18-57; the plane begins at `start` of `x` -/
def roiInterp (fl : Rat → Rat) (x : List Rat) (start H W : Nat) (ty tx : Rat) : Res Rat :=
  if ty < -1 ∨ fl H < ty ∨ tx < -1 ∨ fl W < tx then .ok 0 else do
    let a ← roiAxis fl H ty
    let b ← roiAxis fl W tx
    let v1 ← readAtInt x (start + (a.1 * W + b.1))
    let v2 ← readAtInt x (start + (a.1 * W + b.2.1))
    let v3 ← readAtInt x (start + (a.2.1 * W + b.1))
    let v4 ← readAtInt x (start + (a.2.1 * W + b.2.1))
    let hy := fl (1 - a.2.2)
    let hx := fl (1 - b.2.2)
    .ok (fl (fl (fl (fl (fl (hy * hx) * v1) + fl (fl (hy * b.2.2) * v2)) + fl (fl (a.2.2 * hx) * v3)) + fl (fl (a.2.2 * b.2.2) * v4)))

/-- the place of a sample along one axis, roi_align_op_kernel.cpp:106-108 and 110-112 -/
def roiPlace (fl : Rat → Rat) (start bin : Rat) (grid : Int) (p i : Nat) : Rat :=
  fl (fl (start + fl (fl p * bin)) + fl (fl (fl (fl i + 1 / 2) * bin) / fl grid))

/-- one axis of a region: its start, the size of a bin and the number of samples per bin -/
structure RoiSide where
  start : Rat
  bin : Rat
  grid : Int
  deriving DecidableEq

/-- roi_align_op_kernel.cpp:84-98 for one axis; `lo` and `hi` as given in the row -/
def roiSide (fl : Rat → Rat) (scale : Rat) (sampling pool : Int) (lo hi : Rat) : Res RoiSide := do
  let s := fl (lo * scale)
  let e := fl (hi * scale)
  let size := if fl (e - s) < 1 then 1 else fl (e - s)
  let bin := fl (size / fl pool)
  let grid ← if sampling > 0 then .ok sampling else int32 ⌈bin⌉
  .ok ⟨s, bin, grid⟩

/-- one element of the result, roi_align_op_kernel.cpp:103-117. A loop to a number of samples below one does nothing. -/
def roiCell (fl : Rat → Rat) (x : List Rat) (start H W : Nat) (sh sw : RoiSide) (ph pw : Nat) : Res Rat := do
  let s ← loop (fun s iy => loop (fun s ix => do
    let v ← roiInterp fl x start H W (roiPlace fl sh.start sh.bin sh.grid ph iy) (roiPlace fl sw.start sw.bin sw.grid pw ix)
    .ok (fl (s + v))) sw.grid.toNat s) sh.grid.toNat 0
  .ok (fl (s / fl (fl sh.grid * fl sw.grid)))

/-- one region, roi_align_op_kernel.cpp:76-123; `p.poolH` and `p.poolW` as `PH` and `PW` -/
def roiOne (fl : Rat → Rat) (p : RoiParams) (PH PW : Nat) (x rois : List Rat) (C H W n : Nat) (out : List Rat) : Res (List Rat) := do
  let r0 ← rd rois (n * 5)
  let b ← intOfReal r0
  if b < 0 then loop (fun out i => wr out (n * (C * (PH * PW)) + i) 0) (C * (PH * PW)) out
  else do
    let r1 ← rd rois (n * 5 + 1)
    let r2 ← rd rois (n * 5 + 2)
    let r3 ← rd rois (n * 5 + 3)
    let r4 ← rd rois (n * 5 + 4)
    let sh ← roiSide fl p.scale p.sampling p.poolH r2 r4
    let sw ← roiSide fl p.scale p.sampling p.poolW r1 r3
    loop (fun out c => loop (fun out ph => loop (fun out pw => do
      let v ← roiCell fl x (b.toNat * (C * (H * W)) + c * (H * W)) H W sh sw ph pw
      wr out (n * (C * (PH * PW)) + c * (PH * PW) + (ph * PW + pw)) v) PW out) PH out) C out

/-- `ROIAlign`, roi_align_op_kernel.cpp:59-125 -/
def roiKernel (fl : Rat → Rat) (p : RoiParams) (x rois : List Rat) (C H W R : Nat) (out : List Rat) : Res (List Rat) :=
  loop (fun out n => roiOne fl p p.poolH.toNat p.poolW.toNat x rois C H W n out) R out

/-- `run`, roi_align.cpp:30-38 and roi_align_op.cpp:10-41: the result has the type of the features; nothing is checked but the types -/
def roiRun (fl : Rat → Rat) (p : RoiParams) (x rois : Operand Rat) (fresh : Nat → List Rat) : Res (List Nat × List Rat) :=
  if x.shape.length < 2 ∨ rois.shape.length < 1 then .ub
  else if x.dtype = 10 then
    if rois.dtype = 10 then
      if x.shape.length < 4 then .ub
      else do
        let os := [rois.shape.getD 0 0, x.shape.getD 1 0, p.poolH.toNat, p.poolW.toNat]
        let out ← roiKernel fl p x.data rois.data (x.shape.getD 1 0) (x.shape.getD 2 0) (x.shape.getD 3 0) (rois.shape.getD 0 0) (fresh (Spec.prod os))
        .ok (os, out)
    else .err
  else .err

/-- `infer`, base_roi_align.cpp:26-34. `m_pool_h` and `m_pool_w` are set by `base::ROIAlign::init` (base_roi_align.cpp:20-21), which the operator's own
`init` does not call: they keep their initial value 0 (base_roi_align.h:29-30). Different types end the process (C83). -/
def roiInfer (x rois : Nat × List Nat) : Res (Nat × List Nat) :=
  if x.1 = rois.1 then
    if x.2.length < 2 ∨ rois.2.length < 1 then .ub else .ok (x.1, [rois.2.getD 0 0, x.2.getD 1 0, 0, 0])
  else .ub

end Verif.Kernels
