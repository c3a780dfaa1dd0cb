import Verif.Kernels.Cast
import Verif.Kernels.Pad
/-!
# Resampling of images (src/backend/base/base_resize2d.cpp, src/kernels/cpu/resize2d.cpp, src/backend/base/base_affine_sample2d.cpp,
src/kernels/cpu/affine_sample2d.cpp, sample2d.cpp, sample2d_v2.cpp, resize_nearest_neighbor.cpp)

Elements are exact rational numbers and their weighted sums are exact; the coordinates that are computed in `float` or `double` are parameters
(`Coord`), of which `Coord.exact` is the one without rounding. Index arithmetic is on mathematical integers. The parallel loop over the rows is
modelled in the order of the rows. Infinities and not-a-number are not modelled.
-/
namespace Verif.Kernels
open Verif.Core

/-- `Resize2DType` and `Affine_Sample2DType`, include/backend/common_structure.h:101-114 -/
inductive Sampling where
  | linear
  | cubic
  | nearest
  | hard
  deriving DecidableEq

/-- the type that a number denotes to `batch_resize`, resize2d.cpp:299-326 -/
def resizeType (t : Int) : Sampling := if t = 0 then .linear else if t = 1 then .cubic else if t = 3 then .hard else .nearest

/-- the type that a number denotes to `batch_affine_sample2d`, affine_sample2d.cpp:325-357 -/
def affineType (t : Int) : Sampling := if t = 1 then .cubic else if t = 2 then .nearest else if t = 3 then .hard else .linear

/-- an image of a batch: the elements of the whole tensor, where the image starts, its extents -/
structure Image where
  data : List Rat
  start : Nat
  h : Nat
  w : Nat
  ch : Nat

/-- `src_im[(y * src_width + x) * channels + c]` -/
def Image.at_ (m : Image) (y x : Int) (c : Nat) : Res Rat := rdI m.data (m.start + (y * m.w + x) * m.ch + c)

/-- `int(v)`: undefined if out of range -/
def toI (v : Rat) : Res Int := if cInt.has (truncQ v) then .ok (truncQ v) else .ub

/-- `std::round`: halves away from zero -/
def roundQ (v : Rat) : Rat := if 0 ≤ v then (⌊v + 1 / 2⌋ : Int) else (⌈v - 1 / 2⌉ : Int)

/-- the coordinate for the linear interpolation, resize2d.cpp:37-40, affine_sample2d.cpp:82-85; `last` is `n - 1 - 1e-5` -/
def clampPos (n : Nat) (last t : Rat) : Rat :=
  let t := if t ≥ 0 then t else 0
  if t < (n : Rat) - 1 then t else last

/-- the four pixels around a place, weighted, resize2d.cpp:42-59, affine_sample2d.cpp:87-104 -/
def linearAt (m : Image) (y x : Rat) (c : Nat) : Res Rat := do
  let ny := truncQ y
  let nx := truncQ x
  let wy := y - ny
  let wx := x - nx
  let p00 ← m.at_ ny nx c
  let p01 ← m.at_ ny (nx + 1) c
  let p10 ← m.at_ (ny + 1) nx c
  let p11 ← m.at_ (ny + 1) (nx + 1) c
  .ok ((1 - wy) * (1 - wx) * p00 + (1 - wy) * wx * p01 + wy * (1 - wx) * p10 + wy * wx * p11)

/-- row or column and fraction of the cubic interpolation before it is moved inside, resize2d.cpp:79-81, affine_sample2d.cpp:245-251 -/
def cubicSplit (t : Rat) : Res (Int × Rat) := do
  let s ← toI (⌊t⌋ : Int)
  .ok (s, t - s)

/-- moving it inside, resize2d.cpp:84-91, affine_sample2d.cpp:262-277 -/
def cubicInside (n : Nat) (p : Int × Rat) : Int × Rat :=
  let p := if p.1 < 1 then (1, 0) else p
  if p.1 ≥ (n : Int) - 3 then ((n : Int) - 3, 0) else p

/-- the coefficients, resize2d.cpp:93-99, affine_sample2d.cpp:279-287 -/
def cubicCoef (f : Rat) (i : Nat) : Rat :=
  let A : Rat := -3 / 4
  let c0 := ((A * (f + 1) - 5 * A) * (f + 1) + 8 * A) * (f + 1) - 4 * A
  let c1 := ((A + 2) * f - (A + 3)) * f * f + 1
  let c2 := ((A + 2) * (1 - f) - (A + 3)) * (1 - f) * (1 - f) + 1
  if i = 0 then c0 else if i = 1 then c1 else if i = 2 then c2 else 1 - c0 - c1 - c2

/-- sixteen pixels, weighted, resize2d.cpp:119-138, affine_sample2d.cpp:289-311 (the index is associated differently there) -/
def cubicAt (m : Image) (py px : Int × Rat) (c : Nat) : Res Rat :=
  loop (fun s i => loop (fun s j => do
    let v ← m.at_ (py.1 - 1 + j) (px.1 - 1 + i) c
    .ok (s + v * cubicCoef px.2 i * cubicCoef py.2 j)) 4 s) 4 0

/-- a row or column inside, resize2d.cpp:173-176, 215-218, affine_sample2d.cpp:151-154, 203-206 -/
def clampIdx (n : Nat) (i : Int) : Int :=
  let i := if i ≥ 0 then i else 0
  if i < (n : Int) - 1 then i else (n : Int) - 1

/-- the row or column of the two types that copy one pixel, resize2d.cpp:170-171, 212-213, affine_sample2d.cpp:137-138, 189-190 -/
def pickIdx (k : Sampling) (t : Rat) : Res Int := toI (if k = .nearest then roundQ t else t)

/-- `clamp<T, double>`, affine_sample2d.cpp:40-45: the largest value of a type of 64 bits is rounded up to a power of two, which the conversion then
does not allow; `float` and `double` have no bounds here -/
def clampTo (rnd : Nat → Rat → Rat) (d : NumTy) (dtype : Nat) (v : Rat) : Res Rat :=
  match d with
  | .real => .ok (rnd dtype v)
  | .int t =>
    let top : Rat := if t.bits = 64 then t.hi else (t.hi : Rat) - 1
    castCell rnd .real d dtype (max t.lo (min top v))

/-- one element of a resampled image at the place (y, x), whose kind of sampling is known; `fin` stores a weighted sum in the type of the elements -/
def sampleAt (k : Sampling) (fin : Rat → Res Rat) (m : Image) (lasts : Rat × Rat) (y x : Rat) (c : Nat) : Res Rat :=
  match k with
  | .linear => do
    let v ← linearAt m (clampPos m.h lasts.1 y) (clampPos m.w lasts.2 x) c
    fin v
  | .cubic => do
    let py ← cubicSplit y
    let px ← cubicSplit x
    let v ← cubicAt m (cubicInside m.h py) (cubicInside m.w px) c
    fin v
  | _ => do
    let ny ← pickIdx k y
    let nx ← pickIdx k x
    m.at_ (clampIdx m.h ny) (clampIdx m.w nx) c

/-- the loops over rows, columns and channels that write the image that starts at `start` -/
def writeImage (cell : Nat → Nat → Nat → Res Rat) (start dh dw ch : Nat) (out : List Rat) : Res (List Rat) :=
  loop (fun out y => loop (fun out x => loop (fun out c => do
    let v ← cell y x c
    wr out (start + ((y * dw + x) * ch + c)) v) ch out) dw out) dh out

/-- `memcpy` of an image, resize2d.cpp:17, 152, 191 -/
def copyImage (m : Image) (start : Nat) (out : List Rat) : Res (List Rat) :=
  loop (fun out i => do
    let v ← rd m.data (m.start + i)
    wr out (start + i) v) (m.w * m.h * m.ch) out

/-- the coordinates as computed: `pos k s d i` is that of the row or column `i` of `d` in an image with `s`, `last s` is `s - 1 - 1e-5` -/
structure Coord where
  pos : Sampling → Nat → Nat → Nat → Rat
  last : Nat → Rat

/-- without rounding, resize2d.cpp:24-27, 34-35, 38, 78, 102, 156-157, 164-165, 199-202, 209-210 -/
def Coord.exact : Coord where
  pos k s d i :=
    let scl : Rat := (s : Rat) / d
    match k with
    | .hard => scl * i
    | .cubic => ((i : Rat) + 1 / 2) * scl - 1 / 2
    | _ => scl * i + (scl / 2 - 1 / 2)
  last s := (s : Rat) - 1 - 1 / 100000

/-- one image, resize2d.cpp:14-221 -/
def resizeImage (fp : Coord) (k : Sampling) (fin : Rat → Res Rat) (m : Image) (dh dw start : Nat) (out : List Rat) : Res (List Rat) :=
  if k ≠ .cubic ∧ m.w = dw ∧ m.h = dh then copyImage m start out
  else writeImage (fun y x c => sampleAt k fin m (fp.last m.h, fp.last m.w) (fp.pos k m.h dh y) (fp.pos k m.w dw x) c) start dh dw m.ch out

/-- all images of a tensor, resize2d.cpp:248-296 -/
def resizeBatch (fp : Coord) (k : Sampling) (fin : Rat → Res Rat) (x : List Rat) (number h w ch dh dw : Nat) (out : List Rat) : Res (List Rat) :=
  loop (fun out b => resizeImage fp k fin ⟨x, b * (ch * h * w), h, w, ch⟩ dh dw (b * (ch * dh * dw)) out) number out

/-- can the wanted extents after the two be left alone? base_resize2d.cpp:36-44; pairs of present and wanted extent -/
def tailFits (l : List (Nat × Int)) : Bool := l.all fun p => (p.1 : Int) == p.2 || p.2 < 0

/-- the first loop of `find_resized_height_dim`, base_resize2d.cpp:30-50 -/
def findRows : Nat → List (Nat × Int) → Option Nat
  | _, [] => none
  | i, p :: r =>
    if p.2 = 0 then none
    else if p.2 < 0 then findRows (i + 1) r
    else if (p.1 : Int) = p.2 ∧ tailFits (r.drop 1) = false then findRows (i + 1) r
    else some i

/-- `find_resized_height_dim`, base_resize2d.cpp:28-62 -/
def findDim (l : List (Nat × Int)) : Option Nat :=
  match findRows 0 l with
  | none => none
  | some i =>
    match l[i + 1]? with
    | none => none
    | some q => if q.2 ≤ 0 then none else if (l.drop (i + 2)).all (fun p => p.2 != 0 && ((p.1 : Int) == p.2 || p.2 < 0)) then some i else none

/-- the types that the switch has, resize2d.cpp:367-377, affine_sample2d.cpp:400-409 -/
def resampleTypes : List Nat := [1, 2, 3, 4, 5, 6, 7, 8, 10, 11]

/-- the product of extents -/
def extents (l : List Nat) : Nat := l.foldl (· * ·) 1

/-- `Resize2D::resize2d`, resize2d.cpp:329-384, for the dimension `i` -/
def resizeCompute (fp : Coord) (rnd : Nat → Rat → Rat) (k : Sampling) (dtype : Nat) (shape o : List Nat) (i : Nat) (x out : List Rat) : Res (List Rat) :=
  match numTy dtype with
  | none => .err
  | some d =>
    if dtype ∈ resampleTypes then
      resizeBatch fp k (castCell rnd .real d dtype) x (extents (o.take i)) (shape.getD i 0) (shape.getD (i + 1) 0) (extents (o.drop (i + 2)))
        (o.getD i 0) (o.getD (i + 1) 0) out
    else .err

/-- `check_outputs`, base_resize2d.cpp:64-96: the dimension and the new extents -/
def resizeCheck (shape : List Nat) (size : List Int) : Res (Nat × List Nat) :=
  if shape.length ≠ size.length ∨ size.length < 2 then .err
  else match findDim (shape.zip size) with
    | none => .err
    | some i => .ok (i, (shape.set i (size.getD i 0).toNat).set (i + 1) (size.getD (i + 1) 0).toNat)

/-- `Resize2D::run`, base_resize2d.cpp:108-127; `size` are the wanted extents as `int32`, `x` the elements, `fresh` the new output -/
def resizeRun (fp : Coord) (rnd : Nat → Rat → Rat) (k : Sampling) (dtype : Nat) (shape : List Nat) (size : List Int) (x : List Rat)
    (fresh : Nat → List Rat) : Res (List Nat × List Rat) := do
  let r ← resizeCheck shape size
  if shape = r.2 then .ok (shape, x)
  else do
    let out ← resizeCompute fp rnd k dtype shape r.2 r.1 x (fresh (extents r.2))
    .ok (r.2, out)

/-- the operator `_resize2d` with its parameter `type`, base_resize2d.cpp:13-19, 108-127 -/
def resizeOp (fp : Coord) (rnd : Nat → Rat → Rat) (type : Int) (dtype : Nat) (shape : List Nat) (size : List Int) (x : List Rat)
    (fresh : Nat → List Rat) : Res (List Nat × List Rat) := resizeRun fp rnd (resizeType type) dtype shape size x fresh

/-- `Resize_Nearest_Neighbor::run`, resize_nearest_neighbor.cpp:76-104: wanted extents of two dimensions. The check of `dim` is on unsigned numbers: for
less than two dimensions it does not refuse anything, then `dim + 1` has to be in the buffer of a shape, which has seven places, and resize2d
refuses what is made of it. -/
def resizeNearestRun (fp : Coord) (rnd : Nat → Rat → Rat) (dim : Int) (dtype : Nat) (shape : List Nat) (h w : Int) (x : List Rat)
    (fresh : Nat → List Rat) : Res (List Nat × List Rat) :=
  if dim < 0 then .err
  else if shape.length < 2 then (if dim + 1 < 7 then .err else .ub)
  else if (shape.length : Int) - 2 < dim ∨ h ≤ 0 ∨ w ≤ 0 then .err
  else resizeRun fp rnd .nearest dtype shape (((List.replicate shape.length (-1)).set dim.toNat h).set (dim.toNat + 1) w) x fresh

/-- `Sample2DV2::run`, sample2d_v2.cpp:57-91: the extents times factors, rounded down; `mul` is the product as computed in `float` -/
def sampleV2Run (fp : Coord) (rnd : Nat → Rat → Rat) (mul : Nat → Rat → Rat) (k : Sampling) (dtype : Nat) (shape : List Nat) (scale : List Rat) (x : List Rat)
    (fresh : Nat → List Rat) : Res (List Nat × List Rat) :=
  if shape.length ≠ scale.length then .err
  else resizeRun fp rnd k dtype shape (List.zipWith (fun n s => ⌊mul n s⌋) shape scale) x fresh

/-! ## affine sampling -/

/-- is the place treated as inside? affine_sample2d.cpp:72-73, 140-141, 192-193, 253; `outer` is the value for outside, if there is one -/
def affineCell (k : Sampling) (fin : Rat → Res Rat) (outer : Option Rat) (m : Image) (lasts : Rat × Rat) (y x : Rat) (c : Nat) : Res Rat :=
  match outer with
  | none => sampleAt k fin m lasts y x c
  | some v =>
    match k with
    | .linear => if 0 ≤ x ∧ x < (m.w : Rat) - 1 ∧ 0 ≤ y ∧ y < (m.h : Rat) - 1 then sampleAt k fin m lasts y x c else .ok v
    | .cubic => do
      let py ← cubicSplit y
      let px ← cubicSplit x
      if py.1 < 1 ∨ py.1 ≥ (m.h : Int) - 3 ∨ px.1 < 1 ∨ px.1 ≥ (m.w : Int) - 3 then .ok v else sampleAt k fin m lasts y x c
    | _ => do
      let ny ← pickIdx k y
      let nx ← pickIdx k x
      if nx ≥ 0 ∧ nx < (m.w : Int) - 1 ∧ ny ≥ 0 ∧ ny < (m.h : Int) - 1 then sampleAt k fin m lasts y x c else .ok v

/-- `transform` without rounding, affine_sample2d.cpp:30-38: row and column of the place in the source for a row and column of the output; the nine
numbers are given by row. The third component is not used. -/
def affineLoc (a : List Rat) (row col : Nat) : Rat × Rat :=
  (a.getD 3 0 * col + a.getD 4 0 * row + a.getD 5 0 * 1, a.getD 0 0 * col + a.getD 1 0 * row + a.getD 2 0 * 1)

/-- `batch_affine_sample2d`, affine_sample2d.cpp:318-359, with the kernels 47-315 -/
def affineBatch (loc : Nat → Nat → Rat × Rat) (last : Nat → Rat) (k : Sampling) (fin : Rat → Res Rat) (outer : Option Rat) (x : List Rat)
    (number h w ch dh dw : Nat) (out : List Rat) : Res (List Rat) :=
  loop (fun out b => writeImage (fun r q c =>
      affineCell k fin outer ⟨x, b * (ch * h * w), h, w, ch⟩ (last h, last w) (loc r q).1 (loc r q).2 c) (b * (ch * dh * dw)) dh dw ch out) number out

/-- `TYPE(outer_value)`, affine_sample2d.cpp:398 -/
def outerIn (rnd : Nat → Rat → Rat) (d : NumTy) (dtype : Nat) (outer : Option Rat) : Res (Option Rat) :=
  match outer with
  | none => .ok none
  | some v => do
    let w ← castCell rnd .real d dtype v
    .ok (some w)

/-- `Affine_Sample2D::affine_sample_run`, affine_sample2d.cpp:361-418, for the dimension `i` -/
def affineCompute (loc : Nat → Nat → Rat × Rat) (last : Nat → Rat) (rnd : Nat → Rat → Rat) (k : Sampling) (outer : Option Rat) (dtype : Nat)
    (shape o : List Nat) (i : Nat) (x out : List Rat) : Res (List Rat) :=
  match numTy dtype with
  | none => .err
  | some d =>
    if dtype ∈ resampleTypes then do
      let ov ← outerIn rnd d dtype outer
      affineBatch loc last k (clampTo rnd d dtype) ov x (extents (o.take i)) (shape.getD i 0) (shape.getD (i + 1) 0)
        (extents (o.drop (i + 2))) (o.getD i 0) (o.getD (i + 1) 0) out
    else .err

/-- `Affine_Sample2D::run`, base_affine_sample2d.cpp:44-118: `type` and `dim` are the parameters, `outer` the optional one, `h` and `w` the wanted extents
(negative ones are undefined), `affine33` says that the matrix has the shape 3x3, `loc` are the coordinates that it gives -/
def affineRun (loc : Nat → Nat → Rat × Rat) (last : Nat → Rat) (rnd : Nat → Rat → Rat) (type dim : Int) (outer : Option Rat) (affine33 : Bool) (dtype : Nat)
    (shape : List Nat) (h w : Int) (x : List Rat) (fresh : Nat → List Rat) : Res (List Nat × List Rat) :=
  if type < 0 ∨ 3 < type then .err
  else
    let dim := if dim < 0 then (shape.length : Int) + dim else dim
    if dim < 0 ∨ (shape.length : Int) ≤ dim + 1 then .err
    else if h < 0 ∨ w < 0 then .ub
    else if !affine33 then .err
    else do
      let o := (shape.set dim.toNat h.toNat).set (dim.toNat + 1) w.toNat
      let out ← affineCompute loc last rnd (affineType type) outer dtype shape o dim.toNat x (fresh (extents o))
      .ok (o, out)

/-- `Sample2D::init` and `run`, sample2d.cpp:47-121: both extents times `scale` (as computed: `mul`), the matrix with 1 / scale on the diagonal (as computed:
`loc`), and zero outside -/
def sampleRun (loc : Nat → Nat → Rat × Rat) (last : Nat → Rat) (rnd : Nat → Rat → Rat) (mul : Nat → Rat → Rat) (scale : Rat) (type dim : Int) (dtype : Nat)
    (shape : List Nat) (x : List Rat) (fresh : Nat → List Rat) : Res (List Nat × List Rat) :=
  if scale < 1 / 100000 then .err
  else
    let d := if dim < 0 then (shape.length : Int) + dim else dim
    if d < 0 ∨ (shape.length : Int) - 1 ≤ d then .err
    else affineRun loc last rnd type dim (some 0) true dtype shape ⌊mul (shape.getD d.toNat 0) scale⌋ ⌊mul (shape.getD (d.toNat + 1) 0) scale⌋ x fresh

end Verif.Kernels
