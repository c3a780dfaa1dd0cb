import Verif.Kernels.Resample
/-!
# Scaling whole images

Sources: src/backend/zoo/{nhwc_scale_resize2d,nhwc_letterbox}.cpp. They run `_resize2d` and `_affine_sample2d` on the second and third
dimension of a tensor of rank 4.
-/
namespace Verif.Kernels
open Verif.Core

/-- `infer_size`, nhwc_scale_resize2d.cpp:54-64: rows and columns wanted; `size` has one or two entries (the check of `init`, 27) -/
def scaledSize (h w : Nat) (size : List Int) : Res (Int × Int) :=
  match size with
  | [sw, sh] => .ok (sh, sw)
  | [s] =>
    if w < h then do
      let m ← int32 (s * h)
      let q ← div32 m w
      .ok (q, s)
    else do
      let m ← int32 (s * w)
      let q ← div32 m h
      .ok (s, q)
  | _ => .err

/-- `NHWCScaleResize2D::run`, nhwc_scale_resize2d.cpp:82-100 -/
def scaleResizeRun (fp : Coord) (rnd : Nat → Rat → Rat) (size : List Int) (type : Int) (dtype : Nat) (shape : List Nat) (x : List Rat)
    (fresh : Nat → List Rat) : Res (List Nat × List Rat) :=
  match shape with
  | [_, h, w, _] => do
    let t ← scaledSize h w size
    resizeOp fp rnd type dtype shape [-1, t.1, t.2, -1] x fresh
  | _ => .err

/-- `NHWCScaleResize2D::infer`, nhwc_scale_resize2d.cpp:66-80 -/
def scaleResizeInfer (size : List Int) (shape : List Nat) : Res (List Int) :=
  match shape with
  | [_, h, w, _] => do
    let t ← scaledSize h w size
    .ok [-1, t.1, t.2, -1]
  | _ => .err

/-- `infer_size`, nhwc_letterbox.cpp:67-73, and the sizes set in `init`, 52-58 -/
def boxSize (size : List Int) : Res (Int × Int) :=
  match size with
  | [w, h] => .ok (h, w)
  | [s] => .ok (s, s)
  | _ => .err

/-- the matrix without rounding, nhwc_letterbox.cpp:101-106: `1 / min(w' / w, h' / h)` on the diagonal -/
def letterLoc (h w : Nat) (th tw : Int) : Nat → Nat → Rat × Rat :=
  let s : Rat := min ((tw : Rat) / w) ((th : Rat) / h)
  affineLoc [1 / s, 0, 0, 0, 1 / s, 0, 0, 0, 1]

/-- `NHWCLetterBox::run`, nhwc_letterbox.cpp:91-114; `loc` are the coordinates that the matrix gives, as computed in `float` -/
def letterboxRun (loc : Nat → Nat → Int → Int → Nat → Nat → Rat × Rat) (last : Nat → Rat) (rnd : Nat → Rat → Rat) (size : List Int) (type : Int)
    (outer : Rat) (dtype : Nat) (shape : List Nat) (x : List Rat) (fresh : Nat → List Rat) : Res (List Nat × List Rat) :=
  match shape with
  | [_, h, w, _] => do
    let t ← boxSize size
    affineRun (loc h w t.1 t.2) last rnd type 1 (some outer) true dtype shape t.1 t.2 x fresh
  | _ => .err

/-- `NHWCLetterBox::infer`, nhwc_letterbox.cpp:75-89 -/
def letterboxInfer (size : List Int) (shape : List Nat) : Res (List Int) :=
  match shape with
  | [_, _, _, _] => do
    let t ← boxSize size
    .ok [-1, t.1, t.2, -1]
  | _ => .err

end Verif.Kernels
