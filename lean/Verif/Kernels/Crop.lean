import Verif.Kernels.Pad
import Mathlib.Data.Rat.Floor
/-!
# Operators that pad and cut

Sources: src/backend/zoo/{nhwc_center_crop2d,crop_nd,limit,divided}.cpp. All of them compute amounts of padding and run the
operator `pad` (base_pad.cpp) with them. `v` is the padding value, converted to the element type.

`float`s are rationals, rounded by `fl` after each operation; overflow of `float`s is not modelled (extents are `int`s).
-/
namespace Verif.Kernels
open Verif.Core

variable {α : Type}

/-- `p = (want - x) / 2` and `want - x - p`: nhwc_center_crop2d.cpp:66-70, crop_nd.cpp:77-78, limit.cpp:97-100 -/
def centred (want x : Int) : Res (Int × Int) := do
  let d ← int32 (want - x)
  let b ← int32 (d - d.tdiv 2)
  .ok (d.tdiv 2, b)

/-- `NHWCCenterCrop2D::run`, nhwc_center_crop2d.cpp:57-84; `w` and `h` are the parameter `size` -/
def centerCropRun (v : α) (w h : Int) (x : Operand α) (fresh : Nat → List α) : Res (List Nat × List α) :=
  match x.shape with
  | [_, sh, sw, _] => do
    let rows ← centred h sh
    let cols ← centred w sw
    padRun v x [(0, 0), rows, cols, (0, 0)] fresh
  | _ => .err

/-- `NHWCCenterCrop2D::infer`, nhwc_center_crop2d.cpp:44-55 -/
def centerCropInfer (w h : Int) (shape : List Nat) : Res (List Int) :=
  match shape with
  | [n, _, _, c] => .ok [(n : Int), h, w, (c : Int)]
  | _ => .err

/-- one axis without a shift, crop_nd.cpp:73-82 -/
def cropPad (want : Int) (s : Nat) : Res (Int × Int) := if want ≤ 0 then .ok (0, 0) else centred want s

/-- the amounts without a shift, crop_nd.cpp:71-83 -/
def cropPads : List Int → List Nat → Res (List (Int × Int))
  | want :: wants, s :: ss => do
    let p ← cropPad want s
    let r ← cropPads wants ss
    .ok (p :: r)
  | _, _ => .ok []

/-- one axis with a shift, crop_nd.cpp:86-95 -/
def shiftPad (t want : Int) (s : Nat) : Res (Int × Int) := do
  let a ← int32 (-t)
  if want ≤ 0 then .ok (a, t)
  else do
    let u ← int32 (t + want)
    let b ← int32 (u - s)
    .ok (a, b)

/-- the amounts with a shift, crop_nd.cpp:84-97 -/
def shiftPads : List Int → List Int → List Nat → Res (List (Int × Int))
  | t :: ts, want :: wants, s :: ss => do
    let p ← shiftPad t want s
    let r ← shiftPads ts wants ss
    .ok (p :: r)
  | _, _, _ => .ok []

/-- the amounts of `CropND::run`, crop_nd.cpp:67-99; `padding[0]` of an empty vector is undefined -/
def cropAmounts (shift wants : List Int) (s : List Nat) : Res (List (Int × Int)) :=
  if (shift = [] ∨ shift.length = s.length) ∧ wants.length = s.length then do
    let ps ← if shift = [] then cropPads wants s else shiftPads shift wants s
    if ps = [] then .ub else .ok ps
  else .err

/-- `CropND::run`, crop_nd.cpp:56-107; `wants` is the second operand -/
def cropNdRun (v : α) (shift wants : List Int) (x : Operand α) (fresh : Nat → List α) : Res (List Nat × List α) := do
  let ps ← cropAmounts shift wants x.shape
  padRun v x ps fresh

/-- `CropND::infer`, crop_nd.cpp:43-54 -/
def cropNdInfer (wants : List Int) : Res (List Int) := .ok wants

/-- the loop of `if_overflow`, limit.cpp:57-63: the extents, and whether one is over its limit -/
def limitLoop : List Nat → List Int → List Int × Bool
  | s :: ss, l :: ls =>
    if l ≤ 0 ∨ (s : Int) ≤ l then ((s : Int) :: (limitLoop ss ls).1, (limitLoop ss ls).2)
    else (l :: (limitLoop ss ls).1, true)
  | _, ls => (ls, false)

/-- `if_overflow`, limit.cpp:46-65 -/
def ifOverflow (limit : List Int) (s : List Nat) : Res (List Int × Bool) :=
  if limit.length ≤ s.length then .ok (limitLoop s (List.replicate (s.length - limit.length) (-1) ++ limit)) else .err

/-- the amounts of `Limit::run`, limit.cpp:93-101 -/
def limitPads : List Int → List Nat → Res (List (Int × Int))
  | l :: ls, s :: ss => do
    let p ← centred l s
    let r ← limitPads ls ss
    .ok (p :: r)
  | _, _ => .ok []

/-- `Limit::run`, limit.cpp:82-108 -/
def limitRun (v : α) (limit : List Int) (x : Operand α) (fresh : Nat → List α) : Res (List Nat × List α) := do
  let (o, over) ← ifOverflow limit x.shape
  if over then do
    let ps ← limitPads o x.shape
    padRun v x ps fresh
  else .ok (x.shape, x.data)

/-- `Limit::infer`, limit.cpp:67-80 -/
def limitInfer (limit : List Int) (s : List Nat) : Res (List Int) := do
  let (o, _) ← ifOverflow limit s
  .ok o

/-- `y = stride == 1 ? y : int(std::ceil(float(y) / stride)) * stride`, divided.cpp:63; dividing by zero gives an infinity or NaN,
which no `int` can hold -/
def dividedExtent (fl : Rat → Rat) (y : Nat) (stride : Int) : Res Int :=
  if stride = 1 then .ok y
  else if stride = 0 then .ub
  else do
    let k ← int32 ⌈fl (fl y / fl stride)⌉
    int32 (k * stride)

/-- both lists from the end: the loop of `divided_shape`, divided.cpp:58-67; `rsize` and `rx` are reversed -/
def dividedLoop (fl : Rat → Rat) : List Int → List Nat → Res (List Int)
  | stride :: st, y :: ys => do
    let e ← dividedExtent fl y stride
    let r ← dividedLoop fl st ys
    .ok (e :: r)
  | [], ys => .ok (ints ys)
  | _ :: _, [] => .ub

/-- `divided_shape`, divided.cpp:53-68 -/
def dividedShape (fl : Rat → Rat) (size : List Int) (s : List Nat) : Res (List Int) :=
  if s.length < size.length then .err
  else do
    let r ← dividedLoop fl size.reverse s.reverse
    .ok r.reverse

/-- the amounts of `Divided::run`, divided.cpp:97-100 -/
def dividedPads : List Int → List Nat → Res (List (Int × Int))
  | o :: os, s :: ss => do
    let d ← int32 (o - s)
    let r ← dividedPads os ss
    .ok ((0, d) :: r)
  | _, _ => .ok []

/-- `Divided::run`, divided.cpp:83-107 -/
def dividedRun (fl : Rat → Rat) (v : α) (size : List Int) (x : Operand α) (fresh : Nat → List α) : Res (List Nat × List α) := do
  let o ← dividedShape fl size x.shape
  let ps ← dividedPads o x.shape
  padRun v x ps fresh

/-- `Divided::infer`, divided.cpp:70-81 -/
def dividedInfer (fl : Rat → Rat) (size : List Int) (s : List Nat) : Res (List Int) := dividedShape fl size s

end Verif.Kernels
