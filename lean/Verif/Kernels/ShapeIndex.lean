import Verif.Core.Shape
import Verif.Kernels.Cast
import Verif.Kernels.Pooling
import Verif.Kernels.Concat
/-!
# shape_index_patch

Models `src/backend/base/base_shape_index_patch.cpp` and `src/kernels/cpu/shape_index_patch.cpp` for the element types
`float` and `double`: `fl` is the rounding of that type, elements are given by their exact values. For `double` the
constants `r_h`, `r_w` and the extents of the patches are rounded to `float` first, which changes nothing below 2^24.
Integer element types, whose positions would be whole numbers, are not modelled.
-/
namespace Verif.Kernels
open Verif.Core

/-- `int(v)` of a floating point number, undefined outside `int` -/
def intOfReal (v : Rat) : Res Int := int32 (truncQ v)

/-- `int(patch * x / float(origin) + 0.5f)`, base_shape_index_patch.cpp:54-55. A division by zero gives an infinity or
not-a-number, whose conversion is undefined. -/
def patchExtent (fl : Rat → Rat) (patch x origin : Int) : Res Int := do
  let n ← int32 (patch * x)
  if origin = 0 then .ub else intOfReal (fl (fl (fl n / fl origin) + 1 / 2))

/-- `int(p * (feat - 1) - r + 0.5f)` with `r = (patch - 1) / 2.0f`: the first row or column of a patch,
shape_index_patch.cpp:28-29 and 45-46 -/
def patchStart (fl : Rat → Rat) (p : Rat) (feat patch : Int) : Res Int :=
  intOfReal (fl (fl (fl (p * fl (feat - 1 : Int)) - fl (fl (patch - 1 : Int) / 2)) + 1 / 2))

/-- `buff[i] = v` with an `int` index -/
def wrAtInt {α : Type} (b : List α) (i : Int) (v : α) : Res (List α) := if 0 ≤ i then wr b i.toNat v else .ub

/-- one element of a patch, shape_index_patch.cpp:51-59; `fw`, `ow` are the weights of `feat_offset`, `out_offset` -/
def patchPixel (x : List Rat) (h w : Int) (fw ow : List Int) (n c : Nat) (y x0 : Int) (i ph pw : Nat) (out : List Rat) :
    Res (List Rat) := do
  let yp ← int32 (y + ph)
  let xp ← int32 (x0 + pw)
  let k ← toIndex ow [n, c, ph, i, pw]
  if yp < 0 ∨ yp ≥ h ∨ xp < 0 ∨ xp ≥ w then wrAtInt out k 0
  else do
    let j ← toIndex fw [n, c, yp, xp]
    let v ← readAtInt x j
    wrAtInt out k v

/-- one landmark of one image, shape_index_patch.cpp:43-61; `posw` are the weights of `pos_offset` -/
def patchOne (fl : Rat → Rat) (x pos : List Rat) (chans : Nat) (h w : Int) (ph pw : Nat) (posw fw ow : List Int)
    (i n : Nat) (out : List Rat) : Res (List Rat) := do
  let jy ← toIndex posw [n, 2 * i + 1]
  let py ← readAtInt pos jy
  let y ← patchStart fl py h ph
  let jx ← toIndex posw [n, 2 * i]
  let px ← readAtInt pos jx
  let x0 ← patchStart fl px w pw
  loop (fun out c => loop (fun out a => loop (fun out b => patchPixel x h w fw ow n c y x0 i a b out) pw out) ph out)
    chans out

/-- `cpu_sample_compute_run`, shape_index_patch.cpp:11-64; `xs`, `ps`, `os` are the extents of the image, of the
positions (only the first two are used) and of the result -/
def patchSample (fl : Rat → Rat) (x : List Rat) (pos : List Rat) (ps : List Nat) (N C H W ph L pw : Nat)
    (out : List Rat) : Res (List Rat) := do
  let posw ← weights ((ps.take 2).map Int.ofNat)
  let fw ← weights [(N : Int), (C : Int), (H : Int), (W : Int)]
  let ow ← weights [(N : Int), (C : Int), (ph : Int), (L : Int), (pw : Int)]
  loop (fun out i => loop (fun out n => patchOne fl x pos C H W ph pw posw fw ow i n out) N out) L out

/-- `infer`, base_shape_index_patch.cpp:36-62, after the number of operands; the patch and the origin are given as height and
width. A negative extent of a patch is treated as undefined. -/
def patchInfer (fl : Rat → Rat) (patch origin : Int × Int) (xt pt : Nat) (xs ps : List Nat) : Res (List Nat) :=
  match xs, ps with
  | [N, C, H, W], [_, p1, _, _] =>
    if xt = pt then
      if p1 % 2 = 0 then do
        let a ← patchExtent fl patch.1 H origin.1
        let b ← patchExtent fl patch.2 W origin.2
        if a < 0 ∨ b < 0 then .ub else .ok [N, C, a.toNat, p1 / 2, b.toNat]
      else .err
    else .err
  | _, _ => .err

/-- `run`, base_shape_index_patch.cpp:64-79, for operands of type FLOAT32 or FLOAT64 (10, 11) -/
def patchRun (fl : Rat → Rat) (patch origin : Int × Int) (x pos : Operand Rat) (fresh : Nat → List Rat) :
    Res (List Nat × List Rat) := do
  let os ← patchInfer fl patch origin x.dtype pos.dtype x.shape pos.shape
  match x.shape, os with
  | [N, C, H, W], [_, _, ph, L, pw] => do
    let out ← patchSample fl x.data pos.data pos.shape N C H W ph L pw (fresh (Spec.prod os))
    .ok (os, out)
  | _, _ => .ub

end Verif.Kernels
