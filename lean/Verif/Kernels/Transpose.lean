import Verif.Core.Shape
import Verif.Core.Reshape
import Verif.Kernels.Moves
/-!
# Transpose (src/backend/base/base_transpose.cpp, src/kernels/cpu/transpose.cpp)

Buffers hold elements of an arbitrary type. The OpenMP variant (independent iterations over `h`) is the same
set of copies.
-/
namespace Verif.Kernels
open Verif.Core

/-- The permutation check of `Transpose::init`, base_transpose.cpp:38-45: mark until the first bad entry, then
every position must be marked. -/
def markPerm (n : Nat) : List Int → List Bool → List Bool
  | [], flag => flag
  | d :: ds, flag => if d < 0 ∨ (n : Int) ≤ d then flag else markPerm n ds (flag.set d.toNat true)

/-- `Transpose::init`, base_transpose.cpp:20-48 (`none`: no `permute` parameter). -/
def initPermute : Option (List Int) → Res (List Int)
  | none => .ok []
  | some p => if (markPerm p.length p (List.replicate p.length false)).all id then .ok p else .err

/-- `Transpose::get_permute`, base_transpose.cpp:50-69, for a tensor of rank `dims`; lines 64-65 assign the last
entry to the last but one, and then (the already overwritten) last but one to the last. -/
def getPermute (m : List Int) (dims : Nat) : Res (List Int) :=
  if m ≠ [] then
    if dims > m.length then .err else .ok m
  else
    let p := (List.range dims).map Int.ofNat
    if dims ≥ 2 then
      let p1 := p.set (dims - 2) (p.getD (dims - 1) 0)
      .ok (p1.set (dims - 1) (p1.getD (dims - 2) 0))
    else .ok p

/-- `l[i]` for an `int` index that the code does not check -/
def getIdx (l : List Int) (i : Int) : Res Int :=
  if 0 ≤ i then match l[i.toNat]? with | some v => .ok v | none => .ub else .ub

/-- Padding with leading ones, base_transpose.cpp:73-75 and 106-109. `otl::vector::insert` at the front of a full
shape writes past its seven slots. -/
def padShape (shape : List Int) (n : Nat) : Res (List Int) :=
  if shape.length < n ∧ 7 < n then .ub
  else .ok (List.replicate (n - shape.length) 1 ++ shape)

/-- The loop of `permuted_shape`, base_transpose.cpp:77-80. -/
def permLoop (fixed : List Int) : List Int → Res (List Int)
  | [] => .ok []
  | k :: ks => do
    let v ← getIdx fixed k
    if v > 0 then do
      let r ← permLoop fixed ks
      .ok (v :: r)
    else .err

/-- `permuted_shape`, base_transpose.cpp:71-82. The result has the rank of the padded input; positions the loop does
not reach are uninitialised, which happens only if `permute` is shorter than the shape (excluded by `getPermute`). -/
def permutedShape (shape perm : List Int) : Res (List Int) := do
  let fixed ← padShape shape perm.length
  if perm.length < fixed.length then .ub else permLoop fixed perm

/-- `tmpshape[k] = oldshape[permute[k]]`, transpose.cpp:30-32. -/
def permCoord (c : List Int) : List Int → Res (List Int)
  | [] => .ok []
  | k :: ks => do
    let v ← getIdx c k
    let r ← permCoord c ks
    .ok (v :: r)

/-- `Transpose_transpose_run`, transpose.cpp:16-42: iterations `i, i+1, …`, `n` of them left. -/
def transposeMoves (w perm shape : List Int) : Nat → Nat → List Int → Res (List (Nat × Nat))
  | 0, _, _ => .ok []
  | n + 1, i, c => do
    let tmp ← permCoord c (perm.take c.length)
    let idx ← toIndex w tmp
    let d ← idxNat idx
    let ms ← transposeMoves w perm shape n (i + 1) (increase shape c)
    .ok ((d, i) :: ms)

/-- `NC3HWToNHWC3<T>`, transpose.cpp:44-65, for extents `N C H W`. -/
def nchwToNhwc (N C H W : Nat) : List (Nat × Nat) :=
  (List.range N).flatMap fun n => (List.range H).flatMap fun h =>
    (List.range W).flatMap fun w => (List.range C).map fun c =>
      (n * (C * (H * W)) + h * C * W + (w * C + c), n * (C * (H * W)) + h * W + (c * (H * W) + w))

/-- `NHWC3ToNC3HW<T>`, transpose.cpp:99-121, for extents `N H W C`. -/
def nhwcToNchw (N H W C : Nat) : List (Nat × Nat) :=
  (List.range N).flatMap fun n => (List.range H).flatMap fun h =>
    (List.range W).flatMap fun w => (List.range C).map fun c =>
      (n * (H * (W * C)) + h * W + (c * (H * W) + w), n * (H * (W * C)) + h * (W * C) + (w * C + c))

/-- `NC3HWToNHWC3<float>`, transpose.cpp:67-97: blocks of four columns through `float32x4x3`
(`_simd_concat`, `_simd_f32x4x3_interval_save`, simd_base_def.h:253-259, 277-289: the `j`-th column of plane `c`
goes to slot `3 * j + c`), then the remaining columns one by one. -/
def nchwToNhwcFloat (N C H W : Nat) : List (Nat × Nat) :=
  (List.range N).flatMap fun n => (List.range H).flatMap fun h =>
    ((List.range (W / 4)).flatMap fun b => (List.range 4).flatMap fun j => (List.range 3).map fun c =>
      (n * (C * (H * W)) + h * (W * C) + 12 * b + (3 * j + c),
       n * (C * (H * W)) + h * W + 4 * b + c * (H * W) + j)) ++
    ((List.range (W % 4)).flatMap fun r => (List.range C).map fun c =>
      (n * (C * (H * W)) + h * (W * C) + (W / 4 * 4 + r) * C + c,
       n * (C * (H * W)) + h * W + c * (H * W) + (W / 4 * 4 + r)))

/-- `NHWC3ToNC3HW<float>`, transpose.cpp:123-157 (`_simd_f32x4x3_interval_load` with stride 3 and the indexed store,
simd_base_def.h:240-251). -/
def nhwcToNchwFloat (N H W C : Nat) : List (Nat × Nat) :=
  (List.range N).flatMap fun n => (List.range H).flatMap fun h =>
    ((List.range (W / 4)).flatMap fun b => (List.range 3).flatMap fun c => (List.range 4).map fun j =>
      (n * (H * (W * C)) + h * W + 4 * b + c * (H * W) + j,
       n * (H * (W * C)) + h * (W * C) + 12 * b + (c + 3 * j))) ++
    ((List.range (W % 4)).flatMap fun r => (List.range C).map fun c =>
      (n * (H * (W * C)) + h * W + c * (H * W) + (W / 4 * 4 + r),
       n * (H * (W * C)) + h * (W * C) + (W / 4 * 4 + r) * C + c))

/-- `cpu_transpose_compute_run<T>`, transpose.cpp:159-174: dispatch between the fast paths and the general loop.
`float` selects the specialised templates. The extents are those of the (padded) input. -/
def computeMoves (float : Bool) (shape perm outShape : List Int) : Res (List (Nat × Nat)) := do
  match perm, shape with
  | [0, 3, 1, 2], [n, h, w, 3] =>
    if float then .ok (nhwcToNchwFloat n.toNat h.toNat w.toNat 3) else .ok (nhwcToNchw n.toNat h.toNat w.toNat 3)
  | [0, 2, 3, 1], [n, 3, h, w] =>
    if float then .ok (nchwToNhwcFloat n.toNat 3 h.toNat w.toNat) else .ok (nchwToNhwc n.toNat 3 h.toNat w.toNat)
  | _, _ => do
    let wts ← weights outShape
    let len ← prod32 1 shape
    transposeMoves wts perm shape len.toNat 0 (iterStart shape)

/-- the element types of the `switch`, transpose.cpp:176-200 (dtype codes of dtype.h) -/
def transposeSupports (dtype : Nat) : Bool :=
  dtype ∈ [1, 2, 3, 4, 5, 6, 7, 8, 10, 11]

/-- `Transpose::run`, base_transpose.cpp:96-119, on a tensor with the given type, shape and elements; `param` is the
`permute` parameter. `dst` is the initial content of the output buffer. Result: output shape and elements. -/
def transposeRun {α : Type} (param : Option (List Int)) (dtype : Nat) (shape : List Int) (src dst : List α) :
    Res (List Int × List α) := do
  let m ← initPermute param
  let perm ← getPermute m shape.length
  let fixed ← padShape shape perm.length
  let out ← permutedShape fixed perm
  if transposeSupports dtype then do
    let ms ← computeMoves (dtype = 10) fixed perm out
    let r ← runMoves src ms dst
    .ok (out, r)
  else .err

end Verif.Kernels
