import Verif.Core.Res
import Verif.Core.Tensor
/-!
# Reshaping (src/core/tensor.cpp, src/backend/base/base_reshape{,_v2}.cpp, base_new_shape.cpp)
-/
namespace Verif.Core

/-- product of `int`s from the left, starting at `acc`: `Prototype::count` (tensor.h:70-74) and
`std::accumulate(…, 1, std::multiplies<int>())`. -/
def prod32 : Int → List Int → Res Int
  | acc, [] => .ok acc
  | acc, x :: xs => do
    let p ← int32 (acc * x)
    prod32 p xs

/-- First loop of `Tensor::reshape`, tensor.cpp:216-225: negative extents become `-1`, at most one. -/
def scanNeg : Nat → Option Nat → List Int → Res (List Int × Option Nat)
  | _, k, [] => .ok ([], k)
  | i, k, x :: xs =>
    if x < 0 then
      match k with
      | some _ => .err
      | none => do
        let (l, k') ← scanNeg (i + 1) (some i) xs
        .ok (-1 :: l, k')
    else do
      let (l, k') ← scanNeg (i + 1) k xs
      .ok (x :: l, k')

/-- `Tensor::reshape(shape)` on the shape, tensor.cpp:213-238 (`sizes` is the tensor's own shape). -/
def reshapeShape (sizes req : List Int) : Res (List Int) := do
  let (l, k) ← scanNeg 0 none req
  let fixed ← match k with
    | none => (.ok l : Res (List Int))
    | some i => do
      let up ← prod32 1 sizes
      let down ← prod32 1 l
      let nd ← int32 (-down)
      let f ← div32 up nd
      .ok (l.set i f)
  let n ← prod32 1 fixed
  let c ← prod32 1 sizes
  if n ≠ c then .err else .ok fixed

/-- `Tensor::reshape(shape)`, tensor.cpp:213-238: the memory (and the packed fields) are shared with the
original, only the prototype changes. -/
def reshape (t : Tensor) (req : List Int) : Res Tensor := do
  let s ← reshapeShape t.own.shape req
  .ok (.mk { t.own with shape := s } t.fields)

/-- Copying extents where `0` is requested, base_reshape_v2.cpp:23-28. -/
def copyZeros : List Int → List Int → List Int
  | s :: ss, r :: rs => (if r = 0 then s else r) :: copyZeros ss rs
  | [], rs => rs
  | _, [] => []

/-- Second loop of `newshape`, base_reshape_v2.cpp:33-41: returns `m_broadcast_dim` and
`m_count_without_dim`. -/
def v2Loop : Nat → Option Nat → Int → List Int → Res (Option Nat × Int)
  | _, k, c, [] => .ok (k, c)
  | i, k, c, x :: xs =>
    if x = 0 then .err
    else if x > 0 then do
      let c' ← int32 (c * x)
      v2Loop (i + 1) k c' xs
    else match k with
      | some _ => .err
      | none => v2Loop (i + 1) (some i) c xs

/-- `newshape(x, shape)`, base_reshape_v2.cpp:14-53. `Shape m_shape(count)` (otl.h:281) does not check the
rank, so more than seven extents are written outside the buffer. -/
def newshapeV2 (sizes req : List Int) : Res (List Int) :=
  if req.length > 7 then .ub
  else do
    let l := copyZeros sizes req
    let (k, c) ← v2Loop 0 none 1 l
    let xc ← prod32 1 sizes
    match k with
    | none => .ok l
    | some i => do
      let f ← div32 xc c
      let p ← int32 (f * c)
      if p ≠ xc then .err else .ok (l.set i f)

/-- `ReshapeV2::run` after `infer`, base_reshape_v2.cpp:56-86: the counts must agree, then `Tensor::reshape`. -/
def reshapeV2 (t : Tensor) (req : List Int) : Res Tensor := do
  let s ← newshapeV2 t.own.shape req
  let a ← prod32 1 t.own.shape
  let b ← prod32 1 s
  if a ≠ b then .err else reshape t s

end Verif.Core
