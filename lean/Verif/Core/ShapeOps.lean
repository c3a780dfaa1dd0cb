import Verif.Core.Reshape
/-!
# Shape-only operators: squeeze, unsqueeze, flatten, flatten2d, expand, first-generation reshape

A `Shape` is an `otl::vector<int32_t, 7, int32_t>` (tensor.h:23), modelled by its list of extents. Insertion past the
seven cells of the buffer is treated as in Verif/Utils/OtlVector.lean: `_insert` (otl.h:432-449) throws only when the
*end of the inserted block* is past the buffer and otherwise moves the tail, possibly past the end of the buffer
(undefined).
-/
namespace Verif.Core

/-- `NewShape::infer` and `NewShape::run`, src/backend/base/base_new_shape.cpp:17-48: the new shape is computed from the
input, its count compared, then `Tensor::reshape`. (The check that there is exactly one input is by type here.) -/
def newShapeRun (newshape : List Int → Res (List Int)) (t : Tensor) : Res Tensor := do
  let s ← newshape t.own.shape
  let a ← prod32 1 t.own.shape
  let b ← prod32 1 s
  if a ≠ b then .err else reshape t s

/-- `otl::vector::_insert(i, val)` on a shape of rank `≥ i`, otl.h:432-439 -/
def insertOne (s : List Int) (i : Nat) : Res (List Int) :=
  if i + 1 > 7 then .err
  else if s.length + 1 > 7 then .ub
  else .ok (s.take i ++ 1 :: s.drop i)

/-- `otl::vector::_insert(i, vec)` with `n` ones on a shape of rank `≥ i`, otl.h:441-449; building the vector of ones
itself overflows for `n > 7` (fill constructor, otl.h:286-289) -/
def insertOnes (s : List Int) (i n : Nat) : Res (List Int) :=
  if n > 7 then .ub
  else if i + n > 7 then .err
  else if s.length + n > 7 then .ub
  else .ok (s.take i ++ List.replicate n 1 ++ s.drop i)

/-! ## squeeze, src/kernels/cpu/squeeze.cpp:25-54 -/

/-- the loop erasing all ones, squeeze.cpp:27-35 -/
def squeezeOnes : List Int → List Int
  | [] => []
  | x :: xs => if x = 1 then squeezeOnes xs else x :: squeezeOnes xs

/-- body of the loop over the axes, squeeze.cpp:38-50 -/
def squeezeStep (s : List Int) (axis : Int) : Res (List Int) :=
  let m : Int := s.length
  let a := if axis ≥ 0 then axis else m + axis
  if a < 0 ∨ a ≥ m then .err
  else match s[a.toNat]? with
    | some 1 => .ok (s.eraseIdx a.toNat)
    | _ => .err

/-- a loop over a list of axes -/
def overAxes (step : List Int → Int → Res (List Int)) : List Int → List Int → Res (List Int)
  | [], s => .ok s
  | a :: as, s => do
    let s ← step s a
    overAxes step as s

/-- `Squeeze::newshape`: the axes are visited from the last to the first, squeeze.cpp:37 -/
def squeezeShape (axes : List Int) (s : List Int) : Res (List Int) :=
  if axes = [] then .ok (squeezeOnes s) else overAxes squeezeStep axes.reverse s

/-- the squeeze operator -/
def squeeze (axes : List Int) : Tensor → Res Tensor := newShapeRun (squeezeShape axes)

/-! ## unsqueeze, src/backend/base/base_unsqueeze.cpp:32-50 -/

/-- body of the loop; `shape.end() + axis + 1` for a negative axis -/
def unsqueezeStep (s : List Int) (axis : Int) : Res (List Int) :=
  let m : Int := s.length
  if axis > m ∨ axis < -m then .err
  else if axis ≥ 0 then insertOne s axis.toNat
  else insertOne s (m + axis + 1).toNat

/-- `Unsqueeze::newshape`; the axes are visited from the first to the last -/
def unsqueezeShape (axes : List Int) (s : List Int) : Res (List Int) := overAxes unsqueezeStep axes s

/-- the unsqueeze operator -/
def unsqueeze (axes : List Int) : Tensor → Res Tensor := newShapeRun (unsqueezeShape axes)

/-! ## flatten, src/backend/base/base_flatten.cpp:22-43 -/

/-- `Flatten::newshape`. `need_size = size_t(fixed_dim + 1)`: for `fixed_dim < -1` it wraps to a huge size, and allocating
that many ones throws `std::length_error`; for `fixed_dim = -1` the vector is empty and `back()` is undefined. -/
def flattenShape (dim : Int) (s : List Int) : Res (List Int) :=
  let m : Int := s.length
  let fixed := if dim < 0 then dim + m else dim
  if fixed + 1 < 0 then .err
  else
    let need := (fixed + 1).toNat
    if need < s.length then
      if need = 0 then .ub
      else do
        let p ← prod32 1 (s.drop fixed.toNat)
        .ok (s.take (need - 1) ++ [p])
    else if need > s.length then insertOnes s s.length (need - s.length)
    else .ok s

/-- the flatten operator -/
def flatten (dim : Int) : Tensor → Res Tensor := newShapeRun (flattenShape dim)

/-! ## flatten2d, src/kernels/cpu/flatten2d.cpp:23-36 -/

/-- `Flatten2D::newshape` -/
def flatten2dShape (dim : Int) (s : List Int) : Res (List Int) :=
  let m : Int := s.length
  let fixed := if dim < 0 then dim + m else dim
  if fixed ≤ 0 then do
    let p ← prod32 1 s
    .ok [1, p]
  else if fixed ≥ m then do
    let p ← prod32 1 s
    .ok [p, 1]
  else do
    let p ← prod32 1 (s.take fixed.toNat)
    let q ← prod32 1 (s.drop fixed.toNat)
    .ok [p, q]

/-- the flatten2d operator -/
def flatten2d (dim : Int) : Tensor → Res Tensor := newShapeRun (flatten2dShape dim)

/-! ## expand, src/kernels/cpu/expand.cpp:33-95 -/

/-- `expand_front`, expand.cpp:45-55, for `rank ≤ dims`: the new shape and whether it is complete -/
def expandFront (s : List Int) (dims : Nat) (limit : Int) : Res (List Int × Bool) :=
  if limit < 0 then do
    let s' ← insertOnes s 0 (dims - s.length)
    .ok (s', true)
  else do
    let s' ← insertOnes s 0 (min (dims - s.length) limit.toNat)
    .ok (s', s'.length = dims)

/-- `expand_end`, expand.cpp:57-67 -/
def expandEnd (s : List Int) (dims : Nat) (limit : Int) : Res (List Int × Bool) :=
  if limit < 0 then do
    let s' ← insertOnes s s.length (dims - s.length)
    .ok (s', true)
  else do
    let s' ← insertOnes s s.length (min (dims - s.length) limit.toNat)
    .ok (s', s'.length = dims)

/-- `expand(shape, dims)` and the caller's error, expand.cpp:70-99 -/
def expandShape (front last : Int) (inverse : Bool) (dims : Int) (s : List Int) : Res (List Int) :=
  if dims < 0 then .err
  else
    let d := dims.toNat
    if s.length > d then .err
    else if s.length = d then .ok s
    else if front > 0 ∧ last > 0 ∧ s.length + front.toNat + last.toNat < d then .err
    else if inverse then do
      let (s, b) ← expandEnd s d last
      if b then .ok s
      else do
        let (s, b) ← expandFront s d front
        if b then .ok s else .err
    else do
      let (s, b) ← expandFront s d front
      if b then .ok s
      else do
        let (s, b) ← expandEnd s d last
        if b then .ok s else .err

/-- the `_expand` operator, expand.cpp:101-109; it calls `Tensor::reshape` directly -/
def expand (front last : Int) (inverse : Bool) (dims : Int) (t : Tensor) : Res Tensor := do
  let s ← expandShape front last inverse dims t.own.shape
  reshape t s

/-! ## first-generation reshape, src/backend/base/base_reshape.cpp:17-80 -/

/-- the loop of `Reshape::init`, base_reshape.cpp:36-47: `m_broadcast_dim` and `m_count_without_dim` -/
def v1Init : Nat → Option Nat → Int → List Int → Res (Option Nat × Int)
  | _, k, c, [] => .ok (k, c)
  | i, k, c, x :: xs =>
    if x = 0 then v1Init (i + 1) k c xs
    else if x > 0 then do
      let c' ← int32 (c * x)
      v1Init (i + 1) k c' xs
    else match k with
      | some _ => .err
      | none => v1Init (i + 1) (some i) c xs

/-- the loop of `Reshape::newshape`, base_reshape.cpp:53-63: the shape with copied extents and `running_count` -/
def v1Copy : List Int → List Int → Int → Res (List Int × Int)
  | _, [], c => .ok ([], c)
  | sizes, x :: xs, c =>
    if x = 0 then
      match sizes with
      | [] => .err
      | s :: ss => do
        let c' ← int32 (c * s)
        let (l, r) ← v1Copy ss xs c'
        .ok (s :: l, r)
    else do
      let (l, r) ← v1Copy sizes.tail xs c
      .ok (x :: l, r)

/-- `Reshape::init` and `Reshape::newshape`; more than seven extents are written outside `m_shape` -/
def reshapeV1Shape (req : List Int) (s : List Int) : Res (List Int) :=
  if req.length > 7 then .ub
  else do
    let (k, c) ← v1Init 0 none 1 req
    let xc ← prod32 1 s
    let (l, r) ← v1Copy s req 1
    match k with
    | none => .ok l
    | some i => do
      let rc ← int32 (r * c)
      let f ← div32 xc rc
      let p ← int32 (f * rc)
      if p ≠ xc then .err else .ok (l.set i f)

/-- the reshape operator -/
def reshapeV1 (req : List Int) : Tensor → Res Tensor := newShapeRun (reshapeV1Shape req)

end Verif.Core
