import Verif.Core.Tensor
import Verif.Core.Reshape
import Verif.Kernels.Gather
/-!
# Strided slice (src/backend/base/base_strided_slice.cpp, src/kernels/cpu/strided_slice.cpp)
-/
namespace Verif.Kernels
open Verif.Core

/-- The final part of the scalar `infer_output`, base_strided_slice.cpp:80-87 (a zero stride only logs). -/
def sliceCount (begin' end' stride : Int) : Res Int :=
  if stride > 0 then
    if begin' < end' then do
      let d ← int32 (end' - begin' - 1)
      let q ← div32 d stride
      int32 (q + 1)
    else .ok 0
  else if stride < 0 then
    if begin' > end' then do
      let d ← int32 (begin' - end' - 1)
      let ns ← int32 (-stride)
      let q ← div32 d ns
      int32 (q + 1)
    else .ok 0
  else .ok 0

/-- The normalisation of `begin` in the scalar `infer_output`, base_strided_slice.cpp:52-64; `none`: `return 0`. -/
def sliceBegin (x b stride : Int) (flag : Bool) : Res (Option Int) :=
  if flag then .ok (some (if stride > 0 then 0 else x - 1))
  else if stride > 0 then
    if b ≥ x then .ok none
    else if b < -x then .ok (some 0)
    else if b < 0 then do
      let r ← int32 (b + x)
      .ok (some r)
    else .ok (some b)
  else
    if b < -x then .ok none
    else if b ≥ x then .ok (some (x - 1))
    else if b < 0 then do
      let r ← int32 (b + x)
      .ok (some r)
    else .ok (some b)

/-- The normalisation of `end`, base_strided_slice.cpp:65-77. -/
def sliceEnd (x e stride : Int) (flag : Bool) : Res (Option Int) :=
  if flag then .ok (some (if stride > 0 then x else -1))
  else if stride > 0 then
    if e ≤ -x then .ok none
    else if e > x then .ok (some x)
    else if e < 0 then do
      let r ← int32 (e + x)
      .ok (some r)
    else .ok (some e)
  else
    if e > x then .ok none
    else if e ≤ -x then .ok (some (-1))
    else if e < 0 then do
      let r ← int32 (e + x)
      .ok (some r)
    else .ok (some e)

/-- The scalar `infer_output(x, begin, end, stride, begin_flag, end_flag)`, base_strided_slice.cpp:49-88 (the same code
is in base_slice_v3.cpp:24-62): the extent, and `begin`, `end` as they are left behind. -/
def sliceDim (x b e stride : Int) (bf ef : Bool) : Res (Int × Int × Int) := do
  match ← sliceBegin x b stride bf with
  | none => .ok (0, b, e)
  | some b' =>
    match ← sliceEnd x e stride ef with
    | none => .ok (0, b', e)
    | some e' => do
      let n ← sliceCount b' e' stride
      .ok (n, b', e')

/-- `mask & (1 << i)` -/
def bit (mask i : Nat) : Bool := mask.testBit i

/-- a slice request: the operator's parameters (masks as bit sets of a non-negative `int`) -/
structure SliceArg where
  begins : List Int
  ends : List Int
  strides : List Int
  beginMask : Nat
  endMask : Nat
  ellipsisMask : Nat
  newAxisMask : Nat
  shrinkMask : Nat

/-- the loop over the dimensions, base_strided_slice.cpp:203-207, from dimension `i` on: extents and fixed `begin`s -/
def sliceDims (bm em : Nat) : Nat → List Int → List Int → List Int → List Int → Res (List Int × List Int)
  | i, x :: xs, b :: bs, e :: es, s :: ss => do
    let (n, b', _) ← sliceDim x b e s (bit bm i) (bit em i)
    let (ns, bs') ← sliceDims bm em (i + 1) xs bs es ss
    .ok (n :: ns, b' :: bs')
  | _, _, _, _, _ => .ok ([], [])

/-- The ellipsis part, base_strided_slice.cpp:137-168: counts of dimensions left and right of the ellipsis at index `k`
(each slice entry that is not a new axis consumes one). -/
def countAxes (newAxis : Nat) (lo hi : Nat) : Nat :=
  ((List.range hi).filter fun i => decide (lo ≤ i) && !bit newAxis i).length

/-- `in.insert(in.begin() + i, 1)` for every new axis, base_strided_slice.cpp:171-178; `false` result is an error of
`infer_output`; a seventh-slot overflow is undefined (otl.h insert). -/
def insertAxes (newAxis : Nat) : List Nat → List Int → Res (List Int)
  | [], s => .ok s
  | i :: is, s =>
    if bit newAxis i then
      if i > s.length then .err
      else if s.length ≥ 7 then .ub
      else insertAxes newAxis is (s.take i ++ 1 :: s.drop i)
    else insertAxes newAxis is s

/-- The shrink/expand loop, base_strided_slice.cpp:222-235, for the indices given (descending). -/
def shrinkLoop (shrink : Nat) (ellipsis : Option (Nat × List Int)) : List Nat → List Int → Res (List Int)
  | [], out => .ok out
  | i :: is, out =>
    match ellipsis with
    | some (k, es) =>
      if es ≠ [] ∧ i = k then shrinkLoop shrink ellipsis is (out.take i ++ es ++ out.drop (i + 1))
      else if bit shrink i then
        if out.getD i 0 ≠ 1 then .err else shrinkLoop shrink ellipsis is (out.eraseIdx i)
      else shrinkLoop shrink ellipsis is out
    | none =>
      if bit shrink i then
        if out.getD i 0 ≠ 1 then .err else shrinkLoop shrink ellipsis is (out.eraseIdx i)
      else shrinkLoop shrink ellipsis is out

/-- what the shape-level `infer_output` computes -/
structure SlicePlan where
  inShape : List Int
  begins : List Int
  strides : List Int
  raw : List Int
  out : List Int
  deriving Repr, DecidableEq

/-- the single set bit of the ellipsis mask below `n`, base_strided_slice.cpp:131-151 -/
def ellipsisAt (mask n : Nat) : Option Nat := (List.range n).find? fun i => bit mask i

/-- The shape-level `infer_output`, base_strided_slice.cpp:114-238. Simplification: the mask bits at or above the number
of slice entries are not looked at (an ellipsis bit there makes the code index past `stride`). -/
def slicePlan (x : List Int) (a : SliceArg) : Res SlicePlan := do
  if a.begins.length ≠ a.ends.length ∨ a.begins.length ≠ a.strides.length then .err
  else if a.begins.length = 0 then .err
  else
    let n := a.begins.length
    -- 137-168: the ellipsis
    let (inn, strides, bm, em, ell) ← (match ellipsisAt a.ellipsisMask n with
      | none => .ok (x, a.strides, a.beginMask, a.endMask, none)
      | some k =>
        let left := countAxes a.newAxisMask 0 k
        let right := countAxes a.newAxisMask (k + 1) n
        if x.length < left + right then .ub
        else do
          let cnt := x.length - left - right
          let es := (x.drop left).take cnt
          let p ← prod32 1 es
          .ok (x.take left ++ p :: x.drop (left + cnt), a.strides.set k 1, a.beginMask ||| 2 ^ k,
            a.endMask ||| 2 ^ k, some (k, es)) : Res (List Int × List Int × Nat × Nat × Option (Nat × List Int)))
    -- 171-178: new axes
    let inn ← insertAxes a.newAxisMask (List.range n) inn
    -- 182-197: merge the dimensions without a slice entry
    if n < inn.length then do
      let fin := inn.drop n
      let p ← prod32 1 fin
      let inn' := inn.take n ++ [p]
      let (ns, bs) ← sliceDims (bm ||| 2 ^ n) (em ||| 2 ^ n) 0 inn' (a.begins ++ [0]) (a.ends ++ [0]) (strides ++ [1])
      let out ← shrinkLoop a.shrinkMask ell (List.range n).reverse (ns.take n ++ fin)
      .ok ⟨inn', bs, strides ++ [1], ns, out⟩
    else if inn.length ≠ n then .err
    else do
      let (ns, bs) ← sliceDims bm em 0 inn a.begins a.ends strides
      let out ← shrinkLoop a.shrinkMask ell (List.range n).reverse ns
      .ok ⟨inn, bs, strides, ns, out⟩

/-- `coord_in[j] = coord_out[j] * fixed_stride[j] + fixed_begin[j]`, strided_slice.cpp:41-43 -/
def sliceCoord : List Int → List Int → List Int → Res (List Int)
  | c :: cs, s :: ss, b :: bs => do
    let p ← int32 (c * s)
    let q ← int32 (p + b)
    let r ← sliceCoord cs ss bs
    .ok (q :: r)
  | _, _, _ => .ok []

/-- `cpu_compute_strided_slice`, strided_slice.cpp:26-53. -/
def sliceKernel {α : Type} (inShape begins strides out : List Int) (data dst : List α) : Res (List α) := do
  let w ← weights inShape
  let cnt ← prod32 1 out
  let ms ← gatherLoop (fun c => do
      let ci ← sliceCoord c strides begins
      let k ← toIndex w ci
      idxNat k) out cnt.toNat 0 (iterStart out)
  runMoves data ms dst

/-- `StridedSlice::run`, base_strided_slice.cpp:290-322 with the CPU kernel, strided_slice.cpp:55-82. -/
def sliceRun {α : Type} (a : SliceArg) (dtype : Nat) (shape : List Int) (data dst : List α) :
    Res (List Int × List α) := do
  let p ← slicePlan shape a
  let _ ← reshapeShape shape p.inShape
  if typeBytes dtype ∈ [1, 2, 4, 8, 16] then do
    let r ← sliceKernel p.inShape p.begins p.strides p.raw data dst
    let fin ← reshapeShape p.raw p.out
    .ok (fin, r)
  else .err

end Verif.Kernels
