import Verif.Kernels.StridedSlice
/-!
# `slice_v3`: slices given by operands (src/backend/base/base_slice_v3.cpp, src/kernels/cpu/slice_v3.cpp)

The operator turns its operands into the parameters of a strided slice and then runs the code of `strided_slice` (base_slice_v3.cpp:24-213 and slice_v3.cpp:28-66
are copies of base_strided_slice.cpp:49-238 and strided_slice.cpp:16-53), so `sliceRun` is used. Operands are given after `tensor::array::to_long`.
-/
namespace Verif.Kernels.SliceV3
open Verif.Core Verif.Kernels

/-- one element of `tensor_long_to_int`, base_slice_v3.cpp:296-303 -/
def saturate (v : Int) : Int :=
  if v > 0 ∧ v > 2147483647 then 2147483647 else if v < 0 ∧ v < -2147483648 then -2147483648 else v

/-- a list that becomes a `Shape`, which has room for seven: more are written behind it (otl.h:295-306) -/
def toShape (l : List Int) : Res (List Int) := if l.length > 7 then .ub else .ok l

/-- the axes, base_slice_v3.cpp:329-337; the first are meant if the operand is missing -/
def axesOf (n : Nat) : Option (List Int) → Res (List Int)
  | some l => toShape (l.map saturate)
  | none => toShape ((List.range n).map Int.ofNat)

/-- the steps, base_slice_v3.cpp:340-345 -/
def stepsOf (n : Nat) : Option (List Int) → Res (List Int)
  | some l => toShape (l.map saturate)
  | none => toShape (List.replicate n 1)

/-- the loop over the axes, base_slice_v3.cpp:349-363: `pre` is the axis before, `top` the greatest so far, both from the start -/
def checkAxes (dims : Int) : Int → Int → List Int → Res Int
  | _, top, [] => .ok top
  | pre, top, a :: r =>
    if a < -dims ∨ a ≥ dims then .err
    else if (if a < 0 then a + dims else a) ≤ pre then .err
    else checkAxes dims (if a < 0 then a + dims else a) (if (if a < 0 then a + dims else a) > top then (if a < 0 then a + dims else a) else top) r

/-- `m_begin`, `m_end`, `m_stride` and the two masks, which are the same -/
structure Fields where
  begins : List Int
  ends : List Int
  strides : List Int
  mask : Nat

/-- `mask & ~(1 << a)` -/
def clearBit (mask a : Nat) : Nat := mask ^^^ (mask &&& 2 ^ a)

/-- the last loop, base_slice_v3.cpp:374-386: the axes are used as they were given; a missing end or step is read past its list -/
def setLoop : List Int → List Int → List Int → List Int → Fields → Res Fields
  | a :: as, s :: ss, es, ts, v =>
    match es, ts with
    | e :: es, t :: ts =>
      if a < 0 then .ub
      else setLoop as ss es ts ⟨v.begins.set a.toNat s, v.ends.set a.toNat e, v.strides.set a.toNat t, clearBit v.mask a.toNat⟩
    | _, _ => .ub
  | _, _, _, _, v => .ok v

/-- the part of `load_params` behind the operands, base_slice_v3.cpp:349-386 -/
def fields (dims : Nat) (starts ends axes steps : List Int) : Res SliceArg := do
  let top ← checkAxes dims (-2147483648) (-2147483648) axes
  let n := (top + 1).toNat
  let v ← setLoop axes starts ends steps ⟨List.replicate n 0, List.replicate n 0, List.replicate n 1, 2 ^ (n + 1) - 1⟩
  .ok ⟨v.begins, v.ends, v.strides, v.mask, v.mask, 0, 0, 0⟩

/-- `SliceV3::load_params`, base_slice_v3.cpp:309-387; the operands behind the tensor -/
def loadParams (dims : Nat) (operands : List (List Int)) : Res SliceArg :=
  match operands with
  | starts :: ends :: rest => do
    if starts = [] then .err
    else do
      let axes ← axesOf starts.length rest[0]?
      if axes.length ≠ starts.length then .err
      else do
        let steps ← stepsOf starts.length rest[1]?
        fields dims (starts.map saturate) (ends.map saturate) axes steps
  | _ => .err

/-- `SliceV3::run`, base_slice_v3.cpp:266-290, with the CPU kernel, slice_v3.cpp:68-96 -/
def run {α : Type} (operands : List (List Int)) (dtype : Nat) (shape : List Int) (data dst : List α) : Res (List Int × List α) := do
  let a ← loadParams shape.length operands
  sliceRun a dtype shape data dst

end Verif.Kernels.SliceV3
