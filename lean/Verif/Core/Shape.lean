import Verif.Core.Res
/-!
# `HypeShape` and `ShapeIterator` (include/core/tensor_iterator.h)

Extents, weights and coordinates are `int`s: every product and sum is checked, overflow is `Res.ub`.
-/
namespace Verif.Core

/-- The weight loop of `HypeShape::HypeShape`, tensor_iterator.h:124-138: from the last dimension,
`w[n-1] = shape[n-1]`, `w[k] = w[k+1] * shape[k]`. -/
def weights : List Int → Res (List Int)
  | [] => .ok []
  | [s] => .ok [s]
  | s :: s' :: ss => do
    let w ← weights (s' :: ss)
    let h ← int32 (w.headD 0 * s)
    .ok (h :: w)

/-- The accumulation loop of `to_index`, tensor_iterator.h:177-185 (same at 145-153 and 161-169, and in the
fixed-arity variants 189-257). -/
def toIndexLoop : Int → List Int → List Int → Res Int
  | _, _, [] => .ub
  | acc, _, [c] => int32 (acc + c)
  | acc, w :: ws, c :: c' :: cs => do
    let p ← int32 (w * c)
    let a ← int32 (acc + p)
    toIndexLoop a ws (c' :: cs)
  | _, [], _ :: _ :: _ => .ub

/-- `to_index(coordinate)` given the weights, tensor_iterator.h:172-187: the iterator starts at
`end - size + 1`; a coordinate with more than one component too many makes it point before the weights. -/
def toIndex (w : List Int) (c : List Int) : Res Int :=
  if c = [] then .ok 0
  else if c.length > w.length + 1 then .ub
  else toIndexLoop 0 (w.drop (w.length + 1 - c.length)) c

/-- The division loop of `to_coordinate`, tensor_iterator.h:279-288, over the weights from the second. -/
def toCoordLoop : Int → List Int → Res (List Int)
  | idx, [] => .ok [idx]
  | idx, w :: ws => do
    let q ← div32 idx w
    let r ← mod32 idx w
    let cs ← toCoordLoop r ws
    .ok (q :: cs)

/-- `to_coordinate(index)`, tensor_iterator.h:263-289. -/
def toCoordinate (w : List Int) (idx : Int) : Res (List Int) :=
  if w = [] then .ok [] else toCoordLoop idx w.tail

/-- `HypeShape::count()`, tensor_iterator.h:291. -/
def hypeCount (w : List Int) : Int := match w with | [] => 1 | x :: _ => x

/-- `ShapeIterator::increase(dim)`, tensor_iterator.h:70-81, on the reversed shape and coordinate (the loop
runs from the last dimension). -/
def incRev : List Int → List Int → List Int
  | s :: ss, c :: cs => if c + 1 = s then 0 :: incRev ss cs else (c + 1) :: cs
  | _, cs => cs

/-- `ShapeIterator::decrease(dim)`, tensor_iterator.h:83-94. -/
def decRev : List Int → List Int → List Int
  | s :: ss, c :: cs => if c - 1 < 0 then (s - 1) :: decRev ss cs else (c - 1) :: cs
  | _, cs => cs

/-- `operator++`, tensor_iterator.h:29-32 and 62-64. -/
def increase (shape c : List Int) : List Int := (incRev shape.reverse c.reverse).reverse
/-- `operator--`, tensor_iterator.h:40-43 and 66-68. -/
def decrease (shape c : List Int) : List Int := (decRev shape.reverse c.reverse).reverse
/-- `ShapeIterator(shape)`, tensor_iterator.h:20-23, and `rewind`, 51-55. -/
def iterStart (shape : List Int) : List Int := List.replicate shape.length 0

end Verif.Core
