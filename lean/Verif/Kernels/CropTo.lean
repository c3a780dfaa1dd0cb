import Verif.Kernels.Pad
/-!
# crop_to

Models `src/kernels/cpu/crop_to.cpp`. The operator is an object with a member `m_axis` that both `infer` and `run`
overwrite when it is negative, so every call takes the member and returns it changed.
-/
namespace Verif.Kernels
open Verif.Core

variable {α : Type}

/-- The members after `init`, crop_to.cpp:43-51: `m_axis` and `m_offset` -/
structure CropTo where
  axis : Int
  offset : List Int
  deriving DecidableEq

/-- `m_axis >= 0 ? m_axis : m_axis += x.dims()`, crop_to.cpp:72 and 101: the member after the expression, which is also
its value -/
def CropTo.fix (m : CropTo) (rank : Nat) : CropTo :=
  if m.axis ≥ 0 then m else { m with axis := m.axis + rank }

/-- `infer`, crop_to.cpp:64-89 -/
def CropTo.infer (m : CropTo) (xs ys : List Nat) : CropTo × Res (List Nat) :=
  if xs.length = ys.length then
    let m' := m.fix xs.length
    if m'.axis < 0 ∨ m'.axis ≥ xs.length then (m', .err)
    else (m', .ok (xs.take m'.axis.toNat ++ ys.drop m'.axis.toNat))
  else (m, .err)

/-- `offset` with its check, crop_to.cpp:109-114; `n` is `x.dims() - axis` -/
def cropToOffset (offset : List Int) (n : Nat) : Res (List Int) :=
  if offset = [] then .ok (List.replicate n 0)
  else if offset.length = n then .ok offset
  else .err

/-- the loop of the amounts, crop_to.cpp:125-131, on the extents from the axis on -/
def cropToPads : List Int → List Nat → List Nat → Res (List (Int × Int))
  | o :: os, s :: ss, t :: ts => do
    let l ← int32 (-o)
    let d ← int32 ((t : Int) - s)
    let r ← int32 (d - l)
    let rest ← cropToPads os ss ts
    .ok ((l, r) :: rest)
  | _, [], _ => .ok []
  | _, _, _ => .ub

/-- what `run` does with a valid axis, crop_to.cpp:109-140; `zero` is the padding value 0 -/
def cropToAt (zero : α) (offset : List Int) (a : Nat) (x : Operand α) (ys : List Nat) (fresh : Nat → List α) :
    Res (List Nat × List α) := do
  let off ← cropToOffset offset (x.shape.length - a)
  let ps ← cropToPads off (x.shape.drop a) (ys.drop a)
  padRun zero x (List.replicate a (0, 0) ++ ps) fresh

/-- `run`, crop_to.cpp:91-141; of the second operand only the shape is used -/
def CropTo.run (m : CropTo) (zero : α) (x : Operand α) (ys : List Nat) (fresh : Nat → List α) :
    CropTo × Res (List Nat × List α) :=
  if x.shape.length = ys.length then
    let m' := m.fix x.shape.length
    if m'.axis < 0 ∨ m'.axis ≥ x.shape.length then (m', .err)
    else (m', cropToAt zero m'.offset m'.axis.toNat x ys fresh)
  else (m, .err)

/-- The calls a program can make on the operator between two runs: each only matters by the shapes it is given. -/
inductive CropCall where
  | infer (xs ys : List Nat)
  | run (xs ys : List Nat)

/-- the member after a call -/
def CropTo.after (m : CropTo) : CropCall → CropTo
  | .infer xs ys => (m.infer xs ys).1
  | .run xs ys => (m.run (α := Unit) () ⟨10, xs, []⟩ ys fun _ => []).1

/-- the member after a history of calls -/
def CropTo.history (m : CropTo) (h : List CropCall) : CropTo := h.foldl CropTo.after m

end Verif.Kernels
