import Verif.Runtime.Machine
/-!
# Tensors as values: element type, shape, bytes, and packed fields

Models `Tensor` (include/core/tensor.h, src/core/tensor.cpp) on the host: the memory is its content. Sharing
of memory between tensors (`Smart<SyncMemory>`) is not part of this model.
-/
namespace Verif.Core

/-- `m_proto` and `m_memory` of one tensor (tensor.h:42-96): `DTYPE` code, sizes, content. -/
structure Field where
  dtype : Nat
  shape : List Int
  mem : List UInt8
  deriving DecidableEq, Repr

/-- `Tensor`: its own prototype and memory, and `m_fields` (tensor.h), which are tensors again. -/
inductive Tensor where
  | mk (own : Field) (fields : List Tensor)

def Tensor.own : Tensor → Field | .mk o _ => o
def Tensor.fields : Tensor → List Tensor | .mk _ fs => fs

/-- `type_bytes`, include/core/dtype.h:49-87, on the enum codes of dtype.h:11-47. -/
def typeBytes : Nat → Nat
  | 0 => 0
  | 1 | 2 => 1
  | 3 | 4 => 2
  | 5 | 6 => 4
  | 7 | 8 => 8
  | 9 => 2 | 10 => 4 | 11 => 8
  | 12 => 8
  | 13 => 1 | 14 => 2 | 15 => 4
  | 16 => 1 | 17 => 2 | 18 => 4 | 19 => 8 | 20 => 16
  | 21 => 1
  | 22 => 4 | 23 => 8 | 24 => 16
  | 25 | 26 | 27 | 28 | 29 | 30 | 31 | 32 => 1
  | _ => 0

/-- the range of a C++ `int` -/
def isInt32 (x : Int) : Prop := -2147483648 ≤ x ∧ x ≤ 2147483647
instance (x : Int) : Decidable (isInt32 x) := by unfold isInt32; infer_instance

/-- `Prototype::count(shape)`, tensor.h:66-70: product in `int`; `none` is signed overflow (undefined). -/
def count32 : Int → List Int → Option Int
  | acc, [] => some acc
  | acc, s :: ss => if isInt32 (acc * s) then count32 (acc * s) ss else none

def count (shape : List Int) : Option Int := count32 1 shape

/-- the default-constructed tensor, `Tensor()`, tensor.cpp:204-206 -/
def emptyField : Field := ⟨0, [], []⟩

/-- `Tensor::pack(fields)`, tensor.cpp:240-253, called on a tensor `self`. -/
def pack (self : Tensor) : List Tensor → Tensor
  | [] => .mk emptyField self.fields
  | t :: ts => .mk t.own ts

/-- `Tensor::unpack()`, tensor.cpp:255-263. -/
def unpack (t : Tensor) : List Tensor := .mk t.own [] :: t.fields

/-- `fields_count()`, tensor.cpp:298-300. -/
def fieldsCount (t : Tensor) : Nat := 1 + t.fields.length

/-- `Tensor::field(size_t)`, tensor.cpp:265-274; `none` is the ejected error. -/
def fieldAt (t : Tensor) (offset : Nat) : Option Tensor :=
  if offset = 0 then some (.mk t.own [])
  else t.fields[offset - 1]?

/-- conversion to `size_t` -/
def toSize (i : Int) : Nat := (i % 18446744073709551616).toNat

/-- `Tensor::field(int)`, tensor.cpp:276-278. -/
def fieldInt (t : Tensor) (offset : Int) : Option Tensor :=
  fieldAt t (toSize (if offset ≥ 0 then offset else (fieldsCount t : Int) + offset))

/-- `Tensor::field(size_t, value)`, tensor.cpp:280-291. -/
def setFieldAt (t : Tensor) (offset : Nat) (v : Tensor) : Option Tensor :=
  if offset = 0 then some (.mk v.own t.fields)
  else if offset - 1 ≥ t.fields.length then none
  else some (.mk t.own (t.fields.set (offset - 1) v))

/-- `Tensor::field(int, value)`, tensor.cpp:293-295. -/
def setFieldInt (t : Tensor) (offset : Int) (v : Tensor) : Option Tensor :=
  setFieldAt t (toSize (if offset ≥ 0 then offset else (fieldsCount t : Int) + offset)) v

/-- the tensor operations used by the `pack` and `field` instructions (tensor_instruction.cpp:17-45);
`pack` is called on a default-constructed tensor -/
def tensorPackOps : Runtime.PackOps Tensor := ⟨pack (.mk emptyField []), fieldInt⟩

/-- `Tensor::clone`, tensor.cpp:138-155: every unpacked value is copied from its prototype and memory alone
(its own fields are not copied), and the copies are packed into a fresh tensor. -/
def clone (t : Tensor) : Tensor :=
  pack (.mk emptyField []) ((unpack t).map fun v => .mk v.own [])

/-- `Tensor::refield(size)`, tensor.cpp:306-312. -/
def refield (t : Tensor) (n : Nat) : Tensor :=
  if n = 0 then .mk emptyField []
  else .mk t.own (t.fields.take (n - 1) ++ List.replicate (n - 1 - t.fields.length) (.mk emptyField []))

end Verif.Core
