import Verif.Runtime.Machine
import Verif.Runtime.OpParams
/-!
# Operators called at once and the same functions as nodes: src/frontend/{desc,symbol,intime,frontend}.cpp
and `Workbench::offline_run`

`V` is the type of tensors. The creation of an operator (`Workbench::offline_create`) is a parameter: `none` is an exception.
Which thread has which workbench (`ctx::get`) and devices are not modelled.
-/
namespace Verif.Runtime.Intime
open Verif.Runtime

variable {V N : Type}

/-- the values of parameters which desc.cpp sets -/
inductive PVal where
  | int (n : Int)
  | float (bits : Nat)
  | bool (b : Bool)
  | ints (l : List Int)
  deriving DecidableEq

/-- `Bubble`: the operator and the parameters in the order they were set; the retention parameters (`#op`, `#name`, …) follow from
these and are left out -/
structure Bubble where
  op : String
  params : List (String × PVal)
  deriving DecidableEq

/-- `desc::ResizeType`, desc.h:18-22 -/
inductive ResizeType where
  | linear
  | cubic
  | nearest
  deriving DecidableEq

/-- `int32_t(type)`, desc.h:18-22 -/
def ResizeType.toInt : ResizeType → Int
  | .linear => 0
  | .cubic => 1
  | .nearest => 2

namespace Desc
/-- desc.cpp:12-16; name.cpp:42 -/
def resize2d (type : ResizeType) : Bubble := ⟨"_resize2d", [("type", .int type.toInt)]⟩
/-- desc.cpp:18-20 -/
def add : Bubble := ⟨"add", []⟩
/-- desc.cpp:22-24 -/
def sub : Bubble := ⟨"sub", []⟩
/-- desc.cpp:26-28 -/
def mul : Bubble := ⟨"mul", []⟩
/-- desc.cpp:30-32 -/
def div : Bubble := ⟨"div", []⟩
/-- desc.cpp:34-38; name.cpp:15 -/
def transpose (permute : List Int) : Bubble := ⟨"_transpose", [("permute", .ints permute)]⟩
/-- desc.cpp:40-42 -/
def sigmoid : Bubble := ⟨"sigmoid", []⟩
/-- desc.cpp:44-48 -/
def gather (axis : Int) : Bubble := ⟨"gather", [("axis", .int axis)]⟩
/-- desc.cpp:50-54 -/
def concat (dim : Int) : Bubble := ⟨"concat", [("dim", .int dim)]⟩
/-- desc.cpp:56-61 -/
def softmax (dim : Int) (smooth : Bool) : Bubble := ⟨"softmax", [("dim", .int dim), ("smooth", .bool smooth)]⟩
/-- desc.cpp:63-67; `value` are the bits of the float -/
def pad (value : Nat) : Bubble := ⟨"pad", [("padding_value", .float value)]⟩
/-- desc.cpp:69-73; name.cpp:45 -/
def cast (dtype : Int) : Bubble := ⟨"_cast", [("dtype", .int dtype)]⟩
/-- desc.cpp:75-81 -/
def affineSample2d (dim : Int) (outer : Nat) (type : ResizeType) : Bubble :=
  ⟨"affine_sample2d", [("dim", .int dim), ("outer_value", .float outer), ("type", .int type.toInt)]⟩
/-- desc.cpp:83-88 -/
def affineOnSample2d (dim : Int) (type : ResizeType) : Bubble :=
  ⟨"affine_sample2d", [("dim", .int dim), ("type", .int type.toInt)]⟩
/-- desc.cpp:90-94 -/
def matmul (transpose : Bool) : Bubble := ⟨"inner_prod", [("transpose", .bool transpose)]⟩
/-- desc.cpp:96-98 -/
def broadcast : Bubble := ⟨"broadcast", []⟩
end Desc

/-- a node that was made: what it is and its inputs; the name of the node is left out -/
structure NodeOf (N : Type) where
  desc : Bubble
  inputs : List N
  deriving DecidableEq

namespace Symbol
/-- symbol.cpp:13-17: without desc.cpp -/
def pad (x padding : N) (value : Nat) : NodeOf N := ⟨⟨"pad", [] ++ [("padding_value", .float value)]⟩, [x, padding]⟩
/-- symbol.cpp:19-23 -/
def resize2d (x size : N) (type : ResizeType) : NodeOf N := ⟨Desc.resize2d type, [x, size]⟩
/-- symbol.cpp:25-29 -/
def add (a b : N) : NodeOf N := ⟨Desc.add, [a, b]⟩
/-- symbol.cpp:31-35 -/
def sub (a b : N) : NodeOf N := ⟨Desc.sub, [a, b]⟩
/-- symbol.cpp:37-41 -/
def mul (a b : N) : NodeOf N := ⟨Desc.mul, [a, b]⟩
/-- symbol.cpp:43-47 -/
def div (a b : N) : NodeOf N := ⟨Desc.div, [a, b]⟩
/-- symbol.cpp:49-53 -/
def transpose (x : N) (permute : List Int) : NodeOf N := ⟨Desc.transpose permute, [x]⟩
/-- symbol.cpp:55-59 -/
def sigmoid (x : N) : NodeOf N := ⟨Desc.sigmoid, [x]⟩
/-- symbol.cpp:61-65 -/
def gather (x indices : N) (axis : Int) : NodeOf N := ⟨Desc.gather axis, [x, indices]⟩
/-- symbol.cpp:67-71: a node `gather` -/
def concat (x : List N) (dim : Int) : NodeOf N := ⟨Desc.gather dim, x⟩
/-- symbol.cpp:73-77 -/
def softmax (x : N) (dim : Int) (smooth : Bool) : NodeOf N := ⟨Desc.softmax dim smooth, [x]⟩
/-- symbol.cpp:79-83 -/
def cast (x : N) (dtype : Int) : NodeOf N := ⟨Desc.cast dtype, [x]⟩
/-- symbol.cpp:85-90 -/
def affineSample2d (x size affine : N) (dim : Int) (outer : Nat) (type : ResizeType) : NodeOf N :=
  ⟨Desc.affineSample2d dim outer type, [x, size, affine]⟩
/-- symbol.cpp:92-97 -/
def affineOnSample2d (x size affine : N) (dim : Int) (type : ResizeType) : NodeOf N :=
  ⟨Desc.affineOnSample2d dim type, [x, size, affine]⟩
/-- symbol.cpp:99-103 -/
def matmul (a b : N) (transpose : Bool) : NodeOf N := ⟨Desc.matmul transpose, [a, b]⟩
/-- symbol.cpp:105-109: a node `inner_prod`; the default of `transpose` is false, desc.h -/
def broadcast (x shape : N) : NodeOf N := ⟨Desc.matmul false, [x, shape]⟩
end Symbol

/-- `Workbench::online_run(bubble, input)`, workbench.cpp:355-372, 393-395: all tensors of the frame are arguments -/
def onlineRun (create : Bubble → Option (Op V)) (b : Bubble) (inputs : List V) (s : Stk V) : Out (Stk V) Int :=
  match create b with
  | none => .err s
  | some f =>
    let s1 := pushAll s inputs
    runOperator f s1.size s1

/-- reading `stack[0]`, …, `stack[n - 1]`, intime.cpp:33-35; `none`: `std::out_of_range` -/
def readFrame (s : Stk V) (n : Nat) : Option (List V) := (List.range n).mapM fun i => s.index (i : Nat)

/-- `intime::run`, intime.cpp:19-39: the two guards run in reverse order -/
def run (P : PackOps V) (create : Bubble → Option (Op V)) (b : Bubble) (inputs : List V) (s : Stk V) : Out (Stk V) V :=
  Out.finallyDo
    ((onlineRun create b inputs (s.pushBase (s.size : Int))).bind fun s2 _ =>
      if s2.size = 1 then
        match s2.index 0 with
        | some v => .ok s2 v
        | none => .err s2
      else
        match readFrame s2 s2.size with
        | some fs => .ok s2 (P.pack fs)
        | none => .err s2)
    fun s => s.clear.popBase

/-- `Workbench::offline_run`, workbench.cpp:290-312 -/
def offlineRun (f : Op V) (inputs : List V) (s : Stk V) : Out (Stk V) (List V) :=
  Out.finallyDo
    ((runOperator f inputs.length (pushAll (s.pushBase (s.size : Int)) inputs)).bind fun s2 r =>
      if r ≠ s2.size then .err s2
      else
        match readFrame s2 r.toNat with
        | some fs => .ok s2 fs
        | none => .err s2)
    fun s => s.clear.popBase

section Calls
variable (P : PackOps V) (create : Bubble → Option (Op V))

/-- intime.cpp:49-51 -/
def resize2d (x size : V) (type : ResizeType) := run P create (Desc.resize2d type) [x, size]
/-- intime.cpp:57-59 -/
def add (a b : V) := run P create Desc.add [a, b]
/-- intime.cpp:61-63 -/
def sub (a b : V) := run P create Desc.sub [a, b]
/-- intime.cpp:65-67 -/
def mul (a b : V) := run P create Desc.mul [a, b]
/-- intime.cpp:69-71 -/
def div (a b : V) := run P create Desc.div [a, b]
/-- intime.cpp:73-75 -/
def transpose (x : V) (permute : List Int) := run P create (Desc.transpose permute) [x]
/-- intime.cpp:77-79 -/
def sigmoid (x : V) := run P create Desc.sigmoid [x]
/-- intime.cpp:81-83 -/
def gather (x indices : V) (axis : Int) := run P create (Desc.gather axis) [x, indices]
/-- intime.cpp:89-92 -/
def concat (x : List V) (dim : Int) (s : Stk V) : Out (Stk V) V :=
  match x with
  | [a] => .ok s a
  | x => run P create (Desc.concat dim) x s
/-- intime.cpp:94-96 -/
def softmax (x : V) (dim : Int) (smooth : Bool) := run P create (Desc.softmax dim smooth) [x]
/-- intime.cpp:98-100 -/
def pad (x padding : V) (value : Nat) := run P create (Desc.pad value) [x, padding]
/-- intime.cpp:102-105; `dt` is `Tensor::dtype` -/
def cast (dt : V → Int) (x : V) (dtype : Int) (s : Stk V) : Out (Stk V) V :=
  if dt x = dtype then .ok s x else run P create (Desc.cast dtype) [x] s
/-- intime.cpp:107-111 -/
def affineSample2d (x size affine : V) (dim : Int) (outer : Nat) (type : ResizeType) :=
  run P create (Desc.affineSample2d dim outer type) [x, size, affine]
/-- intime.cpp:140-144 -/
def affineOnSample2d (x size affine : V) (dim : Int) (type : ResizeType) :=
  run P create (Desc.affineOnSample2d dim type) [x, size, affine]
/-- intime.cpp:181-183 -/
def matmul (a b : V) (transpose : Bool) := run P create (Desc.matmul transpose) [a, b]
/-- intime.cpp:185-187 -/
def broadcast (x shape : V) := run P create Desc.broadcast [x, shape]
end Calls

/-- constructors of the operators that are registered for these names on the CPU: transpose.cpp:203 with base_transpose.cpp:15,
affine_sample2d.cpp:428 with base_affine_sample2d.cpp:20-22, inner_prod.cpp:74 with base_inner_prod.cpp:15-16, gather.cpp:52 with
base_gather.cpp:14, concat.cpp:91 with base_concat.cpp:14, softmax.cpp:278 with base_softmax.cpp:17-18, cast.cpp:7 with
base_cast_v2.cpp:14, pad_cpu.cpp:112 with base_pad.cpp:15, resize2d.cpp:396 with base_resize2d.cpp:14; the remaining ones
(add, sub, mul, div, sigmoid, broadcast) declare no field. `none`: another name. -/
def declared : String → Option (Params PVal)
  | "_transpose" => some (Params.new.field "permute" .optional)
  | "affine_sample2d" => some (((Params.new.field "type" .required).field "dim" .required).field "outer_value" .optional)
  | "inner_prod" => some ((Params.new.fieldDefault "transpose" .optional (.bool false)).fieldDefault "kernel_packed" .optional (.bool false))
  | "gather" => some (Params.new.fieldDefault "axis" .optional (.int 0))
  | "concat" => some (Params.new.field "dim" .required)
  | "softmax" => some ((Params.new.field "dim" .required).fieldDefault "smooth" .optional (.bool true))
  | "_cast" => some (Params.new.field "dtype" .required)
  | "pad" => some (Params.new.fieldDefault "padding_value" .optional (.float 0))
  | "_resize2d" => some (Params.new.fieldDefault "type" .optional (.int 0))
  | "add" => some Params.new
  | "sub" => some Params.new
  | "mul" => some Params.new
  | "div" => some Params.new
  | "sigmoid" => some Params.new
  | "broadcast" => some Params.new
  | _ => none

/-- the parameters are set one after the other, workbench.cpp:281-283 -/
def setAll (s : Params PVal) : List (String × PVal) → Option (Params PVal)
  | [] => some s
  | (k, v) :: l =>
    match s.set k v with
    | none => none
    | some s' => setAll s' l

/-- `offline_create` up to `init`, workbench.cpp:274-288 -/
def configure (b : Bubble) : Option (Params PVal) :=
  match declared b.op with
  | none => none
  | some s => setAll s b.params

/-- `AffineOuterMode` with its value, base_affine_sample2d.h:13-16 -/
inductive Outer where
  | nearest
  | value (bits : Nat)
  deriving DecidableEq

/-- the mode of an `Affine_Sample2D`, base_affine_sample2d.cpp:37-42; `none`: the parameter is no float, which is converted; not modelled -/
def outerMode (s : Params PVal) : Option Outer :=
  match s.get "outer_value" with
  | none => some .nearest
  | some (.float b) => some (.value b)
  | some _ => none

end Verif.Runtime.Intime
