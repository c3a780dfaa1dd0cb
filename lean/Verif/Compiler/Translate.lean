import Verif.Compiler.Heap
import Verif.Module.Fusion
/-!
# The translator and its weight packing option (run by `Program::Compile` before the compiler)

Sources: src/compiler/translater.cpp:20-102, src/compiler/option/pack_translator_option.cpp, src/module/menu.cpp:14-70.
No other translator option is registered in the repository except the optional half precision one
(`GetFullTranslateV2Options` and `GetFullTranslateOptions` are empty lists), and the packing option is on unless
`--no-pack` is given (translater.cpp:104-121, build without CBLAS).

Nodes live in an arena: the nodes of the module first, then those created in the temporary graph. Simplifications: `Variable`
nodes do not occur; bubbles carry only what the option looks at, the names of parameters and the function an operator
computes; ARM Winograd skipping (pack_translator_option.cpp:150-167) is not compiled in.
-/
namespace Verif.Compiler
open Verif.Runtime
open Verif.Module.Fusion (F)

/-- The functions the option rewrites between, on tensors `V` (`none`: the operator throws). `C` are the parameters of a
convolution. `near…` are `ts::near(·, 1)` and `ts::near(·, 0)` on the number in a parameter. -/
structure Kern (V C : Type) where
  innerProd : (transpose packed : Bool) → List V → Option V
  conv : (c : C) → (v2 packed : Bool) → List V → Option V
  gemm : (alpha beta : V) → (transA transB : Bool) → List V → Option V
  mul : List V → Option V
  add : List V → Option V
  /-- packed weights of an inner product, pack_translator_option.cpp:212-234 -/
  packB : (transpose : Bool) → V → Option V
  /-- packed weights of a convolution, pack_translator_option.cpp:199-211 -/
  packA : V → Option V
  /-- the transposed matrix, pack_translator_option.cpp:70-86 -/
  transposed : V → Option V
  nearOne : V → Bool
  nearZero : V → Bool

/-- `Bubble::op()` with the parameters the option reads. -/
inductive TOp (V C : Type) where
  /-- `Bubble::Parameter` with its name and declared type (`#dtype`) -/
  | param (name : String) (dtype : Option Nat)
  | const (v : V)
  /-- `inner_prod` with `transpose` and `kernel_packed` -/
  | inner (transpose packed : Bool)
  /-- `conv2d`, or `conv2d_v2` when `v2` -/
  | conv (c : C) (v2 packed : Bool)
  /-- `gemm`; `explicit`: all four parameters are stored in the node (they are optional for the operator,
  base_gemm.cpp:78-84) -/
  | gemm (alpha beta : V) (transA transB explicit : Bool)
  | mul
  | add
  /-- any other operator, with the function it computes -/
  | other (sem : List V → Option V)

structure TRec (V C : Type) where
  op : TOp V C
  inputs : List Nat

abbrev TArena (V C : Type) := List (TRec V C)

variable {V C : Type}

/-- the function an operator node computes -/
def TOp.sem (K : Kern V C) : TOp V C → List V → Option V
  | .param _ _ => fun _ => none
  | .const _ => fun _ => none
  | .inner t p => K.innerProd t p
  | .conv c v2 p => K.conv c v2 p
  | .gemm a b tA tB _ => K.gemm a b tA tB
  | .mul => K.mul
  | .add => K.add
  | .other s => s

def TOp.kind : TOp V C → Kind
  | .param _ _ => .param
  | .const _ => .const
  | _ => .oper

/-- the node as the compiler model sees it -/
def TRec.toRec [Inhabited V] (K : Kern V C) (r : TRec V C) : NodeRec V :=
  ⟨r.op.kind, r.inputs, match r.op with | .const v => v | _ => default, r.op.sem K⟩

/-- which operators the device defines itself, so that the option leaves them alone: `device.type() != "cpu" &&
has_defined_op(device, op_name)`, pack_translator_option.cpp:14-27 and 49-53 -/
structure Skip where
  inner : Bool
  conv : Bool
  convV2 : Bool
  gemm : Bool
  deriving DecidableEq

/-- the value of a constant node -/
def constVal (h : TArena V C) (n : Nat) : Option V :=
  match h[n]? with
  | some ⟨.const v, _⟩ => some v
  | _ => none

/-- `node.bubble().set(name::value, tensor)` -/
def setVal (h : TArena V C) (n : Nat) (v : V) : TArena V C :=
  match h[n]? with
  | some r => h.set n { r with op := .const v }
  | none => h

/-- `if (X.op() == Const && trans) X.bubble().set(value, transposed)`, pack_translator_option.cpp:68-106: `A_trans_node` is
the node itself, so the constant is replaced in place -/
def transConst (K : Kern V C) (h : TArena V C) (n : Nat) (trans : Bool) : F (TArena V C) :=
  match constVal h n with
  | some v => if trans then
      match K.transposed v with
      | some t => .ok (setVal h n t)
      | none => .err
    else .ok h
  | none => .ok h

/-- the nodes made for a Gemm at `b = h.length`, pack_translator_option.cpp:45 and 108-131: a copy of the Gemm node (unused),
the inner product, `alpha`, `alpha * inner`, `beta`, `beta * C` and, unless `beta` is near zero, the sum; and the node that
replaces the Gemm -/
def gemmNodes (K : Kern V C) (r : TRec V C) (alpha beta : V) (a b c base : Nat) : List (TRec V C) × Nat :=
  let five : List (TRec V C) :=
    [⟨r.op, []⟩, ⟨.inner false false, [a, b]⟩, ⟨.const alpha, []⟩, ⟨.mul, [base + 2, base + 1]⟩,
     ⟨.const beta, []⟩, ⟨.mul, [base + 4, c]⟩]
  if K.nearZero beta then
    if K.nearOne alpha then (five, base + 1) else (five, base + 3)
  else if K.nearOne alpha then (five ++ [⟨.add, [base + 1, base + 5]⟩], base + 6)
  else (five ++ [⟨.add, [base + 3, base + 5]⟩], base + 6)

/-- a copy of the node with the same inputs, pack_translator_option.cpp:42-47 -/
def copyOf (h : TArena V C) (r : TRec V C) : F (TArena V C × Nat) := .ok (h ++ [r], h.length)

/-- a copy of node `r` reading the packed constant `w`, pack_translator_option.cpp:237-250: `kernel_packed_node` is the kernel
node itself, so the constant is replaced in place. -/
def packedCopy (h : TArena V C) (w : Nat) (p : Option V) (op : TOp V C) (inputs : List Nat) : F (TArena V C × Nat) :=
  match p with
  | none => .err
  | some p => .ok (setVal h w p ++ [⟨op, inputs⟩], h.length)

/-- `PackTranslatorOption::translate`, pack_translator_option.cpp:29-251; it handles every node. Indexing the inputs of a
node that has too few is undefined. -/
def packOption (K : Kern V C) (s : Skip) (h : TArena V C) (n : Nat) : F (TArena V C × Nat) :=
  match h[n]? with
  | none => .ub
  | some r =>
    match r.op with
    | .param name _ => .ok (h ++ [⟨.param name none, []⟩], h.length)
    | .const v => .ok (h ++ [⟨.const v, []⟩], h.length)
    | .gemm alpha beta transA transB explicit =>
      if s.gemm then copyOf h r else
      match r.inputs with
      | a :: b :: c :: _ =>
        if explicit = false then .err
        else if (constVal h a).isNone ∧ transA = true then copyOf h r
        else
          (transConst K h a transA).bind fun h1 =>
          (transConst K h1 b transB).bind fun h2 =>
          let (new, z) := gemmNodes K r alpha beta a b c h.length
          .ok (h2 ++ new, z)
      | _ => .ub
    | .inner t _ =>
      if s.inner then copyOf h r else
      match r.inputs with
      | x :: w :: _ =>
        match constVal h w with
        | none => copyOf h r
        | some v => packedCopy h w (K.packB t v) (.inner false true) [x, w]
      | _ => .ub
    | .conv c v2 _ =>
      if (if v2 then s.convV2 else s.conv) then copyOf h r else
      match v2, r.inputs with
      | false, x :: w :: _ =>
        match constVal h w with
        | none => copyOf h r
        | some v => packedCopy h w (K.packA v) (.conv c v2 true) [x, w]
      | true, x :: y :: w :: _ =>
        match constVal h w with
        | none => copyOf h r
        | some v => packedCopy h w (K.packA v) (.conv c v2 true) [x, y, w]
      | _, _ => .ub
    | _ => copyOf h r

/-- the temporary graph and `ready_map` -/
structure TSt (V C : Type) where
  heap : TArena V C
  ready : Nat → Option Nat

/-- the loop over inputs, translater.cpp:41-45 -/
def transInputs (recur : TSt V C → Nat → F (TSt V C × Nat)) : TSt V C → List Nat → F (TSt V C × List Nat)
  | st, [] => .ok (st, [])
  | st, i :: is =>
    (recur st i).bind fun (st1, c) =>
    (transInputs recur st1 is).bind fun (st2, cs) => .ok (st2, c :: cs)

/-- `Node::Link(translated_node, translated_inputs)`, translater.cpp:53 -/
def relink (h : TArena V C) (z : Nat) (cs : List Nat) : TArena V C :=
  match h[z]? with
  | some r => h.set z { r with inputs := cs }
  | none => h

/-- `translate_node` with the packing option, translater.cpp:20-56. (That option always returns true, with a new node, so
`translated_node == node` does not happen.) -/
def transNode (K : Kern V C) (s : Skip) : Nat → TSt V C → Nat → F (TSt V C × Nat)
  | 0, _, _ => .fuel
  | k + 1, st, n =>
    match st.ready n with
    | some z => .ok (st, z)
    | none =>
      (packOption K s st.heap n).bind fun (h, z) =>
      match h[z]? with
      | none => .ub
      | some r =>
        (transInputs (transNode K s k) { st with heap := h } r.inputs).bind fun (st1, cs) =>
        .ok (⟨relink st1.heap z cs, ins st1.ready n z⟩, z)

/-- `Translator::translate` with the packing option, translater.cpp:58-102: the outputs, then the inputs, with one memo. -/
def translate (K : Kern V C) (s : Skip) (fuel : Nat) (h : TArena V C) (outputs inputs : List Nat) :
    F (TArena V C × List Nat × List Nat) :=
  (transInputs (transNode K s fuel) ⟨h, fun _ => none⟩ outputs).bind fun (st, outs) =>
  (transInputs (transNode K s fuel) st inputs).bind fun (st1, ins) => .ok (st1.heap, outs, ins)

end Verif.Compiler
