import Verif.Compiler.Heap
import Verif.Compiler.Compile
import Verif.Compiler.Pipeline
import Verif.Module.Load
/-!
# Image filters: src/runtime/image_filter.cpp

A filter object is driven by calls that append nodes to its graph, compile it and run it. Tensors are an abstract type `V`,
`float` is an abstract type `α`.

Simplifications: `Module::Translate` (program.cpp:63) copies graphs without convolutions and matrix products unchanged, and
drops the declared type of the input, so that nothing is cast (C47; builds with CBLAS keep it); there are no zipper options
outside ARM (zipper.cpp:87-97) and no graph converter for the CPU; node names are not modelled.
-/
namespace Verif.Runtime.Filter
open Verif.Compiler Verif.Module

variable {α V : Type}

/-- the operators filters use, with the parameters set on their nodes -/
inductive Layer (α : Type) where
  | toFloat
  | mul
  | sub
  | resize2d (type : Int)
  | scaleResize (size : List Int) (type : Int)
  | dimshuffle (dim : Int) (shuffle : List Int)
  | transpose (permute : List Int)
  | centerCrop (size : List Int)
  | prewhiten
  | letterbox (size : List Int) (type : Int) (outer : α)
  | divided (size : List Int) (padding : α)
  | forceColor
  | forceGray (scale : Option (List α))
  | normImage (epsilon : α)
  deriving DecidableEq

/-- The tensor library: what the operators compute (`none`: they throw), tensors of given shape and content
(`tensor::build`), `1.0f / x`, shapes and `Tensor::reshape`. -/
structure Lib (α V : Type) where
  op : Layer α → List V → Option V
  floats : List Int → List α → V
  ints : List Int → List Int → V
  recip : α → α
  shape : V → List Int
  reshape : V → List Int → Option V

/-- the calls that append to the graph, image_filter.h:42-84; `method` is the number of the `ResizeMethod` -/
inductive Step (α : Type) where
  | toFloat
  | scale (f : α)
  | subMean (mean : List α)
  | divStd (std : List α)
  | resize (width height : Int) (method : Int)
  | resizeShort (side : Int) (method : Int)
  | centerCrop (width height : Int)
  | channelSwap (shuffle : List Int)
  | prewhiten
  | toChw
  | letterbox (width height : Int) (outer : α) (method : Int)
  | divided (width height : Int) (padding : α)
  | forceColor
  | forceGray
  | forceGrayBy (scale : List α)
  | normImage (epsilon : α)

/-- a node of the filter's graph -/
inductive Nd (α V : Type) where
  | param
  | data (v : V)
  | op (l : Layer α) (inputs : List Nat)

/-- `bubble::op(serial_name(), …, {top})` -/
def one (l : Layer α) (n : Nat) : List (Nd α V) := [.op l [n - 1]]

/-- `rhs = bubble::data(…)`, `bubble::op(…, {lhs, rhs})` -/
def two (l : Layer α) (v : V) (n : Nat) : List (Nd α V) := [.data v, .op l [n - 1, n]]

/-- The nodes a call appends to a graph of `n` nodes; `nodes().back()` is node `n - 1`.
`to_float` 106-112, `scale` 114-121, `sub_mean` 123-131, `div_std` 133-147, `resize` 149-158 and 160-169,
`channel_swap` 171-180, `to_chw` 182-189, `center_crop` 191-199, `prewhiten` 223-228, `letterbox` 240-249,
`divided` 251-259, `force_color` 261-267, `force_gray` 269-275 and 277-284, `norm_image` 286-292. -/
def nodesOf (L : Lib α V) (n : Nat) : Step α → List (Nd α V)
  | .toFloat => one .toFloat n
  | .scale f => two .mul (L.floats [1] [f]) n
  | .subMean m => two .sub (L.floats [1, 1, 1, m.length] m) n
  | .divStd m => two .mul (L.floats [1, 1, 1, m.length] (m.map L.recip)) n
  | .resize w h t => two (.resize2d t) (L.ints [4] [-1, h, w, -1]) n
  | .resizeShort s t => one (.scaleResize [s] t) n
  | .channelSwap s => one (.dimshuffle 3 s) n
  | .toChw => one (.transpose [0, 3, 1, 2]) n
  | .centerCrop w h => one (.centerCrop [w, h]) n
  | .prewhiten => one .prewhiten n
  | .letterbox w h o t => one (.letterbox [w, h] t o) n
  | .divided w h p => one (.divided [1, h, w, 1] p) n
  | .forceColor => one .forceColor n
  | .forceGray => one (.forceGray none) n
  | .forceGrayBy s => one (.forceGray (some s)) n
  | .normImage e => one (.normImage e) n

/-- `ImageFilter::Implement`, image_filter.cpp:20-27; a program is its instruction block -/
structure Filt (α V : Type) where
  nodes : List (Nd α V)
  program : Option (Block V)
  compiled : Bool

/-- `clear`, image_filter.cpp:37-43, and the constructors, 29-35 -/
def Filt.fresh : Filt α V := ⟨[.param], none, false⟩

/-- the body shared by all appending calls: the nodes, and `m_compiled = false` -/
def Filt.add (L : Lib α V) (f : Filt α V) (s : Step α) : Filt α V :=
  { f with nodes := f.nodes ++ nodesOf L f.nodes.length s, compiled := false }

section
variable [Inhabited V]

/-- the node as the compiler sees it -/
def Nd.toRec (L : Lib α V) : Nd α V → NodeRec V
  | .param => ⟨.param, [], default, fun _ => none⟩
  | .data v => ⟨.const, [], v, fun _ => none⟩
  | .op l is => ⟨.oper, is, default, L.op l⟩

def arena (L : Lib α V) (nodes : List (Nd α V)) : Arena V := nodes.map (Nd.toRec L)

/-- The device and what the C++ standard leaves open: packed values, the registered operators
(`OperatorCreator::Query`), the reference sets, the order of the hash set of inputs; and how long we wait. -/
structure Dev (α V : Type) where
  pack : PackOps V
  adj : Adjust V
  find : Layer α → Option (Op V)
  refs : Arena V → Nat → Nat → Bool
  order : List Nat → List Nat
  fuel : Nat

/-- the operator of each operator node (folding adds no operator node to these graphs, see `fold_chain`) -/
def tableOf (D : Dev α V) (nodes : List (Nd α V)) : OpTable Nat V := fun n =>
  match nodes[n]? with
  | some (.op l _) => D.find l
  | _ => none

/-- `Module::load(Graph)`, module.cpp:31-39: the nodes nobody reads -/
def sinks (h : Arena V) : List Nat :=
  (List.range h.length).filter fun n => !(h.any fun r => r.inputs.contains n)

/-- the part after the walk: fold constants, then generate code (compiler.cpp:129-377, program.cpp:62-108) -/
def buildFrom (L : Lib α V) (D : Dev α V) (nodes : List (Nd α V)) (ins : List Nat) : R (Block V) :=
  match constFold D.fuel (arena L nodes) (sinks (arena L nodes)) with
  | .err => .err
  | .fuel => .fuel
  | .ok (h, outs) =>
    match compile (graphOf h) (tableOf D nodes) (D.refs h) (D.order ins) outs D.fuel with
    | none => .fuel
    | some none => .err
    | some (some b) => .ok b

/-- `module->load(*m_graph)`, `Program::Compile(module, device)`, image_filter.cpp:48-50 -/
def build (L : Lib α V) (D : Dev α V) (nodes : List (Nd α V)) : R (Block V) :=
  match graphWalker (graphOf (arena L nodes)) (List.range nodes.length) D.fuel (sinks (arena L nodes)) with
  | none => .fuel
  | some none => .err
  | some (some ins) => buildFrom L D nodes ins

/-- `compile`, image_filter.cpp:45-53. When it throws nothing has changed. -/
def Filt.compile (L : Lib α V) (D : Dev α V) (f : Filt α V) : R (Filt α V) :=
  if f.compiled then .ok f
  else if f.nodes.length > 1 then
    match build L D f.nodes with
    | .ok b => .ok { f with program := some b, compiled := true }
    | .err => .err
    | .fuel => .fuel
  else .ok { f with compiled := true }

/-- `ShapeTransformer::before`, image_filter.cpp:57-75; `none`: throws -/
def before : List Int → Option (List Int)
  | [] => none
  | [a] => some [1, a, 1, 1]
  | [a, b] => some [1, a, b, 1]
  | [a, b, c] => some [1, a, b, c]
  | [a, b, c, d] => some [a, b, c, d]
  | a :: b :: c :: rest => some [a, b, c, rest.foldl (· * ·) 1]

/-- outcome of `run`; `hang` when we did not wait long enough -/
inductive Ran (V : Type) where
  | ok (s : Stk V) (v : V)
  | err
  | ub
  | hang

/-- `launch_offline` on the reshaped image and `outputs[0]`, image_filter.cpp:94-98 -/
def launch1 (L : Lib α V) (D : Dev α V) (b : Block V) (x : V) (s : Stk V) : Ran V :=
  match launchOffline D.pack D.adj b.prog [x] s with
  | .ub => .ub
  | .err _ => .err
  | .ok _ [] => .ub
  | .ok s' (y :: _) =>
    match L.reshape y (L.shape y) with
    | some y => .ok s' y
    | none => .err

/-- `run` on a compiled filter, image_filter.cpp:85-102 -/
def runCompiled (L : Lib α V) (D : Dev α V) (f : Filt α V) (image : V) (s : Stk V) : Ran V :=
  match f.program with
  | none => .ok s image
  | some b =>
    match before (L.shape image) with
    | none => .err
    | some sh =>
      match L.reshape image sh with
      | none => .err
      | some x => launch1 L D b x s

/-- `run`, image_filter.cpp:83-103: the filter afterwards and the outcome -/
def Filt.run (L : Lib α V) (D : Dev α V) (f : Filt α V) (image : V) (s : Stk V) : Filt α V × Ran V :=
  match (if f.compiled then .ok f else f.compile L D) with
  | .err => (f, .err)
  | .fuel => (f, .hang)
  | .ok f => (f, runCompiled L D f image s)

/-- `clone`, image_filter.cpp:201-211; `none`: `other.m_program->clone()` on a null pointer. A cloned program computes the
same (C37). -/
def Filt.clone (f : Filt α V) : Option (Filt α V) :=
  f.program.map fun b => { (Filt.fresh : Filt α V) with program := some b, compiled := true }

/-- the calls on one filter -/
inductive Call (α V : Type) where
  | clear
  | step (s : Step α)
  | compile
  | run (image : V) (s : Stk V)

/-- the filter after a call, whether it returned or threw -/
def Filt.exec (L : Lib α V) (D : Dev α V) (f : Filt α V) : Call α V → Filt α V
  | .clear => .fresh
  | .step s => f.add L s
  | .compile => match f.compile L D with
    | .ok f' => f'
    | _ => f
  | .run image s => (f.run L D image s).1

/-- a new filter after a sequence of calls -/
def hist (L : Lib α V) (D : Dev α V) (cs : List (Call α V)) : Filt α V := cs.foldl (Filt.exec L D) .fresh

end
end Verif.Runtime.Filter
