import Verif.Compiler.Heap
import Verif.Module.Load
/-!
# Fusing modules

Models `Module::Fusion` with `clone_node`, `clone_graph` (src/module/module.cpp:392-500), `Module::Route`
(include/module/module.h:77-91) and `ts_Module_Fusion` (src/api/module.cpp:104-113).

All nodes live in one arena: those of the submodules first, the ones `Fusion` makes in its new graph behind
them (a node is its index, as C++ nodes are compared by address).

Simplification: `cloned_nodes` and `linked_nodes` are one map `ready`. In the C++ both maps get the same pairs,
`cloned_nodes` in `clone_node` (L399-400) and `linked_nodes` a few lines on (L420-421) with only `Node::Link` in
between, and in the route loop together (L468-471). Node names, which nothing here reads, are left out.
-/
namespace Verif.Module.Fusion
open Verif.Runtime Verif.Compiler Verif.Module

/-- Outcome: a value, an exception, undefined behaviour, or (for the model's loops) out of fuel. -/
inductive F (α : Type) where
  | ok (a : α) | err | ub | fuel
  deriving Repr, DecidableEq

def F.bind {α β : Type} : F α → (α → F β) → F β
  | .ok a, f => f a
  | .err, _ => .err
  | .ub, _ => .ub
  | .fuel, _ => .fuel

def ofR {α : Type} : R α → F α
  | .ok a => .ok a
  | .err => .err
  | .fuel => .fuel

/-- `Module::Route`, module.h:87-90. -/
structure Route where
  inn : Int
  inOutSlot : Int
  out : Int
  outInSlot : Int
  deriving Repr, DecidableEq

/-- the constructor with four arguments, module.h:79-81: the last member is initialised with `out_in_slot()`,
that is with zero. -/
def Route.make (inn inOutSlot out _outInSlot : Int) : Route := ⟨inn, inOutSlot, out, 0⟩

variable {V : Type} [Inhabited V]

/-- `clone_graph` for one node, module.cpp:403-424 with `clone_node` L392-402 (`ZSt` is an arena and a map,
`zipInputs` the loop over a list of nodes that threads it). A missing arena entry stands for a dead node. -/
def cloneNode : Nat → ZSt V → Nat → R (ZSt V × Nat)
  | 0, _, _ => .fuel
  | k + 1, st, n =>
    match st.ready n with
    | some c => .ok (st, c)
    | none =>
      match st.heap[n]? with
      | none => .err
      | some r =>
        (zipInputs (cloneNode k) st r.inputs).bind fun (st1, cs) =>
        let c := st1.heap.length
        .ok ({ heap := st1.heap ++ [{ r with inputs := cs }], ready := ins (ins st1.ready n c) c c }, c)

/-- the node `bubble::op(name, name::layer::copy(), {d})` of L465-466; the operator `_copy` returns its
argument (src/backend/zoo/copy.cpp:32-36, one output). -/
def copyNode (d : Nat) : NodeRec V :=
  ⟨.oper, [d], default, fun vs => match vs with | [v] => some v | _ => none⟩

/-- `v[i]` for an `int` index that the checks let through: outside the vector it is undefined -/
def slot (l : List Nat) (i : Int) : F Nat :=
  match l[i.toNat]? with
  | some n => if 0 ≤ i then .ok n else .ub
  | none => .ub

/-- the checks and slot defaults of a route, module.cpp:441-460; the result is `(node_in, node_out)`. The
conditions are evaluated left to right and stop at the first that holds. -/
def routeNodes (subs : List (Modl Nat)) (r : Route) : F (Nat × Nat) :=
  if r.inn < 0 ∨ r.inn ≥ subs.length then .err
  else if r.out < 0 ∨ r.out ≥ subs.length then .err
  else match subs[r.inn.toNat]?, subs[r.out.toNat]? with
    | some a, some b =>
      if r.inOutSlot < 0 ∧ a.outputs.length > 1 then .err
      else if r.outInSlot < 0 ∧ b.inputs.length > 1 then .err
      else if r.inOutSlot ≥ a.outputs.length then .err
      else if r.outInSlot ≥ b.inputs.length then .err
      else
        (slot b.inputs (if r.outInSlot < 0 then 0 else r.outInSlot)).bind fun nodeIn =>
        (slot a.outputs (if r.inOutSlot < 0 then 0 else r.inOutSlot)).bind fun nodeOut => .ok (nodeIn, nodeOut)
    | _, _ => .ub

/-- the loop over the routes, module.cpp:440-472; the result has the linked inputs and the linked outputs. -/
def fuseRoutes (fuel : Nat) (subs : List (Modl Nat)) : ZSt V → List Route → F (ZSt V × List Nat × List Nat)
  | st, [] => .ok (st, [], [])
  | st, r :: rs =>
    (routeNodes subs r).bind fun (nodeIn, nodeOut) =>
    (ofR (cloneNode fuel st nodeOut)).bind fun (st1, d) =>
    let c := st1.heap.length
    (fuseRoutes fuel subs ⟨st1.heap ++ [copyNode d], ins (ins st1.ready nodeIn c) c c⟩ rs).bind
      fun (st2, is, os) => .ok (st2, nodeIn :: is, nodeOut :: os)

/-- `cloned_nodes.at(input)` for a list, module.cpp:488-491; `none` is the exception of `at`. -/
def atAll (ready : Nat → Option Nat) : List Nat → Option (List Nat)
  | [] => some []
  | n :: ns => match ready n, atAll ready ns with
    | some c, some cs => some (c :: cs)
    | _, _ => none

/-- `Module::Fusion`, module.cpp:431-499. `wfuel` bounds the loop of `graph_walker` inside `load`; the order of
the inputs it finds does not matter, since `sort_inputs` only asks whether they are all mentioned. -/
def fusion (fuel wfuel : Nat) (h : Arena V) (subs : List (Modl Nat)) (routes : List Route) :
    F (Arena V × Modl Nat) :=
  (fuseRoutes fuel subs ⟨h, fun _ => none⟩ routes).bind fun (st, is, os) =>
  let inputs := (subs.flatMap (·.inputs)).filter (fun n => n ∉ is)
  let outputs := (subs.flatMap (·.outputs)).filter (fun n => n ∉ os)
  (ofR (zipInputs (cloneNode fuel) st outputs)).bind fun (st1, couts) =>
  match atAll st1.ready inputs with
  | none => .err
  | some cins =>
    match graphWalker (graphOf st1.heap) (List.range' h.length (st1.heap.length - h.length)) wfuel couts with
    | none => .fuel
    | some none => .err
    | some (some found) =>
      match sortNodes ((⟨[], []⟩ : Modl Nat).load found couts) cins with
      | none => .err
      | some m => .ok (st1.heap, m)

/-- `ts_Module_Fusion(in, in_out_slot, out, out_in_slot)`, src/api/module.cpp:104-113, for non-null modules. -/
def apiFusion (fuel wfuel : Nat) (h : Arena V) (a : Modl Nat) (inOutSlot : Int) (b : Modl Nat) (outInSlot : Int) :
    F (Arena V × Modl Nat) :=
  fusion fuel wfuel h [a, b] [Route.make 0 inOutSlot 1 outInSlot]

end Verif.Module.Fusion
