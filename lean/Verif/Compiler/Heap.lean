import Verif.Compiler.Graph
/-!
# Graph rewriting passes before compilation

Nodes live in a growing arena (`Graph::m_nodes`, include/module/graph.h; the passes create nodes in a
temporary graph, compiler.cpp:108-109). A node is its index in the arena.
-/
namespace Verif.Compiler
open Verif.Runtime

/-- One node: its bubble (kind, `#value`, operator function) and its inputs. -/
structure NodeRec (V : Type) where
  kind : Kind
  inputs : List Nat
  value : V
  sem : List V → Option V

abbrev Arena (V : Type) := List (NodeRec V)

variable {V : Type} [Inhabited V]

/-- The graph in an arena; indices outside it are dead (kind `variable` has no value). -/
def graphOf (h : Arena V) : Graph Nat V where
  kind n := match h[n]? with | some r => r.kind | none => .variable
  inputs n := match h[n]? with | some r => r.inputs | none => []
  value n := match h[n]? with | some r => r.value | none => default
  sem n := match h[n]? with | some r => r.sem | none => fun _ => none

/-- every input of every node is in the arena -/
def Closed (h : Arena V) : Prop := ∀ (n : Nat) (r : NodeRec V), h[n]? = some r → ∀ m ∈ r.inputs, m < h.length

/-- Result of a pass: a value, a C++ exception, or out of fuel. -/
inductive R (α : Type) where
  | ok (a : α) | err | fuel
  deriving Repr, DecidableEq

def R.bind {α β : Type} : R α → (α → R β) → R β
  | .ok a, f => f a
  | .err, _ => .err
  | .fuel, _ => .fuel

/-! ## Constant folding (compiler.cpp:386-461) -/

/-- `ready_const` and `ready_nonconst` with the arena. -/
structure FSt (V : Type) where
  heap : Arena V
  rc : Nat → Option Nat
  rn : Nat → Option Nat

def ins (f : Nat → Option Nat) (k v : Nat) : Nat → Option Nat :=
  -- `unordered_map::insert` keeps an existing entry
  match f k with
  | some _ => f
  | none => fun m => if m = k then some v else f m

/-- `intime::run` (src/frontend/intime.cpp:19-46): the operator is looked up with `OperatorCreator::Create`,
which throws for the two instruction-only layers `_field` and `_pack`. -/
def intimeRun (r : NodeRec V) (vs : List V) : Option V :=
  match r.kind with
  | .oper => r.sem vs
  | _ => none

/-- the input loop of `run_const_node`, compiler.cpp:424-433: result node of each input, the values of the
constant ones, and whether all are constant. -/
def foldInputs (recur : FSt V → Nat → R (FSt V × Nat × Bool)) :
    FSt V → List Nat → R (FSt V × List Nat × List V × Bool)
  | st, [] => .ok (st, [], [], true)
  | st, i :: is =>
    (recur st i).bind fun (st1, c, isC) =>
    (foldInputs recur st1 is).bind fun (st2, cs, vs, allC) =>
    .ok (st2, c :: cs,
      (if isC then ((graphOf st1.heap).value c) :: vs else vs), isC && allC)

/-- the part of `run_const_node` after the input loop, compiler.cpp:435-450, for node `n` with bubble and
inputs `r`; see `foldNode` for `root`. -/
def foldFinish (root : Bool) (n : Nat) (r : NodeRec V) :
    FSt V × List Nat × List V × Bool → R (FSt V × Nat × Bool) := fun (st1, cs, vs, allC) =>
  if allC then
    match intimeRun r vs with
    | none => .err
    | some v =>
      let c := st1.heap.length
      let h := st1.heap ++ [⟨.const, [], v, fun _ => none⟩]
      .ok ({ st1 with heap := h, rc := ins st1.rc (if root then c else n) c }, c, true)
  else if cs = r.inputs then
    .ok ({ st1 with rn := ins st1.rn n n }, n, false)
  else
    let c := st1.heap.length
    let h := st1.heap ++ [{ r with inputs := cs }]
    .ok ({ st1 with heap := h, rn := ins st1.rn (if root then c else n) c }, c, false)

/-- `run_const_node`, compiler.cpp:386-450. `root` is the call of `run_const_nodes`, which passes the
*same* variable as `node` and as the out-parameter `const_node`, so that the map insertions after the
out-parameter was assigned use the new node as key. -/
def foldNode : Nat → Bool → FSt V → Nat → R (FSt V × Nat × Bool)
  | 0, _, _, _ => .fuel
  | k + 1, root, st, n =>
    match st.rn n with
    | some c => .ok (st, c, false)
    | none =>
    match st.rc n with
    | some c => .ok (st, c, true)
    | none =>
    match st.heap[n]? with
    | none => .err
    | some r =>
    match r.kind with
    | .variable => .err
    | .const => .ok ({ st with rc := ins st.rc n n }, n, true)
    | .param => .ok ({ st with rn := ins st.rn n n }, n, false)
    | _ =>
      (foldInputs (foldNode k false) st r.inputs).bind (foldFinish root n r)

/-- `run_const_nodes`, compiler.cpp:453-461. -/
def foldRoots (fuel : Nat) : FSt V → List Nat → R (FSt V × List Nat)
  | st, [] => .ok (st, [])
  | st, n :: ns =>
    (foldNode fuel true st n).bind fun (st1, c, _) =>
    (foldRoots fuel st1 ns).bind fun (st2, cs) => .ok (st2, c :: cs)

/-- Constant folding of a graph's outputs. -/
def constFold (fuel : Nat) (h : Arena V) (outputs : List Nat) : R (Arena V × List Nat) :=
  (foldRoots fuel ⟨h, fun _ => none, fun _ => none⟩ outputs).bind fun (st, cs) => .ok (st.heap, cs)

/-! ## Zipping (src/compiler/zipper.cpp:23-84) -/

/-- A zipper option: `some (new, z)` when `zip` returns true, having appended `new` to the arena and
returned node `z`. -/
abbrev ZipOption (V : Type) := Arena V → Nat → Option (Arena V × Nat)

structure ZSt (V : Type) where
  heap : Arena V
  ready : Nat → Option Nat

/-- the option loop, zipper.cpp:37-40: the first option that applies -/
def applyOptions : List (ZipOption V) → Arena V → Nat → Arena V × Nat
  | [], h, n => (h, n)
  | o :: os, h, n => match o h n with
      | some (new, z) => (h ++ new, z)
      | none => applyOptions os h n

def zipInputs (recur : ZSt V → Nat → R (ZSt V × Nat)) : ZSt V → List Nat → R (ZSt V × List Nat)
  | st, [] => .ok (st, [])
  | st, i :: is =>
    (recur st i).bind fun (st1, c) =>
    (zipInputs recur st1 is).bind fun (st2, cs) => .ok (st2, c :: cs)

/-- `zip_node`, zipper.cpp:23-64. -/
def zipNode (os : List (ZipOption V)) : Nat → ZSt V → Nat → R (ZSt V × Nat)
  | 0, _, _ => .fuel
  | k + 1, st, n =>
    match st.ready n with
    | some z => .ok (st, z)
    | none =>
      let (h, z) := applyOptions os st.heap n
      match h[z]? with
      | none => .err
      | some r =>
        (zipInputs (zipNode os k) { st with heap := h } r.inputs).bind fun (st1, cs) =>
        if cs = r.inputs then .ok ({ st1 with ready := ins st1.ready n z }, z)
        else .ok ({ heap := st1.heap ++ [{ r with inputs := cs }],
                    ready := ins st1.ready n st1.heap.length }, st1.heap.length)

/-- `Zipper::zip`, zipper.cpp:66-84 (with no options the nodes are returned as they are). -/
def zipRoots (os : List (ZipOption V)) (fuel : Nat) (h : Arena V) (outputs : List Nat) :
    R (Arena V × List Nat) :=
  if os.isEmpty then .ok (h, outputs)
  else (zipInputs (zipNode os fuel) ⟨h, fun _ => none⟩ outputs).bind fun (st, cs) => .ok (st.heap, cs)

end Verif.Compiler
