import Verif.Compiler.Graph
/-!
# Loading graphs into a module, and sorting its inputs

Models `Module::load`, `Module::graph_walker` and `Module::sort_inputs` (src/module/module.cpp:31-190).
Nodes are compared by identity in the C++ (`Node::operator==` compares pointers), here by `=` on `N`.
Only `kind` and `inputs` of a `Graph` are read.
-/
namespace Verif.Module
open Verif.Compiler

variable {N V : Type} [DecidableEq N]

/-- Local variables of `graph_walker` (module.cpp:100-102): collected inputs, the queue, the visited set. -/
structure WSt (N : Type) where
  inputs : List N
  queue : List N
  walked : List N

/-- One iteration of the loop, module.cpp:104-124, after `front`/`pop` gave `n`; `none` is the ejected
error of lines 110 or 121. `nodes` is the content of `nodes_set`. -/
def wstep (G : Graph N V) (nodes : List N) (st : WSt N) (n : N) : Option (WSt N) :=
  if n ∈ st.walked then some st
  else
    let st := { st with walked := n :: st.walked }
    if n ∉ nodes then none
    else if G.kind n = .param then some { st with inputs := st.inputs ++ [n] }
    else if G.kind n = .const then some st
    else if G.inputs n = [] then none
    else some { st with queue := st.queue ++ G.inputs n }

/-- The loop with fuel. Outer `none`: out of fuel; inner `none`: error. -/
def wloop (G : Graph N V) (nodes : List N) : Nat → WSt N → Option (Option (List N))
  | 0, _ => none
  | k + 1, st => match st.queue with
    | [] => some (some st.inputs)
    | n :: q => match wstep G nodes { st with queue := q } n with
      | none => some none
      | some st' => wloop G nodes k st'

/-- `graph_walker` up to the final re-ordering (module.cpp:92-125). -/
def graphWalker (G : Graph N V) (nodes : List N) (fuel : Nat) (outputs : List N) : Option (Option (List N)) :=
  wloop G nodes fuel ⟨[], outputs, []⟩

/-- The vector rebuilt from `input_nodes_set` (module.cpp:126-131): the elements without repetition, in
the unspecified order of an `unordered_set`. -/
def SetOrder (inputs l : List N) : Prop := l.Nodup ∧ ∀ n, n ∈ l ↔ n ∈ inputs

/-- `Module` (include/module/module.h): `m_inputs`, `m_outputs`. `m_graphs` only keeps the nodes alive. -/
structure Modl (N : Type) where
  inputs : List N
  outputs : List N
  deriving DecidableEq, Repr

/-- `Module::load(g, outputs)`, module.cpp:41-47, where `ins` is what `graph_walker` returned. -/
def Modl.load (m : Modl N) (ins outputs : List N) : Modl N := ⟨m.inputs ++ ins, m.outputs ++ outputs⟩

/-- `map_name_found_node` filled by the loop over the graph's nodes, module.cpp:58-70: entries of the
requested names; `none` is the ejected duplicate error. `name` is `bubble().name()`. -/
def findNames (name : N → String) : List N → (String → Option N) → List String → Option (String → Option N)
  | [], tbl, _ => some tbl
  | n :: ns, tbl, req =>
    if name n ∈ req then
      match tbl (name n) with
      | some _ => none
      | none => findNames name ns (fun s => if s = name n then some n else tbl s) req
    else findNames name ns tbl req

/-- The nodes `Module::load(g, names)` selects as outputs, module.cpp:49-89: error when a name is missing
(`found_count` differs from the number of distinct names). -/
def selectOutputs (name : N → String) (nodes : List N) (req : List String) : Option (List N) :=
  match findNames name nodes (fun _ => none) req with
  | none => none
  | some tbl => if req.all (fun s => (tbl s).isSome) then req.mapM tbl else none

/-- `Module::sort_inputs(nodes)`, module.cpp:139-147; `none` is the ejected error (the module is not
changed, the assignment is the last statement). -/
def sortNodes (m : Modl N) (req : List N) : Option (Modl N) :=
  if m.inputs.all (fun n => n ∈ req) then some { m with inputs := req } else none

/-- first loop of the by-name variant, module.cpp:149-160 -/
def nameTable (name : N → String) : List N → (String → Option N) → Option (String → Option N)
  | [], tbl => some tbl
  | n :: ns, tbl => match tbl (name n) with
    | some _ => none
    | none => nameTable name ns (fun s => if s = name n then some n else tbl s)

/-- number of distinct elements, `unordered_set::size` -/
def distinct (l : List N) : Nat := l.eraseDups.length

/-- `Module::sort_inputs(names)`, module.cpp:149-190. `map_name_input_node.size()` is the number of
current inputs, since their names were found distinct. -/
def sortNames (name : N → String) (m : Modl N) (req : List String) : Option (Modl N) :=
  match nameTable name m.inputs (fun _ => none) with
  | none => none
  | some tbl => match req.mapM tbl with
    | none => none
    | some sorted => if distinct sorted < m.inputs.length then none else some { m with inputs := sorted }

end Verif.Module
