import Verif.Compiler.Graph
/-!
# Listing the referenced nodes, and the reference sets built from it

Models `Module::list_reference_nodes` (src/module/module.cpp:200-237) and `build_node_refs`
(src/compiler/compiler.cpp:47-63).
-/
namespace Verif.Compiler
variable {N V : Type} [DecidableEq N]

/-- Local variables of `list_reference_nodes` (module.cpp:201-202). `keys` lists the keys of
`map_node_depth` in insertion order (the iteration order of the C++ `unordered_map` is unspecified, see
`IsSchedule`). -/
structure LSt (N : Type) where
  depth : N → Option Nat
  keys : List N
  queue : List N

/-- map assignment -/
def setD (f : N → Option Nat) (n : N) (v : Nat) : N → Option Nat := fun m => if m = n then some v else f m

/-- First loop, module.cpp:204-209, for one root. -/
def addRoot (st : LSt N) (n : N) : LSt N :=
  match st.depth n with
  | some _ => st
  | none => ⟨setD st.depth n 1, st.keys ++ [n], st.queue ++ [n]⟩

/-- Inner loop body, module.cpp:215-226, for one input of a node whose depth is `d`. -/
def visit (d : Nat) (st : LSt N) (m : N) : LSt N :=
  match st.depth m with
  | none => ⟨setD st.depth m (d + 1), st.keys ++ [m], st.queue ++ [m]⟩
  | some e => if e < d + 1 then ⟨setD st.depth m (d + 1), st.keys, st.queue ++ [m]⟩ else st

/-- Main loop, module.cpp:211-228, with fuel (`none`: out of fuel). `map_node_depth[node]` of a queued
node exists; the `getD 0` is what `operator[]` would insert otherwise. -/
def walk (G : Graph N V) : Nat → LSt N → Option (LSt N)
  | 0, _ => none
  | k + 1, st => match st.queue with
      | [] => some st
      | n :: q =>
        walk G k ((G.inputs n).foldl (visit ((st.depth n).getD 0)) { st with queue := q })

/-- state before the main loop -/
def walkInit (roots : List N) : LSt N := roots.foldl addRoot ⟨fun _ => none, [], []⟩

/-- Result of `list_reference_nodes`, module.cpp:230-236: the entries of the map in some order, sorted by
descending depth (`std::sort` is not stable, so any such order is possible). -/
def IsSchedule (st : LSt N) (l : List (N × Nat)) : Prop :=
  l.Perm (st.keys.map fun n => (n, (st.depth n).getD 0)) ∧ l.Pairwise (fun a b => a.2 ≥ b.2)

/-- one input of the loop of `build_node_refs`, compiler.cpp:54-58: `operator[]` creates an empty entry -/
def refInput (acc : (N → Option (List N)) × List N) (m : N) : (N → Option (List N)) × List N :=
  match acc.1 m with
  | some s => (acc.1, acc.2 ++ m :: s)
  | none => ((fun k => if k = m then some [] else acc.1 k), acc.2 ++ [m])

/-- one node of `build_node_refs`, compiler.cpp:52-60; `insert` does not replace an existing entry -/
def refNode (G : Graph N V) (tbl : N → Option (List N)) (n : N) : N → Option (List N) :=
  let r := (G.inputs n).foldl refInput (tbl, [])
  match r.1 n with
  | some _ => r.1
  | none => fun k => if k = n then some r.2 else r.1 k

/-- `build_node_refs`, compiler.cpp:47-63, on a schedule. -/
def buildRefs (G : Graph N V) (sched : List (N × Nat)) : N → Option (List N) :=
  (sched.map Prod.fst).foldl (refNode G) (fun _ => none)

/-- what the compiler asks (`map_node_refs[m]` contains `n`), compiler.cpp:270-279 -/
def refsOf (tbl : N → Option (List N)) (m n : N) : Bool := ((tbl m).getD []).contains n

end Verif.Compiler
