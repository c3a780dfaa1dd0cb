/-!
# Printing a graph: `plot_graph`, src/module/graph.cpp:13-53

Nodes are numbers, `ins n` are the inputs of node `n` in order (`Node::inputs()`). The `std::unordered_set<Node>` of nodes already printed is the list of printed
nodes (nodes are compared by identity). Simplified: the stream never fails; a recursion that does not end (in C++: overflows the stack) is `none` for every fuel.
-/
namespace Verif.Module.Plot

/-- what `plot_graph` needs of a graph -/
structure G where
  ins : Nat → List Nat
  op : Nat → String
  name : Nat → String

/-- the line of a node, graph.cpp:21-32 -/
def line (g : G) (n : Nat) : String :=
  g.op n ++ ": [" ++ g.name n ++ "] <== " ++ String.intercalate ", " ((g.ins n).map fun m => "[" ++ g.name m ++ "]") ++ "\n"

/-- nodes printed so far in order, and the number of calls of the recursive `plot_graph` so far -/
structure St where
  out : List Nat
  calls : Nat
  deriving DecidableEq

/-- `plot_node`, graph.cpp:14-36: nothing if it is in `plot`, else the line is written and the node inserted -/
def plotNode (s : St) (n : Nat) : St := if n ∈ s.out then s else ⟨s.out ++ [n], s.calls⟩

/-- the first loop of `plot_graph`, graph.cpp:40-42, given the recursive call -/
def visit (rec : List Nat → St → Option St) (ins : Nat → List Nat) : List Nat → St → Option St
  | [], s => some s
  | n :: ns, s => match rec (ins n) s with
    | none => none
    | some s => visit rec ins ns s

/-- the recursive `plot_graph`, graph.cpp:38-46: first the inputs of every node, whether they are printed or not, then the nodes -/
def plotRec (ins : Nat → List Nat) : Nat → List Nat → St → Option St
  | 0, _, _ => none
  | f + 1, nodes, s => match visit (plotRec ins f) ins nodes ⟨s.out, s.calls + 1⟩ with
    | none => none
    | some s => some (nodes.foldl plotNode s)

/-- the public `plot_graph`, graph.cpp:48-52: the nodes printed and the number of calls -/
def plotGraph (ins : Nat → List Nat) (f : Nat) (nodes : List Nat) : Option St := plotRec ins f nodes ⟨[], 0⟩

/-- the text written -/
def plotText (g : G) (f : Nat) (nodes : List Nat) : Option String := (plotGraph g.ins f nodes).map fun s => String.join (s.out.map (line g))

end Verif.Module.Plot
