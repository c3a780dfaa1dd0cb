import Verif.Core.Res
/-!
# Cutting a graph into sub graphs (src/compiler/fence/splitter.cpp)

Nodes are numbers. `clone_graph` (splitter.cpp:155-177) makes a copy of the part of the graph above the given outputs, each node after its inputs, and the
fake ends after all of them (589-595); the model starts from that copy, numbered in the order of creation. `std::unordered_set`s whose order is not
observable are lists.
-/
namespace Verif.Compiler.Split
open Verif.Core

/-- the linked nodes: `inputs()` of every node below `size` -/
structure Gr where
  size : Nat
  inputs : Nat → List Nat

/-- `Node::outputs()`, include/module/graph.h:39-66: the consumers in the order of linking, one entry for each use -/
def Gr.outputs (g : Gr) (m : Nat) : List Nat :=
  (List.range g.size).flatMap fun n => ((g.inputs n).filter (· == m)).map fun _ => n

/-- the copied graph with one `fake::end` node behind each output, splitter.cpp:589-595 -/
def withEnds (g : Gr) (tops : List Nat) : Gr where
  size := g.size + tops.length
  inputs n := if n < g.size then g.inputs n else (tops[n - g.size]?).toList

/-- `RefCache::m_cache`, splitter.cpp:35 -/
abbrev Cache := List (Nat × List Nat)

/-- `m_cache.find`, splitter.cpp:18, 39 -/
def Cache.get (c : Cache) (n : Nat) : Option (List Nat) := c.lookup n

/-- `RefCache::cache_refs`, splitter.cpp:37-51; the recursion follows the inputs, `fuel` bounds its depth -/
def cacheRefs (g : Gr) : Nat → Nat → Cache → Cache
  | 0, _, c => c
  | f + 1, n, c =>
    if (c.get n).isSome then c
    else
      let r := (g.inputs n).foldl (fun (p : Cache × List Nat) b =>
        let c' := cacheRefs g f b p.1
        (c', p.2 ++ (c'.get b).getD [] ++ [b])) (c, [])
      (n, r.2) :: r.1

/-- `RefCache::setup`, splitter.cpp:25-32 -/
def setup (g : Gr) (ends bottoms : List Nat) : Cache :=
  ends.foldl (fun c e => cacheRefs g (g.size + 1) e c) (bottoms.map fun n => (n, []))

/-- `RefCache::ref`, splitter.cpp:17-23 -/
def Cache.ref (c : Cache) (top bottom : Nat) : Bool :=
  match c.get top with
  | none => false
  | some l => l.contains bottom

/-- the walk of `top_it` through the rest of the list: `pre`, the target, what follows the target. Splitter.cpp:230-243 and 295-308. -/
def popGo (better : Nat → Nat → Bool) : List Nat → Nat → List Nat → List Nat → Nat × List Nat
  | pre, t, mid, [] => (t, pre ++ mid)
  | pre, t, mid, x :: xs => if better x t then popGo better (pre ++ t :: mid) x [] xs else popGo better pre t (mid ++ [x]) xs

/-- `TopFirstQueue::pop`, splitter.cpp:198-204 -/
def popTop (r : Nat → Nat → Bool) : List Nat → Option (Nat × List Nat)
  | [] => none
  | x :: xs => some (popGo (fun it target => r it target) [] x [] xs)

/-- `BottomFirstQueue::pop`, splitter.cpp:263-269 -/
def popBottom (r : Nat → Nat → Bool) : List Nat → Option (Nat × List Nat)
  | [] => none
  | x :: xs => some (popGo (fun it target => r target it) [] x [] xs)

/-- `SplitRule`, include/compiler/fence/splitter.h:85-98 -/
structure Rule where
  route : Nat → Bool
  support : Nat → Bool

/-- `is_route_or_support`, splitter.h:95-97 -/
def Rule.takes (ru : Rule) (n : Nat) : Bool := ru.route n || ru.support n

/-- the public fields of `Splitter`, splitter.h:108-111 -/
structure Config where
  onlyMax : Bool := false
  singleInput : Bool := false
  singleOutput : Bool := false
  minSize : Int := 0

/-- `ColorGraph`, splitter.cpp:55-142: -1 for no colour. `m_graphs` is the preimage, see `graphOf`. -/
abbrev Color := Nat → Int

/-- `ColorGraph::color(node, n)`, splitter.cpp:57-75 -/
def paint (c : Color) (n : Nat) (i : Int) : Color := fun m => if m = n then i else c m

/-- `ColorGraph::graph(i)`, splitter.cpp:85-92 -/
def graphOf (g : Gr) (c : Color) (i : Int) : List Nat := (List.range g.size).filter fun n => c n == i

/-- the local variables of `explore`, splitter.cpp:337-341 -/
structure St where
  color : Color
  top : List Nat
  bot : List Nat
  down : List Nat
  up : List Nat

/-- `is_ok_to_add`, splitter.cpp:354-359 -/
def okToAdd (ru : Rule) (c : Color) (n : Nat) : Bool := decide (c n < 0) && ru.takes n

/-- `add_to_graph`, `look_down`, `look_up`, splitter.cpp:361-387 (called together at 399-401, 429-431, 442-444) -/
def add (g : Gr) (i : Int) (s : St) (n : Nat) : St :=
  let c := paint s.color n i
  { s with
    color := c
    up := s.up ++ (g.outputs n).filter fun t => !s.top.contains t && c t != i
    down := s.down ++ (g.inputs n).filter fun t => !s.bot.contains t && c t != i }

/-- `my_precious`, splitter.cpp:403-420 -/
def precious (g : Gr) (cfg : Config) (ru : Rule) (r : Nat → Nat → Bool) (i : Int) (s : St) (n : Nat) : Bool :=
  okToAdd ru s.color n &&
  (!cfg.singleOutput || (g.outputs n).all fun t => s.color t == i) &&
  (s.bot.all fun t => !r t n) &&
  (s.top.all fun t => !r n t)

/-- `has_walked`, splitter.cpp:365-369 -/
def walked (i : Int) (s : St) (n : Nat) : Bool := s.top.contains n || s.bot.contains n || s.color n == i

/-- body of the first inner loop, splitter.cpp:425-435 after the pop -/
def visitDown (g : Gr) (cfg : Config) (ru : Rule) (r : Nat → Nat → Bool) (i : Int) (s : St) (n : Nat) : St :=
  if walked i s n then s
  else if precious g cfg ru r i s n then add g i s n
  else { s with bot := n :: s.bot }

/-- body of the second inner loop, splitter.cpp:438-448 after the pop -/
def visitUp (g : Gr) (cfg : Config) (ru : Rule) (r : Nat → Nat → Bool) (i : Int) (s : St) (n : Nat) : St :=
  if walked i s n then s
  else if precious g cfg ru r i s n then add g i s n
  else { s with top := n :: s.top }

/-- the loops of splitter.cpp:422-449 after the first test; the flag says which inner loop is running; `none` when `fuel` ends -/
def run (g : Gr) (cfg : Config) (ru : Rule) (r : Nat → Nat → Bool) (i : Int) : Nat → Bool → St → Option St
  | 0, _, _ => none
  | f + 1, true, s =>
    match popTop r s.down with
    | some (n, rest) => run g cfg ru r i f true (visitDown g cfg ru r i { s with down := rest } n)
    | none => if cfg.singleOutput then some s else if s.up.isEmpty then some s else run g cfg ru r i f false s
  | f + 1, false, s =>
    match popBottom r s.up with
    | some (n, rest) => run g cfg ru r i f false (visitUp g cfg ru r i { s with up := rest } n)
    | none => if s.down.isEmpty then some s else run g cfg ru r i f true s

/-- the sum of the numbers of inputs and outputs: how much can ever be pushed -/
def degrees (g : Gr) (c : Color) (i : Int) : Nat :=
  ((List.range g.size).map fun n => if c n = i then 0 else (g.inputs n).length + (g.outputs n).length).sum

/-- `InputOutput`, splitter.cpp:312-318 -/
structure IO where
  inputs : List Nat
  outputs : List Nat
  isSub : Bool
  color : Int
  deriving Repr, DecidableEq

/-- `graph_tops`, splitter.cpp:452-459 -/
def graphTops (g : Gr) (i : Int) (s : St) : List Nat :=
  (s.top.flatMap fun n => (g.inputs n).filter fun t => s.color t == i).eraseDups

/-- `graph_bottoms`, splitter.cpp:460-468 -/
def graphBottoms (r : Nat → Nat → Bool) (tops : List Nat) (s : St) : List Nat :=
  s.bot.filter fun n => tops.any fun t => r t n

/-- the result for a node that does not start a sub graph, splitter.cpp:333-334, 395 -/
def notSub : IO := ⟨[], [], false, 0⟩

/-- everything after the loops, splitter.cpp:451-568. With `single_input` and more than one input the code calls `std::set_intersection` on
`std::unordered_set`s (514-516), whose ranges are not sorted: undefined, unless the group has one node only. -/
def finish (g : Gr) (cfg : Config) (ru : Rule) (r : Nat → Nat → Bool) (i : Int) (s : St) : Res (IO × Color) :=
  let tops := graphTops g i s
  let bottoms := graphBottoms r tops s
  let grp := graphOf g s.color i
  if cfg.singleInput && decide (1 < bottoms.length) then
    if grp.length ≤ 1 then .ok (notSub, fun n => if s.color n = i then -1 else s.color n) else .ub
  else if grp.any ru.support then .ok (⟨bottoms, tops, true, i⟩, s.color)
  else .ok (⟨[], [], true, 0⟩, fun n => if s.color n = i then 0 else s.color n)

/-- the state before the loops: the node alone with its neighbours in the queues, splitter.cpp:399-401 -/
def start (g : Gr) (i : Int) (c : Color) (n : Nat) : St := add g i ⟨c, [], [], [], []⟩ n

/-- `explore`, splitter.cpp:330-569. Running out of fuel is `ub`; theorem `C88_total` shows it does not happen. -/
def explore (g : Gr) (cfg : Config) (ru : Rule) (r : Nat → Nat → Bool) (c : Color) (i : Int) (n : Nat) : Res (IO × Color) :=
  if !okToAdd ru c n then .ok (notSub, c)
  else
    let s := start g i c n
    match (if s.down.isEmpty then some s else run g cfg ru r i (2 * (degrees g c i + 1) + 2) true s) with
    | none => .ub
    | some s => finish g cfg ru r i s

/-- the uncoloured ones among `l`, pushed, splitter.cpp:613-616, 618-621, 624-627 -/
def pushNew (c : Color) (q l : List Nat) : List Nat := q ++ l.filter fun b => decide (c b < 0)

/-- the loop over the queue, splitter.cpp:606-628 -/
def splitLoop (g : Gr) (cfg : Config) (ru : Rule) (r : Nat → Nat → Bool) : Nat → Color → List Nat → List IO → Res (Color × List IO)
  | 0, _, _, _ => .ub
  | f + 1, c, q, ios =>
    match popTop r q with
    | none => .ok (c, ios)
    | some (n, rest) =>
      if 0 ≤ c n then splitLoop g cfg ru r f c rest ios
      else
        match explore g cfg ru r c (ios.length + 1) n with
        | .err => .err
        | .ub => .ub
        | .ok (io, c') =>
          if !io.isSub then
            let c'' := paint c' n 0
            splitLoop g cfg ru r f c'' (pushNew c'' rest (g.inputs n)) ios
          else if io.color = 0 then splitLoop g cfg ru r f c' (pushNew c' rest io.inputs) ios
          else splitLoop g cfg ru r f c' (pushNew c' rest io.inputs) (ios ++ [io])

/-- the first of the largest sub graphs, splitter.cpp:636-642 -/
def largest (g : Gr) (c : Color) : IO → List IO → IO
  | m, [] => m
  | m, x :: xs => largest g c (if (graphOf g c m.color).length < (graphOf g c x.color).length then x else m) xs

/-- `only_max_graph`, splitter.cpp:634-644 -/
def keepMax (g : Gr) (cfg : Config) (c : Color) (ios : List IO) : List IO :=
  if cfg.onlyMax then
    match ios with
    | [] => []
    | x :: xs => [largest g c x xs]
  else ios

/-- `min_graph_size`, splitter.cpp:646-655: the comparison with a `size_t` makes a negative value a huge one -/
def keepBig (g : Gr) (cfg : Config) (c : Color) (ios : List IO) : List IO :=
  ios.filter fun io => !decide (((graphOf g c io.color).length : Int) < cfg.minSize % 18446744073709551616)

/-- fuel for the loop over the queue -/
def splitFuel (g : Gr) (tops : List Nat) : Nat := tops.length + g.size * (g.size + degrees g (fun _ => -1) 0) + 1

/-- the sub graphs found by `Splitter::split`, splitter.cpp:571-655: `g` is the copied graph without the ends, `bottoms` the given inputs -/
def groups (g : Gr) (cfg : Config) (ru : Rule) (tops bottoms : List Nat) : Res (Color × List IO) :=
  let ge := withEnds g tops
  let r := (setup ge ((List.range tops.length).map (g.size + ·)) bottoms).ref
  match splitLoop ge cfg ru r (splitFuel ge tops) (fun _ => -1) tops [] with
  | .err => .err
  | .ub => .ub
  | .ok (c, ios) => .ok (c, keepBig ge cfg c (keepMax ge cfg c ios))

/-! ## building the fused graph -/

/-- a node after building: one of the copied graph, the node standing for sub graph `k`, its field for output `o`, the parameter inside it for input `b` -/
inductive N where
  | orig (n : Nat)
  | sub (k : Nat)
  | field (k o : Nat)
  | param (k b : Nat)
  deriving DecidableEq, Repr

/-- the inputs of every node; the newest entry counts -/
abbrev Links := List (N × List N)

/-- `Node::inputs()` -/
def Links.of (L : Links) (t : N) : List N := (L.lookup t).getD []

/-- the links of the copied graph -/
def links0 (g : Gr) : Links := (List.range g.size).map fun n => (.orig n, (g.inputs n).map N.orig)

/-- `sub_outputs`, splitter.cpp:725-747: the sub node itself for a single output, fields otherwise -/
def outNode (k : Nat) (io : IO) (o : Nat) : N := if io.outputs.length = 1 then .sub k else .field k o

/-- `map_origin2sub`, filled at splitter.cpp:729, 744, 759 -/
def mapSub (k : Nat) (io : IO) : N → N
  | .orig x => if x ∈ io.outputs then outNode k io x else if x ∈ io.inputs then .param k x else .orig x
  | y => y

/-- `t_links` and `Node::Link(t, t_links)`, splitter.cpp:765-774, 782-791 -/
def relink (m : N → N) (L : Links) (t : N) : Links := (t, (L.of t).map m) :: L

/-- `n.outputs()` of a copied node: copied nodes and sub nodes made so far; one entry for each consumer, linking twice is linking once -/
def consumers (g : Gr) (k : Nat) (L : Links) (n : Nat) : List N :=
  ((List.range g.size).map N.orig ++ (List.range (k + 1)).map N.sub).filter fun t => (L.of t).contains (.orig n)

/-- `color.color(t)`: new nodes have none -/
def colorOf (c : Color) : N → Int
  | .orig n => c n
  | _ => -1

/-- the new nodes of sub graph `k`, splitter.cpp:725-760 -/
def newNodes (k : Nat) (io : IO) (L : Links) : Links :=
  (.sub k, io.inputs.map N.orig) ::
    ((if io.outputs.length = 1 then [] else io.outputs.map fun o => (N.field k o, [N.sub k])) ++ L)

/-- one of the two relinking loops: over the nodes `ns`, over their consumers of a wanted kind -/
def relinkAll (g : Gr) (k : Nat) (m : N → N) (want : N → Bool) (ns : List Nat) (L : Links) : Links :=
  ns.foldl (fun L n => (consumers g k L n).foldl (fun L t => if want t then relink m L t else L) L) L

/-- one round of the building loop, splitter.cpp:718-793 -/
def buildOne (g : Gr) (c : Color) (k : Nat) (io : IO) (L : Links) : Links :=
  let L := newNodes k io L
  let L := relinkAll g k (mapSub k io) (fun t => colorOf c t == io.color) io.inputs L
  relinkAll g k (mapSub k io) (fun t => colorOf c t != io.color) io.outputs L

/-- the building loop, splitter.cpp:718-800. The sorting of inputs and outputs before it (657-713) changes only their order and is left out. -/
def buildAll (g : Gr) (c : Color) : Nat → List IO → Links → Links
  | _, [], L => L
  | k, io :: ios, L => buildAll g c (k + 1) ios (buildOne g c k io L)

/-- `Splitter::split`, splitter.cpp:571-813: colours, sub graphs and the final links. `Module::load` and `sort_inputs` of the result (808-810) are not modelled. -/
def split (g : Gr) (cfg : Config) (ru : Rule) (tops bottoms : List Nat) : Res (Color × List IO × Links) :=
  match groups g cfg ru tops bottoms with
  | .err => .err
  | .ub => .ub
  | .ok (c, ios) => .ok (c, ios, buildAll (withEnds g tops) c 0 ios (links0 (withEnds g tops)))

/-- `main_outputs`, splitter.cpp:803-807 -/
def mainOutputs (g : Gr) (tops : List Nat) (L : Links) : List N :=
  (List.range tops.length).filterMap fun j => (L.of (.orig (g.size + j))).head?

end Verif.Compiler.Split
