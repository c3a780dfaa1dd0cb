/-!
# Links between graph nodes: `LinkedValue::Link`, `LinkedValue::ReplaceOutput`, include/module/graph.h

Nodes are numbered; a weak pointer is the number of a node that may be alive or expired, or `none` (a default constructed
pointer). The values in the nodes do not matter here.
-/
namespace Verif.Module.Links

/-- `Graph`s and their nodes: how many nodes were ever made, which are alive, their `m_inputs` and `m_outputs`
(graph.h:107-108). -/
structure G where
  next : Nat
  alive : Nat → Bool
  inp : Nat → List (Option Nat)
  out : Nat → List Nat

/-- outcome of a call: return, exception, undefined behaviour, or no return at all -/
inductive R where
  | ok (g : G)
  | err (g : G)
  | ub
  | hang

/-- assignment to one entry -/
def upd {β : Type} (f : Nat → β) (k : Nat) (v : β) : Nat → β := fun x => if x = k then v else f x

/-- no nodes -/
def empty : G := ⟨0, fun _ => false, fun _ => [], fun _ => []⟩

/-- `Graph::make`, graph.h:272-277 -/
def make (g : G) : G :=
  ⟨g.next + 1, upd g.alive g.next true, upd g.inp g.next [], upd g.out g.next []⟩

/-- the end of a graph's life: the nodes in `dead` expire (graph.h:287, `m_nodes` owns them) -/
def expire (g : G) (dead : Nat → Bool) : G := { g with alive := fun x => g.alive x && !dead x }

/-- The unlinking loop, graph.h:43-56, over the entries `l` of `m_inputs`: every occurrence of `n` in the outputs of a live
input goes. At an expired entry of those outputs the inner loop continues without advancing (49): `none`. -/
def unlink (g : G) (n : Nat) : List (Option Nat) → Option G
  | [] => some g
  | none :: l => unlink g n l
  | some b :: l =>
    if g.alive b then
      if (g.out b).all g.alive then unlink { g with out := upd g.out b ((g.out b).filter (· ≠ n)) } n l
      else none
    else unlink g n l

/-- The linking loop, graph.h:59-65; `done` are the entries of `m_inputs` already assigned. -/
def linkNew (g : G) (n : Nat) : List (Option Nat) → List (Option Nat) → R
  | done, [] => .ok { g with inp := upd g.inp n done }
  | done, x :: l =>
    match x with
    | none => .err { g with inp := upd g.inp n (done ++ List.replicate (l.length + 1) none) }
    | some b =>
      if g.alive b then linkNew { g with out := upd g.out b (g.out b ++ [n]) } n (done ++ [some b]) l
      else .err { g with inp := upd g.inp n (done ++ List.replicate (l.length + 1) none) }

/-- `Link(node, inputs)`, graph.h:39-66 -/
def link (g : G) (n : Nat) (ins : List (Option Nat)) : R :=
  if g.alive n then
    match unlink g n (g.inp n) with
    | none => .hang
    | some g => linkNew { g with inp := upd g.inp n [] } n [] ins
  else .err g

/-- the first entry that points to live node `a` is made to point to `b`, graph.h:75-79 -/
def replaceFirst (a b : Nat) : List (Option Nat) → List (Option Nat)
  | [] => []
  | x :: l => if x = some a then some b :: l else x :: replaceFirst a b l

/-- the loop over the outputs of the old node, graph.h:73-81; an expired output is dereferenced: `none` -/
def replaceLoop (a b : Nat) : List Nat → G → Option G
  | [], g => some g
  | o :: l, g =>
    if g.alive o then
      replaceLoop a b l { g with inp := upd g.inp o (replaceFirst a b (g.inp o)), out := upd g.out b (g.out b ++ [o]) }
    else none

/-- `ReplaceOutput(old, new)`, graph.h:68-83. With `old = new` the vector that is being iterated grows: undefined, unless it
is empty. -/
def replaceOutput (g : G) (a b : Nat) : R :=
  if g.alive a && g.alive b then
    if a = b ∧ g.out a ≠ [] then .ub
    else match replaceLoop a b (g.out a) g with
      | none => .ub
      | some g => .ok { g with out := upd g.out a [] }
  else .err g

/-- the calls -/
inductive Call where
  | make
  | expire (dead : Nat → Bool)
  | link (n : Nat) (ins : List (Option Nat))
  | replaceOutput (a b : Nat)

/-- one call -/
def call (g : G) : Call → R
  | .make => .ok (make g)
  | .expire d => .ok (expire g d)
  | .link n ins => link g n ins
  | .replaceOutput a b => replaceOutput g a b

/-- a history; exceptions are caught and the caller goes on; `none` if a call does not return or is undefined -/
def hist (g : G) : List Call → Option G
  | [] => some g
  | c :: cs => match call g c with
    | .ok g' => hist g' cs
    | .err g' => hist g' cs
    | _ => none

end Verif.Module.Links
