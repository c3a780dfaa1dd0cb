import Verif.Runtime.Machine
/-!
# Computation graphs and their meaning

A graph is given by its nodes `N`, each with an operator kind and an ordered list of inputs
(`include/module/graph.h`, `Node`, `LinkedValue<Bubble>`). The *meaning* `Den` is the independent
specification used by the compiler properties: it never mentions a stack or a schedule.
-/
namespace Verif.Compiler
open Verif.Runtime

/-- What `Bubble::op()` distinguishes in the compiler (src/compiler/compiler.cpp:300-331, and the two
instruction creators registered in src/runtime/instruction/tensor_instruction.cpp:76-77). -/
inductive Kind where
  | param | const | variable
  | field (offset : Int)
  | pack
  | oper
  deriving DecidableEq, Repr

/-- A computation graph over nodes `N` and tensors `V`. -/
structure Graph (N V : Type) where
  kind : N → Kind
  inputs : N → List N
  /-- `#value` of a Const node -/
  value : N → V
  /-- the function computed by the operator of an `oper` node (`none`: it throws) -/
  sem : N → List V → Option V

variable {N V : Type}

/-- The function a computed node applies to its inputs' values. -/
def Graph.apply (G : Graph N V) (P : PackOps V) (n : N) (vs : List V) : Option V :=
  match G.kind n with
  | .field k => match vs with
      | [t] => P.field t k
      | _ => none
  | .pack => some (P.pack vs)
  | .oper => G.sem n vs
  | _ => none

/-- **Specification**: `Den G P env n v` — node `n` has value `v` when parameter `p` has value `env p`. -/
inductive Den (G : Graph N V) (P : PackOps V) (env : N → Option V) : N → V → Prop where
  | param {n v} (hk : G.kind n = .param) (he : env n = some v) : Den G P env n v
  | const {n} (hk : G.kind n = .const) : Den G P env n (G.value n)
  | node {n vs v} (hlen : vs.length = (G.inputs n).length)
      (hin : ∀ i (h1 : i < (G.inputs n).length) (h2 : i < vs.length), Den G P env ((G.inputs n)[i]) (vs[i]))
      (hap : G.apply P n vs = some v) : Den G P env n v

/-- a row of nodes has a row of values -/
def DenRow (G : Graph N V) (P : PackOps V) (env : N → Option V) (ns : List N) (vs : List V) : Prop :=
  vs.length = ns.length ∧ ∀ i (h1 : i < ns.length) (h2 : i < vs.length), Den G P env ns[i] vs[i]

/-- **Specification**: `n` has to be computed (or supplied) to compute the roots. -/
inductive Needs (G : Graph N V) (roots : List N) : N → Prop where
  | root {n} (h : n ∈ roots) : Needs G roots n
  | input {m n} (h : Needs G roots m) (hp : G.kind m ≠ .param) (hc : G.kind m ≠ .const)
      (hi : n ∈ G.inputs m) : Needs G roots n

/-- **Specification**: `m` is a strict (transitive) input of `n`. -/
inductive DependsOn (G : Graph N V) : N → N → Prop where
  | direct {n m} (h : m ∈ G.inputs n) : DependsOn G n m
  | trans {n k m} (h : k ∈ G.inputs n) (h' : DependsOn G k m) : DependsOn G n m

/-- A rank witnesses acyclicity (every finite acyclic graph has one: the longest path below a node). -/
def Ranked (G : Graph N V) (rank : N → Nat) : Prop := ∀ n m, m ∈ G.inputs n → rank m < rank n

end Verif.Compiler
