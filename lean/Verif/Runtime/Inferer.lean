/-!
# Static shape inference over a graph (src/runtime/inferer.cpp)

Generic in the nodes `N`, the prototypes `P` (what `TensorPrototype` describes; `VOID` is kept apart) and the values
`V`. The rules registered per operator (src/runtime/inferer/factory.cpp) are a parameter here; concrete ones are in
Verif/Runtime/InferRules.lean.

Not modelled: the `#shape`/`#dtype` attributes that `update_cache` (inferer.cpp:86-98) writes next to the cache entry
(they repeat the cache entry, and no rule of a non-parameter reads them), and the log messages.
-/
namespace Verif.Runtime.Infer

/-- an exception, or undefined behaviour -/
inductive Fault where
  | exception
  | undefined
  deriving DecidableEq, Repr

/-- What a registered rule does: fail, return `VOID`, or return a prototype; `stored` is the `#value` it may set on the
node itself, as `_shape` and `_dims` do (factory.cpp:675-685 and 864-872). -/
inductive RuleOut (P V : Type) where
  | fails (e : Fault)
  | void
  | ok (proto : P) (stored : Option V)

/-- The graph and everything the inference looks up. -/
structure Env (N P V : Type) where
  inputs : N → List N
  /-- `Bubble::IsEndPoint(op)`: parameter, constant, data, variable -/
  isEnd : N → Bool
  /-- the `value` of a `Const` node -/
  const? : N → Option V
  /-- `ShapeInferer::Query(op)`, `none`: nothing registered. The rule sees the prototypes of the inputs and what
  `get_value` returns for them. -/
  rule : N → Option (List P → List (Option V) → RuleOut P V)
  /-- creating, initialising and running the operator in `infer_value`; `none`: unknown operator or exception -/
  run : N → List V → Option V

variable {N P V : Type}

/-- the cache of one inference and the `#value` attributes of the nodes; a cached `none` is `VOID` -/
structure St (N P V : Type) where
  cache : N → Option (Option P)
  vals : N → Option V

/-- `get_value`, inferer.cpp:16-24 -/
def getValue (env : Env N P V) (st : St N P V) (n : N) : Option V :=
  match env.const? n with
  | some v => some v
  | none => st.vals n

/-- the loop collecting the input values, inferer.cpp:44-53 -/
def allValues : List (Option V) → Option (List V)
  | [] => some []
  | none :: _ => none
  | some v :: ks => (allValues ks).map (v :: ·)

section
variable [DecidableEq N]

/-- function update -/
def upd {β : Type} (f : N → β) (n : N) (b : β) : N → β := fun m => if m = n then b else f m

/-- `update_cache`, inferer.cpp:85-99 -/
def St.put (st : St N P V) (n : N) (p : Option P) : St N P V := { st with cache := upd st.cache n (some p) }

/-- `node->set("#value", output)` -/
def St.setVal (st : St N P V) (n : N) (v : V) : St N P V := { st with vals := upd st.vals n (some v) }

/-- `infer_value`, inferer.cpp:39-83: nothing changes if it returns early or the operator throws -/
def inferValue (env : Env N P V) (n : N) (st : St N P V) : St N P V :=
  if env.isEnd n then st
  else match allValues ((env.inputs n).map (getValue env st)) with
    | none => st
    | some vs => match env.run n vs with
      | none => st
      | some v => st.setVal n v

/-- outcome of a call of `infer`: a failure or a prototype (`none`: `VOID`) -/
abbrev Outcome (P : Type) := Except Fault (Option P)

/-- the loop over the inputs, inferer.cpp:107-113; `ok none`: some input is `VOID`. The outer `none` is running out of
fuel (an endless recursion). -/
def inferInputs (rec : N → St N P V → Option (St N P V × Outcome P)) :
    List N → St N P V → List P → Option (St N P V × Except Fault (Option (List P)))
  | [], st, acc => some (st, .ok (some acc))
  | n :: ns, st, acc =>
    match rec n st with
    | none => none
    | some (st', .error e) => some (st', .error e)
    | some (st', .ok none) => some (st', .ok none)
    | some (st', .ok (some p)) => inferInputs rec ns st' (acc ++ [p])

/-- `infer(node, cache)`, inferer.cpp:101-141, with a bound on the depth of the recursion. The comparison of the data
pointers before and after the rule (130-136) is "the rule has stored a value". -/
def inferNode (env : Env N P V) : Nat → N → St N P V → Option (St N P V × Outcome P)
  | 0, _, _ => none
  | fuel + 1, n, st =>
    match st.cache n with
    | some p => some (st, .ok p)
    | none =>
      match inferInputs (inferNode env fuel) (env.inputs n) st [] with
      | none => none
      | some (st', .error e) => some (st', .error e)
      | some (st', .ok none) => some (st'.put n none, .ok none)
      | some (st', .ok (some ps)) =>
        match env.rule n with
        | none => some (st'.put n none, .ok none)
        | some r =>
          match r ps ((env.inputs n).map (getValue env st')) with
          | .fails e => some (st', .error e)
          | .void => some (st'.put n none, .ok none)
          | .ok p (some v) => some ((st'.setVal n v).put n (some p), .ok (some p))
          | .ok p none => some ((inferValue env n st').put n (some p), .ok (some p))

/-- `infer(nodes, cache)`, inferer.cpp:143-151 -/
def inferList (env : Env N P V) (fuel : Nat) : List N → St N P V → Option (St N P V × Except Fault (List (Option P)))
  | [], st => some (st, .ok [])
  | n :: ns, st =>
    match inferNode env fuel n st with
    | none => none
    | some (st', .error e) => some (st', .error e)
    | some (st', .ok p) =>
      match inferList env fuel ns st' with
      | none => none
      | some (st'', .error e) => some (st'', .error e)
      | some (st'', .ok ps) => some (st'', .ok (p :: ps))

/-- a fresh graph and an empty cache, as in `infer(node)` and `infer(nodes)` without a cache, inferer.cpp:153-161 -/
def St.fresh : St N P V := ⟨fun _ => none, fun _ => none⟩

end
end Verif.Runtime.Infer
