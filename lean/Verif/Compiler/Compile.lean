import Verif.Compiler.Graph
/-!
# The graph compiler

Model of `Compiler::compile` (src/compiler/compiler.cpp:99-378), the part after converting, zipping and
constant folding (lines 136-377).
-/
namespace Verif.Compiler
open Verif.Runtime
variable {N V : Type} [DecidableEq N]

/-- What the compiler needs to know of a graph beyond its meaning: for each operator node the registered
operator (`OperatorCreator::Query`, `none` when there is none). -/
abbrev OpTable (N V : Type) := N → Option (Op V)

/-- Local variables of `compile` (compiler.cpp:154-161). `code` is kept in execution order: the C++ code
appends to `block.instructions` and reverses at the end (line 375); the model prepends. -/
structure CSt (N V : Type) where
  /-- `std::deque<Node> simulator`, bottom first -/
  sim : List N
  /-- `map<Node, size_t> working_nodes` -/
  working : N → Option Nat
  /-- `unsolved_node_count` -/
  unsolved : Nat
  /-- `block.data_segment` -/
  data : List V
  /-- `map_node_data_sagment_index` -/
  dataIdx : N → Option Nat
  /-- `block.instructions`, reversed -/
  code : List (Instr V)

def upd (f : N → Option Nat) (n : N) (v : Option Nat) : N → Option Nat :=
  fun m => if m = n then v else f m

/-- `simulator_push`, compiler.cpp:188-201. -/
def simPush (G : Graph N V) (st : CSt N V) (n : N) : CSt N V :=
  let i := st.sim.length
  { st with
    working := match st.working n with
      | none => upd st.working n (some i)
      | some w => if i < w then upd st.working n (some i) else st.working
    unsolved := if G.kind n = .param then st.unsolved else st.unsolved + 1
    sim := st.sim ++ [n] }

/-- `simulator_pop`, compiler.cpp:206-219, for the top node `n`. -/
def simPop (G : Graph N V) (st : CSt N V) (n : N) : CSt N V :=
  let i := st.sim.length - 1
  { st with
    working := if st.working n = some i then upd st.working n none else st.working
    unsolved := if G.kind n = .param then st.unsolved else st.unsolved - 1
    sim := st.sim.dropLast }

/-- `simulator_swap`, compiler.cpp:227-246, for non-negative indices in range. -/
def simSwap (st : CSt N V) (i j : Nat) (ni nj : N) : CSt N V :=
  let w1 := if st.working ni = some i then upd st.working ni (some j) else st.working
  let w2 := if w1 nj = some j then upd w1 nj (some i) else w1
  { st with working := w2, sim := (st.sim.set i nj).set j ni }

/-- Scan from the top for the last element satisfying `p`
(`simulator_find_last_unsolved_node_index`, 253-262, `simulator_find_last_ref_node_index`, 270-279). -/
def findLast (p : N → Bool) (l : List N) : Nat → Option Nat
  | 0 => none
  | i + 1 => match l[i]? with
      | some n => if p n then some i else findLast p l i
      | none => findLast p l i

/-- `push_data_sagment`, compiler.cpp:167-182 (device annotations are not modelled). -/
def pushData (G : Graph N V) (st : CSt N V) (n : N) : CSt N V × Nat :=
  match st.dataIdx n with
  | some k => (st, k)
  | none => ({ st with data := st.data ++ [G.value n], dataIdx := upd st.dataIdx n (some st.data.length) },
             st.data.length)

/-- `convert_operator_instruction`, compiler.cpp:65-96, and the creators for field and pack
(tensor_instruction.cpp:47-72). `none`: an exception is thrown. -/
def convertOp (G : Graph N V) (ops : OpTable N V) (n : N) : Option (List (Instr V)) :=
  match G.kind n with
  | .field k => if (G.inputs n).length = 1 ∧ 0 ≤ k then some [.field k] else none
  | .pack => some [.pack (G.inputs n).length]
  | .oper => (ops n).map fun f => [.op f (G.inputs n).length 1]
  | _ => none

inductive StepRes (N V : Type) where
  | done
  | error
  | next (st : CSt N V)

def emit (st : CSt N V) (is : List (Instr V)) : CSt N V := { st with code := is ++ st.code }

/-- One iteration of the main loop, compiler.cpp:285-337. `refs m n` is "`map_node_refs[m]` contains `n`". -/
def step (G : Graph N V) (ops : OpTable N V) (refs : N → N → Bool) (st : CSt N V) : StepRes N V :=
  if st.unsolved = 0 then .done else
  match st.sim.getLast? with
  | none => .error   -- `simulator.back()` of an empty deque; unreachable, see `Inv`
  | some n =>
    let i := st.sim.length - 1
    match (st.working n).filter (· < i) with
    | some w => .next (simPop G (emit st [.push w]) n)                            -- case 1, 288-297
    | none =>
      match G.kind n with
      | .const =>                                                                  -- case 2-0, 300-305
        let (st', k) := pushData G st n
        .next (simPop G (emit st' [.dataSeg k]) n)
      | .variable => .error                                                        -- case 2-1, 308-310
      | .param =>                                                                  -- case 2, 313-319
        match findLast (fun m => decide (G.kind m ≠ .param)) st.sim st.sim.length with
        | none => .error
        | some j => match st.sim[j]? with
          | none => .error
          | some nj => .next (simSwap (emit st [.swap i j]) i j n nj)
      | _ =>
        match findLast (fun m => refs m n) st.sim st.sim.length with
        | some j => match st.sim[j]? with                                          -- case 3, 322-328
          | none => .error
          | some nj => .next (simSwap (emit st [.swap i j]) i j n nj)
        | none =>                                                                  -- case 4, 331-336
          match convertOp G ops n with
          | none => .error
          | some is =>
            .next ((G.inputs n).foldl (simPush G) (simPop G (emit st is) n))

/-- The main loop with fuel; `none` means the fuel ran out, `some none` an exception. -/
def loop (G : Graph N V) (ops : OpTable N V) (refs : N → N → Bool) :
    Nat → CSt N V → Option (Option (CSt N V))
  | 0, _ => none
  | k + 1, st => match step G ops refs st with
      | .done => some (some st)
      | .error => some none
      | .next st' => loop G ops refs k st'

/-- The state before the loop: all outputs pushed (compiler.cpp:281). -/
def initSt (G : Graph N V) (outputs : List N) : CSt N V :=
  outputs.foldl (simPush G) ⟨[], fun _ => none, 0, [], fun _ => none, []⟩

/-- `working_input_nodes`, compiler.cpp:358-359: `insert` keeps the first entry, and the inserted index is
the number of *distinct* nodes before. -/
def inputIndex (inputs : List N) : N → Option Nat :=
  (inputs.foldl (fun (acc : (N → Option Nat) × Nat) n =>
    match acc.1 n with
    | some _ => acc
    | none => (upd acc.1 n (some acc.2), acc.2 + 1)) (fun _ => none, 0)).1

/-- Lines 338-375: check and arrange the inputs. `none`: exception. -/
def finish (inputs : List N) (st : CSt N V) : Option (List (Instr V)) :=
  if st.sim.all (fun n => inputs.contains n) then
    if st.sim = inputs then some st.code
    else some (st.sim.map (fun n => Instr.push (((inputIndex inputs n).getD 0 : Nat) : Int)) ++
      [.erase 0 (-(st.sim.length : Int))] ++ st.code)
  else none

/-- Result of compilation: instructions in execution order and the data segment. -/
structure Block (V : Type) where
  nargs : Nat
  nresults : Nat
  data : List V
  code : List (Instr V)

/-- `Compiler::compile`, lines 136-377, with fuel for the main loop. -/
def compile (G : Graph N V) (ops : OpTable N V) (refs : N → N → Bool) (inputs outputs : List N)
    (fuel : Nat) : Option (Option (Block V)) :=
  match loop G ops refs fuel (initSt G outputs) with
  | none => none
  | some none => some none
  | some (some st) => some ((finish inputs st).map fun code =>
      { nargs := inputs.length, nresults := outputs.length, data := st.data, code := code })

end Verif.Compiler
