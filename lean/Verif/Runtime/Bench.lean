import Verif.Runtime.Launch
/-!
# Inputs and outputs of a workbench: src/runtime/workbench.cpp, src/runtime/program.cpp

`V` is the type of tensors, `nil` the empty tensor `Tensor()`. Launching is the machine of `Runtime.Machine`.
The hash map of hooked tensors is a function of the name. Thread pool, device and profiler bindings are not
modelled; what a hook sees is the parameter `trace` of a program (see there).
-/
namespace Verif.Runtime
variable {V : Type}

/-- `m_map_input_slots` / `m_map_output_slots` built by inserting `names[0] ↦ k, names[1] ↦ k+1, …` into the map `m`,
program.cpp:115-124; `map::insert` does not replace a name that is there already. -/
def slotMap (m : String → Option Nat) : Nat → List String → String → Option Nat
  | _, [] => m
  | k, n :: ns => slotMap (fun x => if x = n then (match m n with | some j => some j | none => some k) else m x) (k + 1) ns

/-- `Program` with the members the workbench reads, include/runtime/program.h:95-115. `trace args` lists what
`emit_after_run` reports during a launch on `args`: the name of each operator that has run and the first entry of its frame,
in order of execution (instruction.cpp:69-75); frames without entries are left out, as the hook ignores them
(workbench.cpp:615). -/
structure Desk (V : Type) where
  nin : Nat
  nout : Nat
  data : List V
  code : List (Instr V)
  filter : Nat → Prog V
  cast : Nat → Option (Op V)
  inSlots : String → Option Nat
  outSlots : String → Option Nat
  inNames : List String
  outNames : List String
  trace : List V → List (String × V)

/-- the program a launch sees -/
def Desk.prog (d : Desk V) : Prog V := .mk d.nin d.nout d.data d.code d.filter d.cast

/-- the names and counts `Program::Compile` records, program.cpp:109-127, for module inputs and outputs with the given
node names -/
def Desk.compiled (ins outs : List String) (data : List V) (code : List (Instr V)) (filter : Nat → Prog V)
    (cast : Nat → Option (Op V)) (trace : List V → List (String × V)) : Desk V :=
  ⟨ins.length, outs.length, data, code, filter, cast, slotMap (fun _ => none) 0 ins, slotMap (fun _ => none) 0 outs,
    ins, outs, trace⟩

/-- the members of a workbench, include/runtime/workbench.h:267-300 -/
structure Bench (V : Type) where
  desktop : Option (Desk V)
  inputs : List V
  outputs : List V
  hooked : String → Option V
  stack : Stk V

namespace Bench

/-- a new workbench whose stack is `s`, workbench.cpp:106-124 -/
def new (s : Stk V) : Bench V := ⟨none, [], [], fun _ => none, s⟩

/-- `std::vector<Tensor>::resize` -/
def resize (nil : V) (l : List V) (n : Nat) : List V := l.take n ++ List.replicate (n - l.length) nil

/-- `setup`, workbench.cpp:498-508 -/
def setup (nil : V) (b : Bench V) : Option (Desk V) → Bench V
  | none => { b with desktop := none, inputs := [], outputs := [], hooked := fun _ => none }
  | some d => { b with desktop := some d, inputs := resize nil b.inputs d.nin, outputs := resize nil b.outputs d.nout,
                       hooked := fun _ => none }

/-- `input(int, tensor)`, workbench.cpp:194-199 -/
def inputSlot (b : Bench V) (slot : Int) (v : V) : Out (Bench V) Unit :=
  if slot < 0 ∨ (b.inputs.length : Int) ≤ slot then .err b
  else .ok { b with inputs := b.inputs.set slot.toNat v } ()

/-- `input(name, tensor)`, workbench.cpp:242-247, with `Program::input_slot`, program.cpp:208-215 -/
def inputName (b : Bench V) (name : String) (v : V) : Out (Bench V) Unit :=
  match b.desktop with
  | none => .err b
  | some d => match d.inSlots name with
    | none => .err b
    | some k => b.inputSlot k v

/-- `output(int)`, workbench.cpp:201-206 -/
def outputSlot (b : Bench V) (slot : Int) : Option V :=
  if slot < 0 ∨ (b.outputs.length : Int) ≤ slot then none else b.outputs[slot.toNat]?

/-- `output(name)`, workbench.cpp:249-260, with `Program::output_slot`, program.cpp:217-224 -/
def outputName (b : Bench V) (name : String) : Option V :=
  match b.hooked name with
  | some v => some v
  | none => match b.desktop with
    | none => none
    | some d => match d.outSlots name with
      | none => none
      | some k => b.outputSlot k

/-- `input(int)`, workbench.cpp:216-221 -/
def getInput (b : Bench V) (slot : Int) : Option V :=
  if slot < 0 ∨ (b.inputs.length : Int) ≤ slot then none else b.inputs[slot.toNat]?

/-- `run`, workbench.cpp:152-162; `hooks` are the hooked tensors an installed hook stores while the program runs. -/
def runWith (P : PackOps V) (adj : Adjust V) (hooks : List (String × V) → String → Option V) (b : Bench V) :
    Out (Bench V) Unit :=
  match b.desktop with
  | none => .err b
  | some d =>
    match launchOffline P adj d.prog b.inputs b.stack with
    | .ok s outs => .ok { b with stack := s, hooked := hooks (d.trace b.inputs), outputs := outs } ()
    | .err s => .err { b with stack := s, hooked := hooks (d.trace b.inputs) }
    | .ub => .ub

/-- `run` without a hook -/
def run (P : PackOps V) (adj : Adjust V) (b : Bench V) : Out (Bench V) Unit := b.runWith P adj (fun _ _ => none)

/-- the hook of `run_hook`, workbench.cpp:609-623: a later value for a name replaces an earlier one -/
def hookStore (names : List String) : List (String × V) → (String → Option V) → String → Option V
  | [], m => m
  | (n, v) :: t, m => hookStore names t (if n ∈ names then fun x => if x = n then some v else m x else m)

/-- saving the inputs at the start of `run_hook`, workbench.cpp:589-601; an index outside `inputs` or `input_names` and a
missing program are undefined behaviour (`none`). -/
def saveInputs (b : Bench V) : Option (String → Option V) :=
  match b.desktop with
  | none => none
  | some d =>
    (List.range d.nin).foldl (fun (m : Option (String → Option V)) i =>
      match m, b.inputs[i]?, d.inNames[i]? with
      | some m, some v, some n => some fun x => if x = n then some v else m x
      | _, _, _ => none) (some fun _ => none)

/-- `run_hook`, workbench.cpp:584-627. The saved inputs do not reach the result: `run` clears the map first (157). -/
def runHook (P : PackOps V) (adj : Adjust V) (names : List String) (b : Bench V) : Out (Bench V) Unit :=
  match b.saveInputs with
  | none => .ub
  | some m => { b with hooked := m }.runWith P adj (fun t => hookStore names t (fun _ => none))

/-- the calls that change a workbench -/
inductive Call (V : Type) where
  | setup (d : Option (Desk V))
  | inSlot (slot : Int) (v : V)
  | inName (name : String) (v : V)
  | run
  | runHook (names : List String)

/-- one call -/
def call (P : PackOps V) (adj : Adjust V) (nil : V) (b : Bench V) : Call V → Out (Bench V) Unit
  | .setup d => .ok (b.setup nil d) ()
  | .inSlot i v => b.inputSlot i v
  | .inName n v => b.inputName n v
  | .run => b.run P adj
  | .runHook ns => b.runHook P adj ns

/-- a history: the caller catches exceptions and goes on; `none` once behaviour is undefined -/
def hist (P : PackOps V) (adj : Adjust V) (nil : V) : Bench V → List (Call V) → Option (Bench V)
  | b, [] => some b
  | b, c :: cs => match b.call P adj nil c with
    | .ok b' _ => hist P adj nil b' cs
    | .err b' => hist P adj nil b' cs
    | .ub => none

/-- `launch_offline(program, map)`, workbench.cpp:532-548. A `std::map` is a list of pairs with distinct names in order;
a slot outside `list_args` is undefined (it cannot be: see the theorem). -/
def argsByName (d : Desk V) (nil : V) (args : List (String × V)) : Option (List V) :=
  if d.nin ≠ args.length then none
  else args.foldl (fun (l : Option (List V)) a =>
    match l, d.inSlots a.1 with
    | some l, some k => some (l.set k a.2)
    | _, _ => none) (some (List.replicate args.length nil))

end Bench
end Verif.Runtime
