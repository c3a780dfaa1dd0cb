import Verif.Runtime.Bench
import Verif.Runtime.OpParams
/-!
# Programs as objects: `Program::clone`, `Program::set_operator_param`

Operators are objects on a heap (`std::shared_ptr<Operator>`), programs refer to them. `α` is the type of parameter values,
`V` the type of tensors on the stack. Other instructions have no state and are shared between programs; so is the data segment
(program.cpp:154). State an operator changes while it runs (caches) is not modelled.
-/
namespace Verif.Runtime
namespace Clone
variable {α V : Type}

/-- `Operator::m_params` as a list of pairs; the hash map's order never shows, everything below goes through `lookup` -/
abbrev PMap (α : Type) := List (String × α)

/-- `m_params[param] = value`, operator.cpp:37 -/
def PMap.put (m : PMap α) (k : String) (v : α) : PMap α := (k, v) :: m.filter (fun p => p.1 ≠ k)

/-- A kind of operator, i.e. what a creator function makes: the parameters with defaults and the fields its constructor
declares, whether it checks names strictly, which parameters `init` accepts (the base class's check and the operator's own),
and what `run` does after an `init` that read these parameters. -/
structure Kind (α V : Type) where
  dflt : PMap α
  fields : List String
  strict : Bool
  initOk : (String → Option α) → Bool
  sem : (String → Option α) → Op V
  /-- a hash map holds a key once -/
  dflt_nodup : (dflt.map (·.1)).Nodup
  /-- defaults are given together with the declaration of the field, operator.cpp:83-91 -/
  dflt_field : ∀ p ∈ dflt.map (·.1), p ∈ fields

/-- may this parameter be set? operator.cpp:26-30 -/
def Kind.settable (k : Kind α V) (p : String) : Bool := Params.isRetention p || k.fields.contains p || !k.strict

/-- An operator object: its kind, its parameters, and the parameters its last successful `init` read. -/
structure Obj (α V : Type) where
  kind : Kind α V
  params : PMap α
  active : String → Option α

/-- `creator()` followed by `set` for each of `ps`, compiler.cpp:78-82, instruction.cpp:95-98; `none`: `set` throws -/
def setAll (k : Kind α V) : PMap α → PMap α → Option (PMap α)
  | [], m => some m
  | (p, v) :: ps, m => if k.settable p then setAll k ps (m.put p v) else none

/-- a new operator of kind `k` with parameters `ps`, initialised; compiler.cpp:78-87, instruction.cpp:95-99 -/
def mkObj (k : Kind α V) (ps : PMap α) : Option (Obj α V) :=
  match setAll k ps k.dflt with
  | none => none
  | some m => if k.initOk (m.lookup ·) then some ⟨k, m, (m.lookup ·)⟩ else none

/-- instructions of a program: operator instructions hold a reference and the counts (instruction.h:100-104), all others are
immutable -/
inductive PInstr (V : Type) where
  | plain (i : Instr V)
  | op (id : Nat) (nargs nresults : Nat)

/-- A program without its filters, program.h:79-106. -/
structure Body (V : Type) where
  nin : Nat
  nout : Nat
  data : List V
  code : List (PInstr V)
  cast : Nat → Option (Op V)
  inSlots : String → Option Nat
  outSlots : String → Option Nat
  inNames : List String
  outNames : List String

/-- A program: the body and for each input an optional filter program. Simplification: the filters of a filter program are
null (nothing in the code binds any, program.cpp:246-256 is only reached from `Workbench::bind_filter`). -/
structure Program (V : Type) where
  body : Body V
  filters : List (Option (Body V))

/-- the operator instruction's behaviour with the object it refers to now -/
def denInstr (h : List (Obj α V)) : PInstr V → Instr V
  | .plain i => i
  | .op id na nr => .op (match h[id]? with | some o => o.kind.sem o.active | none => fun _ => .ub) na nr

/-- what a launch of the body sees -/
def Body.den (h : List (Obj α V)) (b : Body V) (filter : Nat → Prog V) : Prog V :=
  .mk b.nin b.nout b.data (b.code.map (denInstr h)) filter b.cast

/-- the filter program in slot `i` as a launch sees it -/
def filterDen (h : List (Obj α V)) (fs : List (Option (Body V))) (i : Nat) : Prog V :=
  match fs[i]? with
  | some (some f) => f.den h (fun _ => .nofilter)
  | _ => .nofilter

/-- what a launch of the program sees -/
def Program.den (h : List (Obj α V)) (p : Program V) : Prog V := p.body.den h (filterDen h p.filters)

/-- `OperatorInstruction::clone` for each operator instruction, program.cpp:166-170, instruction.cpp:91-103. The object made
is put on the heap. -/
def cloneCode (h : List (Obj α V)) : List (PInstr V) → Option (List (Obj α V) × List (PInstr V))
  | [] => some (h, [])
  | .plain i :: c => (cloneCode h c).map fun r => (r.1, .plain i :: r.2)
  | .op id na nr :: c =>
    match h[id]? with
    | none => none
    | some o => match mkObj o.kind o.params with
      | none => none
      | some o' => (cloneCode (h ++ [o']) c).map fun r => (r.1, .op h.length na nr :: r.2)

/-- the body's part of `Program::clone`, program.cpp:145-177; the name lists are not copied -/
def cloneBody (h : List (Obj α V)) (b : Body V) : Option (List (Obj α V) × Body V) :=
  (cloneCode h b.code).map fun r => (r.1, { b with code := r.2, inNames := [], outNames := [] })

/-- cloning the filters, program.cpp:155-160 -/
def cloneFilters (h : List (Obj α V)) : List (Option (Body V)) → Option (List (Obj α V) × List (Option (Body V)))
  | [] => some (h, [])
  | none :: fs => (cloneFilters h fs).map fun r => (r.1, none :: r.2)
  | some f :: fs =>
    match cloneBody h f with
    | none => none
    | some (h', f') => (cloneFilters h' fs).map fun r => (r.1, some f' :: r.2)

/-- `Program::clone`, program.cpp:145-177; `none`: it throws -/
def clone (h : List (Obj α V)) (p : Program V) : Option (List (Obj α V) × Program V) :=
  match cloneFilters h p.filters with
  | none => none
  | some (h1, fs) => match cloneBody h1 p.body with
    | none => none
    | some (h2, b) => some (h2, ⟨b, fs⟩)

/-- `set_operator_param` over the instructions of a program, program.cpp:258-267. `nameOf` is `Operator::name`
(operator.cpp:209-212). The Boolean tells whether it returned; on an exception the objects already changed stay changed, and
an object whose `init` threw keeps the new parameter but runs as before. -/
def setParam (nameOf : PMap α → String) (name param : String) (v : α) (h : List (Obj α V)) :
    List (PInstr V) → List (Obj α V) × Bool
  | [] => (h, true)
  | .plain _ :: c => setParam nameOf name param v h c
  | .op id _ _ :: c =>
    match h[id]? with
    | none => (h, false)
    | some o =>
      if nameOf o.params ≠ name then setParam nameOf name param v h c
      else if o.kind.settable param then
        let m := o.params.put param v
        if o.kind.initOk (m.lookup ·) then
          setParam nameOf name param v (h.set id ⟨o.kind, m, (m.lookup ·)⟩) c
        else (h.set id ⟨o.kind, m, o.active⟩, false)
      else (h, false)

/-- creating the operators of a compiled body, compiler.cpp:65-95: one new object per operator instruction -/
def compileCode (h : List (Obj α V)) : List (Instr V ⊕ (Kind α V × PMap α × Nat × Nat)) →
    Option (List (Obj α V) × List (PInstr V))
  | [] => some (h, [])
  | .inl i :: c => (compileCode h c).map fun r => (r.1, .plain i :: r.2)
  | .inr (k, ps, na, nr) :: c =>
    match mkObj k ps with
    | none => none
    | some o => (compileCode (h ++ [o]) c).map fun r => (r.1, .op h.length na nr :: r.2)

/-- the objects, the programs and the compiled filter programs that exist -/
structure World (α V : Type) where
  heap : List (Obj α V)
  progs : List (Program V)
  pool : List (Body V)

/-- what a user can do with programs -/
inductive Act (α V : Type) where
  /-- compile a module to the given code, counts, names, casts and data (program.cpp:54-143); no filters yet -/
  | compile (code : List (Instr V ⊕ (Kind α V × PMap α × Nat × Nat))) (ins outs : List String) (data : List V)
      (cast : Nat → Option (Op V))
  /-- clone program number `k` -/
  | clone (k : Nat)
  /-- `set_operator_param` on program number `k` -/
  | setParam (k : Nat) (name param : String) (v : α)
  /-- compile an image filter (`ImageFilter::compile`): a program only `bindFilter` can reach -/
  | filter (code : List (Instr V ⊕ (Kind α V × PMap α × Nat × Nat))) (ins outs : List String) (data : List V)
      (cast : Nat → Option (Op V))
  /-- `bind_filter`, program.cpp:246-256, workbench.cpp:230-240: put compiled filter `f` in input slot `i` of program `k`, or
  remove the filter. The filter must have one input and one output. Several programs may share one filter. -/
  | bindFilter (k i : Nat) (f : Option Nat)

/-- the program `Program::Compile` builds around its code, program.cpp:109-127 -/
def mkBody (c : List (PInstr V)) (ins outs : List String) (data : List V) (cast : Nat → Option (Op V)) : Body V :=
  ⟨ins.length, outs.length, data, c, cast, slotMap (fun _ => none) 0 ins, slotMap (fun _ => none) 0 outs, ins, outs⟩

/-- one action; one that throws changes nothing except what `setParam` did before the throw -/
def act (nameOf : PMap α → String) (w : World α V) : Act α V → World α V
  | .compile code ins outs data cast =>
    match compileCode w.heap code with
    | none => w
    | some (h, c) => { w with heap := h, progs := w.progs ++ [⟨mkBody c ins outs data cast, List.replicate ins.length none⟩] }
  | .clone k =>
    match w.progs[k]? with
    | none => w
    | some p => match clone w.heap p with
      | none => w
      | some (h, p') => { w with heap := h, progs := w.progs ++ [p'] }
  | .setParam k name param v =>
    match w.progs[k]? with
    | none => w
    | some p => { w with heap := (setParam nameOf name param v w.heap p.body.code).1 }
  | .filter code ins outs data cast =>
    match compileCode w.heap code with
    | none => w
    | some (h, c) => { w with heap := h, pool := w.pool ++ [mkBody c ins outs data cast] }
  | .bindFilter k i f =>
    match w.progs[k]? with
    | none => w
    | some p =>
      if p.body.nin ≤ i then w else
      match f with
      | none => { w with progs := w.progs.set k { p with filters := p.filters.set i none } }
      | some j => match w.pool[j]? with
        | none => w
        | some q => if q.nin ≠ 1 ∨ q.nout ≠ 1 then w
          else { w with progs := w.progs.set k { p with filters := p.filters.set i (some q) } }

/-- every history of actions -/
def world (nameOf : PMap α → String) (as : List (Act α V)) : World α V := as.foldl (act nameOf) ⟨[], [], []⟩

/-- the program as a workbench sees it (`Desk`); `trace` as there -/
def Program.desk (h : List (Obj α V)) (p : Program V) (trace : List V → List (String × V)) : Desk V :=
  ⟨p.body.nin, p.body.nout, p.body.data, p.body.code.map (denInstr h),
    filterDen h p.filters, p.body.cast,
    p.body.inSlots, p.body.outSlots, p.body.inNames, p.body.outNames, trace⟩

end Clone
end Verif.Runtime
