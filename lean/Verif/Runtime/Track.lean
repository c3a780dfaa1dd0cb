import Verif.Compiler.Pipeline
import Verif.Runtime.Bench
/-!
# Hooks: what a tracked run and a hooked run see

Models the hook calls of `OperatorInstruction::run` (src/runtime/instruction.cpp:34-76), the two callbacks of `track`
(src/board/dump.cpp:74-112) and the callback of `Workbench::run_hook` (src/runtime/workbench.cpp:609-623), on top of the machine of
`Runtime.Machine`. A tensor is a value (`clone` copies it). The hook is bound to the thread (include/board/hook.h), so that an operator
that launches a program itself adds records of its own: an operator is therefore a function of the stack and of the records so far.
-/
namespace Verif.Runtime.Track
open Verif.Runtime
variable {V I : Type}

/-- `BuildTestCase`, dump.cpp:78-83; `id` is the operator object (`const Operator *op`), one per instruction of a program. -/
structure Rec (I V : Type) where
  id : I
  ins : List V
  outs : List V
  deriving Repr, DecidableEq

/-- the stack and the vector `building`, dump.cpp:85 -/
abbrev HSt (I V : Type) := Stk V × List (Rec I V)

/-- an operator under a hook: it may run further instructions, which call the same hook -/
abbrev HOp (I V : Type) := HSt I V → Out (HSt I V) Int

/-- the entries `stack->index(0)`, …, `stack->index(size() - 1)`, dump.cpp:90-92 and 99-101: the frame of the running instruction -/
def frame (s : Stk V) : List V := s.cells.drop s.base

/-- the callback `before_run`, dump.cpp:87-94 -/
def beforeRun (id : I) (h : HSt I V) : HSt I V := (h.1, h.2 ++ [⟨id, frame h.1, []⟩])

/-- the callback `after_run`, dump.cpp:96-102: `building.back()` of an empty vector is undefined, another operator is refused. -/
def afterRun [DecidableEq I] (id : I) (h : HSt I V) : Out (HSt I V) Unit :=
  match h.2.getLast? with
  | none => .ub
  | some r => if r.id ≠ id then .err h
    else .ok (h.1, h.2.dropLast ++ [{ r with outs := r.outs ++ frame h.1 }]) ()

/-- lift an unchecked stack operation whose failure is undefined -/
def orUbH (o : Option (Stk V)) (log : List (Rec I V)) : Out (HSt I V) Unit :=
  match o with | some s' => .ok (s', log) () | none => .ub

/-- `OperatorInstruction::run` with the hooks, instruction.cpp:34-76: the hooks are called inside the frame, the first before the operator
runs, the second after its operands have been erased and before the frame is left (the profiler is C95). -/
def runOpInstrH [DecidableEq I] (id : I) (f : HOp I V) (nargs nresults : Nat) (h : HSt I V) : Out (HSt I V) Unit :=
  if h.1.size < nargs then .err h
  else
    Out.finallyDo
      ((f (beforeRun id (h.1.pushBase (-(nargs : Int)), h.2))).bind fun h1 r =>
        if r ≠ nresults then .err h1
        else if h1.1.size < nresults then .err h1
        else (orUbH (h1.1.erase 0 (-(nresults : Int))) h1.2).bind fun h2 _ => afterRun id h2)
      (fun h => (h.1.popBase, h.2))

/-- an operator that runs no instructions of its own -/
def quiet (f : Op V) : HOp I V := fun h =>
  match f h.1 with
  | .ok s r => .ok (s, h.2) r
  | .err s => .err (s, h.2)
  | .ub => .ub

/-- an instruction that is not an operator does not call the hook -/
def runPlainH (P : PackOps V) (data : List V) (i : Instr V) (h : HSt I V) : Out (HSt I V) Unit :=
  match runInstr P data i h.1 with
  | .ok s u => .ok (s, h.2) u
  | .err s => .err (s, h.2)
  | .ub => .ub

/-- the instruction loop of `launch_online`, workbench.cpp:477-485, under a hook; `ids k` is the operator object of the `k`-th operator
instruction of the program. -/
def runCodeH [DecidableEq I] (P : PackOps V) (data : List V) (ids : Nat → I) : Nat → List (Instr V) → HSt I V → Out (HSt I V) Unit
  | _, [], h => .ok h ()
  | k, .op f na nr :: is, h => (runOpInstrH (ids k) (quiet f) na nr h).bind fun h' _ => runCodeH P data ids (k + 1) is h'
  | k, i :: is, h => (runPlainH P data i h).bind fun h' _ => runCodeH P data ids k is h'

/-- copying the arguments to the top, workbench.cpp:447-468, for a program without filters and casts (no instruction runs) -/
def argLoopH (nargs : Nat) (h : HSt I V) : Out (HSt I V) Unit :=
  match argLoop (fun v => some v) (fun _ => none) (fun _ => none) nargs nargs 0 h.1 with
  | .ok s u => .ok (s, h.2) u
  | .err s => .err (s, h.2)
  | .ub => .ub

/-- `launch_online` under a hook, workbench.cpp:410-496, for a program without filters and casts (`Compiler.Block`). The operators of a
filter would be reported as well. -/
def launchOnlineH [DecidableEq I] (P : PackOps V) (b : Compiler.Block V) (ids : Nat → I) (nargs : Nat) (h : HSt I V) :
    Out (HSt I V) Nat :=
  if b.nargs ≠ nargs then .err h
  else if h.1.size < nargs then .err h
  else
    Out.finallyDo
      ((argLoopH nargs (h.1.pushBase (-(nargs : Int)), h.2)).bind fun h1 _ =>
        (orUbH (h1.1.erase 0 nargs) h1.2).bind fun h2 _ =>
        (runCodeH P b.data ids 0 b.code h2).bind fun h3 _ =>
        if h3.1.size ≠ b.nresults then .err h3 else .ok h3 h3.1.size)
      (fun h => (h.1.popBase, h.2))

/-- `launch_offline` under a hook, workbench.cpp:510-530 -/
def launchOfflineH [DecidableEq I] (P : PackOps V) (b : Compiler.Block V) (ids : Nat → I) (args : List V) (h : HSt I V) :
    Out (HSt I V) (List V) :=
  Out.finallyDo
    ((launchOnlineH P b ids args.length (pushAll (h.1.pushBase h.1.size) args, h.2)).bind fun h1 n =>
      match (List.range n).mapM fun (i : Nat) => h1.1.index (i : Int) with
      | some outs => .ok h1 outs
      | none => .err h1)
    (fun h => (h.1.clear.popBase, h.2))

/-- the records a launch leaves behind, completed or not -/
def logOf {α : Type} : Out (HSt I V) α → List (Rec I V)
  | .ok h _ => h.2
  | .err h => h.2
  | .ub => []

/-- `track` up to the files, dump.cpp:74-112: outputs and test cases of one run -/
def track [DecidableEq I] (P : PackOps V) (b : Compiler.Block V) (ids : Nat → I) (args : List V) (s : Stk V) :
    Out (Stk V) (List V × List (Rec I V)) :=
  match launchOfflineH P b ids args (s, []) with
  | .ok h outs => .ok h.1 (outs, h.2)
  | .err h => .err h.1
  | .ub => .ub

/-- what the callback of `run_hook` sees (workbench.cpp:610-616): the name of the operator and the first entry of its frame; operators whose
frame is empty (or that did not return) are left out. -/
def reported (name : I → String) (log : List (Rec I V)) : List (String × V) :=
  log.filterMap fun r => r.outs.head?.map fun v => (name r.id, v)

/-- the parameter `trace` of C36 (`Desk.trace`) for a compiled program: what is reported when it is launched on `args` -/
def traceOf [DecidableEq I] (P : PackOps V) (b : Compiler.Block V) (ids : Nat → I) (name : I → String) (args : List V) :
    List (String × V) :=
  reported name (logOf (launchOfflineH P b ids args (⟨[], 0, []⟩, [])))

/-! ### The files of a tracked run (src/board/dump.cpp:114-149) -/

/-- a text -/
abbrev Text := List Char

/-- `std::to_string(size_t)` -/
def dec (n : Nat) : Text := Nat.toDigits 10 n

/-- what is written into a file: the three counts (dump.cpp:127-131) or a tensor (`tensor::save`) -/
inductive Content (V : Type) where
  | counts (params inputs outputs : Nat)
  | tensor (v : V)
  deriving Repr, DecidableEq

/-- an operator object as the dump reads it: `op()` and `params()` (an unordered_map: each name once) -/
structure OpInfo (V : Type) where
  op : Text
  params : List (Text × V)

/-- `subdir`, dump.cpp:116 -/
def subdir (root : Text) (i : Nat) (op : Text) : Text := root ++ "/".toList ++ dec i ++ "_".toList ++ op ++ "/".toList

/-- the files of one record, dump.cpp:124-149, in the order they are written -/
def caseFiles (info : I → OpInfo V) (root : Text) (i : Nat) (r : Rec I V) : List (Text × Content V) :=
  let d := subdir root i (info r.id).op
  [(d ++ "0.".toList ++ (info r.id).op ++ ".txt".toList, .counts (info r.id).params.length r.ins.length r.outs.length)] ++
  (info r.id).params.map (fun p => (d ++ "1.".toList ++ p.1 ++ ".t".toList, .tensor p.2)) ++
  r.ins.mapIdx (fun j v => (d ++ "2.input_".toList ++ dec j ++ ".t".toList, .tensor v)) ++
  r.outs.mapIdx (fun j v => (d ++ "3.output_".toList ++ dec j ++ ".t".toList, .tensor v))

/-- all files written for the records `i, i+1, …`; `made d` says whether the directory could be made (`mkdir`, C104; a directory that
cannot be made is skipped, dump.cpp:118-121). A file that cannot be opened is not modelled (C104). -/
def dumpFiles (info : I → OpInfo V) (root : Text) (made : Text → Bool) : Nat → List (Rec I V) → List (Text × Content V)
  | _, [] => []
  | i, r :: rs => (if made (subdir root i (info r.id).op) then caseFiles info root i r else []) ++ dumpFiles info root made (i + 1) rs

/-- the content of a file after a sequence of writes: the last one to its path -/
def readBack (files : List (Text × Content V)) (path : Text) : Option (Content V) :=
  (files.reverse.find? fun f => f.1 = path).map (·.2)

end Verif.Runtime.Track
