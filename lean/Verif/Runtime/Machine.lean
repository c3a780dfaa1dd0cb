/-!
# The tensor stack and its instructions

Models `src/runtime/stack.cpp`, `src/runtime/instruction.cpp`,
`src/runtime/instruction/{stack,tensor}_instruction.cpp` and the launching part of
`src/runtime/workbench.cpp`.

Tensors are an arbitrary type `V` (value semantics: a C++ `Tensor` is a shared handle, the in-place
mutation of a tensor that is also referenced elsewhere is not modelled).
A C++ exception keeps the machine state at the throw point (`Out.err s`), because RAII handlers run
on it; undefined behaviour is the separate outcome `Out.ub`.
-/
namespace Verif.Runtime

/-- Result of a step: normal return, C++ exception (with the state at the throw), undefined behaviour. -/
inductive Out (σ α : Type) where
  | ok (s : σ) (a : α)
  | err (s : σ)
  | ub
  deriving Repr, DecidableEq

namespace Out
variable {σ α β : Type}
def bind (o : Out σ α) (f : σ → α → Out σ β) : Out σ β :=
  match o with
  | ok s a => f s a
  | err s => err s
  | ub => ub

/-- RAII guard: `ts::need` (include/utils/need.h:14-49): `fin` runs on normal and on exceptional exit. -/
def finallyDo (o : Out σ α) (fin : σ → σ) : Out σ α :=
  match o with
  | ok s a => ok (fin s) a
  | err s => err (fin s)
  | ub => ub
end Out

/-- `ts::Stack` (include/runtime/stack.h, src/runtime/stack.cpp): the deque of tensors (bottom first),
the current base and the stack of saved bases (top first). The memory controller is not modelled. -/
structure Stk (V : Type) where
  cells : List V
  base : Nat
  bases : List Nat
  deriving Repr, DecidableEq

namespace Stk
variable {V : Type}

/-- `relative2absolute(i)`, src/runtime/stack.cpp:10. A negative result (size_t wrap-around) is
represented by the negative integer itself; every consumer below treats it as out of range. -/
def abs (s : Stk V) (i : Int) : Int :=
  if 0 ≤ i then (s.base : Int) + i else (s.cells.length : Int) + i

/-- `Stack::size`, stack.cpp:80 (`m_stack.size() - m_base`; the base never exceeds the size in any state
the model reaches, so the unsigned subtraction does not wrap). -/
def size (s : Stk V) : Nat := s.cells.length - s.base

/-- `Stack::push(const Tensor &)`, stack.cpp:49-54. -/
def push (s : Stk V) (v : V) : Stk V := { s with cells := s.cells ++ [v] }

/-- `Stack::index(i)`, stack.cpp:64 (`deque::at`: `none` stands for `std::out_of_range`). -/
def index (s : Stk V) (i : Int) : Option V :=
  if 0 ≤ s.abs i then s.cells[(s.abs i).toNat]? else none

/-- Assignment through `*stack.index(i) = v` (stack_instruction.cpp:42-43). -/
def assign (s : Stk V) (i : Int) (v : V) : Option (Stk V) :=
  if 0 ≤ s.abs i ∧ (s.abs i).toNat < s.cells.length then
    some { s with cells := s.cells.set (s.abs i).toNat v } else none

/-- `Stack::erase(int beg, int end)`, stack.cpp:87-92; unchecked iterators, so a bad range is UB. -/
def erase (s : Stk V) (b e : Int) : Option (Stk V) :=
  let b' := s.abs b
  let e' := s.abs e
  if 0 ≤ b' ∧ b' ≤ e' ∧ e' ≤ s.cells.length then
    some { s with cells := s.cells.take b'.toNat ++ s.cells.drop e'.toNat } else none

/-- `Stack::erase(int i)`, stack.cpp:82-85. -/
def eraseOne (s : Stk V) (i : Int) : Option (Stk V) :=
  let k := s.abs i
  if 0 ≤ k ∧ k < s.cells.length then
    some { s with cells := s.cells.eraseIdx k.toNat } else none

/-- `Stack::pop(size_t)`, stack.cpp:72-76. -/
def popN (s : Stk V) (n : Nat) : Option (Stk V) :=
  if n ≤ s.cells.length then some { s with cells := s.cells.take (s.cells.length - n) } else none

/-- `Stack::push_base(i)`, stack.cpp:101-103 (with `rebase`, 96-99). A negative absolute position would
wrap to a huge base; callers check the size first, the model clamps it. -/
def pushBase (s : Stk V) (i : Int) : Stk V :=
  { s with base := (s.abs i).toNat, bases := s.base :: s.bases }

/-- `Stack::pop_base`, stack.cpp:105-112. -/
def popBase (s : Stk V) : Stk V :=
  match s.bases with
  | [] => { s with base := 0 }
  | b :: bs => { s with base := b, bases := bs }

/-- `Stack::clear` = `erase(0, size())`, include/runtime/stack.h:315. -/
def clear (s : Stk V) : Stk V :=
  match s.erase 0 s.size with
  | some s' => s'
  | none => s

end Stk

/-- Tensor packing as used by the instructions (`Tensor::pack`, `Tensor::field(int)`): parameters. -/
structure PackOps (V : Type) where
  pack : List V → V
  /-- `none`: the index is out of range and an exception is thrown -/
  field : V → Int → Option V

/-- An operator: `Operator::run(Stack&)` returning the number of results it claims to have pushed. -/
abbrev Op (V : Type) := Stk V → Out (Stk V) Int

/-- The instruction set (stack_instruction.cpp:11-51, tensor_instruction.cpp:17-45,
instruction.cpp:34-76 and 148-150). -/
inductive Instr (V : Type) where
  | push (i : Int)
  | clone (i : Int)
  | eraseOne (i : Int)
  | ringShiftLeft
  | swap (i j : Int)
  | erase (b e : Int)
  | pack (n : Nat)
  | field (k : Int)
  | dataSeg (k : Nat)
  | op (f : Op V) (nargs nresults : Nat)

variable {V : Type}

/-- lift a checked stack operation whose failure throws -/
def orErr (s : Stk V) (o : Option (Stk V)) : Out (Stk V) Unit :=
  match o with | some s' => .ok s' () | none => .err s
/-- lift an unchecked stack operation whose failure is undefined -/
def orUb (o : Option (Stk V)) : Out (Stk V) Unit :=
  match o with | some s' => .ok s' () | none => .ub

/-- `OperatorInstruction::run`, src/runtime/instruction.cpp:34-76 (hooks and profiler omitted). -/
def runOpInstr (f : Op V) (nargs nresults : Nat) (s : Stk V) : Out (Stk V) Unit :=
  if s.size < nargs then .err s
  else
    Out.finallyDo
      ((f (s.pushBase (-(nargs : Int)))).bind fun s1 r =>
        if r ≠ nresults then .err s1
        else if s1.size < nresults then .err s1
        else orUb (s1.erase 0 (-(nresults : Int))))
      Stk.popBase

/-- One instruction. `data` is the data segment of the running program
(`Workbench::push_data_segment`, workbench.cpp:269-272; an index outside it is unchecked). -/
def runInstr (P : PackOps V) (data : List V) : Instr V → Stk V → Out (Stk V) Unit
  | .push i, s => match s.index i with | some v => .ok (s.push v) () | none => .err s
  | .clone i, s => match s.index i with | some v => .ok (s.push v) () | none => .err s
  | .eraseOne i, s => orUb (s.eraseOne i)
  | .ringShiftLeft, s => match s.index 0 with
      | some v => orUb ((s.push v).eraseOne 0) | none => .err s
  | .swap i j, s => match s.index i, s.index j with
      | some vi, some vj => match s.assign i vj with
          | some s1 => orErr s1 (s1.assign j vi)
          | none => .err s
      | _, _ => .err s
  | .erase b e, s => orUb (s.erase b e)
  | .pack n, s =>
      if s.size < n then .err s
      else
        let fs := s.cells.drop (s.cells.length - n)
        match s.popN n with
        | some s1 => .ok (s1.push (P.pack fs)) ()
        | none => .ub
  | .field k, s => match s.cells.getLast? with
      | none => .ub
      | some v => match P.field v k with
          | none => .err s
          | some w => .ok { s with cells := s.cells.dropLast ++ [w] } ()
  | .dataSeg k, s => match data[k]? with | some v => .ok (s.push v) () | none => .ub
  | .op f na nr, s => runOpInstr f na nr s

/-- The instruction loop of `launch_online`, workbench.cpp:477-485. -/
def runCode (P : PackOps V) (data : List V) : List (Instr V) → Stk V → Out (Stk V) Unit
  | [], s => .ok s ()
  | i :: is, s => (runInstr P data i s).bind fun s' _ => runCode P data is s'

/-- `RunOperator(op, stack, nargs)`, src/runtime/operator.cpp:262-278: frame, run, drop the arguments. -/
def runOperator (f : Op V) (nargs : Nat) (s : Stk V) : Out (Stk V) Int :=
  if s.size < nargs then .err s
  else
    Out.finallyDo
      ((f (s.pushBase (-(nargs : Int)))).bind fun s1 r =>
        -- the size check compares as `size_t`, so a negative count fails it
        if r < 0 ∨ (s1.size : Int) < r then .err s1 else
        match s1.erase 0 (-r) with
        | some s2 => .ok s2 r
        | none => .ub)
      Stk.popBase

/-- `Program` (src/runtime/program.cpp) as seen by a launch: counts, data segment, instructions, and for
every input slot an optional filter program (`nofilter`) and an optional cast (`input_dtype != VOID`). -/
inductive Prog (V : Type) where
  | nofilter
  | mk (nin nout : Nat) (data : List V) (code : List (Instr V))
      (filter : Nat → Prog V) (cast : Nat → Option (Op V))

/-- is there a filter program in this slot? (`filter != nullptr`, workbench.cpp:459) -/
def Prog.isSome : Prog V → Bool
  | .nofilter => false
  | .mk .. => true

/-- `adjust_nhwc`, workbench.cpp:397-408: a partial reshaping of the argument (`none`: error). -/
abbrev Adjust (V : Type) := V → Option V

/-- The cast of one argument: `cast_tensor`, workbench.cpp:339-353 (`RunOperator` must return 1). -/
def castTop (c : Option (Op V)) (s : Stk V) : Out (Stk V) Unit :=
  match c with
  | none => .ok s ()
  | some f => (runOperator f 1 s).bind fun s1 r => if r = 1 then .ok s1 () else .err s1

/-- Pushing argument `arg` and running its filter, workbench.cpp:448-464. -/
def filterTop (adj : Adjust V) (lf : Option (Stk V → Out (Stk V) Unit)) (arg : V) (s : Stk V) :
    Out (Stk V) Unit :=
  match lf with
  | none => .ok (s.push arg) ()
  | some lf =>
    match adj arg with
    | none => .err (s.push arg)
    | some arg' =>
      match ((s.push arg).push arg').eraseOne (-2) with
      | none => .ub
      | some s2 => lf s2

/-- The argument loop of `launch_online`, workbench.cpp:447-468, for the arguments `i, i+1, …` (`k` of
them left). `launchFilter j` launches the filter of slot `j` (`none`: slot without filter). -/
def argLoop (adj : Adjust V) (launchFilter : Nat → Option (Stk V → Out (Stk V) Unit))
    (cast : Nat → Option (Op V)) (nargs : Nat) : Nat → Nat → Stk V → Out (Stk V) Unit
  | 0, _, s => .ok s ()
  | k + 1, i, s =>
    match s.index (-(nargs : Int)) with
    | none => .err s
    | some arg =>
      (filterTop adj (launchFilter i) arg s).bind fun s3 _ =>
      (castTop (cast i) s3).bind fun s4 _ =>
      argLoop adj launchFilter cast nargs k (i + 1) s4

/-- `Workbench::launch_online`, workbench.cpp:410-496; returns the number of results (line 495). The
device mismatch (420-422) only logs. The environment stack is the recursion of the model. -/
def launchOnline (P : PackOps V) (adj : Adjust V) : Prog V → Nat → Stk V → Out (Stk V) Nat
  | .nofilter, _, s => .err s
  | .mk nin nout data code filter cast, nargs, s =>
    if nin ≠ nargs then .err s
    else if s.size < nargs then .err s
    else
      Out.finallyDo
        ((argLoop adj
            (fun i => if (filter i).isSome then
                some (fun st => (launchOnline P adj (filter i) 1 st).bind fun st' _ => .ok st' ())
              else none)
            cast nargs nargs 0 (s.pushBase (-(nargs : Int)))).bind fun s1 _ =>
          (orUb (s1.erase 0 nargs)).bind fun s2 _ =>
          (runCode P data code s2).bind fun s3 _ =>
          if s3.size ≠ nout then .err s3 else .ok s3 s3.size)
        Stk.popBase

/-- pushing the arguments, workbench.cpp:518-520 -/
def pushAll (s : Stk V) (args : List V) : Stk V := args.foldl Stk.push s

/-- `Workbench::launch_offline(program, args)`, workbench.cpp:510-530. The two `need` guards run in
reverse order of construction: first `clear`, then `pop_base`. -/
def launchOffline (P : PackOps V) (adj : Adjust V) (p : Prog V) (args : List V) (s : Stk V) :
    Out (Stk V) (List V) :=
  Out.finallyDo
    ((launchOnline P adj p args.length (pushAll (s.pushBase s.size) args)).bind fun s1 n =>
      match (List.range n).mapM fun (i : Nat) => s1.index (i : Int) with
      | some outs => .ok s1 outs
      | none => .err s1)
    (fun st => st.clear.popBase)

end Verif.Runtime
