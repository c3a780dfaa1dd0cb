import Verif.Runtime.Bench
import Verif.Runtime.Clone
/-!
# Several workbenches: `Workbench::clone` and the members that a workbench does not share, src/runtime/workbench.cpp

A workbench holds a shared pointer to its program (`prog`: the number of the program in `Clone.World`). Not modelled: hooked runs (see C36 and C37), the profiler's
records, devices (all workbenches are on one), several threads.
-/
namespace Verif.Runtime.Benches
open Verif.Runtime Verif.Runtime.Clone
variable {α V : Type}

/-- the members of a workbench, include/runtime/workbench.h:258-296 -/
structure Bn (V : Type) where
  prog : Option Nat
  ins : List V
  outs : List V
  stack : Stk V
  threads : Int

/-- the programs and the workbenches that exist -/
structure W (α V : Type) where
  w : Clone.World α V
  bs : List (Bn V)

/-- what a user can do -/
inductive Do (α V : Type) where
  /-- something with programs only -/
  | prog (a : Act α V)
  | new (threads : Int)
  | setup (i : Nat) (k : Option Nat)
  | inSlot (i : Nat) (slot : Int) (v : V)
  | inName (i : Nat) (name : String) (v : V)
  | run (i : Nat)
  | setThreads (i : Nat) (n : Int)
  | setParam (i : Nat) (name param : String) (v : α)
  | bindFilter (i slot : Nat) (f : Option Nat)
  | clone (i : Nat)

/-- the empty stack of a new workbench -/
def rest : Stk V := ⟨[], 0, []⟩

/-- the program a workbench points to -/
def W.program (w : W α V) (b : Bn V) : Option (Program V) := b.prog.bind (w.w.progs[·]?)

/-- the workbench as `Bench` sees it -/
def W.bench (w : W α V) (b : Bn V) : Bench V := ⟨(w.program b).map fun p => p.desk w.w.heap fun _ => [], b.ins, b.outs, fun _ => none, b.stack⟩

/-- `b` replaces workbench `i` -/
def W.put (w : W α V) (i : Nat) (b : Bn V) : W α V := { w with bs := w.bs.set i b }

/-- the workbench after a call of `Bench`; `false`: it threw -/
def W.after (w : W α V) (i : Nat) (b : Bn V) : Out (Bench V) Unit → Option (W α V × Bool)
  | .ok c _ => some (w.put i { b with ins := c.inputs, outs := c.outputs, stack := c.stack }, true)
  | .err c => some (w.put i { b with ins := c.inputs, outs := c.outputs, stack := c.stack }, false)
  | .ub => none

/-- one call; a call on a workbench that does not exist is not made. `none`: undefined; `false`: it threw (for actions on programs alone the flag is not used).
`setThreads`: runtime.cpp:49-62 with OpenMP absent. `clone`: workbench.cpp:164-178 — a new workbench with as many empty slots, the same number of threads and a clone
of the program. -/
def step (P : PackOps V) (adj : Adjust V) (nil : V) (nameOf : PMap α → String) (w : W α V) : Do α V → Option (W α V × Bool)
  | .prog a => some ({ w with w := act nameOf w.w a }, true)
  | .new n => some ({ w with bs := w.bs ++ [⟨none, [], [], rest, if n < 0 then 8 else if n = 0 then 1 else n⟩] }, true)
  | .setup i k => match w.bs[i]? with
    | none => some (w, true)
    | some b => match k with
      | none => some (w.put i { b with prog := none, ins := [], outs := [] }, true)
      | some k => match w.w.progs[k]? with
        | none => some (w, true)
        | some p => some (w.put i { b with prog := some k, ins := Bench.resize nil b.ins p.body.nin, outs := Bench.resize nil b.outs p.body.nout }, true)
  | .inSlot i slot v => match w.bs[i]? with
    | none => some (w, true)
    | some b => w.after i b ((w.bench b).inputSlot slot v)
  | .inName i name v => match w.bs[i]? with
    | none => some (w, true)
    | some b => w.after i b ((w.bench b).inputName name v)
  | .run i => match w.bs[i]? with
    | none => some (w, true)
    | some b => w.after i b ((w.bench b).run P adj)
  | .setThreads i n => match w.bs[i]? with
    | none => some (w, true)
    | some b => some (w.put i { b with threads := if n < 0 then 8 else if n = 0 then 1 else n }, true)
  | .setParam i name param v => match w.bs[i]? with
    | none => some (w, true)
    | some b => match b.prog with
      | none => some (w, true)
      | some k => some ({ w with w := act nameOf w.w (.setParam k name param v) }, true)
  | .bindFilter i slot f => match w.bs[i]? with
    | none => some (w, true)
    | some b => match b.prog with
      | none => some (w, false)
      | some k => some ({ w with w := act nameOf w.w (.bindFilter k slot f) }, true)
  | .clone i => match w.bs[i]? with
    | none => some (w, true)
    | some b =>
      let c : Bn V := ⟨none, List.replicate b.ins.length nil, List.replicate b.outs.length nil, rest, b.threads⟩
      match w.program b with
      | none => some ({ w with bs := w.bs ++ [c] }, true)
      | some p => match Clone.clone w.w.heap p with
        | none => some (w, false)
        | some (h, p') => some (⟨{ w.w with heap := h, progs := w.w.progs ++ [p'] }, w.bs ++ [{ c with prog := some w.w.progs.length }]⟩, true)

/-- nothing exists -/
def start : W α V := ⟨⟨[], [], []⟩, []⟩

end Verif.Runtime.Benches
