import Verif.Concurrency.SplitBins
/-!
# Parallel loops: include/runtime/inside/parallel.h

An iteration is a sequence of atomic operations on the shared state; the tasks of the pool interleave at the level of
these operations, in any order that keeps the order inside each task. (That the pool runs each task exactly once and that
`join` waits for all of them is `Verif.Concurrency.Pool`.)
-/
namespace Verif.Concurrency
open Verif.Core

/-- `out` interleaves the sequences `ls` -/
inductive Interleave {ω : Type} : List (List ω) → List ω → Prop
  | done {ls : List (List ω)} : (∀ l ∈ ls, l = []) → Interleave ls []
  | step {ls : List (List ω)} {out rest : List ω} {x : ω} (k : Nat) : ls[k]? = some (x :: rest) →
      Interleave (ls.set k rest) out → Interleave ls (x :: out)

/-- `try_parallel(task_number)`, parallel.h:23-28: the size of the pool to use, if any. `pool` is the size of the pool
bound to the calling thread, if there is one. -/
def tryParallel (pool : Option Nat) (tasks : Int) : Option Nat :=
  if tasks ≤ 1 then none
  else
    match pool with
    | none => none
    | some n => if n > 1 then some n else none

/-- the operations of the loop `for (i = begin; i < end; ++i)` over one range: the body of `TS_PARALLEL_FOR_BEGIN`,
parallel.h:102-108 -/
def rangeOps {ω : Type} (ops : Int → List ω) (a b : Int) : List ω :=
  (List.range (b - a).toNat).flatMap fun (i : Nat) => ops (a + i)

/-- `parallel_run(range_solver, begin, end)`, parallel.h:30-45 (and `parallel_range`, 47-62), joined: `sched` is a possible
order of all operations. `q` is the double computed inside `split_bins`. -/
inductive ParallelRun {ω : Type} (pool : Option Nat) (q : ℚ) (ops : Int → List ω) (b e : Int) : List ω → Prop
  /-- `range_solver(0, begin, end)` in the calling thread -/
  | inline : tryParallel pool (e - b) = none → ParallelRun pool q ops b e (rangeOps ops b e)
  /-- one task per bin -/
  | tasks {n fuel : Nat} {bins : List (Int × Int)} {sched : List ω} : tryParallel pool (e - b) = some n →
      splitBins fuel q b e n = some (.ok bins) →
      Interleave (bins.map fun r => rangeOps ops r.1 r.2) sched → ParallelRun pool q ops b e sched

end Verif.Concurrency
