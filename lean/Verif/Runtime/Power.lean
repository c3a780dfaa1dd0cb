import Verif.Core.Res
/-!
# Power modes and computing threads (src/utils/cpu.cpp, src/runtime/runtime.cpp, src/runtime/workbench.cpp:126-134, 650-671)

The machine is given by the number of its processors and by what reading their frequencies gives; the scheduler by its answers. One thread calls; the data race of
the OpenMP loop on the bits of a `std::vector<bool>` (cpu.cpp:241-244) is not modelled.
-/
namespace Verif.Runtime.Power
open Verif.Core

/-- the machine and the build -/
structure Machine where
  /-- `TS_PLATFORM_OS_ANDROID`; otherwise Linux -/
  android : Bool
  /-- `TS_USE_OPENMP` -/
  openmp : Bool
  /-- `g_cpu_num`, cpu.cpp:33-58: at least 1 -/
  cpus : Nat
  /-- the number in the files of a processor, cpu.cpp:64-87 (0 if there are none); `none`: the text is no number in the range of `int` and `std::stoi` throws -/
  file : Nat → Option Int
  /-- `omp_get_num_procs()` -/
  procs : Nat

/-- `get_cpu_max_freq`, cpu.cpp:61-91 -/
def Machine.freq (m : Machine) (k : Nat) : Option Int := if m.android then m.file k else some (-1)

/-- `CpuPowerMode`, include/utils/cpu.h:14-18; the C functions cast any number to it -/
inductive Mode where
  | balance
  | bigcore
  | littlecore
  | other (code : Int)
  deriving DecidableEq, Repr

/-- the static variables of cpu.cpp (28-30, 59, 205) and the number of OpenMP threads set -/
structure Cpu where
  sorted : List Nat
  big : List Nat
  little : List Nat
  /-- `g_power_mode` -/
  mode : Mode
  /-- `g_set_cpu_set_power_mode_flag` -/
  isSet : Bool
  /-- the last argument of `omp_set_num_threads` -/
  omp : Option Nat
  deriving DecidableEq, Repr

/-- at the start of the process -/
def Cpu.start : Cpu := ⟨[], [], [], .balance, false, none⟩

/-- the inner loop of the sort, cpu.cpp:108-120, at position `i`: `x` is at `i`, the list behind it; greater ones are exchanged with it. A processor and its
frequency (two vectors with the same exchanges in the code). -/
def pass : Nat × Int → List (Nat × Int) → (Nat × Int) × List (Nat × Int)
  | x, [] => (x, [])
  | x, y :: r =>
    if x.2 < y.2 then ((pass y r).1, x :: (pass y r).2)
    else ((pass x r).1, y :: (pass x r).2)

theorem pass_length (x : Nat × Int) (r : List (Nat × Int)) : (pass x r).2.length = r.length := by
  induction r generalizing x with
  | nil => rfl
  | cons y r ih => rw [pass]; split <;> simp [ih]

/-- the outer loop, cpu.cpp:106-121 -/
def sortBig : List (Nat × Int) → List (Nat × Int)
  | [] => []
  | x :: r => (pass x r).1 :: sortBig (pass x r).2
termination_by l => l.length
decreasing_by rw [pass_length]; simp

/-- the first loop, cpu.cpp:100-103, from processor `i` on: the frequencies, or the number of the processor at which reading throws -/
def readFreqs (m : Machine) : Nat → Nat → Except Nat (List (Nat × Int))
  | _, 0 => .ok []
  | i, left + 1 =>
    match m.freq i with
    | none => .error i
    | some f =>
      match readFreqs m (i + 1) left with
      | .ok r => .ok ((i, f) :: r)
      | .error k => .error k

/-- outcome of a call -/
inductive Ans where
  | ret (b : Bool)
  | thrown
  | ub
  deriving DecidableEq, Repr

/-- `split_cpu_big_little`, cpu.cpp:93-135: `.error` with the vector of processors as the exception leaves it: resized to zeros and filled up to there -/
def splitCpu (m : Machine) (c : Cpu) : Res (Except (List Nat) Cpu) :=
  match readFreqs m 0 m.cpus with
  | .error k => .ok (.error (List.range k ++ List.replicate (m.cpus - k) 0))
  | .ok l =>
    let s := sortBig l
    match s.head?, s.getLast? with
    | some a, some b => do
      let sum ← int32 (a.2 + b.2)
      let mid := sum.tdiv 2
      .ok (.ok { c with
        sorted := s.map (·.1)
        big := c.big ++ (s.filter fun p => p.2 ≥ mid).map (·.1)
        little := c.little ++ (s.filter fun p => ¬ p.2 ≥ mid).map (·.1) })
    | _, _ => .ub

/-- the first lines of `set_power_mode`, cpu.cpp:205-208 -/
def prepare (m : Machine) (c : Cpu) : Cpu × Ans :=
  if c.sorted = [] then
    match splitCpu m c with
    | .ok (.ok c') => (c', .ret true)
    | .ok (.error s) => ({ c with sorted := s }, .thrown)
    | _ => (c, .ub)
  else (c, .ret true)

/-- the processors of a mode, cpu.cpp:212-219 -/
def chosen (c : Cpu) : Mode → List Nat
  | .balance => c.sorted
  | .bigcore => c.big
  | .littlecore => c.little
  | .other _ => []

/-- `CpuEnable::set_power_mode`, cpu.cpp:200-260; `sched i` is the scheduler's answer to the `i`-th thread (`set_sched_affinity` gives `false` outside Android).
Also the sets of processors that the threads asked for. -/
def setPowerMode (m : Machine) (sched : Nat → Bool) (mode : Mode) (c : Cpu) : (Cpu × List (List Nat)) × Ans :=
  match prepare m c with
  | (c, .ret _) =>
    let ids := chosen c mode
    if c.little = [] ∧ mode ≠ .balance then ((c, []), .ret false)
    else if ids.length = 0 then ((c, []), .ret false)
    else
      let threads := if m.openmp then ids.length else 1
      let c := if m.openmp then { c with omp := some threads } else c
      let asked := if m.android then List.replicate threads ids else []
      let flag := (List.range threads).all fun i => m.android && sched i
      if flag then (({ c with mode := mode, isSet := true }, asked), .ret true)
      else ((c, asked), .ret false)
  | (c, a) => ((c, []), a)

/-- `get_cpu_big_num` and `get_cpu_little_num`, cpu.cpp:186-198 -/
def bigNum (c : Cpu) : Int := if c.isSet then c.big.length else -1
def littleNum (c : Cpu) : Int := if c.isSet then c.little.length else -1

/-! ## the runtime context -/

/-- `RuntimeContext`, include/runtime/runtime.h:52-61: the number, the size of the thread pool, and the two memory controllers (named by numbers) -/
structure Ctx where
  threads : Int
  pool : Option Nat
  flow : Option Nat
  dynamic : Option Nat
  deriving DecidableEq, Repr

/-- the members before a constructor's body -/
def Ctx.husk : Ctx := ⟨1, none, none, none⟩

/-- `set_computing_thread_number`, runtime.cpp:49-72 (the threads of OpenBLAS are not modelled) -/
def setThreads (m : Machine) (n : Int) (c : Ctx) : Ctx :=
  let fixed : Int := if n < 0 then (if m.openmp then m.procs else 8) else if n = 0 then 1 else n
  { c with threads := fixed, pool := some fixed.toNat }

/-- `RuntimeContext()`, runtime.cpp:36-42; `env` is the number in `TENNIS_NUMBER_THREADS`: `some none` if it is not set or empty, `none` if `std::stoi` throws -/
def newCtx (m : Machine) (env : Option (Option Int)) : Option Ctx :=
  match env with
  | none => none
  | some v => some (setThreads m (v.getD 4) .husk)

/-- `clone`, runtime.cpp:78-91; `fresh` names the cloned controllers. `none`: the default constructor throws. -/
def cloneCtx (m : Machine) (env : Option (Option Int)) (fresh : Nat → Nat) (c : Ctx) : Option Ctx :=
  match newCtx m env with
  | none => none
  | some d => some
    { threads := c.threads
      pool := match c.pool with | some n => some n | none => d.pool
      dynamic := c.dynamic.map fresh
      flow := c.flow.map fresh }

/-- the move assignment, runtime.cpp:97-103: an exchange -/
def moveAssign (c other : Ctx) : Ctx × Ctx := (other, c)

/-- the move constructor, runtime.cpp:93-95 -/
def moveCtor (other : Ctx) : Ctx × Ctx := moveAssign .husk other

/-- `thread_pool()`, runtime.cpp:105-107 -/
def threadPool (c : Ctx) : Res Nat :=
  match c.pool with
  | some n => .ok n
  | none => .ub

/-- `Workbench::set_cpu_power_mode`, workbench.cpp:650-671 -/
def benchPowerMode (m : Machine) (sched : Nat → Bool) (mode : Mode) (c : Cpu) (b : Ctx) : (Cpu × Ctx) × Ans :=
  match setPowerMode m sched mode c with
  | ((c', _), .ret true) =>
    let n : Int := match mode with
      | .balance => m.cpus
      | .bigcore => bigNum c'
      | .littlecore => littleNum c'
      | .other _ => b.threads
    ((c', setThreads m n b), .ret true)
  | ((c', _), a) => ((c', b), a)

end Verif.Runtime.Power
