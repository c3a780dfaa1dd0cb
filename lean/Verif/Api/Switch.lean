import Verif.Api.Plugin
/-!
# Choosing a library for the instruction set of the processor

src/runtime/switcher.cpp, src/runtime/importor.cpp, src/api/plugin.cpp, src/utils/cpu_info.cpp, the constructor of `Workbench`
(src/runtime/workbench.cpp:83-124) and `OperatorCreator::flush`, `Clear` (src/global/operator_factory.cpp:42-57).

Not modelled: how the directory of the running library is found (`getmodelpath`, a parameter), messages, threads (`auto_switch`
holds a mutex), the contexts inside of the loaded library (a context is only present or missing), iOS.
-/
namespace Verif.Api.Switching
open Verif.Core Verif.Api

/-- the features of cpu_info.h that the switcher and the workbench ask for -/
inductive Feature where
  | avx
  | fma
  | sse
  | sse2
  deriving DecidableEq

/-- what the processor says: `cpuid` with eax = 1 (`ecx`, `edx`) and the low half of `XCR0` -/
structure Cpuid where
  ecx : Nat
  edx : Nat
  xcr0 : Nat

/-- `have_avx`, cpu_info.cpp:115-121: `XGETBV` is executed only if the first operand of `&&` is true -/
def Cpuid.haveAvx (c : Cpuid) : Bool := c.ecx.testBit 27 && ((c.xcr0 &&& 6) == 6 && c.ecx.testBit 28)

/-- `CPUIDInfo::check_feature`, cpu_info.cpp:99-124, 137-166 (bit fields of one bit are true if they are not zero) -/
def Cpuid.has (c : Cpuid) : Feature → Bool
  | .avx => c.haveAvx
  | .fma => c.haveAvx && c.ecx.testBit 12
  | .sse => c.edx.testBit 25
  | .sse2 => c.edx.testBit 26

/-- `check_cpu_features(features)`, switcher.cpp:37-45, workbench.cpp:95-102 -/
def hasAll (cpu : Feature → Bool) : List Feature → Bool
  | [] => true
  | f :: fs => if cpu f then hasAll cpu fs else false

variable {F : Type}

/-- a library that `dlopen` gives: the operators registered in it by its static initialisers, and which of the functions of
src/api/plugin.h can be found in it; `context`: does `ts_plugin_initial_device_context` succeed (it returns null if not, plugin.cpp:49-57) -/
structure Lib (F : Type) where
  map : Registry F
  getMap : Bool
  freeMap : Bool
  initContext : Bool
  freeContext : Bool
  bindContext : Bool
  context : Bool

/-- `OperatorCreator::flush`, operator_factory.cpp:47-53: the map is cleared, then filled entry by entry -/
def _root_.Verif.Api.Registry.flush (m : Registry F) : Registry F := m.foldl (fun r e => r.register e.1.1 e.1.2 e.2) []

/-- `OperatorCreator::Clear`, operator_factory.cpp:55-58 -/
def _root_.Verif.Api.Registry.clear (_ : Registry F) : Registry F := []

/-- `class Switcher`, switcher.cpp:150-239 -/
structure Switcher (F : Type) where
  handle : Option (Lib F)
  pre : Option (Registry F)
  loaded : Bool

/-- the static `Switcher`, switcher.cpp:241-244, is made when it is first asked for; `reg` is the registry of the main library -/
structure World (F : Type) where
  reg : Registry F
  switcher : Option (Switcher F)

/-- the machine: its features, the directory of the main library, and the loader of the system -/
structure Machine (F : Type) where
  cpu : Feature → Bool
  dir : List Char
  dlopen : List Char → Option (Lib F)

/-- the names of the libraries on Linux, switcher.cpp:19-22 -/
def haswell : List Char := "libtennis_haswell.so".toList
def sandyBridge : List Char := "libtennis_sandy_bridge.so".toList
def pentium : List Char := "libtennis_pentium.so".toList

/-- the choice, switcher.cpp:171, 181, 191: `none` throws (switcher.cpp:201-203) -/
def choose (cpu : Feature → Bool) : Option (List Char) :=
  if hasAll cpu [.avx, .fma] then some haswell
  else if hasAll cpu [.avx] then some sandyBridge
  else if hasAll cpu [.sse, .sse2] then some pentium
  else none

/-- `m_importer->load(path)`, then `load(name)`, switcher.cpp:174-179, importor.cpp:23-31 -/
def load (m : Machine F) (name : List Char) : Option (Lib F) :=
  match m.dlopen (m.dir ++ '/' :: name) with
  | some l => some l
  | none => m.dlopen name

/-- `Switcher::auto_switch`, switcher.cpp:163-215, on the made switcher `s`. Calling a function that was not found is undefined; a
null deleter too, but only when the map is freed. -/
def Switcher.autoSwitch (m : Machine F) (s : Switcher F) (reg : Registry F) : Res Unit × Switcher F × Registry F :=
  if s.loaded then (.ok (), s, reg)
  else match choose m.cpu with
    | none => (.err, s, reg)
    | some name =>
      match load m name with
      | none => (.err, { s with handle := none }, reg)
      | some l =>
        if l.getMap then (.ok (), { handle := some l, pre := some reg, loaded := true }, l.map.flush)
        else (.ub, { handle := some l, pre := some reg, loaded := true }, reg)

/-- `SwitchControll` of a workbench, switcher.h:15-37: is the library loaded, and has it a context -/
structure Control where
  loaded : Bool
  context : Bool
  deriving DecidableEq

/-- `SwitchControll::init_context`, switcher.cpp:257-271 -/
def initContext (s : Switcher F) : Res Bool :=
  match s.handle with
  | none => .err
  | some l => if l.initContext then .ok l.context else .ub

/-- `SwitchControll::auto_switch`, switcher.cpp:246-251, of a new control -/
def autoSwitch (m : Machine F) (w : World F) : Res Control × World F :=
  match (w.switcher.getD ⟨none, none, false⟩).autoSwitch m w.reg with
  | (.ok _, s, reg) =>
    match initContext s with
    | .ok c => (.ok ⟨true, c⟩, ⟨reg, some s⟩)
    | .err => (.err, ⟨reg, some s⟩)
    | .ub => (.ub, ⟨reg, some s⟩)
  | (.err, s, reg) => (.err, ⟨reg, some s⟩)
  | (.ub, s, reg) => (.ub, ⟨reg, some s⟩)

/-- the part of the constructor of `Workbench` that chooses, workbench.cpp:120-123; `built` are the features that the main library
was compiled for, workbench.cpp:83-94 -/
def openBench (m : Machine F) (built : List Feature) (w : World F) : Res Control × World F :=
  if hasAll m.cpu built then (.ok ⟨false, false⟩, w) else autoSwitch m w

/-- `SwitchControll::bind_context`, switcher.cpp:273-284, which every run of a workbench calls when it is loaded, workbench.cpp:44-47 -/
def bindContext (w : World F) (c : Control) : Res Unit :=
  if c.loaded then
    if c.context then
      match w.switcher with
      | some ⟨some l, _, _⟩ => if l.bindContext then .ok () else .ub
      | _ => .err
    else .err
  else .ok ()

/-- the end of the process: `~Switcher`, switcher.cpp:158-160, 225-229, plugin.cpp:37-41: the pointer is not checked -/
def exitProcess (w : World F) : Res (Registry F) :=
  match w.switcher with
  | none => .ok w.reg
  | some s =>
    match s.pre with
    | none => .ub
    | some p => .ok p.flush

/-- what a program does -/
inductive Step (F : Type) where
  | register (d n : List Nat) (f : F)
  | bench

/-- one step; an exception is caught by the program -/
def step (m : Machine F) (built : List Feature) (w : World F) : Step F → World F
  | .register d n f => { w with reg := w.reg.register d n f }
  | .bench => (openBench m built w).2

def steps (m : Machine F) (built : List Feature) (w : World F) (l : List (Step F)) : World F := l.foldl (step m built) w

end Verif.Api.Switching
