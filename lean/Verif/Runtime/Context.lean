/-!
# Device contexts and the per-thread current context

`src/core/device_context.cpp`, `include/core/device_context.h`, `src/global/device_admin.cpp`,
`include/utils/ctxmgr_lite.h`, `include/utils/ctxmgr_lite_support.h`, `BindWorkbenchRuntime` of `src/runtime/workbench.cpp`
and the device context functions of `src/api/plugin.cpp`.

A context holds a handle that an administration function of its device made. The model records every call of an
administration function that makes, gives back or uses a handle. The registered functions do not change (they are
registered before `main`) and do not throw. Contexts and threads are named by numbers; a context that was destroyed is
not there any more, and using it is undefined.
-/
namespace Verif.Runtime.Context

/-- `ComputingDevice`: type and id, include/core/device.h:33-60 -/
structure Dev where
  type : String
  id : Int
  deriving DecidableEq, Repr

/-- calls of an administration function: which device's function, with which id, for which handle
(`DeviceAdmin::Action`, include/global/device_admin.h:19-29) -/
inductive Ev where
  | made (d : Dev) (h : Nat)
  | given (d : Dev) (h : Nat)
  | active (d : Dev) (h : Nat)
  | synced (d : Dev) (h : Nat)
  deriving DecidableEq, Repr

/-- what is registered: `DeviceAdmin::Query` finds a function (device_admin.cpp:17-24), `ComputingMemory::Query` finds a
memory device (memory_device.cpp:15-22), the administration function stores a handle when asked to initialise -/
structure Registry where
  admin : String → Bool
  memory : String → Bool
  handle : String → Bool

/-- the members of `DeviceContext`, device_context.h:59-73: `admin` is the device whose function `m_device_admin` is -/
structure Ctx where
  handle : Option Nat
  dev : Dev
  admin : Option String
  deriving DecidableEq, Repr

/-- `DeviceContext()`, device_context.h:21; `ComputingDevice()` is the CPU with id 0 -/
def Ctx.new : Ctx := ⟨none, ⟨"cpu", 0⟩, none⟩

/-- living contexts, the next handle, the calls so far (in order), per thread the current context
(`__thread_local_lite_context::m_ctx`, ctxmgr_lite_support.h:66-71) and the ones saved by open scopes, innermost first
(`m_pre_device_context`, workbench.cpp:65) -/
structure St where
  ctxs : Nat → Option Ctx
  fresh : Nat
  log : List Ev
  cur : Nat → Option Nat
  saved : Nat → List (Option Nat)

def St.start : St := ⟨fun _ => none, 0, [], fun _ => none, fun _ => []⟩

/-- a context's members replaced, or the context removed -/
def St.setCtx (s : St) (c : Nat) (x : Option Ctx) : St := { s with ctxs := fun k => if k = c then x else s.ctxs k }

/-- `DeviceContext::finalize`, device_context.cpp:38-43 -/
def finalizeCtx (x : Ctx) : Ctx × List Ev :=
  match x.admin, x.handle with
  | some t, some h => ({ x with handle := none }, [.given ⟨t, x.dev.id⟩ h])
  | _, _ => (x, [])

/-- `DeviceContext::synchronize`, device_context.cpp:51-55 -/
def syncEv (x : Ctx) : List Ev :=
  match x.admin, x.handle with
  | some t, some h => [.synced ⟨t, x.dev.id⟩ h]
  | _, _ => []

/-- `DeviceContext::active`, device_context.cpp:45-49 -/
def activeEv (x : Ctx) : List Ev :=
  match x.admin, x.handle with
  | some t, some h => [.active ⟨t, x.dev.id⟩ h]
  | _, _ => []

/-- how a call ends -/
inductive Out where
  | ok (s : St)
  | threw (s : St)
  | ub

/-- `DeviceContext::initialize`, device_context.cpp:19-28 -/
def initCtx (r : Registry) (c : Nat) (d : Dev) (s : St) : Out :=
  match s.ctxs c with
  | none => .ub
  | some x =>
    let x := { x with dev := d }
    if r.memory d.type then
      let x := { x with admin := if r.admin d.type then some d.type else none }
      let f := finalizeCtx x
      match f.1.admin with
      | some t =>
        if r.handle t then
          .ok { s.setCtx c (some { f.1 with handle := some s.fresh }) with
            fresh := s.fresh + 1, log := s.log ++ f.2 ++ [.made ⟨t, d.id⟩ s.fresh] }
        else .ok { s.setCtx c (some f.1) with log := s.log ++ f.2 }
      | none => .ok { s.setCtx c (some f.1) with log := s.log ++ f.2 }
    else .threw (s.setCtx c (some x))

/-- the calls on leaving the previous context, device_context.cpp:62-66; `none` when it does not exist any more -/
def leaveEv (p o : Option Nat) (s : St) : Option (List Ev) :=
  match p with
  | some p => if some p ≠ o then (s.ctxs p).map syncEv else some []
  | none => some []

/-- the calls on activating the new context, device_context.cpp:68-70 -/
def enterEv (o : Option Nat) (s : St) : Option (List Ev) :=
  match o with
  | some c => (s.ctxs c).map activeEv
  | none => some []

/-- `DeviceContext::Switch`, device_context.cpp:61-71 -/
def switch (t : Nat) (o : Option Nat) (s : St) : Out :=
  match leaveEv (s.cur t) o s with
  | none => .ub
  | some e1 =>
    match enterEv o s with
    | none => .ub
    | some e2 => .ok { s with log := s.log ++ e1 ++ e2, cur := fun k => if k = t then o else s.cur k }

/-- calls -/
inductive Op where
  /-- `DeviceContext()` -/
  | create (c : Nat)
  | init (c : Nat) (d : Dev)
  | finalize (c : Nat)
  /-- `a = std::move(b)`, device_context.h:77-85 -/
  | moveAssign (a b : Nat)
  /-- `~DeviceContext()`, device_context.cpp:15-17 -/
  | destroy (c : Nat)
  /-- `DeviceContext::Switch` in thread `t` -/
  | switch (t : Nat) (o : Option Nat)
  /-- constructor of `BindWorkbenchRuntime` in thread `t`, workbench.cpp:36-48 -/
  | enter (t c : Nat)
  /-- its destructor, at the end of the scope or when an exception passes, workbench.cpp:50-52 -/
  | leave (t : Nat)
  deriving DecidableEq

/-- one call. `moveAssign`: the raw pointer `handle` is copied, the `std::function` is left empty (libstdc++), the rest is
copied. -/
def step (r : Registry) (op : Op) (s : St) : Out :=
  match op with
  | .create c =>
    match s.ctxs c with
    | none => .ok (s.setCtx c (some Ctx.new))
    | some _ => .ub
  | .init c d => initCtx r c d s
  | .finalize c =>
    match s.ctxs c with
    | none => .ub
    | some x => .ok { s.setCtx c (some (finalizeCtx x).1) with log := s.log ++ (finalizeCtx x).2 }
  | .moveAssign a b =>
    match s.ctxs a, s.ctxs b with
    | some _, some y =>
      if a = b then .ok s
      else .ok ((s.setCtx a (some y)).setCtx b (some { y with admin := none }))
    | _, _ => .ub
  | .destroy c =>
    match s.ctxs c with
    | none => .ub
    | some x => .ok { s.setCtx c none with log := s.log ++ (finalizeCtx x).2 }
  | .switch t o => switch t o s
  | .enter t c =>
    match switch t (some c) s with
    | .ok s' => .ok { s' with saved := fun k => if k = t then s.cur t :: s'.saved k else s'.saved k }
    | o => o
  | .leave t =>
    match s.saved t with
    | [] => .ub
    | p :: rest =>
      match switch t p s with
      | .ok s' => .ok { s' with saved := fun k => if k = t then rest else s'.saved k }
      | o => o

/-- a history of calls; a call that throws leaves its state behind and the caller goes on -/
def run (r : Registry) : List Op → St → Option St
  | [], s => some s
  | op :: t, s =>
    match step r op s with
    | .ok s' => run r t s'
    | .threw s' => run r t s'
    | .ub => none

end Verif.Runtime.Context
