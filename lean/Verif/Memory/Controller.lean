import Verif.Core.Res
/-!
# Memory controllers: include/core/sync/sync_controller.h

`HypeSyncMemoryController`, which keeps one allocator (`DynamicMemoryController`, src/core/controller.cpp, or `FlowMemoryController`, src/memory/flow.cpp)
for every device. An allocator is a number; a block remembers the allocator it came from and its bytes. Of the memories that are handed out only the first
handle is modelled, whose device is the one that was asked for; the other handles: Verif/Memory/Sync.lean. Single-threaded; how an allocator finds space:
Verif/Memory/Vat.lean; a system without memory is not modelled. Calls that name a controller or memory that was never made do nothing here.
-/
namespace Verif.Memory.Ctl

variable {D α : Type} [DecidableEq D]

/-- a controller: whether `_MemoryController` is `FlowMemoryController`, `m_device` (sync_controller.h:63) and `m_sync_controllers`, the allocators by
device (138), newest last -/
structure Ctl (D : Type) where
  flow : Bool
  own : D
  map : List (D × Nat)

/-- a `Memory`: its device, the allocator it came from and its bytes -/
structure Block (D α : Type) where
  dev : D
  alloc : Nat
  bytes : List α

/-- a `SyncMemory`: the controller that its `sync_handler` keeps (sync_controller.h:108-118), its device, and its blocks by device -/
structure Mem (D : Type) where
  ctl : Nat
  dev : D
  copies : List (D × Nat)

/-- everything that was made so far; `next` allocators exist -/
structure World (D α : Type) where
  ctls : List (Ctl D)
  next : Nat
  blocks : List (Block D α)
  mems : List (Mem D)

/-- what is registered: `HardAllocator::Query(device.type())` (controller.cpp:16, flow.cpp:24) and `HardConverter::Query` (memory.cpp:101) -/
structure Registry (D : Type) where
  allocates : D → Bool
  converts : D → D → Bool

/-- `m_sync_values.find(key)` -/
def find (m : List (D × Nat)) (d : D) : Option Nat := (m.find? fun e => decide (e.1 = d)).map Prod.snd

/-- a call with the bytes that its new block happens to hold -/
inductive Call (D α : Type) where
  | make (flow : Bool) (d : D)
  | clone (c : Nat)
  | clear (c : Nat) (d : D)
  | alloc (c : Nat) (d : D) (junk : List α)
  | sync (m : Nat) (d : D)
  | write (b : Nat) (bytes : List α)

namespace World

/-- nothing was made yet -/
def empty : World D α := ⟨[], 0, [], []⟩

/-- whether an allocator can be made for a device: `DynamicMemoryController` throws if none is registered (controller.cpp:17), `FlowMemoryController` only
writes to the log (flow.cpp:26, no `eject`) -/
def makes (R : Registry D) (flow : Bool) (d : D) : Bool := flow || R.allocates d

/-- `Make`, sync_controller.h:78-87: the allocator of the controller's own device is made at once -/
def make (R : Registry D) (w : World D α) (flow : Bool) (d : D) : World D α × Bool :=
  if makes R flow d then ({ w with ctls := w.ctls ++ [⟨flow, d, [(d, w.next)]⟩], next := w.next + 1 }, true) else (w, false)

/-- `m_sync_controllers.sync(device)`, sync_controller.h:99, 113 and sync_block.h:84-98 with `sync_controller_handler` (142-147): the allocator for a device,
made when it is asked for first; `none`: an exception -/
def serve (R : Registry D) (w : World D α) (c : Nat) (d : D) : World D α × Option Nat :=
  match w.ctls[c]? with
  | none => (w, none)
  | some k =>
    match find k.map d with
    | some a => (w, some a)
    | none =>
      if makes R k.flow d then ({ w with ctls := w.ctls.set c ⟨k.flow, k.own, k.map ++ [(d, w.next)]⟩, next := w.next + 1 }, some w.next) else (w, none)

/-- `alloc(device, size)`, sync_controller.h:98-102, with `alloc(size)` of the allocator (controller.cpp:20-22, flow.cpp:63-65): without a registered function
an empty `std::function` is called, which throws; a request for no bytes is treated alike -/
def alloc (R : Registry D) (w : World D α) (c : Nat) (d : D) (junk : List α) : World D α × Option Nat :=
  match w.serve R c d with
  | (w1, none) => (w1, none)
  | (w1, some a) =>
    if R.allocates d then
      ({ w1 with blocks := w1.blocks ++ [⟨d, a, junk⟩], mems := w1.mems ++ [⟨c, d, [(d, w1.blocks.length)]⟩] }, some w1.blocks.length)
    else (w1, none)

/-- `SyncBlock::sync` of a memory (sync_block.h:84-98, 159-168) with the handler of sync_controller.h:110-117: the block on a device; a new one is taken from
the controller and filled from the block of the memory's own device. A failed `memcpy` gives the new block back. -/
def sync (R : Registry D) (w : World D α) (m : Nat) (d : D) : World D α × Option Nat :=
  match w.mems[m]? with
  | none => (w, none)
  | some x =>
    match find x.copies d with
    | some b => (w, some b)
    | none =>
      match w.serve R x.ctl d with
      | (w1, none) => (w1, none)
      | (w1, some a) =>
        match (find x.copies x.dev).bind fun b => w1.blocks[b]? with
        | none => (w1, none)
        | some src =>
          if R.allocates d ∧ R.converts d x.dev then
            ({ w1 with blocks := w1.blocks ++ [⟨d, a, src.bytes⟩], mems := w1.mems.set m ⟨x.ctl, x.dev, x.copies ++ [(d, w1.blocks.length)]⟩ },
              some w1.blocks.length)
          else (w1, none)

/-- `clear(device)`, sync_controller.h:90-92 and sync_block.h:75-79 -/
def clear (w : World D α) (c : Nat) (d : D) : World D α × Bool :=
  match w.ctls[c]? with
  | none => (w, false)
  | some k => if d = k.own then (w, false) else ({ w with ctls := w.ctls.set c ⟨k.flow, k.own, k.map.filter fun e => decide (e.1 ≠ d)⟩ }, true)

/-- `clone`, sync_controller.h:104-106: a controller of the same device -/
def clone (R : Registry D) (w : World D α) (c : Nat) : World D α × Bool :=
  match w.ctls[c]? with
  | none => (w, false)
  | some k => w.make R k.flow k.own

/-- writing through a block -/
def write (w : World D α) (b : Nat) (bytes : List α) : World D α :=
  match w.blocks[b]? with
  | none => w
  | some x => { w with blocks := w.blocks.set b ⟨x.dev, x.alloc, bytes⟩ }

/-- one call, and the block it returns -/
def step (R : Registry D) (w : World D α) : Call D α → World D α × Option Nat
  | .make f d => ((w.make R f d).1, none)
  | .clone c => ((w.clone R c).1, none)
  | .clear c d => ((w.clear c d).1, none)
  | .alloc c d junk => w.alloc R c d junk
  | .sync m d => w.sync R m d
  | .write b bytes => (w.write b bytes, none)

/-- a history of calls; what throws is caught by the caller -/
def run (R : Registry D) (w : World D α) : List (Call D α) → World D α
  | [] => w
  | x :: t => run R (w.step R x).1 t

/-- the devices that `summary` names, sync_controller.h:120-133; their order (`std::map`) and the amounts are left out -/
def summary (w : World D α) (c : Nat) : List D :=
  match w.ctls[c]? with
  | none => []
  | some k => k.map.map Prod.fst

end World
end Verif.Memory.Ctl
