import Verif.Core.Res
/-!
# `HardMemory` on the CPU: src/core/hard_memory.cpp, include/core/hard_memory.h, src/kernels/cpu/memory_cpu.cpp:14-41

The heap of the process is the list of the blocks that are allocated, with their bytes. The system may refuse any request (`room`), and a new
block holds arbitrary bytes (`junk`). (`HardMemory` on the pool of the flow controller: `Verif.Memory.Hard` in `Memory/Vat`.)
Not modelled: addresses (a block is a number that is never used again), devices other than the CPU, several threads. The allocator is a
`std::function`; moving it leaves the source empty, and moving it onto itself changes nothing (libstdc++; the standard leaves both open).
-/
namespace Verif.Memory.HardCpu
open Verif.Core

/-- the heap: allocated blocks and the number of the next one -/
structure Heap where
  live : List (Nat × List UInt8)
  next : Nat
  deriving DecidableEq

/-- what a call of the allocator does: it returns, it throws, or it is undefined -/
inductive Got (α : Type) where
  | ok (a : α) (h : Heap)
  | thrown (h : Heap)
  | ub
  deriving DecidableEq

/-- the bytes of a block -/
def Heap.bytes (h : Heap) (p : Nat) : Option (List UInt8) := (h.live.find? (fun e => e.1 == p)).map Prod.snd

/-- `std::free` of a block: undefined if it is not allocated -/
def Heap.free (h : Heap) (p : Nat) : Option Heap :=
  match h.bytes p with
  | some _ => some { h with live := h.live.filter (fun e => e.1 != p) }
  | none => none

/-- `std::malloc(n)`, given that the system has room -/
def Heap.malloc (h : Heap) (b : List UInt8) : Nat × Heap := (h.next, ⟨(h.next, b) :: h.live, h.next + 1⟩)

/-- `n` bytes of anything -/
def some_bytes (junk : Nat → UInt8) (n : Nat) : List UInt8 := (List.range n).map junk

/-- `std::realloc(mem, n)`: the first bytes are kept -/
def grown (junk : Nat → UInt8) (old : List UInt8) (n : Nat) : List UInt8 := old.take n ++ some_bytes junk (n - old.length)

/-- `cpu_allocator`, memory_cpu.cpp:14-31. `room`: the system gives the memory. -/
def cpuAllocator (room : Bool) (junk : Nat → UInt8) (h : Heap) (n : Nat) (mem : Option Nat) (memSize : Nat) : Got (Option Nat) :=
  if n = 0 then
    match mem with
    | none => .ok none h
    | some p => match h.free p with
      | some h => .ok none h
      | none => .ub
  else match mem with
    | some p =>
      if memSize ≠ 0 then
        match h.bytes p with
        | none => .ub
        | some old =>
          if room then
            match h.free p with
            | some h1 => let r := h1.malloc (grown junk old n); .ok (some r.1) r.2
            | none => .ub
          else .thrown h
      else match h.free p with
        | none => .ub
        | some h1 => if room then let r := h1.malloc (some_bytes junk n); .ok (some r.1) r.2 else .thrown h1
    | none => if room then let r := h.malloc (some_bytes junk n); .ok (some r.1) r.2 else .thrown h

/-- a `HardMemory`, hard_memory.h:139-143; `owns`: it has an allocator -/
structure Obj where
  data : Option Nat
  cap : Nat
  owns : Bool
  deriving DecidableEq

/-- the objects that exist, and the heap -/
structure World where
  heap : Heap
  objs : Nat → Option Obj
  count : Nat

def World.empty : World := ⟨⟨[], 0⟩, fun _ => none, 0⟩

def World.set (w : World) (i : Nat) (o : Option Obj) : World := { w with objs := fun j => if j = i then o else w.objs j }

/-- a call returns, throws, or is undefined -/
inductive Done where
  | fine (w : World)
  | thrown (w : World)
  | undef

/-- `m_data = m_allocator(id, n, m_data, mem_size); m_capacity = n;` of the object `i` -/
def assignFrom (w : World) (i : Nat) (o : Obj) (n : Nat) : Got (Option Nat) → Done
  | .ok p h => .fine ({ w with heap := h }.set i (some { o with data := p, cap := n }))
  | .thrown h => .thrown { w with heap := h }
  | .ub => .undef

/-- the calls; `room` and `junk`: what the system does. A call on an object that does not exist is not made (nothing happens). -/
inductive Op where
  | make (n : Nat) (room : Bool) (junk : Nat → UInt8)
  | borrow (p : Option Nat) (n : Nat)
  | resize (i n : Nat) (room : Bool) (junk : Nat → UInt8)
  | expect (i n : Nat) (room : Bool) (junk : Nat → UInt8)
  | shrink (i n : Nat) (room : Bool) (junk : Nat → UInt8)
  | dispose (i : Nat)
  | moveNew (i : Nat)
  | moveTo (dst src : Nat)
  | swap (i j : Nat)
  | destroy (i : Nat)

/-- `HardMemory::resize`, hard_memory.cpp:64-70 -/
def resize (w : World) (i : Nat) (o : Obj) (n : Nat) (room : Bool) (junk : Nat → UInt8) : Done :=
  if o.owns then
    if n ≠ o.cap then assignFrom w i o n (cpuAllocator room junk w.heap n o.data 0) else .fine w
  else .thrown w

/-- one call. The constructor with a size delegates to the one without (hard_memory.cpp:30-33, 18-21): if `resize` throws, the destructor runs on
the object, which has no data; so the object never exists -/
def step (w : World) : Op → Done
  | .make n room junk =>
    if n = 0 then .fine { w.set w.count (some ⟨none, 0, true⟩) with count := w.count + 1 }
    else match cpuAllocator room junk w.heap n none 0 with
      | .ok p h => .fine { ({ w with heap := h }.set w.count (some ⟨p, n, true⟩)) with count := w.count + 1 }
      | .thrown h => .thrown { w with heap := h }
      | .ub => .undef
  | .borrow p n => .fine { w.set w.count (some ⟨p, n, false⟩) with count := w.count + 1 }
  | .resize i n room junk =>
    match w.objs i with
    | none => .fine w
    | some o => resize w i o n room junk
  | .expect i n room junk =>
    match w.objs i with
    | none => .fine w
    | some o =>
      if o.owns then
        if n > o.cap then assignFrom w i o n (cpuAllocator room junk w.heap n o.data o.cap) else .fine w
      else .thrown w
  | .shrink i n room junk =>
    match w.objs i with
    | none => .fine w
    | some o =>
      if o.owns then
        if n < o.cap then assignFrom w i o n (cpuAllocator room junk w.heap n o.data o.cap) else .fine w
      else .thrown w
  | .dispose i =>
    match w.objs i with
    | none => .fine w
    | some o =>
      if o.owns then
        match cpuAllocator true (fun _ => 0) w.heap 0 o.data 0 with
        | .ok _ h => .fine ({ w with heap := h }.set i (some { o with data := none }))
        | _ => .undef
      else .fine (w.set i (some { o with data := none }))
  | .moveNew i =>
    match w.objs i with
    | none => .fine w
    | some o => .fine { (w.set i (some { o with owns := false })).set w.count (some o) with count := w.count + 1 }
  | .moveTo dst src =>
    match w.objs dst, w.objs src with
    | some _, some o => if dst = src then .fine w else .fine ((w.set src (some { o with owns := false })).set dst (some o))
    | _, _ => .fine w
  | .swap i j =>
    match w.objs i, w.objs j with
    | some a, some b => .fine ((w.set i (some b)).set j (some a))
    | _, _ => .fine w
  | .destroy i =>
    match w.objs i with
    | none => .fine w
    | some o =>
      if o.owns then
        match cpuAllocator true (fun _ => 0) w.heap 0 o.data 0 with
        | .ok _ h => .fine ({ w with heap := h }.set i none)
        | _ => .undef
      else .fine (w.set i none)

/-- a sequence of calls, exceptions caught by the caller; `none`: undefined -/
def run (w : World) : List Op → Option World
  | [] => some w
  | op :: ops => match step w op with
    | .fine w => run w ops
    | .thrown w => run w ops
    | .undef => none

end Verif.Memory.HardCpu
