import Verif.Memory.Hard
/-!
# Registries of a device's memory: src/global/hard_allocator.cpp, src/global/hard_converter.cpp

A backend registers how memory of its device is allocated and copied. The functions are arbitrary functions on a memory state `S`; a pointer is a number or null.
`std::map` is a list of keys with values in which a key occurs once (its order is not observable here). Not modelled: several threads (the maps have no locks;
the headers allow registration only before running).
-/
namespace Verif.Memory.Devices
open Verif.Core

/-- an exception of the library, or one of the standard library (`std::bad_function_call`), which the C interface does not catch -/
inductive Exn where
  | own
  | badCall
  deriving DecidableEq, Repr

/-- outcome of a function on the memory -/
inductive Out (S α : Type) where
  | ok (a : α) (s : S)
  | thrown (e : Exn) (s : S)
  | ub

def Out.bind {S α β : Type} : Out S α → (α → S → Out S β) → Out S β
  | .ok a s, f => f a s
  | .thrown e s, _ => .thrown e s
  | .ub, _ => .ub

/-- `HardAllocator::function`, hard_allocator.h:40-66: device number, new size, old pointer, old size -/
abbrev Alloc (S : Type) := Int → Nat → Option Nat → Nat → S → Out S (Option Nat)

/-- `HardConverter::function`, hard_converter.h:22: to (device number, pointer), from (device number, pointer), size -/
abbrev Conv (S : Type) := Int → Option Nat → Int → Option Nat → Nat → S → Out S Unit

/-- `_malloc`, `_free` and `_realloc`, hard_allocator.h:89-91 -/
structure Parts (S : Type) where
  new : Int → Nat → S → Out S (Option Nat)
  del : Int → Option Nat → S → Out S Unit
  reset : Alloc S

/-- `HardAllocator::Bind`, hard_allocator.cpp:59-74 -/
def bindParts {S : Type} (p : Parts S) : Alloc S := fun id n mem memSize s =>
  if n = 0 then (p.del id mem s).bind fun _ s => .ok none s
  else match mem with
    | some _ =>
      if memSize > 0 then p.reset id n mem memSize s
      else (p.del id mem s).bind fun _ s => p.new id n s
    | none => p.new id n s

/-- the `_reset` that `RegisterV2` makes, hard_allocator.cpp:50-55; calling an empty `std::function` throws `std::bad_function_call` -/
def resetV2 {S : Type} (new : Int → Nat → S → Out S (Option Nat)) (del : Int → Option Nat → S → Out S Unit) (conv : Option (Conv S)) : Alloc S :=
  fun id n mem memSize s =>
    (new id n s).bind fun q s =>
      match conv with
      | none => .thrown .badCall s
      | some c => (c id q id mem (min n memSize) s).bind fun _ s => (del id mem s).bind fun _ s => .ok q s

/-! ## the maps -/

/-- `map[k] = v` -/
def assign {K V : Type} [DecidableEq K] (k : K) (v : V) : List (K × V) → List (K × V)
  | [] => [(k, v)]
  | e :: r => if e.1 = k then (k, v) :: r else e :: assign k v r

/-- `map.find(k)` -/
def find {K V : Type} [DecidableEq K] (k : K) : List (K × V) → Option V
  | [] => none
  | e :: r => if e.1 = k then some e.2 else find k r

/-- the two registries; a registered `std::function` may be empty -/
structure Reg (S : Type) where
  allocs : List (String × Option (Alloc S))
  convs : List (String × List (String × Option (Conv S)))

def Reg.empty {S : Type} : Reg S := ⟨[], []⟩

/-- `HardAllocator::Query`, hard_allocator.cpp:22-29; `none` is an empty function -/
def Reg.queryAlloc {S : Type} (r : Reg S) (d : String) : Option (Alloc S) :=
  match find d r.allocs with
  | some a => a
  | none => none

/-- `HardConverter::Query`, hard_converter.cpp:18-30 -/
def Reg.queryConv {S : Type} (r : Reg S) (dst src : String) : Option (Conv S) :=
  match find dst r.convs with
  | some m => match find src m with
    | some c => c
    | none => none
  | none => none

/-- `HardAllocator::Register`, hard_allocator.cpp:31-34 -/
def Reg.regAlloc {S : Type} (r : Reg S) (d : String) (a : Option (Alloc S)) : Reg S := { r with allocs := assign d a r.allocs }

/-- `HardConverter::Register`, hard_converter.cpp:32-46 -/
def Reg.regConv {S : Type} (r : Reg S) (dst src : String) (c : Option (Conv S)) : Reg S :=
  match find dst r.convs with
  | some m => { r with convs := assign dst (assign src c m) r.convs }
  | none => { r with convs := assign dst [(src, c)] r.convs }

/-- `HardAllocator::RegisterV3`, hard_allocator.cpp:41-45 -/
def Reg.regV3 {S : Type} (r : Reg S) (d : String) (p : Parts S) : Reg S := r.regAlloc d (some (bindParts p))

/-- `HardAllocator::RegisterV2`, hard_allocator.cpp:47-57: the converter is asked for now -/
def Reg.regV2 {S : Type} (r : Reg S) (d : String) (new : Int → Nat → S → Out S (Option Nat)) (del : Int → Option Nat → S → Out S Unit) : Reg S :=
  r.regV3 d ⟨new, del, resetV2 new del (r.queryConv d d)⟩

/-- `HardAllocator::AllKeys`, hard_allocator.cpp:76-81 -/
def Reg.allocKeys {S : Type} (r : Reg S) : List String := r.allocs.map (·.1)

/-- `HardConverter::AllKeys`, hard_converter.cpp:53-63 -/
def Reg.convKeys {S : Type} (r : Reg S) : List (String × String) := r.convs.flatMap fun e => e.2.map fun x => (e.1, x.1)

/-- the calls of the two registries -/
inductive Op (S : Type) where
  | alloc (d : String) (a : Option (Alloc S))
  | v2 (d : String) (new : Int → Nat → S → Out S (Option Nat)) (del : Int → Option Nat → S → Out S Unit)
  | v3 (d : String) (p : Parts S)
  | conv (dst src : String) (c : Option (Conv S))
  | clearAllocs
  | clearConvs

/-- one call; the `Clear`s: hard_allocator.cpp:36-39, hard_converter.cpp:48-51 -/
def step {S : Type} (r : Reg S) : Op S → Reg S
  | .alloc d a => r.regAlloc d a
  | .v2 d new del => r.regV2 d new del
  | .v3 d p => r.regV3 d p
  | .conv dst src c => r.regConv dst src c
  | .clearAllocs => { r with allocs := [] }
  | .clearConvs => { r with convs := [] }

def run {S : Type} (r : Reg S) : List (Op S) → Reg S
  | [] => r
  | op :: ops => run (step r op) ops

/-! ## the functions of the processor's memory, for comparison -/

open Verif.Memory.HardCpu (Heap Got some_bytes grown)

/-- `std::malloc` with an exception instead of a null pointer -/
def sysNew (room : Bool) (junk : Nat → UInt8) : Int → Nat → Heap → Out Heap (Option Nat) := fun _ n h =>
  if room then .ok (some (h.malloc (some_bytes junk n)).1) (h.malloc (some_bytes junk n)).2 else .thrown .own h

/-- `std::free` -/
def sysDel : Int → Option Nat → Heap → Out Heap Unit := fun _ p h =>
  match p with
  | none => .ok () h
  | some p => match h.free p with
    | some h => .ok () h
    | none => .ub

/-- `std::realloc` with an exception instead of a null pointer -/
def sysReset (room : Bool) (junk : Nat → UInt8) : Alloc Heap := fun _ n mem _ h =>
  match mem with
  | none => .ub
  | some p => match h.bytes p with
    | none => .ub
    | some old =>
      if room then
        match h.free p with
        | some h => .ok (some (h.malloc (grown junk old n)).1) (h.malloc (grown junk old n)).2
        | none => .ub
      else .thrown .own h

/-- outcomes of `Memory/Hard` -/
def toGot : Out Heap (Option Nat) → Got (Option Nat)
  | .ok p h => .ok p h
  | .thrown _ h => .thrown h
  | .ub => .ub

end Verif.Memory.Devices
