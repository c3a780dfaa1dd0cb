import Verif.Core.Res
/-!
# The pooled allocator (src/memory/orz/pot.cpp, vat.cpp, src/memory/flow.cpp:15-69, src/core/hard_memory.cpp)

Addresses are naturals, `0` is `nullptr`. The system allocator is the environment: every call that may reach it takes
the address `a` it would answer. A block is held exactly as long as some pot refers to it (`shared_ptr`).
-/
namespace Verif.Memory
open Verif.Core

/-- `Pot`, pot.h: a block of `cap` bytes at `data`, of which `size` were last asked for -/
structure Pot where
  data : Nat
  cap : Nat
  size : Nat
  deriving DecidableEq, Repr

/-- `Pot::Pot(allocator)`, pot.cpp:20-22 -/
def Pot.new : Pot := ⟨0, 0, 0⟩

/-- `Pot::malloc`, pot.cpp:24-31; the address returned is the new `data` -/
def Pot.malloc (p : Pot) (n a : Nat) : Pot :=
  if n > p.cap then ⟨a, n, n⟩ else { p with size := n }

/-- `Vat`, vat.h: pooled pots in order, and the pots handed out by address -/
structure Vat where
  heap : List Pot
  dict : List (Nat × Pot)
  deprecated : Bool
  deriving DecidableEq, Repr

/-- a new pool -/
def Vat.new : Vat := ⟨[], [], false⟩

/-- `binary_find(heap, size, left, right)`, vat.cpp:25-39. `right` is `-1` only for an empty heap, where `left = 0` is
returned at once; naturals with `right = 0` do the same. A `right` below `left` also returns `left`. -/
def binaryFind (caps : List Nat) (size l r : Nat) : Nat :=
  if r ≤ l then l
  else
    let m := (l + r) / 2
    if caps.getD m 0 < size then binaryFind caps size (m + 1) r
    else if 0 < m ∧ size ≤ caps.getD (m - 1) 0 then binaryFind caps size l (m - 1)
    else m
termination_by r - l

/-- `binary_find(heap, size)`, vat.cpp:43-45 -/
def find (heap : List Pot) (size : Nat) : Nat := binaryFind (heap.map Pot.cap) size 0 (heap.length - 1)

/-- `std::map::insert`: keeps an existing entry -/
def insertNew (d : List (Nat × Pot)) (k : Nat) (p : Pot) : List (Nat × Pot) :=
  if k ∈ d.map Prod.fst then d else (k, p) :: d

/-- `Vat::malloc`, vat.cpp:47-61: the address and the pool afterwards -/
def Vat.malloc (v : Vat) (n a : Nat) : Nat × Vat :=
  if n = 0 then (0, v)
  else
    let i := find v.heap n
    let pot := (v.heap.getD i Pot.new).malloc n a
    (pot.data, { v with heap := v.heap.eraseIdx i, dict := insertNew v.dict pot.data pot })

/-- `Vat::free`, vat.cpp:63-79 -/
def Vat.free (v : Vat) (p : Nat) : Res Vat :=
  if p = 0 then .ok v
  else match v.dict.find? (fun e => e.1 == p) with
    | none => .err
    | some e =>
      let heap := if v.deprecated then v.heap else v.heap.insertIdx (find v.heap e.2.cap) e.2
      .ok { v with heap := heap, dict := v.dict.filter fun e => e.1 != p }

/-- insertion of a pot into pots sorted by capacity, for `std::sort` -/
def sortIn (p : Pot) : List Pot → List Pot
  | [] => [p]
  | q :: t => if p.cap ≤ q.cap then p :: q :: t else q :: sortIn p t

/-- `Vat::reset`, vat.cpp:81-87. (`std::sort` leaves the order of equal capacities open; the model fixes one.) -/
def Vat.reset (v : Vat) : Vat :=
  { v with heap := (v.heap ++ v.dict.map Prod.snd).foldr sortIn [], dict := [] }

/-- `Vat::dispose`, vat.cpp:89-92 -/
def Vat.dispose (v : Vat) : Vat := { v with heap := [], dict := [] }

/-- `Vat::clean`, vat.cpp:111-114 -/
def Vat.clean (v : Vat) : Vat := { v with heap := [] }

/-- `Vat::deprecated`, vat.cpp:116-119; called by the controller's destructor, flow.cpp:59-61 -/
def Vat.retire (v : Vat) : Vat := { v with heap := [], deprecated := true }

/-- the pots the pool refers to: their blocks are held, all others are returned to the system -/
def Vat.pots (v : Vat) : List Pot := v.heap ++ v.dict.map Prod.snd

/-- `Vat::summary`, vat.cpp:121-130 -/
def Vat.summary (v : Vat) : Nat := (v.pots.map Pot.cap).sum

/-- the controller's allocator function, flow.cpp:37-56: `(new_size, mem, mem_size)` -/
def managed (v : Vat) (n mem memSize a : Nat) : Res (Nat × Vat) :=
  if n = 0 then do
    let v ← v.free mem
    .ok (0, v)
  else if mem ≠ 0 then
    if memSize > 0 then .err
    else do
      let v ← v.free mem
      .ok (v.malloc n a)
  else .ok (v.malloc n a)

/-- `HardMemory` on such an allocator, hard_memory.cpp: capacity and data -/
structure Hard where
  cap : Nat
  data : Nat
  deriving DecidableEq, Repr

/-- `HardMemory::resize`, hard_memory.cpp:64-70; also the constructor, from `⟨0, 0⟩` -/
def Hard.resize (m : Hard) (v : Vat) (n a : Nat) : Res (Hard × Vat) :=
  if n ≠ m.cap then do
    let (p, v) ← managed v n m.data 0 a
    .ok (⟨n, p⟩, v)
  else .ok (m, v)

/-- `HardMemory::expect`, hard_memory.cpp:48-54 -/
def Hard.expect (m : Hard) (v : Vat) (n a : Nat) : Res (Hard × Vat) :=
  if n > m.cap then do
    let (p, v) ← managed v n m.data m.cap a
    .ok (⟨n, p⟩, v)
  else .ok (m, v)

/-- `HardMemory::dispose`, hard_memory.cpp:43-46 -/
def Hard.dispose (m : Hard) (v : Vat) : Res (Hard × Vat) := do
  let (_, v) ← managed v 0 m.data 0 0
  .ok (⟨m.cap, 0⟩, v)

end Verif.Memory
