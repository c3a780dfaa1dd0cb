import Verif.Core.Res
/-!
# Memory mirrored on several devices: include/core/sync/sync_block.h, include/core/sync/sync_memory.h

Keys are devices, values are memory handles; a value is the number of the buffer it points to, `bufs` the
content of every buffer allocated so far. A map node has an identity (`node`), because handles keep a raw
pointer to it (`m_default_value`); a node that is no longer in the map is destroyed.
Single-threaded: locks are left out (see `Verif.Concurrency` for the lock itself).
-/
namespace Verif.Memory
open Verif.Core

variable {κ α : Type} [DecidableEq κ]

/-- a node of `std::map<_KEY, _VALUE> m_sync_values`, sync_block.h:189 -/
structure MapNode (κ : Type) where
  key : κ
  node : Nat
  buf : Nat

/-- a `SyncBlock`: `m_default_key` and the pointer `m_default_value`, sync_block.h:201-202 -/
structure View (κ : Type) where
  key : κ
  node : Nat

/-- the shared `Param` (sync_block.h:184-199), all buffers, all handles created from one `SyncMemory` -/
structure Sync (κ α : Type) where
  map : List (MapNode κ)
  next : Nat
  bufs : List (List α)
  views : List (View κ)

namespace Sync

/-- `m_sync_values.find(key)` -/
def find (s : Sync κ α) (k : κ) : Option (MapNode κ) := s.map.find? fun e => decide (e.key = k)

/-- `*m_default_value`: a destroyed node is undefined behaviour -/
def deref (s : Sync κ α) (n : Nat) : Res Nat :=
  match s.map.find? fun e => decide (e.node = n) with
  | some e => .ok e.buf
  | none => .ub

/-- bytes of a buffer -/
def content (s : Sync κ α) (b : Nat) : Res (List α) :=
  match s.bufs[b]? with
  | some c => .ok c
  | none => .ub

/-- `SyncBlock(key, value, handler, need_lock)` and `set` with the default key, sync_block.h:31-44;
`SyncMemory(memory, lock)`, sync_memory.h:32-37 -/
def create (k : κ) (c : List α) : Sync κ α := ⟨[⟨k, 0, 0⟩], 1, [c], [⟨k, 0⟩]⟩

/-- `m_sync_values.insert(make_pair(key, value))` for an absent key: a new node -/
def insert (s : Sync κ α) (k : κ) (b : Nat) : Sync κ α :=
  { s with map := s.map ++ [⟨k, s.next, b⟩], next := s.next + 1 }

/-- `sync_insert`, sync_block.h:159-168, with `dynamic_sync_handler`, sync_memory.h:24-30 (a new buffer of
the same size, filled by copying) -/
def syncInsert (s : Sync κ α) (v : View κ) (k : κ) : Res (Sync κ α × MapNode κ) :=
  if k = v.key then do
    let b ← s.deref v.node
    .ok (s, ⟨k, v.node, b⟩)
  else
    match s.find k with
    | some e => .ok (s, e)
    | none => do
      let b ← s.deref v.node
      let c ← s.content b
      let s1 := { s with bufs := s.bufs ++ [c] }
      .ok (s1.insert k s.bufs.length, ⟨k, s.next, s.bufs.length⟩)

/-- first half of `sync`, under the read lock, sync_block.h:86-92; `none`: go on to the second half -/
def syncLookup (s : Sync κ α) (v : View κ) (k : κ) : Res (Option (MapNode κ)) :=
  if k = v.key then do
    let b ← s.deref v.node
    .ok (some ⟨k, v.node, b⟩)
  else .ok (s.find k)

/-- `sync`, sync_block.h:84-98 -/
def sync (s : Sync κ α) (v : View κ) (k : κ) : Res (Sync κ α × MapNode κ) := do
  let r ← s.syncLookup v k
  match r with
  | some e => .ok (s, e)
  | none => s.syncInsert v k

/-- `view`, sync_block.h:109-134 -/
def view (s : Sync κ α) (v : View κ) (k : κ) : Res (Sync κ α) :=
  if k = v.key then .ok { s with views := s.views ++ [⟨v.key, v.node⟩] }
  else
    match s.find k with
    | some e => .ok { s with views := s.views ++ [⟨k, e.node⟩] }
    | none => do
      let (s1, e) ← s.syncInsert v k
      .ok { s1 with views := s1.views ++ [⟨k, e.node⟩] }

/-- `broadcast`, sync_block.h:138-145, by handle number `i` -/
def broadcast (s : Sync κ α) (i : Nat) (v : View κ) : Res (Sync κ α) := do
  let b ← s.deref v.node
  .ok { s with map := [⟨v.key, s.next, b⟩], next := s.next + 1, views := s.views.set i ⟨v.key, s.next⟩ }

/-- what a user does with the handles of one memory; `read`/`write` go through the memory that `value` or
`sync` returns (`SyncMemory::data`, sync_memory.h:144-151) -/
inductive Op (κ α : Type) where
  | view (i : Nat) (k : κ)
  | value (i : Nat)
  | read (i : Nat) (k : κ)
  | write (i : Nat) (k : κ) (c : List α)
  | broadcast (i : Nat)

/-- one call; handles that were never created are not used (`err`). The result is the bytes read. -/
def step (s : Sync κ α) : Op κ α → Res (Sync κ α × Option (List α))
  | .view i k =>
    match s.views[i]? with
    | none => .err
    | some v => do
      let s1 ← s.view v k
      .ok (s1, none)
  | .value i =>
    match s.views[i]? with
    | none => .err
    | some v => do
      let b ← s.deref v.node
      let c ← s.content b
      .ok (s, some c)
  | .read i k =>
    match s.views[i]? with
    | none => .err
    | some v => do
      let (s1, e) ← s.sync v k
      let c ← s1.content e.buf
      .ok (s1, some c)
  | .write i k c =>
    match s.views[i]? with
    | none => .err
    | some v => do
      let (s1, e) ← s.sync v k
      let _ ← s1.content e.buf
      .ok ({ s1 with bufs := s1.bufs.set e.buf c }, none)
  | .broadcast i =>
    match s.views[i]? with
    | none => .err
    | some v => do
      let s1 ← s.broadcast i v
      .ok (s1, none)

/-- a sequence of calls with everything read on the way -/
def run (s : Sync κ α) : List (Op κ α) → Res (Sync κ α × List (List α))
  | [] => .ok (s, [])
  | op :: t => do
    let (s1, o) ← s.step op
    let (s2, os) ← run s1 t
    .ok (s2, o.toList ++ os)

end Sync
end Verif.Memory
