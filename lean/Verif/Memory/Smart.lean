import Verif.Core.Res
/-!
# The reference-counted handle (include/core/threadsafe/smart.h)

A state is the list of handles ever constructed (`none` after destruction) and the list of counters ever created.
Touching a deleted counter is undefined behaviour.
-/
namespace Verif.Memory
open Verif.Core

/-- `Smart`, smart.h:179-180: `strong` is mode `SMART`, `ptr` is `m_counted` -/
structure Handle where
  strong : Bool
  ptr : Option Nat
  deriving DecidableEq, Repr

/-- `Counter`, smart.h:24-63: `use_count`, whether it exists, how often its object was deleted -/
structure Counter where
  count : Int
  alive : Bool
  destroyed : Nat
  deriving DecidableEq, Repr

/-- handles and counters -/
structure SState where
  handles : List (Option Handle)
  counters : List Counter
  deriving DecidableEq, Repr

/-- nothing constructed yet -/
def SState.init : SState := ⟨[], []⟩

/-- a constructed handle; using a destroyed one is undefined -/
def SState.get (s : SState) (h : Nat) : Res Handle :=
  match s.handles[h]? with
  | some (some x) => .ok x
  | _ => .ub

/-- a counter that still exists -/
def SState.counter (s : SState) (c : Nat) : Res Counter :=
  match s.counters[c]? with
  | some x => if x.alive then .ok x else .ub
  | none => .ub

/-- `++m_counted->use_count` -/
def SState.incr (s : SState) (c : Nat) : Res SState := do
  let x ← s.counter c
  .ok { s with counters := s.counters.set c { x with count := x.count + 1 } }

/-- `Smart::dispose`, smart.h:114-122: the handle keeps its pointer unless the counter was deleted.
`~Counter` (smart.h:40-42) deletes the object. -/
def SState.dispose (s : SState) (h : Nat) : Res SState := do
  let x ← s.get h
  match x.strong, x.ptr with
  | true, some c => do
    let k ← s.counter c
    if k.count - 1 ≤ 0 then
      .ok { handles := s.handles.set h (some { x with ptr := none }),
            counters := s.counters.set c { count := k.count - 1, alive := false, destroyed := k.destroyed + 1 } }
    else .ok { s with counters := s.counters.set c { k with count := k.count - 1 } }
  | _, _ => .ok s

/-- copy assignment, smart.h:90-99 -/
def SState.copyAssign (s : SState) (dst src : Nat) : Res SState :=
  if dst = src then .ok s
  else do
    let s ← s.dispose dst
    let x ← s.get src
    let s : SState := { s with handles := s.handles.set dst (some x) }
    match x.strong, x.ptr with
    | true, some c => s.incr c
    | _, _ => .ok s

/-- a default-initialised handle, smart.h:179-180 -/
def Handle.null : Handle := ⟨false, none⟩

/-- the operations on handles -/
inductive SOp where
  /-- a new object, smart.h:80-84 -/
  | create
  /-- copy construction, smart.h:86-88 -/
  | copy (src : Nat)
  /-- copy assignment -/
  | assign (dst src : Nat)
  /-- move construction, smart.h:105-107 -/
  | move (src : Nat)
  /-- move assignment, smart.h:109-112 -/
  | moveAssign (dst src : Nat)
  /-- destruction, smart.h:101-103 -/
  | destroy (h : Nat)
  /-- `weak()`, smart.h:149-151 -/
  | weak (h : Nat)
  /-- `strong()`, smart.h:153-161 -/
  | strong (h : Nat)
  /-- `*h`, `h->`, smart.h:129-147 -/
  | deref (h : Nat)
  /-- an explicit call of `dispose()` -/
  | dispose (h : Nat)
  deriving DecidableEq, Repr

/-- one operation -/
def SState.step (s : SState) : SOp → Res SState
  | .create => .ok { handles := s.handles ++ [some ⟨true, some s.counters.length⟩],
                     counters := s.counters ++ [⟨1, true, 0⟩] }
  | .copy src => do
    let _ ← s.get src
    let n := s.handles.length
    SState.copyAssign { s with handles := s.handles ++ [some Handle.null] } n src
  | .assign dst src => do
    let _ ← s.get dst
    let _ ← s.get src
    s.copyAssign dst src
  | .move src => do
    let x ← s.get src
    .ok { s with handles := s.handles.set src (some Handle.null) ++ [some x] }
  | .moveAssign dst src => do
    let x ← s.get dst
    let y ← s.get src
    .ok { s with handles := (s.handles.set dst (some y)).set src (some x) }
  | .destroy h => do
    let s ← s.dispose h
    .ok { s with handles := s.handles.set h none }
  | .weak h => do
    let x ← s.get h
    .ok { s with handles := s.handles ++ [some ⟨false, x.ptr⟩] }
  | .strong h => do
    let x ← s.get h
    match x.ptr with
    | none => .err
    | some c => do
      let k ← s.counter c
      if k.count ≤ 0 then .err
      else if x.strong then
        SState.copyAssign { s with handles := s.handles ++ [some Handle.null] } s.handles.length h
      else SState.incr { s with handles := s.handles ++ [some ⟨true, some c⟩] } c
  | .deref h => do
    let x ← s.get h
    match x.ptr with
    | none => .err
    | some c => do
      let _ ← s.counter c
      .ok s
  | .dispose h => s.dispose h

end Verif.Memory
