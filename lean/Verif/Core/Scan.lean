/-!
# Loop descriptions and their interpreter, include/core/scan.h

`Scan` (`IterationDescriptor`) owns a tree of iterations, `Loop` (`IterationInterpreter`) yields its steps. A tree is a value
here (every node has one owner); null pointers, which moved-from descriptors leave, are kept. `none` is undefined behaviour.
Counters are of 64 bits; the interpreter only counts them down.
-/
namespace Verif.Core.Scan

/-- `Iteration *`: null, `IterationStep`, `IterationIters`, scan.h:17-75 -/
inductive It where
  | null
  | step (times : Nat) (k : Int)
  | iters (times : Nat) (l : List It)

mutual
/-- `clone_iteration`, scan.h:119-141 -/
def clone : It → It
  | .null => .null
  | .step t k => .step t k
  | .iters t l => .iters t (cloneAll l)
/-- the loop over the parts, scan.h:128-134 -/
def cloneAll : List It → List It
  | [] => []
  | a :: l => clone a :: cloneAll l
end

/-- what `update_iteration` leaves: the count it returns and the tree; the tree is `null` when it was deleted, and it is
left but not reachable any more when the count wraps to 0 -/
structure Upd where
  count : Nat
  it : It

mutual
/-- `update_iteration`, scan.h:145-169. Line 165 deletes the node and line 166 reads it: undefined. -/
def update : It → Option Upd
  | .null => some ⟨0, .null⟩
  | .step t k => if t = 0 then some ⟨0, .null⟩ else some ⟨t, .step t k⟩
  | .iters t l =>
    if t = 0 then some ⟨0, .null⟩
    else
      match updateAll l with
      | none => none
      | some (n, l') => if n = 0 then none else some ⟨(t * n) % 2 ^ 64, .iters t l'⟩
/-- the loop over the parts, scan.h:155-164: a part whose count is 0 is erased -/
def updateAll : List It → Option (Nat × List It)
  | [] => some (0, [])
  | a :: l =>
    match update a with
    | none => none
    | some u =>
      match updateAll l with
      | none => none
      | some (n, l') => if u.count = 0 then some (n, l') else some ((u.count + n) % 2 ^ 64, u.it :: l')
end

/-- `update_iteration(Iteration **)`, scan.h:171-176 -/
def updateRoot (it : It) : Option Upd :=
  match update it with
  | none => none
  | some u => if u.count = 0 then some ⟨0, .null⟩ else some u

/-- `IterationInterpreter::Status`, scan.h:308-325 -/
structure Status where
  proto : It
  count : Nat

/-- `Status(proto)` reads `proto->times`, scan.h:313 -/
def Status.make : It → Option Status
  | .null => none
  | .step t k => some ⟨.step t k, t⟩
  | .iters t l => some ⟨.iters t l, t⟩

/-- pushing the parts in reverse order, scan.h:354-359: the first part is on top -/
def pushAll : List It → List Status → Option (List Status)
  | [], s => some s
  | a :: l, s =>
    match pushAll l s with
    | none => none
    | some s' =>
      match Status.make a with
      | none => none
      | some x => some (x :: s')

mutual
/-- turns of the loop of `deploy` that one part needs; for the proof of termination only -/
def cost : It → Nat
  | .null => 0
  | .step _ _ => 1
  | .iters t l => t * (1 + costs l) + 1
def costs : List It → Nat
  | [] => 0
  | a :: l => cost a + costs l
end

def Status.cost (x : Status) : Nat :=
  match x.proto with
  | .iters _ l => x.count * (1 + costs l) + 1
  | _ => 1

def stackCost (s : List Status) : Nat := (s.map Status.cost).sum

theorem make_cost {a : It} {x : Status} (h : Status.make a = some x) : x.cost = cost a := by
  cases a with
  | null => cases h
  | step t k => cases h; rfl
  | iters t l => cases h; simp [Status.cost, Scan.cost]

theorem pushAll_cost : ∀ (l : List It) (s s' : List Status), pushAll l s = some s' → stackCost s' = costs l + stackCost s
  | [], s, s', h => by
    cases h
    simp [costs]
  | a :: l, s, s', h => by
    unfold pushAll at h
    split at h
    · cases h
    · rename_i s1 h1
      split at h
      · cases h
      · rename_i x h2
        cases h
        have := pushAll_cost l s s1 h1
        have := make_cost h2
        simp only [stackCost, List.map_cons, List.sum_cons, costs] at *
        omega

/-- `deploy`, scan.h:345-364; the stack has its top first -/
def deploy (s : List Status) : Option (List Status) :=
  match s with
  | [] => some []
  | ⟨_, 0⟩ :: rest => deploy rest
  | ⟨.iters t l, c + 1⟩ :: rest =>
    match h : pushAll l (⟨.iters t l, c⟩ :: rest) with
    | none => none
    | some s' => deploy s'
  | ⟨.step t k, c + 1⟩ :: rest => some (⟨.step t k, c + 1⟩ :: rest)
  | ⟨.null, _ + 1⟩ :: _ => none
termination_by stackCost s
decreasing_by
  · simp only [stackCost, List.map_cons, List.sum_cons, Status.cost]
    split <;> omega
  · have := pushAll_cost _ _ _ h
    simp only [stackCost, List.map_cons, List.sum_cons, Status.cost] at *
    rw [this, Nat.add_mul c 1]
    omega

/-- `bind` and `rewind`, scan.h:327-342 -/
def bindTo (it : It) : Option (List Status) :=
  match it with
  | .null => some []
  | it =>
    match Status.make it with
    | none => none
    | some x => deploy [x]

/-- what `next` and `step` return: a step or `finish` (`LONG_MIN`, scan.h:21) -/
def finish : Int := -2 ^ 63

/-- `IterationInterpreter::step`, scan.h:377-382 -/
def peek (s : List Status) : Option Int :=
  match s with
  | [] => some finish
  | ⟨.step _ k, _⟩ :: _ => some k
  | _ => none

/-- `IterationInterpreter::next`, scan.h:367-374 -/
def next (s : List Status) : Option (Int × List Status) :=
  match s with
  | [] => some (finish, [])
  | ⟨.step t k, c + 1⟩ :: rest =>
    match deploy (⟨.step t k, c⟩ :: rest) with
    | none => none
    | some s' => some (k, s')
  | _ => none

/-- `n` calls of `next` -/
def nexts : Nat → List Status → Option (List Int × List Status)
  | 0, s => some ([], s)
  | n + 1, s =>
    match next s with
    | none => none
    | some (k, s') =>
      match nexts n s' with
      | none => none
      | some (ks, s'') => some (k :: ks, s'')

end Verif.Core.Scan
