/-!
# Suggestions for misspelt names: src/utils/box.cpp, src/runtime/program.cpp, src/runtime/operator.cpp, src/module/bubble.cpp

Texts are lists of characters of any type. Numbers are natural: that no `int` overflows is part of what is proved (`C101_range`).
-/
namespace Verif.Utils.Fuzzy

variable {α : Type} [DecidableEq α]

/-- the rest of the first row, box.cpp:33-35: `dist(0, n) = dist(0, n - 1) + 1`, for the characters `n = 1, 2, …` -/
def firstRow : Nat → List α → List Nat
  | _, [] => []
  | left, _ :: rhs => (left + 1) :: firstRow (left + 1) rhs

/-- one cell, box.cpp:41-51: `up` is `dist(m - 1, n)`, `left` is `dist(m, n - 1)`, `diag` is `dist(m - 1, n - 1)` -/
def cell (c r : α) (up left diag : Nat) : Nat :=
  if c = r then min (min up left) diag else min (min (up + 1) (left + 1)) (diag + 2)

/-- the inner loop, box.cpp:40-52, for `n = 1, 2, …`: `prev` is the row above from column `n - 1` on, `left` the cell just written -/
def cells (c : α) : Nat → List Nat → List α → List Nat
  | left, diag :: up :: prev, r :: rhs => cell c r up left diag :: cells c (cell c r up left diag) (up :: prev) rhs
  | _, _, _ => []

/-- one row, box.cpp:36-38 (its first cell, filled in before the other rows) and 40-52 -/
def nextRow (c : α) (prev : List Nat) (rhs : List α) : List Nat :=
  match prev with
  | [] => []
  | diag :: _ => (diag + 1) :: cells c (diag + 1) prev rhs.tail

/-- the outer loop, box.cpp:39-53: the last row. Of the array `dist` only the row above is kept, no other cell is read. -/
def lastRow (prev : List Nat) (rhs : List α) : List α → List Nat
  | [] => prev
  | c :: lhs => lastRow (nextRow c prev rhs) rhs lhs

/-- `edit_distance`, box.cpp:23-56. `dist[M * N - 1]` is the last cell of the last row. -/
def editDistance (lhs rhs : List α) : Nat :=
  match lhs, rhs with
  | [], _ => rhs.length
  | _, [] => lhs.length
  | a :: lhs', b :: rhs' =>
    let start := if a = b then 0 else 2
    (lastRow (start :: firstRow start rhs') (b :: rhs') lhs').getLastD 0

/-- the loop of `fuzzy_name`, program.cpp:19-26, over the names in the order of the hash map -/
def closest (name : List α) : Nat → List α → List (List α) → List α
  | _, best, [] => best
  | dist, best, target :: rest =>
    if editDistance name target < dist then closest name (editDistance name target) target rest else closest name dist best rest

/-- `fuzzy_name`, program.cpp:15-28; `Operator::fuzzy_param_name`, operator.cpp:150-163; `Bubble::fuzzy_param_name`, bubble.cpp:115-128.
`INT_MAX` is `2^31 - 1`. -/
def fuzzyName (names : List (List α)) (name : List α) : List α :=
  if names.isEmpty then [] else closest name (2 ^ 31 - 1) [] names

/-- `Operator::fuzzy_field_name`, operator.cpp:129-148 -/
def fuzzyFieldName (required optional : List (List α)) (name : List α) : List α :=
  if required.isEmpty || optional.isEmpty then [] else closest name (2 ^ 31 - 1) [] (required ++ optional)

/-! ## Lemmas -/

/-- the distance of two non-empty texts, read from their ends -/
def back : List α → List α → Nat
  | [], _ => 0
  | _ :: _, [] => 0
  | [a], [b] => if a = b then 0 else 2
  | [a], _ :: b :: t => back [a] (b :: t) + 1
  | _ :: a :: s, [b] => back (a :: s) [b] + 1
  | x :: a :: s, y :: b :: t => cell x y (back (a :: s) (y :: b :: t)) (back (x :: a :: s) (b :: t)) (back (a :: s) (b :: t))
termination_by s t => s.length + t.length

/-- a row: `p` and `seen` reversed -/
def rowOf (p : List α) : List α → List α → List Nat
  | _, [] => []
  | seen, r :: rest => back p (r :: seen) :: rowOf p (r :: seen) rest

theorem firstRow_eq (a : α) : ∀ (rest seen : List α), seen ≠ [] → firstRow (back [a] seen) rest = rowOf [a] seen rest
  | [], _, _ => rfl
  | r :: rest, [], h => absurd rfl h
  | r :: rest, b :: t, _ => by
    have e : back [a] (b :: t) + 1 = back [a] (r :: b :: t) := by rw [back]
    rw [firstRow, rowOf, e, firstRow_eq a rest _ (by simp)]

theorem cells_eq (c a : α) (p : List α) : ∀ (rest seen : List α), seen ≠ [] →
    cells c (back (c :: a :: p) seen) (back (a :: p) seen :: rowOf (a :: p) seen rest) rest = rowOf (c :: a :: p) seen rest
  | [], _, _ => by simp [cells, rowOf]
  | r :: rest, [], h => absurd rfl h
  | r :: rest, b :: t, _ => by
    have e : cell c r (back (a :: p) (r :: b :: t)) (back (c :: a :: p) (b :: t)) (back (a :: p) (b :: t)) = back (c :: a :: p) (r :: b :: t) := by
      rw [back.eq_6]
    rw [rowOf, rowOf, cells, e, cells_eq c a p rest _ (by simp)]

theorem nextRow_eq (c a b : α) (p rest : List α) :
    nextRow c (rowOf (a :: p) [] (b :: rest)) (b :: rest) = rowOf (c :: a :: p) [] (b :: rest) := by
  have e : back (a :: p) [b] + 1 = back (c :: a :: p) [b] := by rw [back.eq_5]
  rw [rowOf, rowOf, nextRow, e, List.tail_cons, cells_eq c a p rest [b] (by simp)]

theorem lastRow_eq (b : α) (rest : List α) : ∀ (lhs : List α) (a : α) (p : List α),
    lastRow (rowOf (a :: p) [] (b :: rest)) (b :: rest) lhs = rowOf (lhs.reverse ++ a :: p) [] (b :: rest)
  | [], _, _ => by simp [lastRow]
  | c :: lhs, a, p => by rw [lastRow, nextRow_eq, lastRow_eq b rest lhs c (a :: p)]; simp

theorem rowOf_last (p : List α) : ∀ (rest seen : List α) (r : α) (d : Nat),
    (rowOf p seen (r :: rest)).getLastD d = back p (rest.reverse ++ r :: seen)
  | [], seen, r, d => by simp [rowOf]
  | x :: rest, seen, r, d => by
    rw [rowOf, List.getLastD_cons, rowOf_last p rest (r :: seen) x]; simp

theorem editDistance_eq (a b : α) (lhs rhs : List α) : editDistance (a :: lhs) (b :: rhs) = back (a :: lhs).reverse (b :: rhs).reverse := by
  have h : ((if a = b then 0 else 2) :: firstRow (if a = b then 0 else 2) rhs : List Nat) = rowOf [a] [] (b :: rhs) := by
    have e : (if a = b then 0 else 2) = back [a] [b] := by rw [back]
    rw [e, firstRow_eq a rhs [b] (by simp), rowOf]
  show (lastRow ((if a = b then 0 else 2) :: firstRow (if a = b then 0 else 2) rhs) (b :: rhs) lhs).getLastD 0 = _
  rw [h, lastRow_eq, rowOf_last]; simp

end Verif.Utils.Fuzzy
