import Verif.Kernels.Buf
import Verif.Kernels.DataMove
/-!
# topkv2 and non_max_suppression_v3

Sources: src/kernels/cpu/{topkv2,non_max_suppression_v3}.cpp, src/backend/base/base_{topkv2,non_max_suppression_v3}.cpp.

`std::partial_sort` and `std::priority_queue` are library code that the standard specifies only up to the order of equivalent elements.
They are parameters here, and the theorems hold for every choice that satisfies the standard's contract (`SortContract`, `TopContract`).
A comparison that is not a strict weak order on the elements is undefined behaviour.
-/
namespace Verif.Kernels
open Verif.Core

variable {α : Type}

/-- the requirement *Compare* of the standard on the elements of a list: irreflexive, transitive, and incomparability is transitive -/
def strictWeak (lt : Nat → Nat → Bool) (l : List Nat) : Bool :=
  l.all fun a => !lt a a && l.all fun b => l.all fun c =>
    (!(lt a b && lt b c) || lt a c) && (!(!lt a b && !lt b c) || !lt a c)

/-- `std::partial_sort(l, l + k, end, lt)` -/
def partialSort (psort : (Nat → Nat → Bool) → Nat → List Nat → List Nat) (lt : Nat → Nat → Bool) (k : Nat) (l : List Nat) :
    Res (List Nat) :=
  if k ≤ l.length ∧ strictWeak lt l = true then .ok (psort lt k l) else .ub

/-! ## topkv2 -/

/-- `data[i]` for the comparison; the indices are below `W` -/
def cellLt (lt : α → α → Bool) (x : List α) (base a b : Nat) : Bool :=
  match x[base + a]?, x[base + b]? with
  | some u, some v => lt u v
  | _, _ => false

/-- one row, topkv2.cpp:58-69: `data = x + n * W`; the values and the indices go to `n * K + k` -/
def topkRow (psort : (Nat → Nat → Bool) → Nat → List Nat → List Nat) (lt : α → α → Bool) (x : List α) (W K n : Nat)
    (st : List α × List Int) : Res (List α × List Int) := do
  let sorted ← partialSort psort (fun a b => cellLt lt x (n * W) b a) K (List.range W)
  loop (fun (st : List α × List Int) k => do
    let i ← rd sorted k
    let v ← rd x (n * W + i)
    let vs ← wr st.1 (n * K + k) v
    let is ← wr st.2 (n * K + k) (i : Int)
    .ok (vs, is)) K st

/-- `Topkv2::run`, base_topkv2.cpp:42-69, `cpu_topkv2_sorted_compute_run`, topkv2.cpp:53-71, and the dispatch on the type (84-105). The
parameter `sorted` changes nothing (topkv2.cpp:74-81). A tensor without dimensions is its own value, at index 0. A negative extent cannot
be allocated (`.ub`). The result is the shape, the values and the indices. -/
def topkRun (psort : (Nat → Nat → Bool) → Nat → List Nat → List Nat) (lt : α → α → Bool) (x : Operand α) (number : Int)
    (freshV : Nat → List α) (freshI : Nat → List Int) : Res (List Nat × List α × List Int) :=
  match x.shape.reverse with
  | [] => .ok ([], x.data, [0])
  | W :: rpre =>
    if min (W : Int) number < 0 then .ub
    else if plainType x.dtype then do
      let K := (min (W : Int) number).toNat
      let N := Spec.prod rpre.reverse
      let r ← loop (fun st n => topkRow psort lt x.data W K n st) N (freshV (N * K), freshI (N * K))
      .ok (rpre.reverse ++ [K], r.1, r.2)
    else .err

/-! ## non_max_suppression_v3 -/

/-- what the kernel uses of the element type of the boxes -/
structure BoxArith (α : Type) where
  zero : α
  add : α → α → α
  sub : α → α → α
  mul : α → α → α
  div : α → α → α
  lt : α → α → Bool
  le : α → α → Bool

/-- `std::min(a, b)` -/
def BoxArith.min (A : BoxArith α) (a b : α) : α := if A.lt b a then b else a
/-- `std::max(a, b)` -/
def BoxArith.max (A : BoxArith α) (a b : α) : α := if A.lt a b then b else a

/-- the corners (ymin, xmin, ymax, xmax) of a box, non_max_suppression_v3.cpp:19-40; `xywh` is mode 1 -/
def corners (A : BoxArith α) (boxes : List α) (xywh : Bool) (i : Nat) : Res (α × α × α × α) := do
  let b0 ← rd boxes (i * 4 + 0)
  let b1 ← rd boxes (i * 4 + 1)
  let b2 ← rd boxes (i * 4 + 2)
  let b3 ← rd boxes (i * 4 + 3)
  let b2 := if xywh then A.add b0 b2 else b2
  let b3 := if xywh then A.add b1 b3 else b3
  .ok (A.min b0 b2, A.min b1 b3, A.max b0 b2, A.max b1 b3)

/-- the area of a box, non_max_suppression_v3.cpp:42-43 -/
def boxArea (A : BoxArith α) (b : α × α × α × α) : α := A.mul (A.sub b.2.2.1 b.1) (A.sub b.2.2.2 b.2.1)

/-- `check_suppress` on corners, non_max_suppression_v3.cpp:45-56 -/
def suppressCorners (A : BoxArith α) (threshold : α) (a b : α × α × α × α) : Bool :=
  if A.le (boxArea A a) A.zero || A.le (boxArea A b) A.zero then false
  else
    let ymin := A.max a.1 b.1
    let xmin := A.max a.2.1 b.2.1
    let ymax := A.min a.2.2.1 b.2.2.1
    let xmax := A.min a.2.2.2 b.2.2.2
    let inter := A.mul (A.max (A.sub ymax ymin) A.zero) (A.max (A.sub xmax xmin) A.zero)
    let iou := A.div inter (A.sub (A.add (boxArea A a) (boxArea A b)) inter)
    A.lt threshold iou

/-- `check_suppress`, non_max_suppression_v3.cpp:11-57 -/
def checkSuppress (A : BoxArith α) (boxes : List α) (xywh : Bool) (threshold : α) (i j : Nat) : Res Bool := do
  let a ← corners A boxes xywh i
  let b ← corners A boxes xywh j
  .ok (suppressCorners A threshold a b)

/-- the loop over the selected boxes, last first, non_max_suppression_v3.cpp:101-106: is the candidate suppressed? `selected` is kept
last first. -/
def suppressedBy (sup : Nat → Nat → Res Bool) (i : Nat) : List Nat → Res Bool
  | [] => .ok false
  | j :: selected => do
    if ← sup i j then .ok true else suppressedBy sup i selected

/-- `while (selected.size() < max_output && !queue.empty())`, non_max_suppression_v3.cpp:95-112. `pick k q` is the position of the top of
the queue `q` after `k` pops; `selected` is kept last first. The first argument is the number of candidates left, which bounds the number of
iterations. -/
def nmsLoop (sup : Nat → Nat → Res Bool) (pick : Nat → List Nat → Nat) (maxOutput : Nat) :
    Nat → Nat → List Nat → List Nat → Res (List Nat)
  | 0, _, _, selected => .ok selected
  | fuel + 1, k, q, selected =>
    if selected.length < maxOutput then
      match q[pick k q]? with
      | none => .ok selected
      | some i => do
        let s ← suppressedBy sup i selected
        nmsLoop sup pick maxOutput fuel (k + 1) (q.eraseIdx (pick k q)) (if s then selected else i :: selected)
    else .ok selected

/-- the boxes that enter the queue, in the order of the boxes, non_max_suppression_v3.cpp:87-91 -/
def nmsCandidates {σ : Type} (lt : σ → σ → Bool) (scores : List σ) (threshold : σ) : List Nat :=
  (List.range scores.length).filter fun i =>
    match scores[i]? with
    | some s => lt threshold s
    | none => false

/-- `cpu_non_max_suppression_v3_compute_run`, non_max_suppression_v3.cpp:60-119. `lt` compares scores. `pick` may depend on the scores;
it is given the whole queue. -/
def nmsKernel (A : BoxArith α) {σ : Type} (lt : σ → σ → Bool) (pick : Nat → List Nat → Nat) (boxes : List α) (scores : List σ)
    (maxOutput : Nat) (iou : α) (scoreThreshold : σ) (xywh : Bool) (out : List Int) : Res (List Int) := do
  let q := nmsCandidates lt scores scoreThreshold
  let selected ← nmsLoop (checkSuppress A boxes xywh iou) pick maxOutput q.length 0 q []
  let out ← loop (fun out i => wr out i (-1)) maxOutput out
  loop (fun out i => do
    let s ← rd selected.reverse i
    wr out i (s : Int)) selected.length out

/-- `Non_Max_Suppression_V3::run` with the check of `init` (base_non_max_suppression_v3.cpp:28) and the dispatch on the type of the boxes. `run`
does not call `infer` (53-70): neither the shapes nor the types are checked. The scores are read as `float`s whatever they are; here
their type is given. -/
def nmsRun (A : BoxArith α) {σ : Type} (lt : σ → σ → Bool) (pick : Nat → List Nat → Nat) (boxes : Operand α) (scores : Operand σ)
    (maxOutput : Int) (iou : α) (scoreThreshold : σ) (xywh : Bool) (fresh : Nat → List Int) : Res (List Nat × List Int) :=
  if 0 < maxOutput then
    if decide (boxes.dtype ∈ [3, 4, 5, 6, 7, 8, 10, 11]) then do
      let out ← nmsKernel A lt pick boxes.data scores.data maxOutput.toNat iou scoreThreshold xywh (fresh maxOutput.toNat)
      .ok ([maxOutput.toNat], out)
    else .err
  else .err

/-- `Non_Max_Suppression_V3::infer`, base_non_max_suppression_v3.cpp:32-51, which a client may call; 10 is FLOAT32 -/
def nmsInfer (boxes : List Nat × Nat) (scores : List Nat × Nat) (maxOutput : Int) : Res (List Nat) :=
  match boxes.1, scores.1 with
  | [n, four], [m] => if four = 4 ∧ m = n ∧ boxes.2 = 10 then .ok [maxOutput.toNat] else .err
  | _, _ => .err

end Verif.Kernels
