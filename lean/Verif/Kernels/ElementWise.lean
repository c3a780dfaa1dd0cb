import Verif.Core.Tensor
import Verif.Core.Reshape
import Verif.Kernels.Gather
/-!
# Element-wise binary operators
(src/backend/base/element_wise_reduce.cpp, src/kernels/cpu/{add,sub,mul,div,maximum,mod}.cpp)

Extents are naturals. Products of extents of a group of dimensions are natural numbers: they are at most the element
count of the output, which `Prototype::count` computes as an `int` when the output is allocated. Elements are of an
arbitrary type `α`, the operator is an arbitrary function; both operands already have the common type (the casts of
element_wise_reduce.cpp:174-186 are not modelled; the choice of the type is, in `upcast`).
-/
namespace Verif.Kernels
open Verif.Core

/-- `front_append_ones`, element_wise_reduce.cpp:16-19 -/
def frontOnes (s : List Nat) (n : Nat) : List Nat := List.replicate (n - s.length) 1 ++ s

/-- The loop of `ElementWiseReduce::reduce`, element_wise_reduce.cpp:50-59: output extents and `do_broadcast`. -/
def reduceLoop : List Nat → List Nat → Res (List Nat × Bool)
  | l :: ls, r :: rs =>
    if l ≠ r then
      if l ≠ 1 ∧ r ≠ 1 then .err
      else do
        let (os, _) ← reduceLoop ls rs
        .ok (l * r :: os, true)
    else do
      let (os, b) ← reduceLoop ls rs
      .ok (l :: os, b)
  | _, _ => .ok ([], false)

/-- `ElementWiseReduce::reduce` with broadcasting, element_wise_reduce.cpp:21-66: padded operand shapes, output shape,
`do_broadcast`. -/
def reduceShapes (l r : List Nat) : Res (List Nat × List Nat × List Nat × Bool) :=
  if l = r then .ok (l, r, l, false)
  else do
    let l' := frontOnes l r.length
    let r' := frontOnes r l.length
    let (o, b) ← reduceLoop l' r'
    .ok (l', r', o, b)

/-- one dimension: extents of lhs, rhs and output -/
abbrev Dim3 := Nat × Nat × Nat

/-- The inner loop of `reduce_shape`, element_wise_reduce.cpp:249-255: the further dimensions of a group and what is
left. -/
def takeGroup : Bool → Bool → Bool → List Dim3 → List Dim3 × List Dim3
  | _, _, _, [] => ([], [])
  | a, b, e, (l, r, o) :: t =>
    let a' := a && l == 1
    let b' := b && r == 1
    let e' := e && l == r
    if a' || b' || e' then
      let (g, rest) := takeGroup a' b' e' t
      ((l, r, o) :: g, rest)
    else ([], (l, r, o) :: t)

/-- `std::accumulate(begin + i, begin + j, 1, multiplies)` of the three shapes, element_wise_reduce.cpp:257-259 -/
def mulDims : List Dim3 → Dim3
  | [] => (1, 1, 1)
  | (l, r, o) :: t => let m := mulDims t; (l * m.1, r * m.2.1, o * m.2.2)

/-- `ElementWiseReduce::reduce_shape`, element_wise_reduce.cpp:236-278, on the dimensions from `i` on. When a dimension
cannot be merged with the next one, `i = j + 1` (273) leaves also the next one as it is. The first argument bounds the
number of iterations; every iteration passes at least one dimension, so the number of dimensions is enough. -/
def reduceDims : Nat → List Dim3 → List Dim3
  | 0, ds => ds
  | _, [] => []
  | n + 1, (l, r, o) :: t =>
    if l = 1 ∨ r = 1 ∨ l = r then
      match takeGroup (l == 1) (r == 1) (l == r) t with
      | (g :: gs, rest) => mulDims ((l, r, o) :: g :: gs) :: reduceDims n rest
      | ([], _) =>
        match t with
        | [] => [(l, r, o)]
        | d :: t' => (l, r, o) :: d :: reduceDims n t'
    else (l, r, o) :: reduceDims n t

/-- `is_bias(lhs, rhs, dim)`, element_wise_reduce.cpp:216-225 -/
def isBias (l r : List Nat) : Option Nat :=
  (List.range r.length).find? fun i => r.getD i 0 == Spec.prod r && l.getD i 0 == Spec.prod r

variable {α : Type}

/-- `memcpy(pout, p, n * sizeof(T))` -/
def copyInto (n : Nat) (src dst : List α) : Res (List α) :=
  if n ≤ src.length ∧ n ≤ dst.length then .ok (src.take n ++ dst.drop n) else .ub

/-- a sequence of `reduce_operator(pout[d], other[r])`, i.e. `pout[d] = f(pout[d], other[r])` -/
def runInPlace (f : α → α → α) (other : List α) : List (Nat × Nat) → List α → Res (List α)
  | [], dst => .ok dst
  | (d, r) :: t, dst =>
    match dst[d]?, other[r]? with
    | some x, some y => runInPlace f other t (dst.set d (f x y))
    | _, _ => .ub

/-- a sequence of `reduce_operator(pout[d], plhs[l], prhs[r])` -/
def runTriples (f : α → α → α) (lhs rhs : List α) : List (Nat × Nat × Nat) → List α → Res (List α)
  | [], dst => .ok dst
  | (d, l, r) :: t, dst =>
    match lhs[l]?, rhs[r]? with
    | some x, some y => if d < dst.length then runTriples f lhs rhs t (dst.set d (f x y)) else .ub
    | _, _ => .ub

/-- the order in which the `float` specialisations visit `0 … count-1`, add.cpp:71-78: blocks of four lanes while
`i < count - 3` (there are `count / 4` of them), then the rest. -/
def simdOrder (count : Nat) : List Nat :=
  ((List.range (count / 4)).flatMap fun b => (List.range 4).map fun j => 4 * b + j) ++
  (List.range (count % 4)).map fun r => count / 4 * 4 + r

/-- the visiting order of a loop over `count` elements: plain, or with `float` lanes -/
def order (float : Bool) (count : Nat) : List Nat := if float then simdOrder count else List.range count

/-- `compute_run_scalar` on tensors, add.cpp:107-116 with 54-62 and 64-79 -/
def runScalar (float : Bool) (f : α → α → α) (main other : List α) (count : Nat) (dst : List α) : Res (List α) :=
  if float then runTriples f main other ((order true count).map fun i => (i, i, 0)) dst
  else do
    let d ← copyInto count main dst
    runInPlace f other ((order false count).map fun i => (i, 0)) d

/-- `compute_run_same_shape`, add.cpp:119-126 with 81-89 and 91-105 -/
def runSame (float : Bool) (f : α → α → α) (main other : List α) (count : Nat) (dst : List α) : Res (List α) :=
  if float then runTriples f main other ((order true count).map fun i => (i, i, i)) dst
  else do
    let d ← copyInto count main dst
    runInPlace f other ((order false count).map fun i => (i, i)) d

/-- `compute_run_bias`, add.cpp:129-162. -/
def runBias (float : Bool) (f : α → α → α) (main other : List α) (out : List Nat) (dim : Nat) (dst : List α) :
    Res (List α) := do
  let d ← copyInto (Spec.prod out) main dst
  let number := Spec.prod (out.take dim)
  let count := Spec.prod (out.drop (dim + 1))
  let channels := out.getD dim 0
  if count = 1 then
    runInPlace f other ((List.range number).flatMap fun n => (List.range channels).map fun c => (n * channels + c, c)) d
  else
    runInPlace f other ((List.range number).flatMap fun n => (List.range channels).flatMap fun c =>
      (order float count).map fun k => ((n * channels + c) * count + k, c)) d

/-- `to_mod_index`, add.cpp:27-33 -/
def modIndex (shape w : List Int) (c : List Int) : Res Nat := do
  let m ← (c.zip shape).foldr (fun (p : Int × Int) acc => do
    let r ← mod32 p.1 p.2
    let rest ← acc
    .ok (r :: rest)) (.ok [])
  let k ← toIndex w m
  idxNat k

/-- the loop of `compute_run`, add.cpp:47-52 -/
def broadcastLoop (lw rw ls rs shape : List Int) : Nat → Nat → List Int → Res (List (Nat × Nat × Nat))
  | 0, _, _ => .ok []
  | n + 1, i, c => do
    let a ← modIndex ls lw c
    let b ← modIndex rs rw c
    let t ← broadcastLoop lw rw ls rs shape n (i + 1) (increase shape c)
    .ok ((i, a, b) :: t)

/-- `compute_run`, add.cpp:36-53 -/
def runBroadcast (f : α → α → α) (lhs rhs : List α) (l r o : List Nat) (dst : List α) : Res (List α) := do
  let lw ← weights (l.map Int.ofNat)
  let rw ← weights (r.map Int.ofNat)
  let cnt ← prod32 1 (o.map Int.ofNat)
  let t ← broadcastLoop lw rw (l.map Int.ofNat) (r.map Int.ofNat) (o.map Int.ofNat) cnt.toNat 0
    (iterStart (o.map Int.ofNat))
  runTriples f lhs rhs t dst

/-- How an operator implements `reduce_with_bias_cross` / `reduce_with_scalar_cross`: by swapping the operands
(add.cpp:262-268, mul.cpp:261-267, mod.cpp:220-226), by own kernels (sub.cpp:337-383, div.cpp:285-331), or by the default
`reduce_with_broadcast` (maximum; element_wise_reduce.cpp:227-235). -/
inductive Cross where
  | swap | own | general
  deriving DecidableEq, Repr

/-- the dispatch of `ElementWiseReduce::run` on the merged shapes, element_wise_reduce.cpp:198-211 -/
def dispatch (cross : Cross) (float : Bool) (f : α → α → α) (doBroadcast : Bool) (l r o : List Nat)
    (lhs rhs dst : List α) : Res (List α) :=
  if !doBroadcast then runSame float f lhs rhs (Spec.prod o) dst
  else if Spec.prod r = 1 then runScalar float f lhs rhs (Spec.prod o) dst
  else if Spec.prod l = 1 then
    match cross with
    | .swap => runScalar float f rhs lhs (Spec.prod o) dst
    | .own => runScalar float (fun x y => f y x) rhs lhs (Spec.prod o) dst
    | .general => runBroadcast f lhs rhs l r o dst
  else match isBias l r with
  | some d => runBias float f lhs rhs o d dst
  | none =>
    match isBias r l with
    | some d =>
      match cross with
      | .swap => runBias float f rhs lhs o d dst
      | .own => runBias float (fun x y => f y x) rhs lhs o d dst
      | .general => runBroadcast f lhs rhs l r o dst
    | none => runBroadcast f lhs rhs l r o dst

/-- `ElementWiseReduce::run`, element_wise_reduce.cpp:157-214, for operands of the same type: output shape and
elements; `dst` is the initial content of the output buffer. -/
def elementWise (cross : Cross) (float : Bool) (f : α → α → α) (ls rs : List Nat) (lhs rhs dst : List α) :
    Res (List Nat × List α) := do
  let (l, r, o, b) ← reduceShapes ls rs
  let ds := reduceDims o.length (l.zip (r.zip o))
  let out ← dispatch cross float f b (ds.map Prod.fst) (ds.map fun d => d.2.1) (ds.map fun d => d.2.2) lhs rhs dst
  .ok (o, out)

end Verif.Kernels
