import Verif.Kernels.ElementWise
import Verif.Kernels.Quantize
/-!
# Element-wise operators on `float` with vector lanes (src/kernels/cpu/{add,sub,mul,maximum}.cpp)

Verif/Kernels/ElementWise.lean computes every element with one function. Here the `float` specialisations keep apart what a lane of the vector code computes
(`v`: an operator of `float32x4`, include/kernels/common/simd.h, or `max_float32x4`, simd.h:120) and what `reduce_operator` computes (`f`). The two may differ:
in the maximum of NaN (below), in numbers flushed to zero by NEON. `div.cpp` and `mod.cpp` have no such specialisations.
-/
namespace Verif.Kernels.Vec
open Verif.Core Verif.Kernels

variable {α : Type}

/-- what computes an element: a lane, or `reduce_operator` -/
def pick (v f : α → α → α) (lane : Bool) : α → α → α := if lane then v else f

/-- the loops of a `float` specialisation, add.cpp:71-78, 97-104: blocks of four lanes while `i < count - 3`, then single elements from `count / 4 * 4` -/
def lanes (count : Nat) : List (Bool × Nat) :=
  ((List.range (count / 4)).flatMap fun b => (List.range 4).map fun j => (true, 4 * b + j)) ++
  (List.range (count % 4)).map fun r => (false, count / 4 * 4 + r)

/-- a sequence of `pout[d] = plhs[l] ∘ prhs[r]`, in a lane or alone -/
def triples (v f : α → α → α) (lhs rhs : List α) : List (Bool × Nat × Nat × Nat) → List α → Res (List α)
  | [], dst => .ok dst
  | (b, d, l, r) :: t, dst =>
    match lhs[l]?, rhs[r]? with
    | some x, some y => if d < dst.length then triples v f lhs rhs t (dst.set d (pick v f b x y)) else .ub
    | _, _ => .ub

/-- the same with `plhs = pout`; no lane of a block reads what another one of the block writes -/
def inPlace (v f : α → α → α) (other : List α) : List (Bool × Nat × Nat) → List α → Res (List α)
  | [], dst => .ok dst
  | (b, d, r) :: t, dst =>
    match dst[d]?, other[r]? with
    | some x, some y => inPlace v f other t (dst.set d (pick v f b x y))
    | _, _ => .ub

/-- `compute_run_scalar<float>`, add.cpp:107-116 with 64-79; in sub.cpp also the crossed one, 91-107 -/
def scalar (v f : α → α → α) (main other : List α) (count : Nat) (dst : List α) : Res (List α) :=
  triples v f main other ((lanes count).map fun i => (i.1, i.2, i.2, 0)) dst

/-- `compute_run_same_shape<float>`, add.cpp:119-126 with 91-105 -/
def same (v f : α → α → α) (main other : List α) (count : Nat) (dst : List α) : Res (List α) :=
  triples v f main other ((lanes count).map fun i => (i.1, i.2, i.2, i.2)) dst

/-- `compute_run_bias<float>`, add.cpp:129-162: with a single element per channel there are no lanes -/
def bias (v f : α → α → α) (main other : List α) (out : List Nat) (dim : Nat) (dst : List α) : Res (List α) := do
  let d ← copyInto (Spec.prod out) main dst
  let number := Spec.prod (out.take dim)
  let count := Spec.prod (out.drop (dim + 1))
  let channels := out.getD dim 0
  if count = 1 then
    inPlace v f other ((List.range number).flatMap fun n => (List.range channels).map fun c => (false, n * channels + c, c)) d
  else
    inPlace v f other ((List.range number).flatMap fun n => (List.range channels).flatMap fun c =>
      (lanes count).map fun k => (k.1, (n * channels + c) * count + k.2, c)) d

/-- the dispatch of `ElementWiseReduce::run`, element_wise_reduce.cpp:198-211; the general path has no lanes (add.cpp:36-53) -/
def dispatch (cross : Cross) (v f : α → α → α) (doBroadcast : Bool) (l r o : List Nat) (lhs rhs dst : List α) : Res (List α) :=
  if !doBroadcast then same v f lhs rhs (Spec.prod o) dst
  else if Spec.prod r = 1 then scalar v f lhs rhs (Spec.prod o) dst
  else if Spec.prod l = 1 then
    match cross with
    | .swap => scalar v f rhs lhs (Spec.prod o) dst
    | .own => scalar (fun x y => v y x) (fun x y => f y x) rhs lhs (Spec.prod o) dst
    | .general => runBroadcast f lhs rhs l r o dst
  else match isBias l r with
  | some d => bias v f lhs rhs o d dst
  | none =>
    match isBias r l with
    | some d =>
      match cross with
      | .swap => bias v f rhs lhs o d dst
      | .own => bias (fun x y => v y x) (fun x y => f y x) rhs lhs o d dst
      | .general => runBroadcast f lhs rhs l r o dst
    | none => runBroadcast f lhs rhs l r o dst

/-- `ElementWiseReduce::run` for two `float` tensors, element_wise_reduce.cpp:157-214 -/
def elementWise (cross : Cross) (v f : α → α → α) (ls rs : List Nat) (lhs rhs dst : List α) : Res (List Nat × List α) := do
  let (l, r, o, b) ← reduceShapes ls rs
  let ds := reduceDims o.length (l.zip (r.zip o))
  let out ← dispatch cross v f b (ds.map Prod.fst) (ds.map fun d => d.2.1) (ds.map fun d => d.2.2) lhs rhs dst
  .ok (o, out)

/-- `reduce_operator` of the maximum, maximum.cpp:19-27; `gt x y` is `x > y` -/
def maxScalar (gt : α → α → Bool) (x y : α) : α := if gt x y then x else y

/-- a lane of `max_float32x4`: `MAXPS` gives the first operand if it is greater and otherwise the second one (simd_sse_def.h:120, simd_avx_def.h:97); `std::max`
gives the second one if the first is less and otherwise the first (simd_base_def.h:99); `vmaxq_f32` is `nm`, of which nothing is said (simd_neon_def.h:111) -/
def maxLane (gt : α → α → Bool) (nm : α → α → α) : Lanes → α → α → α
  | .sse, x, y => if gt x y then x else y
  | .base, x, y => if gt y x then y else x
  | .neon, x, y => nm x y

/-- `Maximum` of two `float` tensors, maximum.cpp: the crossed paths are those of the base class -/
def maximum (gt : α → α → Bool) (nm : α → α → α) (w : Lanes) (ls rs : List Nat) (lhs rhs dst : List α) : Res (List Nat × List α) :=
  elementWise .general (maxLane gt nm w) (maxScalar gt) ls rs lhs rhs dst

end Verif.Kernels.Vec
