import Verif.Kernels.Cast
import Verif.Kernels.DataMove
/-!
# Functions applied to every element (src/kernels/cpu/{relu,relu_max,leaky_relu,hard_sigmoid,square,abs,sqrt,rsqrt,exp,tanh,erf,sigmoid,softplus,ceil,floor}.cpp)

`Activation::run`, src/backend/base/base_activation.cpp:20-31, gives the operator the operand and an output of the same prototype. Tensors here are their elements; the
number of elements is an `int` in the code, its overflow is not modelled. Iterations of OpenMP loops are run in order: each writes elements of its own (C27).
-/
namespace Verif.Kernels
open Verif.Core

variable {α : Type}

/-- the operations of a floating point type and the two instructions on vectors of four (`_mm_max_ps`, `vmaxq_f32` or `std::max`, include/kernels/common/simd_def) -/
structure FloatOps (α : Type) where
  zero : α
  one : α
  lt : α → α → Bool
  add : α → α → α
  sub : α → α → α
  mul : α → α → α
  div : α → α → α
  neg : α → α
  abs : α → α
  sqrt : α → α
  exp : α → α
  log : α → α
  erf : α → α
  floor : α → α
  ceil : α → α
  maxLane : α → α → α
  minLane : α → α → α

/-- `std::max(a, b)` is `a < b ? b : a` -/
def FloatOps.max (O : FloatOps α) (a b : α) : α := if O.lt a b then b else a
/-- `std::min(a, b)` is `b < a ? b : a` -/
def FloatOps.min (O : FloatOps α) (a b : α) : α := if O.lt b a then b else a

/-- the operators; parameters are `float`s -/
inductive ActOp (κ : Type) where
  | relu
  | reluMax (max : κ)
  | leaky (scale : κ)
  | hardSigmoid (alpha beta : κ)
  | square
  | abs
  | sqrt
  | rsqrt
  | exp
  | tanh
  | erf
  | sigmoid
  | softplus

/-- `sigmoid`, tanh.cpp:19-21, sigmoid.cpp:38 -/
def sigmoidF (O : FloatOps α) (v : α) : α := O.div O.one (O.add O.one (O.exp (O.neg v)))

/-- one element by itself -/
def floatCell (O : FloatOps α) : ActOp α → α → α
  /- relu.cpp:25, 51 -/
  | .relu, v => O.max v O.zero
  /- relu_max.cpp:27, 57 -/
  | .reluMax m, v => O.min (O.max v O.zero) m
  /- leaky_relu.cpp:36, 69 -/
  | .leaky s, v => if O.lt O.zero v then v else O.mul v s
  /- hard_sigmoid.cpp:34, 66 -/
  | .hardSigmoid a b, v => O.max O.zero (O.min O.one (O.add (O.mul a v) b))
  /- square.cpp:23 -/
  | .square, v => O.mul v v
  /- include/kernels/common/math.h:55-64 -/
  | .abs, v => O.abs v
  /- sqrt.cpp -/
  | .sqrt, v => O.sqrt v
  /- rsqrt.cpp:43 -/
  | .rsqrt, v => O.div O.one (O.sqrt v)
  /- exp.cpp -/
  | .exp, v => O.exp v
  /- tanh.cpp:24-26 -/
  | .tanh, v => O.sub (O.mul (O.add O.one O.one) (sigmoidF O (O.mul (O.add O.one O.one) v))) O.one
  /- erf.cpp -/
  | .erf, v => O.erf v
  | .sigmoid, v => sigmoidF O v
  /- softplus.cpp:27, 42 -/
  | .softplus, v => O.log (O.add (O.exp v) O.one)

/-- one of four elements in a vector: relu.cpp:43, relu_max.cpp:52, leaky_relu.cpp:63, hard_sigmoid.cpp:61; the others have no such loop -/
def floatLane (O : FloatOps α) : ActOp α → Option (α → α)
  | .relu => some fun v => O.maxLane v O.zero
  | .reluMax m => some fun v => O.minLane (O.maxLane v O.zero) m
  | .leaky s => some fun v => O.add (O.maxLane v O.zero) (O.mul s (O.minLane v O.zero))
  | .hardSigmoid a b => some fun v => O.maxLane O.zero (O.minLane O.one (O.add (O.mul a v) b))
  | _ => none

/-- `output[i] = f(input[i])` for all elements -/
def mapAll (f : α → Res α) (x : List α) (n : Nat) (out : List α) : Res (List α) :=
  loop (fun out i => do
    let v ← rd x i
    let w ← f v
    wr out i w) n out

/-- `memcpy`, then `output[i] = f(output[i])`: relu.cpp:17-28, relu_max.cpp:20-30, square.cpp:15-26, rsqrt.cpp:34-46 -/
def copyMap (f : α → Res α) (x : List α) (n : Nat) (out : List α) : Res (List α) := do
  let out ← Verif.Memory.copyFrom out 0 x n
  loop (fun out i => do
    let v ← rd out i
    let w ← f v
    wr out i w) n out

/-- `memcpy`, then `output[i] = f(*input)` with an `input` that is not moved: softplus.cpp:16-30 -/
def stuckMap (f : α → Res α) (x : List α) (n : Nat) (out : List α) : Res (List α) := do
  let out ← Verif.Memory.copyFrom out 0 x n
  loop (fun out i => do
    let v ← rd x 0
    let w ← f v
    wr out i w) n out

/-- four elements, then the rest one by one: relu.cpp:38-52, relu_max.cpp:47-58, leaky_relu.cpp:57-70, hard_sigmoid.cpp:55-67 -/
def simdMap (g f : α → α) (x : List α) (n : Nat) (out : List α) : Res (List α) := do
  let out ← loop (fun out i => do
    let a ← rd x (i * 4)
    let b ← rd x (i * 4 + 1)
    let c ← rd x (i * 4 + 2)
    let d ← rd x (i * 4 + 3)
    let out ← wr out (i * 4) (g a)
    let out ← wr out (i * 4 + 1) (g b)
    let out ← wr out (i * 4 + 2) (g c)
    wr out (i * 4 + 3) (g d)) (n / 4) out
  loop (fun out k => do
    let v ← rd x (n / 4 * 4 + k)
    wr out (n / 4 * 4 + k) (f v)) (n - n / 4 * 4) out

/-- is the operand copied first? -/
def copies : ActOp κ → Bool
  | .relu | .reluMax _ | .square | .rsqrt => true
  | _ => false

/-- the operators on `float`s -/
def floatRun (O : FloatOps α) (op : ActOp α) (x out : List α) : Res (List α) :=
  match floatLane O op with
  | some g => simdMap g (floatCell O op) x x.length out
  | none => if copies op then copyMap (fun v => .ok (floatCell O op v)) x x.length out else mapAll (fun v => .ok (floatCell O op v)) x x.length out

/-- the operators on `double`s -/
def doubleRun (O : FloatOps α) (op : ActOp α) (x out : List α) : Res (List α) :=
  match op with
  | .softplus => stuckMap (fun v => .ok (floatCell O op v)) x x.length out
  | _ => if copies op then copyMap (fun v => .ok (floatCell O op v)) x x.length out else mapAll (fun v => .ok (floatCell O op v)) x x.length out

/-- `T(max)`, `T(scale)` for an integer type: towards zero, undefined outside of the type -/
def intParam (t : IntTy) (q : Rat) : Res Int := if t.has (truncQ q) then .ok (truncQ q) else .ub

/-- `neg`, sigmoid.cpp:16-22: `-a` converted to the type, but `a` itself for unsigned types -/
def negInt (t : IntTy) (v : Int) : Res Int :=
  if t.signed then do
    let w ← t.arith.result (-v)
    .ok (t.conv w)
  else .ok v

/-- one element of an integer type. `fn` are the computations of `std::sqrt`, of `1. / (1. + exp(v))` and of `log(exp(v) + 1.)` in `double`, converted to the type -/
def intCell (fn : ActOp Unit → IntTy → Int → Res Int) (t : IntTy) (op : ActOp Int) (v : Int) : Res Int :=
  match op with
  | .relu => .ok (max v 0)
  | .reluMax m => .ok (min (max v 0) m)
  | .leaky s =>
    if 0 < v then .ok v
    else do
      let w ← t.arith.result (v * s)
      .ok (t.conv w)
  | .square => do
    let w ← t.arith.result (v * v)
    .ok (t.conv w)
  /- include/kernels/common/math.h:30-53: `std::abs` of `int` or of `long`, and the identity for unsigned types -/
  | .abs =>
    if t.signed then do
      let w ← t.arith.result |v|
      .ok (t.conv w)
    else .ok v
  | .sqrt => fn .sqrt t v
  | .sigmoid => do
    let w ← negInt t v
    fn .sigmoid t w
  | .softplus => fn .softplus t v
  | _ => .err

/-- the parameters in the type -/
def intOp (t : IntTy) : ActOp Rat → Res (ActOp Int)
  | .relu => .ok .relu
  | .reluMax m => do
    let m ← intParam t m
    .ok (.reluMax m)
  | .leaky s => do
    let s ← intParam t s
    .ok (.leaky s)
  | .square => .ok .square
  | .abs => .ok .abs
  | .sqrt => .ok .sqrt
  | .sigmoid => .ok .sigmoid
  | .softplus => .ok .softplus
  /- hard_sigmoid.cpp:73-80, rsqrt.cpp:56-65, exp.cpp, tanh.cpp, erf.cpp: no cases for integer types -/
  | _ => .err

/-- the operators on integers -/
def intRun (fn : ActOp Unit → IntTy → Int → Res Int) (t : IntTy) (op : ActOp Rat) (x out : List Int) : Res (List Int) := do
  let o ← intOp t op
  match o with
  | .softplus => stuckMap (intCell fn t o) x x.length out
  | _ => if copies o then copyMap (intCell fn t o) x x.length out else mapAll (intCell fn t o) x x.length out

/-- `Ceil::run` and `Floor::run`, ceil.cpp:16-37, floor.cpp:16-37: integers are left as they are, the operand itself is the result -/
def roundRun (O : FloatOps α) (up : Bool) (x out : List α) : Res (List α) := mapAll (fun v => .ok (if up then O.ceil v else O.floor v)) x x.length out

end Verif.Kernels
