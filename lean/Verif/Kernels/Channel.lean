import Verif.Kernels.Reduce
/-!
# Operators with one coefficient per channel: add_bias, batch_norm, batch_scale, fused_batch_norm, prelu

Sources: src/backend/base/base_{add_bias,batch_norm,batch_scale,fused_batch_norm,prelu}.cpp and
src/kernels/cpu/{add_bias,batch_norm,batch_scale,fused_batch_norm,prelu}.cpp, on the CPU.

`coef k` reads the coefficients of channel `k` and gives what is applied to the elements of the channel: to each of the four
lanes of a vector, and to an element on its own. They differ only for prelu, where the lanes use `_mm_max_ps` and
`_mm_min_ps` (AVX and SSE; simd_sse_def.h:120-126) and the rest `std::max` and `std::min`. A 4-lane
vector is four elements, loaded together before they are stored. The `#pragma omp parallel for` are run in order.
-/
namespace Verif.Kernels
open Verif.Core

variable {α : Type}

/-- what is applied to a lane of a vector, and to one element -/
structure Elem (α : Type) where
  lane : α → α
  one : α → α

/-- the same for both -/
def both (g : α → α) : Elem α := ⟨g, g⟩

/-- the in-place loops of all types but float, add_bias.cpp:18-46, batch_norm.cpp:16-56, batch_scale.cpp:16-52,
fused_batch_norm.cpp:17-62 (there from `psrc` to `pdst`, which hold the same elements until written), prelu.cpp:18-47 -/
def chanGeneric (coef : Nat → Res (Elem α)) (x : List α) (pre ext back : Nat) : Res (List α) :=
  loop (fun out i =>
    loop (fun out k => do
      let g ← coef k
      loop (fun out m => do
        let v ← rd out (i * (back * ext) + k * back + m)
        wr out (i * (back * ext) + k * back + m) (g.one v)) back out) ext out) pre x

/-- four elements at a time, then the rest, add_bias.cpp:74-84, batch_norm.cpp:93-109, batch_scale.cpp:82-97,
fused_batch_norm.cpp:101-123, prelu.cpp:69-92 -/
def chanBlock (g : Elem α) (x : List α) (offset back : Nat) (out : List α) : Res (List α) := do
  let out ← loop (fun out q => do
    let a ← rd x (offset + 4 * q)
    let b ← rd x (offset + (4 * q + 1))
    let c ← rd x (offset + (4 * q + 2))
    let d ← rd x (offset + (4 * q + 3))
    let out ← wr out (offset + 4 * q) (g.lane a)
    let out ← wr out (offset + (4 * q + 1)) (g.lane b)
    let out ← wr out (offset + (4 * q + 2)) (g.lane c)
    wr out (offset + (4 * q + 3)) (g.lane d)) (back / 4) out
  loop (fun out j => do
    let v ← rd x (offset + (back / 4 * 4 + j))
    wr out (offset + (back / 4 * 4 + j)) (g.one v)) (back - back / 4 * 4) out

/-- the loops for float, add_bias.cpp:48-88 and the like -/
def chanFloat (coef : Nat → Res (Elem α)) (x : List α) (pre ext back : Nat) (dst : List α) : Res (List α) :=
  loop (fun out i =>
    loop (fun out k => do
      let g ← coef k
      chanBlock g x (i * (back * ext) + k * back) back out) ext out) pre dst

/-- `has_shape(x.size(m_dim))` and the same type, e.g. base_add_bias.cpp:53-59; tensor.cpp:461-468 -/
def isChannel (x : Operand α) (dim : Nat) (b : Operand α) : Bool :=
  decide (b.shape = [x.shape.getD dim 0]) && decide (x.dtype = b.dtype)

/-- `TS_AUTO_CHECK(m_dim >= 0)` in `init`, `TS_AUTO_CHECK(m_dim < x.dims())`, the checks of the coefficients, and the
dispatch on the type, e.g. base_add_bias.cpp:41-61 and 72-85, add_bias.cpp:90-110 -/
def chanRun (dim : Int) (x : Operand α) (cs : List (Operand α)) (coef : Nat → Res (Elem α)) (dst : List α) :
    Res (List Nat × List α) :=
  if dim < 0 then .err
  else if (x.shape.length : Int) ≤ dim then .err
  else
    let d := dim.toNat
    if cs.all (isChannel x d) then
      if plainType x.dtype then do
        let pre := Spec.prod (x.shape.take d)
        let ext := x.shape.getD d 0
        let back := Spec.prod (x.shape.drop (d + 1))
        let out ← if x.dtype = 10 then chanFloat coef x.data pre ext back dst else chanGeneric coef x.data pre ext back
        .ok (x.shape, out)
      else .err
    else .err

/-- `m_dim` from the parameters, base_add_bias.cpp:21-42: the position of `C` in the format, overridden by the dim -/
def addBiasDim (format : Option String) (dim : Option Int) : Res Int :=
  match format, dim with
  | none, none => .err
  | some f, d =>
    if f = "NCHW" then .ok (d.getD 1)
    else if f = "NHWC" then .ok (d.getD 3)
    else .err
  | none, some d => .ok d

/-- `AddBias::run` -/
def addBiasRun (A : Arith α) (dim : Int) (x b : Operand α) (dst : List α) : Res (List Nat × List α) :=
  chanRun dim x [b] (fun k => do
    let v ← rd b.data k
    .ok (both fun e => A.add e v)) dst

/-- `vec[i] = T(T(1) / sqrt(variance[i] + T(epsilon)))`, batch_norm.cpp:38-41, fused_batch_norm.cpp:42-45; `rsqrt` is
`T(T(1) / sqrt(·))`, computed in `double` for the integer types -/
def invStd (A : Arith α) (rsqrt : α → α) (eps : α) (variance : List α) : List α :=
  variance.map fun v => rsqrt (A.add v eps)

/-- `BatchNorm::run` -/
def batchNormRun (A : Arith α) (rsqrt : α → α) (eps : α) (dim : Int) (x mean variance : Operand α) (dst : List α) :
    Res (List Nat × List α) :=
  chanRun dim x [mean, variance] (fun k => do
    let m ← rd mean.data k
    let v ← rd (invStd A rsqrt eps variance.data) k
    .ok (both fun e => A.mul (A.sub e m) v)) dst

/-- `BatchScale::run` -/
def batchScaleRun (A : Arith α) (dim : Int) (x scale bias : Operand α) (dst : List α) : Res (List Nat × List α) :=
  chanRun dim x [scale, bias] (fun k => do
    let s ← rd scale.data k
    let b ← rd bias.data k
    .ok (both fun e => A.add (A.mul e s) b)) dst

/-- `FusedBatchNorm::run`; all its checks are in one condition, base_fused_batch_norm.cpp:42-58 -/
def fusedRun (A : Arith α) (rsqrt : α → α) (eps : α) (dim : Int) (x mean variance scale bias : Operand α) (dst : List α) :
    Res (List Nat × List α) :=
  chanRun dim x [mean, variance, scale, bias] (fun k => do
    let m ← rd mean.data k
    let v ← rd (invStd A rsqrt eps variance.data) k
    let s ← rd scale.data k
    let b ← rd bias.data k
    .ok (both fun e => A.add (A.mul (A.mul (A.sub e m) v) s) b)) dst

/-- `PReLU::run`; `std::max(a, b)` is `a < b ? b : a`, `std::min(a, b)` is `b < a ? b : a`, prelu.cpp:41-44 and 87-91;
`_mm_max_ps(a, b)` is `a > b ? a : b`, `_mm_min_ps(a, b)` is `a < b ? a : b`, prelu.cpp:78-86 -/
def preluRun (A : Arith α) (dim : Int) (x slope : Operand α) (dst : List α) : Res (List Nat × List α) :=
  chanRun dim x [slope] (fun k => do
    let s ← rd slope.data k
    .ok ⟨fun e => A.add (if A.gt e A.zero then e else A.zero) (A.mul s (if A.gt A.zero e then e else A.zero)),
      fun e => A.add (if A.gt A.zero e then A.zero else e) (A.mul s (if A.gt e A.zero then A.zero else e))⟩) dst

end Verif.Kernels
