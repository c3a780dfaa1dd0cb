import Verif.Kernels.Buf
import Verif.Kernels.DataMove
/-!
# Reductions and normalisations: reduce_sum, reduce_mean, max, argmax, softmax, l2_norm

Sources: src/backend/base/base_{reduce_sum,reduce_mean,max,argmax,softmax,l2_norm}.cpp and
src/kernels/cpu/{reduce_sum,reduce_mean,max,argmax,softmax,l2_norm}.cpp, on the CPU.

Extents are naturals, and products of extents that stay below the element count of a tensor are natural numbers. The
`#pragma omp parallel for` of softmax is run in order: the iterations touch different columns.
-/
namespace Verif.Kernels
open Verif.Core

variable {α : Type}

/-- the arithmetic of an element type -/
structure Arith (α : Type) where
  zero : α
  one : α
  add : α → α → α
  sub : α → α → α
  mul : α → α → α
  div : α → α → α
  exp : α → α
  sqrt : α → α
  gt : α → α → Bool

/-! ## reduce_sum -/

/-- `cpu_reduce_sum_compute_run`, reduce_sum.cpp:28-55, after the memset; the same loops in reduce_mean.cpp:45-55 -/
def sumKernel (add : α → α → α) (x : List α) (number channels width : Nat) (out : List α) : Res (List α) :=
  loop (fun out i =>
    loop (fun out c =>
      loop (fun out w => do
        let v ← rd x ((i * channels + c) * width + w)
        let o ← rd out (i * width + w)
        wr out (i * width + w) (add o v)) width out) channels out) number out

/-- the shape with dimension `d` set to one or erased, base_reduce_sum.cpp:41-45, base_max.cpp:35-39 -/
def reducedShape (keep : Bool) (d : Nat) (s : List Nat) : List Nat :=
  if keep then s.take d ++ 1 :: s.drop (d + 1) else s.take d ++ s.drop (d + 1)

/-- `ReduceSum::run`, base_reduce_sum.cpp:27-82, reduce_sum.cpp:57-80: the kernel writes the kept shape, which is reshaped
if the dimension is not kept -/
def reduceSumRun (add : α → α → α) (zero : α) (dim : Int) (keep : Bool) (x : Operand α) : Res (List Nat × List α) := do
  let d ← fixDim dim x.shape.length
  if plainType x.dtype then do
    let out ← sumKernel add x.data (Spec.prod (x.shape.take d)) (x.shape.getD d 0) (Spec.prod (x.shape.drop (d + 1)))
      (List.replicate (Spec.prod (reducedShape true d x.shape)) zero)
    .ok (reducedShape keep d x.shape, out)
  else .err

/-! ## reduce_mean -/

/-- `check_dims_continue`, base_reduce_mean.cpp:37-46 -/
def dimsContinue : List Int → Res Bool
  | a :: b :: t => do
    let n ← int32 (a + 1)
    if b ≠ n then .ok false else dimsContinue (b :: t)
  | _ => .ok true

/-- the loop over the dims, base_reduce_mean.cpp:61-69 -/
def fixDims (rank : Nat) : List Int → Res (List Nat)
  | [] => .ok []
  | d :: ds => do
    let a ← fixDim d rank
    let r ← fixDims rank ds
    .ok (a :: r)

/-- the kept shape, base_reduce_mean.cpp:71-76 -/
def keepOnes : List Nat → List Nat → List Nat
  | [], s => s
  | d :: ds, s => keepOnes ds (s.set d 1)

/-- the shape without the dims, base_reduce_mean.cpp:77-88: `i` is the position in the input -/
def dropDims : Nat → List Nat → List Nat → List Nat
  | _, [], _ => []
  | _, s, [] => s
  | i, a :: s, d :: ds => if i = d then dropDims (i + 1) s ds else a :: dropDims (i + 1) s (d :: ds)

/-- `*local_output_data /= channels` for every element, reduce_mean.cpp:57-61 -/
def divAll (divN : α → Nat → Res α) (channels count : Nat) (out : List α) : Res (List α) :=
  loop (fun out i => do
    let o ← rd out i
    let q ← divN o channels
    wr out i q) count out

/-- `ReduceMean::run`, base_reduce_mean.cpp:48-118, and the kernel, reduce_mean.cpp:28-90. `divN v n` divides by an `int`:
for integer types dividing by zero is undefined. With no dims the kernel reads `dims[0]` of an empty vector (only `infer`
checks, base_reduce_mean.cpp:95). -/
def reduceMeanRun (add : α → α → α) (zero : α) (divN : α → Nat → Res α) (dims : List Int) (keep : Bool) (x : Operand α) :
    Res (List Nat × List α) := do
  let c ← dimsContinue dims
  if c then do
    let ds ← fixDims x.shape.length dims
    let shape := if keep then keepOnes ds x.shape else dropDims 0 x.shape ds
    if plainType x.dtype then
      match ds.head?, ds.getLast? with
      | some first, some last => do
        let channels := Spec.prod (ds.map fun d => x.shape.getD d 0)
        let out ← sumKernel add x.data (Spec.prod (x.shape.take first)) channels (Spec.prod (x.shape.drop (last + 1)))
          (List.replicate (Spec.prod shape) zero)
        let out ← divAll divN channels (Spec.prod shape) out
        .ok (shape, out)
      | _, _ => .ub
    else .err
  else .err

/-! ## max -/

/-- one column, max.cpp:34-42 -/
def maxColumn (gt : α → α → Bool) (x : List α) (base width ext : Nat) (tmp : α) : Res α :=
  loop (fun tmp m => do
    let v ← rd x (base + m * width)
    .ok (if m = 0 then v else if gt v tmp then v else tmp)) ext tmp

/-- `cpu_max_compute_run`, max.cpp:12-48; `tmp` survives from column to column -/
def maxKernel (gt : α → α → Bool) (zero : α) (x : List α) (number ext width : Nat) (out : List α) : Res (α × List α) :=
  loop (fun s i =>
    loop (fun s k => do
      let tmp ← maxColumn gt x (k + i * (width * ext)) width ext s.1
      let o ← wr s.2 (i * width + k) tmp
      .ok (tmp, o)) width s) number (zero, out)

/-- `Max::init` and `run`, base_max.cpp:14-66, max.cpp:51-76; `keep_dims` is an `int` compared with one -/
def maxRun (gt : α → α → Bool) (zero : α) (dim keep : Int) (x : Operand α) (dst : List α) : Res (List Nat × List α) := do
  let d ← fixDim dim x.shape.length
  if plainType x.dtype then do
    let s ← maxKernel gt zero x.data (Spec.prod (x.shape.take d)) (x.shape.getD d 0) (Spec.prod (x.shape.drop (d + 1))) dst
    .ok (reducedShape (decide (keep = 1)) d x.shape, s.2)
  else .err

/-! ## argmax -/

/-- an `int32_t` read from memory, little endian -/
def rdInt32 (x : List Nat) (i : Nat) : Res Int := do
  let a ← rd x (4 * i)
  let b ← rd x (4 * i + 1)
  let c ← rd x (4 * i + 2)
  let d ← rd x (4 * i + 3)
  let u := a + 256 * b + 65536 * c + 16777216 * d
  .ok (if u < 2147483648 then (u : Int) else (u : Int) - 4294967296)

/-- one column, argmax.cpp:36-45 -/
def argmaxColumn (x : List Nat) (base width ext : Nat) (s : Int × Nat) : Res (Int × Nat) :=
  loop (fun s m => do
    let v ← rdInt32 x (base + m * width)
    .ok (if m = 0 then (v, 0) else if v > s.1 then (v, m) else s)) ext s

/-- `cpu_argmax_compute_run<int32_t>`, argmax.cpp:12-52 -/
def argmaxKernel (x : List Nat) (number ext width : Nat) (out : List Nat) : Res ((Int × Nat) × List Nat) :=
  loop (fun s i =>
    loop (fun s k => do
      let t ← argmaxColumn x (k + i * (width * ext)) width ext s.1
      let o ← wr s.2 (i * width + k) t.2
      .ok (t, o)) width s) number ((0, 0), out)

/-- `ArgMax::init` and `run`, base_argmax.cpp:12-54, and the dispatch, argmax.cpp:55-78: it is on the type of the *output*,
which is INT32 (base_argmax.cpp:30), so the operand is read as `int32_t` whatever its type; `bytes` is its memory. -/
def argmaxRun (dim : Int) (shape : List Nat) (bytes : List Nat) (dst : List Nat) : Res (List Nat × List Nat) := do
  let d ← fixDim dim shape.length
  let s ← argmaxKernel bytes (Spec.prod (shape.take d)) (shape.getD d 0) (Spec.prod (shape.drop (d + 1))) dst
  .ok (reducedShape false d shape, s.2)

/-! ## softmax -/

/-- the largest element of a column, softmax.cpp:114-119 -/
def columnMax (gt : α → α → Bool) (x : List α) (base tail body : Nat) : Res α := do
  let v ← rd x base
  loop (fun mx j => do
    let v ← rd x (base + (j + 1) * tail)
    .ok (if gt v mx then v else mx)) (body - 1) v

/-- exponentials and their sum, softmax.cpp:53-62 and 120-129, then the division, softmax.cpp:63-70 and 130-137; `e` is
`exp(x)` or `exp(x - max)` -/
def softmaxColumn (A : Arith α) (e : α → α) (x : List α) (base tail body : Nat) (out : List α) : Res (List α) := do
  let s ← loop (fun (s : α × List α) i => do
    let v ← rd x (base + i * tail)
    let o ← wr s.2 (base + i * tail) (e v)
    .ok (A.add s.1 (e v), o)) body (A.zero, out)
  loop (fun out i => do
    let o ← rd out (base + i * tail)
    wr out (base + i * tail) (A.div o s.1)) body s.2

/-- `cpu_softmax_compute_run` and `cpu_smooth_softmax_compute_run`, softmax.cpp:15-149 -/
def softmaxKernel (A : Arith α) (smooth : Bool) (x : List α) (head body tail : Nat) (out : List α) : Res (List α) :=
  if body = 1 then .ok (List.replicate out.length A.one)
  else
    loop (fun out n =>
      loop (fun out w =>
        if smooth then do
          let mx ← columnMax A.gt x (n * body * tail + w) tail body
          softmaxColumn A (fun v => A.exp (A.sub v mx)) x (n * body * tail + w) tail body out
        else softmaxColumn A A.exp x (n * body * tail + w) tail body out) tail out) head out

/-- `Softmax::run`, base_softmax.cpp:29-70, softmax.cpp:250-273 -/
def softmaxRun (A : Arith α) (dim : Int) (smooth : Bool) (x : Operand α) (dst : List α) : Res (List Nat × List α) := do
  let d ← fixDim dim x.shape.length
  if plainType x.dtype then do
    let out ← softmaxKernel A smooth x.data (Spec.prod (x.shape.take d)) (x.shape.getD d 0)
      (Spec.prod (x.shape.drop (d + 1))) dst
    .ok (x.shape, out)
  else .err

/-! ## l2_norm -/

/-- one column, l2_norm.cpp:59-82 -/
def l2Column (A : Arith α) (eps : α) (x : List α) (base tail body : Nat) (out : List α) : Res (List α) := do
  let sum ← loop (fun sum i => do
    let v ← rd x (base + i * tail)
    .ok (A.add sum (A.mul v v))) body A.zero
  loop (fun out i => do
    let v ← rd x (base + i * tail)
    wr out (base + i * tail) (A.div v (A.sqrt (A.add sum eps)))) body out

/-- `cpu_l2_normalize_compute_run`, l2_norm.cpp:26-84 -/
def l2Kernel (A : Arith α) (eps : α) (x : List α) (head body tail : Nat) (out : List α) : Res (List α) :=
  if body = 1 then .ok (List.replicate out.length A.one)
  else
    loop (fun out n => loop (fun out w => l2Column A eps x (n * body * tail + w) tail body out) tail out) head out

/-- `L2Norm::run`, base_l2_norm.cpp:29-70, l2_norm.cpp:86-114 -/
def l2Run (A : Arith α) (eps : α) (dim : Int) (x : Operand α) (dst : List α) : Res (List Nat × List α) := do
  let d ← fixDim dim x.shape.length
  if plainType x.dtype then do
    let out ← l2Kernel A eps x.data (Spec.prod (x.shape.take d)) (x.shape.getD d 0) (Spec.prod (x.shape.drop (d + 1))) dst
    .ok (x.shape, out)
  else .err

end Verif.Kernels
