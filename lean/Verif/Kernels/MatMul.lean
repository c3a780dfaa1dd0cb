import Verif.Kernels.GemmLemmas
import Verif.Kernels.OpShapes
import Verif.Kernels.Transpose
/-!
# Matrix products: `math::gemm`, and the operators Gemm, InnerProd and MatMul

Sources: src/kernels/cpu/math_cpu.cpp:27-245, src/kernels/cpu/cpu_gemm.cpp, src/backend/base/base_gemm.cpp,
src/kernels/cpu/inner_prod.cpp, src/backend/base/base_inner_prod.cpp, src/backend/base/base_matmul.cpp,
src/kernels/cpu/matmul.cpp, and the weight packing of src/compiler/option/pack_translator_option.cpp:199-249; the build
without CBLAS. Elements are of an arbitrary commutative semiring (exact arithmetic). Extents are natural numbers and
index arithmetic does not overflow (element counts are `int`s, C13). Parallel loops are sequential ones (C27).
-/
namespace Verif.Kernels
open Verif.Core

variable {α : Type}

/-! ## `math::gemm` -/

/-- A list of in-place updates `x[i] = f(x[i])`, in order. -/
def updAll : List (Nat × (α → Res α)) → List α → Res (List α)
  | [], c => .ok c
  | (i, f) :: t, c => do
    let v ← readN c i
    let w ← f v
    updAll t (c.set i w)

variable [CommSemiring α]

/-- `inline_dot`, math_cpu.cpp:28-45 (plain: one running sum over `k` in order, unrolled by four) and 46-76 (the SIMD
version for `float`: four lanes, their sum, then the rest); element `k` of `x` is at `ox + k * incx`. -/
def inlineDot (simd : Bool) (n : Nat) (x : List α) (ox incx : Nat) (y : List α) (oy incy : Nat) : Res α :=
  if simd then fma4 x y (fun k => ox + k * incx) (fun k => oy + k * incy) n
  else fmaSeq x y (fun k => ox + k * incx) (fun k => oy + k * incy) (List.range n) 0

/-- `inline_scal` with `inline_zero` on the contiguous elements `off, …, off + n - 1`, math_cpu.cpp:79-125 -/
def inlineScal (near : α → α → Bool) (n : Nat) (alpha : α) (off : Nat) (x : List α) : Res (List α) :=
  if near alpha 1 then .ok x
  else if near alpha 0 then updAll ((List.range n).map fun i => (off + i, fun _ => .ok 0)) x
  else updAll ((List.range n).map fun i => (off + i, fun v => .ok (v * alpha))) x

/-- the loop over rows when `ldc ≠ N`, math_cpu.cpp:163-168 -/
def scalRows (near : α → α → Bool) (n : Nat) (beta : α) (ldc : Nat) : List Nat → List α → Res (List α)
  | [], x => .ok x
  | m :: ms, x => do
    let x' ← inlineScal near n beta (m * ldc) x
    scalRows near n beta ldc ms x'

/-- the position of the first element and the distance of the operands of the dot product, math_cpu.cpp:173-208: row `i`
of `op(A)` -/
def rowOf (trans : Bool) (i ld : Nat) : Nat × Nat := if trans then (i, ld) else (i * ld, 1)
/-- column `j` of `op(B)` -/
def colOf (trans : Bool) (j ld : Nat) : Nat × Nat := if trans then (j * ld, 1) else (j, ld)

/-- `*C_anchor += alpha * inline_dot(…)`, math_cpu.cpp:173-208 -/
def dotUpdate (simd transA transB : Bool) (k : Nat) (alpha : α) (A : List α) (lda : Nat) (B : List α) (ldb : Nat)
    (i j : Nat) (v : α) : Res α := do
  let d ← inlineDot simd k A (rowOf transA i lda).1 (rowOf transA i lda).2 B (colOf transB j ldb).1 (colOf transB j ldb).2
  .ok (v + alpha * d)

/-- `inline_gemm_row_major`, math_cpu.cpp:142-210. `near` is `ts::near` (include/kernels/common/math.h:15-28). -/
def gemmRowMajor (near : α → α → Bool) (simd transA transB : Bool) (M N K : Nat) (alpha : α) (A : List α) (lda : Nat)
    (B : List α) (ldb : Nat) (beta : α) (C : List α) (ldc : Nat) : Res (List α) :=
  if lda < (if transA then M else K) ∨ ldb < (if transB then K else N) ∨ ldc < N then .err
  else do
    let C1 ← (if ldc = N then inlineScal near (M * N) beta 0 C else scalRows near N beta ldc (List.range M) C)
    if near alpha 0 then .ok C1
    else updAll ((List.range M).flatMap fun i => (List.range N).map fun j =>
      (i * ldc + j, dotUpdate simd transA transB K alpha A lda B ldb i j)) C1

/-- `math::gemm` with an order, math_cpu.cpp:212-230 -/
def gemmOrder (near : α → α → Bool) (simd colMajor transA transB : Bool) (M N K : Nat) (alpha : α) (A : List α)
    (lda : Nat) (B : List α) (ldb : Nat) (beta : α) (C : List α) (ldc : Nat) : Res (List α) :=
  if colMajor then gemmRowMajor near simd transB transA N M K alpha B ldb A lda beta C ldc
  else gemmRowMajor near simd transA transB M N K alpha A lda B ldb beta C ldc

/-- `math::gemm` without leading extents, math_cpu.cpp:237-244 -/
def gemmPlain (near : α → α → Bool) (simd transA transB : Bool) (M N K : Nat) (alpha : α) (A B : List α) (beta : α)
    (C : List α) : Res (List α) :=
  gemmRowMajor near simd transA transB M N K alpha A (if transA then M else K) B (if transB then K else N) beta C N

/-! ## operators -/

/-- a tensor: type code (dtype.h), sizes, elements -/
structure Arr (α : Type) where
  dtype : Nat
  shape : List Int
  data : List α
  deriving DecidableEq

omit [CommSemiring α] in
/-- the loop of `cpu_gemm_broadcast_compute_run`, cpu_gemm.cpp:27-38 -/
def broadcastCLoop (cs cw shape : List Int) (C : List α) : Nat → Nat → List Int → List α → Res (List α)
  | 0, _, _, out => .ok out
  | n + 1, i, c, out => do
    let k ← modIndex cs cw c
    let v ← readN C k
    if i < out.length then broadcastCLoop cs cw shape C n (i + 1) (increase shape c) (out.set i v) else .ub

omit [CommSemiring α] in
/-- `cpu_gemm_broadcast_compute_run`, cpu_gemm.cpp:25-39 -/
def broadcastC (cs : List Int) (C : List α) (M N : Nat) (out : List α) : Res (List α) := do
  let w ← weights cs
  broadcastCLoop cs w [(M : Int), (N : Int)] C (M * N) 0 (iterStart [(M : Int), (N : Int)]) out

/-- `Gemm::run` with `cpu::Gemm::gemm`, base_gemm.cpp:110-133 and cpu_gemm.cpp:41-83. `nearZero` is `near_zero(beta)` on the
`float` parameter (include/utils/assert.h:13-41), `betaIsZero` the exact comparison of base_gemm.cpp:29; `dst` is the
initial content of the output. -/
def gemmRun (near : α → α → Bool) (nearZero : α → Bool) (betaIsZero : Bool) (simd transA transB : Bool) (alpha beta : α)
    (A B C : Arr α) (dst : List α) : Res (Arr α) := do
  let out ← gemmShape transA transB A.shape B.shape C.shape
  if A.dtype ≠ B.dtype ∨ (betaIsZero = false ∧ C.dtype ≠ A.dtype) then .err
  else if A.dtype ≠ 10 ∧ A.dtype ≠ 11 then .err
  else do
    let M := (out.getD 0 0).toNat
    let N := (out.getD 1 0).toNat
    let K := ((if transA then A.shape.getD 0 0 else A.shape.getD 1 0)).toNat
    let cs := List.replicate (2 - C.shape.length) 1 ++ C.shape
    let C0 ← (if nearZero beta then .ok dst else broadcastC cs C.data M N dst)
    let r ← gemmPlain near (simd && A.dtype == 10) transA transB M N K alpha A.data B.data
      (if nearZero beta then 0 else beta) C0
    .ok ⟨A.dtype, out, r⟩

omit [CommSemiring α] in
/-- the left operand as a matrix, base_inner_prod.cpp:34-36 -/
def flattenLhs (s : List Int) : Res (List Int) :=
  match s with
  | [] => .err
  | n :: _ => if s.length ≠ 2 then reshapeShape s [n, -1] else .ok s

omit [CommSemiring α] in
/-- the right operand as the product reads it, inner_prod.cpp:37-41: `intime::transpose(rhs, {1, 0})` when asked for;
`dst` is the initial content of the new tensor -/
def plainRhs (transpose : Bool) (r : Arr α) (dst : List α) : Res (List α) :=
  if transpose then do
    let t ← transposeRun (some [1, 0]) r.dtype r.shape r.data dst
    .ok t.2
  else .ok r.data

/-- `InnerProd::run` with `cpu_inner_prod_compute_run`, base_inner_prod.cpp:70-92, inner_prod.cpp:17-68. `dst` and `tdst`
are the initial contents of the output and of the transposed right operand. -/
def innerProdRun (transpose packed : Bool) (l r : Arr α) (dst tdst : List α) : Res (Arr α) := do
  let out ← innerProdShape transpose l.shape r.shape
  let ls ← flattenLhs l.shape
  if l.dtype ≠ r.dtype then .err
  else if l.dtype ≠ 10 ∧ l.dtype ≠ 11 then .err
  else if transpose && packed then .err
  else do
    let b ← plainRhs transpose r tdst
    let d ← gemmPacked (l.dtype == 10) (ls.getD 0 0).toNat (out.getD 1 0).toNat (ls.getD 1 0).toNat l.data b true
      (!packed) dst
    .ok ⟨l.dtype, out, d⟩

omit [CommSemiring α] in
/-- `math::matrix_transpose`, math_cpu.cpp:782-790: destination `i * m + j` for `i < n`, `j < m`, in order -/
def matrixTranspose (A : List α) (m n : Nat) : Res (List α) :=
  forEach (readN A) ((List.range n).flatMap fun i => (List.range m).map fun j => j * n + i)

omit [CommSemiring α] in
/-- the packed weights of an inner product, pack_translator_option.cpp:170-234; indexing a shape of rank below two is
undefined -/
def packInnerWeights (transpose : Bool) (w : Arr α) : Res (Arr α) :=
  match w.shape with
  | h :: wd :: _ =>
    if w.dtype ≠ 10 then .err
    else if transpose then do
      let t ← matrixTranspose w.data h.toNat wd.toNat
      let p ← pack8B wd.toNat h.toNat t h.toNat
      .ok ⟨w.dtype, [wd, h], p⟩
    else do
      let p ← pack8B h.toNat wd.toNat w.data wd.toNat
      .ok ⟨w.dtype, w.shape, p⟩
  | _ => .ub

omit [CommSemiring α] in
/-- the reshape of a four dimensional operand to its last two extents, base_matmul.cpp:40-41 and 78-80 -/
def last2 (s : List Int) : Res (List Int) := do
  let x ← sizeAt s 2
  let y ← sizeAt s 3
  reshapeShape s [x, y]

omit [CommSemiring α] in
/-- `MatMul::infer`, base_matmul.cpp:28-63, as far as it can fail; `run` does not use its result -/
def matmulInfer (a b : List Int) : Res Unit := do
  let (a', b') ← (if b.length = 4 then do
      let x0 ← sizeAt a 0
      let x1 ← sizeAt a 1
      let y0 ← sizeAt b 0
      let y1 ← sizeAt b 1
      if x0 * x1 * y0 * y1 = 0 then .err
      else do
        let a2 ← last2 a
        let b2 ← last2 b
        .ok (a2, b2)
    else if b.length > 2 then .err
    else .ok (a, b))
  if a'.length = b'.length then do
    let _ ← sizeAt a' 0
    let _ ← sizeAt b' 1
    .ok ()
  else do
    let _ ← sizeAt b' 1
    if a'.length = 0 then .ub else .ok ()

/-- `cpu::MatMul::matmul_compute`, matmul.cpp:10-30; the inner operator is an InnerProd with `transpose = false` -/
def matmulCompute (a b : Arr α) (dst tdst : List α) : Res (Arr α) :=
  if a.shape.length = b.shape.length then innerProdRun false false a b dst tdst
  else do
    let n ← sizeAt b.shape 1
    let last ← sizeAt a.shape (a.shape.length - 1)
    let rows ← prod32 1 a.shape.dropLast
    let s ← reshapeShape a.shape [rows, last]
    let r ← innerProdRun false false { a with shape := s } b dst tdst
    let o ← reshapeShape r.shape (a.shape.dropLast ++ [n])
    .ok { r with shape := o }

/-- `MatMul::run`, base_matmul.cpp:65-94 -/
def matmulRun (a b : Arr α) (dst tdst : List α) : Res (Arr α) := do
  matmulInfer a.shape b.shape
  if a.shape.length = 4 ∧ b.shape.length = 4 then do
    let sa ← last2 a.shape
    let sb ← last2 b.shape
    let r ← matmulCompute { a with shape := sa } { b with shape := sb } dst tdst
    let x ← sizeAt r.shape 0
    let y ← sizeAt r.shape 1
    let o ← reshapeShape r.shape [1, 1, x, y]
    .ok { r with shape := o }
  else matmulCompute a b dst tdst

end Verif.Kernels
