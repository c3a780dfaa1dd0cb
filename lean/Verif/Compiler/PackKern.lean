import Verif.Compiler.Translate
import Verif.Kernels.MatMul
import Verif.Kernels.Conv
import Verif.Kernels.ElementWise
/-!
# The operators the packing option rewrites between, on `float` tensors

The operator models of C19, C44 and C46 put together as a `Kern` (Verif/Compiler/Translate.lean). Simplifications: every
tensor is `float` with positive extents and at most `INT_MAX` elements, otherwise the operator is treated as throwing;
output buffers start as zeros (the results do not depend on that, C19, C44, C46); the parameters `alpha` and `beta` of a
Gemm are scalars; exact arithmetic.
-/
namespace Verif.Compiler
open Verif.Core Verif.Kernels

variable {α : Type}

/-- the extents of a tensor inside the modelled domain -/
def fine (a : Arr α) : Option (List Nat) :=
  if a.dtype = 10 ∧ (∀ x ∈ a.shape, 0 < x) ∧ Spec.prod (a.shape.map Int.toNat) ≤ 2147483647 ∧
      a.data.length = Spec.prod (a.shape.map Int.toNat) then some (a.shape.map Int.toNat)
  else none

/-- the result of an operator that may throw -/
def resOpt {β : Type} : Res β → Option β
  | .ok b => some b
  | _ => none

/-- a scalar parameter, `tensor::to_float` -/
def scalarOf (a : Arr α) : Option α :=
  if a.dtype = 10 ∧ a.shape = [] then
    match a.data with
    | [x] => some x
    | _ => none
  else none

/-- parameters of a convolution: stride, dilation, padding and padding value, base_conv2d.cpp:14-113 -/
structure ConvPar (α : Type) where
  pad : Int × Int × Int × Int
  sh : Nat
  sw : Nat
  dh : Nat
  dw : Nat
  padv : α

variable [CommSemiring α]

/-- `InnerProd` on matrices that fit, base_inner_prod.cpp:70-92, inner_prod.cpp:17-68 -/
def arrInner (t p : Bool) : List (Arr α) → Option (Arr α)
  | [x, w] =>
    match fine x, fine w with
    | some (M :: rest), some [p0, q0] =>
      if Spec.prod rest = (if t then q0 else p0) ∧ M * (if t then p0 else q0) ≤ 2147483647 then
        resOpt (innerProdRun t p x w (List.replicate (M * (if t then p0 else q0)) 0) (List.replicate (p0 * q0) 0))
      else none
    | _, _ => none
  | _ => none

/-- a convolution with given padding (top, bottom, left, right), base_conv2d.cpp:115-206 -/
def arrConvOn (c : ConvPar α) (pad : Int × Int × Int × Int) (p : Bool) (x w : Arr α) : Option (Arr α) :=
  match fine x, fine w with
  | some [n, ch, h, wd], some [o, ch', kh, kw] =>
    if ch = ch' then
      let g : ConvGeo := ⟨n, ch, h, wd, o, kh, kw, pad.1, pad.2.1, pad.2.2.1, pad.2.2.2, c.sh, c.sw, c.dh, c.dw⟩
      match convForward g.h g.top g.bottom g.kh g.sh g.dh, convForward g.w g.left g.right g.kw g.sw g.dw with
      | .ok oh, .ok ow =>
        match resOpt (conv2dRun true p g c.padv x.data w.data fun _ => List.replicate (o * (oh.toNat * ow.toNat)) 0) with
        | some r => some ⟨10, [(n : Int), (o : Int), oh, ow], r.2⟩
        | none => none
      | _, _ => none
    else none
  | _, _ => none

omit [CommSemiring α] in
/-- the padding operand of `conv2d_v2`: a 4 × 2 tensor that is set as the padding of a `conv2d`, which refuses padding of
the first two extents, conv2d_v2.cpp:62-94 and base_conv2d.cpp:70-90 -/
def padOf (toInt : α → Int) (y : Arr α) : Option (Int × Int × Int × Int) :=
  match y.shape, y.data with
  | [4, 2], [n0, n1, c0, c1, a, b, c, d] =>
    if toInt n0 = 0 ∧ toInt n1 = 0 ∧ toInt c0 = 0 ∧ toInt c1 = 0 then some (toInt a, toInt b, toInt c, toInt d) else none
  | _, _ => none

/-- `conv2d` (padding is a parameter) and `conv2d_v2` (padding is the second operand) -/
def arrConv (toInt : α → Int) (c : ConvPar α) (v2 p : Bool) (vs : List (Arr α)) : Option (Arr α) :=
  match v2, vs with
  | false, [x, w] => arrConvOn c c.pad p x w
  | true, [x, y, w] =>
    match padOf toInt y with
    | some pad => arrConvOn c pad p x w
    | none => none
  | _, _ => none

omit [CommSemiring α] in
/-- the shapes of bias a Gemm accepts, base_gemm.cpp:52-74 -/
def biasFits (c : List Nat) (M N : Nat) : Bool :=
  match c with
  | [] => true
  | [n] => n == 1 || n == N
  | [m, n] => (m == 1 || m == M) && (n == 1 || n == N)
  | _ => false

/-- `Gemm` on matrices that fit, base_gemm.cpp:110-133 and cpu_gemm.cpp:41-83 -/
def arrGemm (near : α → α → Bool) (alpha beta : Arr α) (tA tB : Bool) : List (Arr α) → Option (Arr α)
  | [a, b, c] =>
    match scalarOf alpha, scalarOf beta, fine a, fine b, fine c with
    | some al, some be, some [a0, a1], some [b0, b1], some cs =>
      if (if tA then a0 else a1) = (if tB then b1 else b0) ∧
          biasFits cs (if tA then a1 else a0) (if tB then b0 else b1) = true ∧
          (if tA then a1 else a0) * (if tB then b0 else b1) ≤ 2147483647 then
        resOpt (gemmRun near (fun x => near x 0) false true tA tB al be a b c
          (List.replicate ((if tA then a1 else a0) * (if tB then b0 else b1)) 0))
      else none
    | _, _, _, _, _ => none
  | _ => none

/-- an element-wise operator (`mul`, `add`), element_wise_reduce.cpp:157-214; both exchange operands in the crossed fast
paths -/
def arrZip (f : α → α → α) : List (Arr α) → Option (Arr α)
  | [x, y] =>
    match fine x, fine y with
    | some l, some r =>
      match reduceShapes l r with
      | .ok (_, _, o, _) =>
        if Spec.prod o ≤ 2147483647 then
          match resOpt (elementWise .swap true f l r x.data y.data (List.replicate (Spec.prod o) 0)) with
          | some q => some ⟨10, ints q.1, q.2⟩
          | none => none
        else none
      | _ => none
    | _, _ => none
  | _ => none

omit [CommSemiring α] in
/-- pack_translator_option.cpp:199-211 -/
def arrPackA (w : Arr α) : Option (Arr α) :=
  match fine w with
  | some [o, c, kh, kw] =>
    match resOpt (pack8A o (c * kh * kw) w.data (c * kh * kw)) with
    | some p => some ⟨10, w.shape, p⟩
    | none => none
  | _ => none

omit [CommSemiring α] in
/-- pack_translator_option.cpp:70-86 -/
def arrTransposed (a : Arr α) : Option (Arr α) :=
  match fine a with
  | some [m, n] =>
    match resOpt (matrixTranspose a.data m n) with
    | some t => some ⟨10, [(n : Int), (m : Int)], t⟩
    | none => none
  | _ => none

/-- all of them; `near` is `ts::near` -/
def arrKern (near : α → α → Bool) (toInt : α → Int) : Kern (Arr α) (ConvPar α) where
  innerProd := arrInner
  conv := arrConv toInt
  gemm := arrGemm near
  mul := arrZip (· * ·)
  add := arrZip (· + ·)
  packB t w := match fine w with
    | some [_, _] => resOpt (packInnerWeights t w)
    | _ => none
  packA := arrPackA
  transposed := arrTransposed
  nearOne a := match a.data with | [x] => near x 1 | _ => false
  nearZero a := match a.data with | [x] => near x 0 | _ => false

end Verif.Compiler
