import Verif.Kernels.Geometry
import Verif.Kernels.MatMul
import Verif.Kernels.Pooling
import Verif.Kernels.Buf
import Verif.Kernels.Concat
/-!
# dcn_v2_forward: modulated deformable convolution

Models `src/backend/torch/base_dcn_v2_forward.cpp`, `src/kernels/cpu/dcn_v2_forward.cpp` and `src/kernels/cpu/dcn/{dcn_v2_cpu,dcn_v2_im2col_cpu}.cpp`,
`utils.h`. Numbers are given by their exact values; `fl` rounds the columns to `float`, the matrix products are those of `Kernels/MatMul` with exact
sums. Infinities and not-a-number are not modelled. The extents of the result are computed in `int`; the other `int`s of the kernels are taken as whole
numbers (they index memory that exists). A negative extent of the result is `ub` here: what happens depends on the allocator. The columns are computed
by several threads, each column by one. The GPU kernel and builds with CBLAS are not modelled.
-/
namespace Verif.Kernels
open Verif.Core

/-- the fields, base_dcn_v2_forward.h: format (true for NHWC), padding, stride, dilation and the number of groups -/
structure DcnParams where
  nhwc : Bool
  padding : List Int
  stride : List Int
  dilation : List Int
  groups : Int
  deriving DecidableEq

/-- `init`, base_dcn_v2_forward.cpp:35-100: parameters are given with their shapes. An empty dilation has not the shape [4]. -/
def dcnInit (format : String) (padding stride dilation : List Nat × List Int) (groups : Int) : Res DcnParams :=
  let p := padding.2
  let s := stride.2
  let d := dilation.2
  if padding.1 = [4, 2] ∧ stride.1 = [4] ∧ dilation.1 = [4] then
    if format = "NCHW" then
      if p.getD 0 0 ≠ 0 ∨ p.getD 1 0 ≠ 0 ∨ p.getD 2 0 ≠ 0 ∨ p.getD 3 0 ≠ 0 then .err
      else if s.getD 0 0 ≠ 1 ∨ s.getD 1 0 ≠ 1 then .err
      else if d.getD 0 0 ≠ 1 ∨ d.getD 1 0 ≠ 1 then .err
      else .ok ⟨false, p, s, d, groups⟩
    else if format = "NHWC" then
      if p.getD 0 0 ≠ 0 ∨ p.getD 1 0 ≠ 0 ∨ p.getD 6 0 ≠ 0 ∨ p.getD 7 0 ≠ 0 then .err
      else if s.getD 0 0 ≠ 1 ∨ s.getD 3 0 ≠ 1 then .err
      else if d.getD 0 0 ≠ 1 ∨ d.getD 3 0 ≠ 1 then .err
      else .ok ⟨true, p, s, d, groups⟩
    else .err
  else .err

/-- the window: padding before and after, stride and dilation of the two axes -/
structure DcnWindow where
  top : Int
  bottom : Int
  left : Int
  right : Int
  sh : Int
  sw : Int
  dh : Int
  dw : Int
  deriving DecidableEq

/-- base_dcn_v2_forward.cpp:130-142 and 183-193 -/
def dcnWindow (p : DcnParams) : DcnWindow :=
  if p.nhwc then ⟨p.padding.getD 2 0, p.padding.getD 3 0, p.padding.getD 4 0, p.padding.getD 5 0, p.stride.getD 1 0, p.stride.getD 2 0,
    p.dilation.getD 1 0, p.dilation.getD 2 0⟩
  else ⟨p.padding.getD 4 0, p.padding.getD 5 0, p.padding.getD 6 0, p.padding.getD 7 0, p.stride.getD 2 0, p.stride.getD 3 0,
    p.dilation.getD 2 0, p.dilation.getD 3 0⟩

/-- `infer`, base_dcn_v2_forward.cpp:102-162: type and shape of each operand -/
def dcnInfer (p : DcnParams) (ops : List (Nat × List Nat)) : Res (Nat × List Int) :=
  match ops with
  | [x, w, b, o, m] =>
    if x.2.length = 4 ∧ w.2.length = 4 ∧ b.2.length = 1 ∧ o.2.length = 4 ∧ m.2.length = 4 then
      if x.1 = w.1 ∧ x.1 = b.1 ∧ x.1 = o.1 ∧ x.1 = m.1 then do
        let v := dcnWindow p
        let a := if p.nhwc then 1 else 2
        let yh ← convForward (x.2.getD a 0) v.top v.bottom (w.2.getD a 0) v.sh v.dh
        let yw ← convForward (x.2.getD (a + 1) 0) v.left v.right (w.2.getD (a + 1) 0) v.sw v.dw
        .ok (x.1, if p.nhwc then [(x.2.getD 0 0 : Int), yh, yw, (w.2.getD 0 0 : Int)] else [(x.2.getD 0 0 : Int), (w.2.getD 0 0 : Int), yh, yw])
      else .err
    else .err
  | _ => .err

/-- `height_out` and `width_out`, dcn_v2_cpu.cpp:76-77 -/
def dcnExtent (x pad k s d : Int) : Res Int := do
  let p ← int32 (2 * pad)
  let a ← int32 (x + p)
  let e ← dilatedKernel k d
  let n ← int32 (a - e)
  let q ← div32 n s
  int32 (q + 1)

/-- a neighbour of a place, dcn_v2_im2col_cpu.cpp:25-36: zero outside the plane; the plane begins at `start` of `x` -/
def dcnTap (x : List Rat) (start W : Nat) (c : Bool) (r q : Int) : Res Rat := if c then readAtInt x (start + (r * W + q)) else .ok 0

/-- `dmcn_im2col_bilinear`, dcn_v2_im2col_cpu.cpp:14-42 -/
def dcnBilinear (fl : Rat → Rat) (x : List Rat) (start H W : Nat) (h w : Rat) : Res Rat := do
  let hl ← int32 ⌊h⌋
  let wl ← int32 ⌊w⌋
  let lh := fl (h - fl hl)
  let lw := fl (w - fl wl)
  let hh := fl (1 - lh)
  let hw := fl (1 - lw)
  let v1 ← dcnTap x start W (decide (0 ≤ hl ∧ 0 ≤ wl)) hl wl
  let v2 ← dcnTap x start W (decide (0 ≤ hl ∧ wl + 1 ≤ (W : Int) - 1)) hl (wl + 1)
  let v3 ← dcnTap x start W (decide (hl + 1 ≤ (H : Int) - 1 ∧ 0 ≤ wl)) (hl + 1) wl
  let v4 ← dcnTap x start W (decide (hl + 1 ≤ (H : Int) - 1 ∧ wl + 1 ≤ (W : Int) - 1)) (hl + 1) (wl + 1)
  .ok (fl (fl (fl (fl (fl (hh * hw) * v1) + fl (fl (hh * lw) * v2)) + fl (fl (lh * hw) * v3)) + fl (fl (lh * lw) * v4)))

/-- the extents: images, channels, rows and columns of the operand, of the kernel and of the result -/
structure DcnDims where
  N : Nat
  C : Nat
  H : Nat
  W : Nat
  kh : Nat
  kw : Nat
  OH : Nat
  OW : Nat
  deriving DecidableEq

/-- the value of a column element before the mask, dcn_v2_im2col_cpu.cpp:101-113 -/
def dcnSample (fl : Rat → Rat) (x : List Rat) (start H W : Nat) (y z : Rat) : Res Rat :=
  if -1 < y ∧ -1 < z ∧ y < fl H ∧ z < fl W then dcnBilinear fl x start H W y z else .ok 0

/-- one element, dcn_v2_im2col_cpu.cpp:95-114: image `b`, channel `c`, group `g`, place (h, w) of the result, place (i, j) of the kernel -/
def dcnElement (fl : Rat → Rat) (v : DcnWindow) (groups : Int) (D : DcnDims) (x off mask : List Rat) (b c : Nat) (g : Int) (h w i j : Nat) : Res Rat := do
  let K : Int := ((D.kh * D.kw * D.OH * D.OW : Nat) : Int)
  let oh ← readAtInt off ((b * groups + g) * 2 * K + (((2 * (i * D.kw + j)) * D.OH + h) * D.OW + w : Nat))
  let ow ← readAtInt off ((b * groups + g) * 2 * K + (((2 * (i * D.kw + j) + 1) * D.OH + h) * D.OW + w : Nat))
  let m ← readAtInt mask ((b * groups + g) * K + (((i * D.kw + j) * D.OH + h) * D.OW + w : Nat))
  let y := fl (fl ((h * v.sh - v.top + i * v.dh : Int) : Rat) + oh)
  let z := fl (fl ((w * v.sw - v.left + j * v.dw : Int) : Rat) + ow)
  let s ← dcnSample fl x ((b * D.C + c) * D.H * D.W) D.H D.W y z
  .ok (fl (s * m))

/-- one index of the loop, dcn_v2_im2col_cpu.cpp:68-118; `per` is the number of channels of a group -/
def dcnColumn (fl : Rat → Rat) (v : DcnWindow) (groups per : Int) (D : DcnDims) (x off mask cols : List Rat) (index : Nat) : Res (List Rat) := do
  let w := index % D.OW
  let h := (index / D.OW) % D.OH
  let b := (index / D.OW / D.OH / D.C) % D.N
  let c := (index / D.OW / D.OH) % D.C
  let g ← div32 c per
  loop (fun cols i => loop (fun cols j => do
    let e ← dcnElement fl v groups D x off mask b c g h w i j
    wr cols (((b * D.C * D.kw * D.kh + c * D.kh * D.kw) * D.OH + h) * D.OW + w + (i * D.kw + j) * (D.OH * D.OW)) e) D.kw cols) D.kh cols

/-- `modulated_deformable_im2col_cpu`, dcn_v2_im2col_cpu.cpp:122-136 -/
def dcnIm2col (fl : Rat → Rat) (v : DcnWindow) (groups : Int) (D : DcnDims) (x off mask cols : List Rat) : Res (List Rat) := do
  let per ← div32 D.C groups
  loop (fun cols index => dcnColumn fl v groups per D x off mask cols index) (D.C * D.N * D.OH * D.OW) cols

/-- `adjustLdLevel3`, utils.h:64-91, with the second operand not transposed: the leading extents -/
def dcnLd (tA : Bool) (m n k lda ldb ldc : Nat) : Nat × Nat × Nat :=
  (if tA then (if m ≤ 1 then max k 1 else lda) else (if k ≤ 1 then max m 1 else lda), if n ≤ 1 then max k 1 else ldb, if n ≤ 1 then max m 1 else ldc)

/-- `CBlas_SgemmBatched`, utils.h:102-138, with pointers `astep` and `cstep` apart (dcn_v2_cpu.cpp:12-33); extents are below `INT_MAX`. A pointer into a
buffer is the rest of the buffer. -/
def dcnGemm (near : Rat → Rat → Bool) (simd tA : Bool) (m n k : Nat) (A : List Rat) (astep lda : Nat) (B : List Rat) (ldb : Nat) (beta : Rat)
    (out : List Rat) (cstep ldc batch : Nat) : Res (List Rat) :=
  let l := dcnLd tA m n k lda ldb ldc
  loop (fun out i => do
    let r ← gemmOrder near simd true tA false m n k 1 (A.drop (i * astep)) l.1 B l.2.1 beta (out.drop (i * cstep)) l.2.2
    .ok (out.take (i * cstep) ++ r)) batch out

/-- `dcn_v2_cpu_forward` from the buffers on, dcn_v2_cpu.cpp:79-157; `Co` channels of the result. `ones` is filled with ones, the columns are new
memory. -/
def dcnCompute (fl : Rat → Rat) (near : Rat → Rat → Bool) (simd : Bool) (v : DcnWindow) (groups : Int) (D : DcnDims) (Co : Nat) (x w b off mask : List Rat)
    (cols out : List Rat) : Res (List Rat) := do
  let n := D.OH * D.OW
  let k := D.C * D.kh * D.kw
  let out ← dcnGemm near simd true n Co 1 (List.replicate (D.N * D.OH * D.OW) 1) n 1 b 1 0 out (Co * D.OW * D.OH) n D.N
  let cols ← dcnIm2col fl v groups D x off mask cols
  dcnGemm near simd false n Co k cols (D.C * D.kh * D.kw * D.OH * D.OW) n w k 1 out (Co * D.OW * D.OH) n D.N

/-- `forward`, dcn_v2_forward.cpp:15-23 and dcn_v2_cpu.cpp:51-93: the checks. The rows and columns of the kernel are extents 2 and 3 of the weight,
whatever the format, so that the first check of dcn_v2_cpu.cpp:68 holds. -/
def dcnForward (fl : Rat → Rat) (near : Rat → Rat → Bool) (simd : Bool) (v : DcnWindow) (groups : Int) (x w b off mask : Operand Rat)
    (proto : Nat × List Int) (fresh : Nat → List Rat) : Res (List Int × List Rat) :=
  if v.top = v.bottom then
    if v.left = v.right then
      if x.dtype = 10 then
        if x.shape.getD 1 0 = w.shape.getD 1 0 then do
          let oh ← dcnExtent (x.shape.getD 2 0) v.top (w.shape.getD 2 0) v.sh v.dh
          let ow ← dcnExtent (x.shape.getD 3 0) v.left (w.shape.getD 3 0) v.sw v.dw
          if oh < 0 ∨ ow < 0 then .ub
          else if proto = (x.dtype, [(x.shape.getD 0 0 : Int), (w.shape.getD 0 0 : Int), oh, ow]) then do
            let D : DcnDims := ⟨x.shape.getD 0 0, x.shape.getD 1 0, x.shape.getD 2 0, x.shape.getD 3 0, w.shape.getD 2 0, w.shape.getD 3 0, oh.toNat, ow.toNat⟩
            let out ← dcnCompute fl near simd v groups D (w.shape.getD 0 0) x.data w.data b.data off.data mask.data
              (fresh (D.N * (D.C * D.kh * D.kw) * (D.OH * D.OW))) (fresh (D.N * w.shape.getD 0 0 * D.OH * D.OW))
            .ok (proto.2, out)
          else .err
        else .err
      else .err
    else .err
  else .err

/-- `run`, base_dcn_v2_forward.cpp:164-207 -/
def dcnRun (fl : Rat → Rat) (near : Rat → Rat → Bool) (simd : Bool) (p : DcnParams) (ops : List (Operand Rat)) (fresh : Nat → List Rat) :
    Res (List Int × List Rat) := do
  let proto ← dcnInfer p (ops.map fun t => (t.dtype, t.shape))
  match ops with
  | [x, w, b, off, mask] => dcnForward fl near simd (dcnWindow p) p.groups x w b off mask proto fresh
  | _ => .err

end Verif.Kernels
