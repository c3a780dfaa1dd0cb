import Verif.Kernels.Conv
import Verif.Kernels.Cast
import Verif.Kernels.Buf
import Verif.Core.ShapeSpec
import Verif.Core.Float32
/-!
# Quantisation and convolution of quantised tensors (src/kernels/cpu/quantize.cpp, src/backend/base/base_quantize.cpp, src/kernels/cpu/quantized/conv2d_quantized_core.cpp,
src/backend/base/base_conv2d_quantized.cpp)

Floating point numbers are their values; infinities and NaN are not modelled. Element counts are mathematical integers (`int` in the code).
-/
namespace Verif.Kernels
open Verif.Core Verif.Spec

/-- `INT8` -/
def int8 : IntTy := ⟨true, 8⟩

/-- the nearest integer, halves away from zero: `round` of the C library -/
def roundAway (q : Rat) : Int := if 0 ≤ q then ⌊q + 1 / 2⌋ else ⌈q - 1 / 2⌉

/-- the two comparisons of `to_int8`, quantize.cpp:16-36 -/
def clampInt8 (v : Int) : Int := if v > 127 then 127 else if v < -128 then -128 else v

/-- `int32_t(round(src))`: undefined for numbers outside of `int32_t` -/
def toInt32 (q : Rat) : Res Int := if cInt.has (roundAway q) then .ok (roundAway q) else .ub

/-- `to_int8<float>` and `to_int8<double>`, quantize.cpp:22-36 -/
def toInt8 (q : Rat) : Res Int := do
  let v ← toInt32 q
  .ok (clampInt8 v)

/-- conversion of a vector of `float`s, `floatx4x2_to_int32x4x2`: with SSE and AVX (simd_sse_def.h:310-315, simd_avx_def.h:273-275) halves go to the even neighbour and
everything outside of `int32_t` becomes the least one; with NEON (simd_neon_def.h:351-356) towards zero and to the nearest bound; without vector instructions
(simd_base_def.h:262-264) as for one number -/
inductive Lanes where
  | sse
  | neon
  | base

/-- one of the eight conversions -/
def laneInt32 (l : Lanes) (q : Rat) : Res Int :=
  match l with
  | .sse => .ok (if cInt.has (roundEven q) then roundEven q else cInt.lo)
  | .neon => .ok (min (max (truncQ q) cInt.lo) (cInt.hi - 1))
  | .base => toInt32 q

/-- `*(output_data + ii + k) = to_int8(output_int32x8[k])`, quantize.cpp:85-96 -/
def laneInt8 (l : Lanes) (q : Rat) : Res Int := do
  let v ← laneInt32 l q
  .ok (clampInt8 v)

/-- one scale for all of a `float` tensor, quantize.cpp:75-109: eight elements at a time, then the rest. The iterations of the OpenMP loop write different elements (C27) -/
def quantizeOneFloat (fl : Rat → Rat) (l : Lanes) (scale : Rat) (x : List Rat) (n : Nat) (out : List Int) : Res (List Int) := do
  let out ← loop (fun out i => loop (fun out k => do
    let v ← rd x (i * 8 + k)
    let w ← laneInt8 l (fl (v * scale))
    wr out (i * 8 + k) w) 8 out) (n / 8) out
  loop (fun out k => do
    let v ← rd x (n / 8 * 8 + k)
    let w ← toInt8 (fl (v * scale))
    wr out (n / 8 * 8 + k) w) (n - n / 8 * 8) out

/-- one scale for all of a `double` tensor, quantize.cpp:45-53 -/
def quantizeOne (fl : Rat → Rat) (scale : Rat) (x : List Rat) (n : Nat) (out : List Int) : Res (List Int) :=
  loop (fun out i => do
    let v ← rd x i
    let w ← toInt8 (fl (v * scale))
    wr out i w) n out

/-- `int(std::ceil(static_cast<float>(count) / quantize_group))`, quantize.cpp:55, 112; without groups it is 0 / 0 -/
def groupSize (f : Rat → Rat) (count groups : Nat) : Res Nat :=
  if groups = 0 then .ub else .ok ⌈f (f count / f groups)⌉.toNat

/-- `while (index < count && loop_count_temp)`, quantize.cpp:60-64, 117-121: `min (count - index) size` rounds -/
def quantizeGroup (fl : Rat → Rat) (scale : Rat) (x : List Rat) (count size : Nat) (s : Nat × List Int) : Res (Nat × List Int) := do
  let rounds := min (count - s.1) size
  let out ← loop (fun out k => do
    let v ← rd x (s.1 + k)
    let w ← toInt8 (fl (v * scale))
    wr out (s.1 + k) w) rounds s.2
  .ok (s.1 + rounds, out)

/-- several scales, quantize.cpp:54-66, 111-123 -/
def quantizeGroups (f fl : Rat → Rat) (scales : List Rat) (x : List Rat) (count : Nat) (out : List Int) : Res (List Int) := do
  let size ← groupSize f count scales.length
  let s ← loop (fun s n => do
    let scale ← rd scales n
    quantizeGroup fl scale x count size s) scales.length (0, out)
  .ok s.2

/-- `cpu_quantize_compute_run`, quantize.cpp:38-125: FLOAT32 is 10, FLOAT64 is 11 -/
def quantizeRun (f : Rat → Rat) (rnd : Nat → Rat → Rat) (l : Lanes) (dtype : Nat) (scales : List Rat) (x : List Rat) (count : Nat) (out : List Int) : Res (List Int) :=
  if dtype = 10 then
    match scales with
    | [s] => quantizeOneFloat (rnd 10) l s x count out
    | _ => quantizeGroups f (rnd 10) scales x count out
  else if dtype = 11 then
    match scales with
    | [s] => quantizeOne (rnd 11) s x count out
    | _ => quantizeGroups f (rnd 11) scales x count out
  else .err

/-- `Quantize::infer` and `Quantize::run`, base_quantize.cpp:22-49: `sizes()[0]` of a tensor without dimensions does not exist; `fresh` is the memory of the output. The result:
shape and elements, of type INT8 -/
def quantize (f : Rat → Rat) (rnd : Nat → Rat → Rat) (l : Lanes) (dtype : Nat) (shape : List Nat) (scales : List Rat) (x : List Rat) (fresh : Nat → List Int) :
    Res (List Nat × List Int) :=
  match shape with
  | [] => .ub
  | n :: rest =>
    if scales.length = n then do
      let out ← quantizeRun f rnd l dtype scales x (prod (n :: rest)) (fresh (prod (n :: rest)))
      .ok (n :: rest, out)
    else .err

/-! ## Convolution -/

/-- `inline_dot<int8_t, int32_t>`, math_cpu.cpp:30-46, with a row of the left and a column of the right matrix: sums of `int`s; the blocks of four are in order -/
def dotInt8 (K : Nat) (a : List Int) (oa : Nat) (b : List Int) (ob ldb : Nat) : Res Int :=
  loop (fun s k => do
    let u ← rd a (oa + k)
    let v ← rd b (ob + k * ldb)
    int32 (s + u * v)) K 0

/-- `math<int8_t, int32_t>::gemm` with `alpha` 1 and `beta` 0, math_cpu.cpp:143-180, 245-252: the output is set to zero, then the products are added -/
def gemmInt8 (M N K : Nat) (a b : List Int) (dst : List Int) : Res (List Int) := do
  let dst ← loop (fun d i => wr d i 0) (M * N) dst
  loop (fun d i => loop (fun d j => do
    let s ← dotInt8 K a (i * K) b j N
    let c ← rd d (i * N + j)
    let c ← int32 (c + 1 * s)
    wr d (i * N + j) c) N d) M dst

/-- `T(padding_value)`, conv2d_quantized_core.cpp:74: towards zero, undefined outside of the type -/
def padInt8 (q : Rat) : Res Int := if int8.has (truncQ q) then .ok (truncQ q) else .ub

/-- the value around the image; it is not converted when the columns are the image, conv2d_quantized_core.cpp:67-76 -/
def quantPad (g : ConvGeo) (padv : Rat) : Res Int := if is1x1 g then .ok 0 else padInt8 padv

/-- one image, conv2d_quantized_core.cpp:60-80: the columns are made as for other convolutions (the same code as conv2d_core.cpp:49-72) -/
def quantImage (g : ConvGeo) (padv : Int) (oh ow : Nat) (im w dst : List Int) : Res (List Int) := do
  let col ← convColumns g padv oh ow im
  gemmInt8 g.o (oh * ow) (g.c * g.kh * g.kw) w col dst

/-- one channel of the output, conv2d_quantized_core.cpp:91-107: `p` is where `poutput` points, it is moved behind what is written -/
def dequantChannel {κ : Type} (deq : Int → κ → κ) (scales : List κ) (acc : List Int) (o sp n : Nat) (s : Nat × List κ) (c : Nat) : Res (Nat × List κ) := do
  let scale ← rd scales c
  let out ← loop (fun out i => do
    let v ← rd acc (n * (o * sp) + c * sp + i)
    wr out (s.1 + i) (deq v scale)) sp s.2
  .ok (s.1 + sp, out)

/-- the loop over the channels, in the order in which its iterations are run: ascending without OpenMP. The pointer is shared by them -/
def dequantImage {κ : Type} (deq : Int → κ → κ) (scales : List κ) (acc : List Int) (o sp n : Nat) : List Nat → Nat × List κ → Res (Nat × List κ)
  | [], s => .ok s
  | c :: cs, s => do
    let s ← dequantChannel deq scales acc o sp n s c
    dequantImage deq scales acc o sp n cs s

/-- conv2d_quantized_core.cpp:83-108 -/
def dequant {κ : Type} (deq : Int → κ → κ) (order : Nat → List Nat) (scales : List κ) (acc : List Int) (N o sp : Nat) (out : List κ) : Res (List κ) := do
  let s ← loop (fun s n => dequantImage deq scales acc o sp n (order n) s) N (0, out)
  .ok s.2

/-- `cpu_conv2d_nchw_compute_run`, conv2d_quantized_core.cpp:17-108, after `infer`, base_conv2d_quantized.cpp:120-177. INT8 is 1. `init` is the memory of the sums, `fresh` that of
the output -/
def quantConvRun {κ : Type} (deq : Int → κ → κ) (order : Nat → List Nat) (nchw : Bool) (xd wd : Nat) (g : ConvGeo) (padv : Rat) (x w : List Int) (scales : List κ)
    (init : Nat → List Int) (fresh : Nat → List κ) : Res ((Nat × Nat) × List κ) :=
  if xd = wd ∧ xd = 1 ∧ scales.length = g.o then do
    let oh ← convForward g.h g.top g.bottom g.kh g.sh g.dh
    let ow ← convForward g.w g.left g.right g.kw g.sw g.dw
    if oh < 0 ∨ ow < 0 then .ub
    else if nchw then do
      let oh := oh.toNat
      let ow := ow.toNat
      let padv ← quantPad g padv
      let accs ← forEach (fun i => quantImage g padv oh ow (x.drop (i * (g.c * g.h * g.w))) w (init i)) (List.range g.n)
      let out ← dequant deq order scales accs.flatten g.n g.o (oh * ow) (fresh (g.n * g.o * (oh * ow)))
      .ok ((oh, ow), out)
    else .err
  else .err

end Verif.Kernels
