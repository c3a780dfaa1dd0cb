import Verif.Kernels.Cast
import Verif.Kernels.DataMove
/-!
# Operators on whole images: force_color, force_gray, prewhiten, norm_image

Sources: src/backend/base/base_{force_color,force_gray,prewhiten,norm_image,activation}.cpp and
src/kernels/cpu/{force_color,force_gray,prewhiten,norm_image}.cpp. The number of pixels is computed in `int`s there; overflow of it is not modelled.
-/
namespace Verif.Kernels
open Verif.Core

variable {α δ : Type}

/-- `cpu_force_color_compute_run`, force_color.cpp:25-44 -/
def colorKernel (x : List α) (number cin cout : Nat) (out : List α) : Res (List α) :=
  loop (fun out i => loop (fun out j => do
    let v ← rd x (i * cin)
    wr out (i * cout + j) v) cout out) number out

/-- `output_size.back() = n`, base_force_color.cpp:22-23 and 46-47 -/
def withLast (shape : List Nat) (n : Nat) : List Nat := shape.dropLast ++ [n]

/-- `ForceColor::run`, base_force_color.cpp:30-56, and the dispatch on the type, force_color.cpp:46-68 -/
def forceColorRun (x : Operand α) (fresh : Nat → List α) : Res (List Nat × List α) :=
  match x.shape.getLast? with
  | none => .err
  | some c =>
    if c = 3 then .ok (x.shape, x.data)
    else if c ≠ 1 then .err
    else if plainType x.dtype then do
      let out ← colorKernel x.data (Spec.prod x.shape.dropLast) c 3 (fresh (Spec.prod (withLast x.shape 3)))
      .ok (withLast x.shape 3, out)
    else .err

/-- `ForceColor::infer` and `ForceGray::infer`, base_force_color.cpp:15-28, base_force_gray.cpp:23-36 -/
def forceInfer (n : Nat) (shape : List Nat) : Res (List Nat) := if shape = [] then .err else .ok (withLast shape n)

/-- `__sum_type`, force_gray.cpp:27-37: the type the weighted sum is computed in -/
def sumType (dtype : Nat) : Nat := if dtype = 11 then 11 else 10

/-- `T(pixel)`, force_gray.cpp:61: towards zero to an integer type, undefined outside it; a `float` or `double` is not changed -/
def grayCell (dtype : Nat) (p : Rat) : Res Rat :=
  match numTy dtype with
  | some (.int t) => if t.has (truncQ p) then .ok (truncQ p : Int) else .ub
  | _ => .ok p

/-- `pixel += scale[j] * input_pixel[j]`, force_gray.cpp:57-59; `rnd` rounds to the type of the sum: the element, the product, the sum -/
def graySum (rnd : Rat → Rat) (scale x : List Rat) (base cin : Nat) : Res Rat :=
  loop (fun p j => do
    let s ← rd scale j
    let v ← rd x (base + j)
    .ok (rnd (p + rnd (s * rnd v)))) cin 0

/-- `cpu_force_gray_compute_run`, force_gray.cpp:40-63 -/
def grayKernel (rnd : Nat → Rat → Rat) (dtype : Nat) (scale x : List Rat) (number cin cout : Nat) (out : List Rat) : Res (List Rat) :=
  loop (fun out i => do
    let p ← graySum (rnd (sumType dtype)) scale x (i * cin) cin
    let v ← grayCell dtype p
    wr out (i * cout) v) number out

/-- the values of `0.114f`, `0.587f` and `0.299f`, base_force_gray.cpp:60 -/
def bgrScale : List Rat := [15300821 / 134217728, 4924113 / 8388608, 10032775 / 33554432]

/-- the weights: those given, if any, for as many channels, else the three of the default, base_force_gray.cpp:55-67 -/
def grayScale (scale : List Rat) (c : Nat) : Res (List Rat) :=
  if scale = [] then (if c = 3 then .ok bgrScale else .err)
  else if c = scale.length then .ok scale else .err

/-- `ForceGray::run`, base_force_gray.cpp:38-70, and the dispatch on the type, force_gray.cpp:65-87; `scale` is the parameter, empty without it -/
def forceGrayRun (rnd : Nat → Rat → Rat) (scale : List Rat) (x : Operand Rat) (fresh : Nat → List Rat) : Res (List Nat × List Rat) :=
  match x.shape.getLast? with
  | none => .err
  | some c =>
    if c = 1 then .ok (x.shape, x.data)
    else do
      let ws ← grayScale scale c
      if plainType x.dtype then do
        let out ← grayKernel rnd x.dtype ws x.data (Spec.prod x.shape.dropLast) c 1 (fresh (Spec.prod (withLast x.shape 1)))
        .ok (withLast x.shape 1, out)
      else .err

/-- the operations of `T` and of `double` -/
structure Wide (α δ : Type) where
  widen : α → δ
  narrow : δ → α
  zero : δ
  one : δ
  ofNat : Nat → δ
  add : δ → δ → δ
  sub : δ → δ → δ
  mul : δ → δ → δ
  div : δ → δ → δ
  sqrt : δ → δ
  lt : δ → δ → Bool
  subT : α → α → α
  mulT : α → α → α

/-- `for (…) mean += *at; mean /= count`, prewhiten.cpp:28-30, norm_image.cpp:47-49 -/
def itemMean (W : Wide α δ) (out : List α) (base count : Nat) : Res δ := do
  let s ← loop (fun m i => do
    let v ← rd out (base + i)
    .ok (W.add m (W.widen v))) count W.zero
  .ok (W.div s (W.ofNat count))

/-- `for (…) std_dev += (*at - mean) * (*at - mean); std_dev = std::sqrt(std_dev / count)`, prewhiten.cpp:32-34, norm_image.cpp:51-53 -/
def itemDev (W : Wide α δ) (mean : δ) (out : List α) (base count : Nat) : Res δ := do
  let s ← loop (fun m i => do
    let v ← rd out (base + i)
    .ok (W.add m (W.mul (W.sub (W.widen v) mean) (W.sub (W.widen v) mean)))) count W.zero
  .ok (W.sqrt (W.div s (W.ofNat count)))

/-- `1 / std::max<double>(std_dev, 1 / std::sqrt(count))`, prewhiten.cpp:35-36; `std::max(a, b)` is `a < b ? b : a` -/
def whitenFactor (W : Wide α δ) (count : Nat) (dev : δ) : δ :=
  W.div W.one (if W.lt dev (W.div W.one (W.sqrt (W.ofNat count))) then W.div W.one (W.sqrt (W.ofNat count)) else dev)

/-- `1 / (std_dev + epsilon)`, norm_image.cpp:55 -/
def normFactor (W : Wide α δ) (eps : δ) (_count : Nat) (dev : δ) : δ := W.div W.one (W.add dev eps)

/-- `cpu_pre_whiten_compute_run`, prewhiten.cpp:10-50, `cpu_norm_image_compute_run`, norm_image.cpp:28-68, after the copy; `count /= batch` is a
division of integers -/
def normKernel (W : Wide α δ) (factor : Nat → δ → δ) (total batch : Nat) (out : List α) : Res (List α) :=
  if batch = 0 then .ub
  else loop (fun out n => do
    let mean ← itemMean W out (n * (total / batch)) (total / batch)
    let dev ← itemDev W mean out (n * (total / batch)) (total / batch)
    loop (fun out i => do
      let v ← rd out (n * (total / batch) + i)
      wr out (n * (total / batch) + i) (W.mulT (W.subT v (W.narrow mean)) (W.narrow (factor (total / batch) dev)))) (total / batch) out) batch out

/-- the copy, prewhiten.cpp:13-16, and the dispatch on the type, prewhiten.cpp:52-72, norm_image.cpp:70-84 -/
def normDispatch (W : Wide α δ) (factor : Nat → δ → δ) (x : Operand α) (fresh : Nat → List α) : Res (List Nat × List α) :=
  if x.dtype = 10 ∨ x.dtype = 11 then
    match x.shape with
    | [] => .ub
    | batch :: _ => do
      let copy ← Verif.Memory.copyFrom (fresh (Spec.prod x.shape)) 0 x.data (Spec.prod x.shape)
      let out ← normKernel W factor (Spec.prod x.shape) batch copy
      .ok (x.shape, out)
  else .err

/-- `PreWhiten::active`, base_prewhiten.cpp:9-13, in `Activation::run`, base_activation.cpp:20-31 -/
def prewhitenRun (W : Wide α δ) (x : Operand α) (fresh : Nat → List α) : Res (List Nat × List α) :=
  if x.shape = [] then .err else normDispatch W (whitenFactor W) x fresh

/-- `NormImage::run`, base_norm_image.cpp:29-40; a tensor of rank 0 has no `size(0)`, which is read nevertheless, norm_image.cpp:39 -/
def normImageRun (W : Wide α δ) (eps : δ) (x : Operand α) (fresh : Nat → List α) : Res (List Nat × List α) :=
  normDispatch W (normFactor W eps) x fresh

end Verif.Kernels
