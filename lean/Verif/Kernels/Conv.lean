import Verif.Kernels.Gemm
import Verif.Kernels.Geometry
/-!
# Two-dimensional convolution without CBLAS (src/kernels/cpu/conv2d_core.cpp, im2col.cpp, base_conv2d.cpp)

NCHW data as flat lists. Buffer index arithmetic is on mathematical integers (every index is below an element count);
the geometry formulas are checked `int` arithmetic.
-/
namespace Verif.Kernels
open Verif.Core

variable {α : Type}

/-- sizes and parameters of a convolution: batch, input channels, image, output channels, kernel; padding, stride,
dilation -/
structure ConvGeo where
  n : Nat
  c : Nat
  h : Nat
  w : Nat
  o : Nat
  kh : Nat
  kw : Nat
  top : Int
  bottom : Int
  left : Int
  right : Int
  sh : Nat
  sw : Nat
  dh : Nat
  dw : Nat

/-- The value stored for channel `c`, kernel cell `(kr, kc)`, output position `(i, j)`, im2col.cpp:54-70. `input_row`
and `input_col` are given in closed form: they start at `-pad + kernel * dilation` and advance by the stride. The
unsigned comparison of im2col.cpp:32-34 is `0 ≤ a < b`. -/
def colAt (g : ConvGeo) (padv : α) (im : List α) (c kr kc i j : Nat) : Res α :=
  let r : Int := -g.top + kr * g.dh + i * g.sh
  if 0 ≤ r ∧ r < g.h then
    let q : Int := -g.left + kc * g.dw + j * g.sw
    if 0 ≤ q ∧ q < g.w then readAtInt im ((c : Int) * (g.h * g.w) + (r * g.w + q)) else .ok padv
  else .ok padv

/-- the loops of `im2col_cpu`, im2col.cpp:51-63, outermost first -/
def colLoops (g : ConvGeo) (oh ow : Nat) : List (Nat × Nat × Nat × Nat × Nat) :=
  (List.range g.c).flatMap fun c => (List.range g.kh).flatMap fun kr => (List.range g.kw).flatMap fun kc =>
    (List.range oh).flatMap fun i => (List.range ow).map fun j => (c, kr, kc, i, j)

/-- `im2col_cpu`, im2col.cpp:36-76. It computes the output size again; a negative size makes the counting loops run
past the buffer. (The OpenMP version writes the same cells.) -/
def im2col (g : ConvGeo) (padv : α) (im : List α) : Res (List α) := do
  let oh ← convForward g.h g.top g.bottom g.kh g.sh g.dh
  let ow ← convForward g.w g.left g.right g.kw g.sw g.dw
  if oh < 0 ∨ ow < 0 then .ub
  else forEach (fun (c, kr, kc, i, j) => colAt g padv im c kr kc i j) (colLoops g oh.toNat ow.toNat)

/-- `is_1x1_conv`, conv2d_core.cpp:43-46 -/
def is1x1 (g : ConvGeo) : Bool :=
  g.sh == 1 && g.sw == 1 && g.kh == 1 && g.kw == 1 && g.top == 0 && g.bottom == 0 && g.left == 0 && g.right == 0

/-- the column operand, conv2d_core.cpp:49-72: the image itself for a 1x1 convolution, else the unfolded image. The
column buffer has room for exactly the columns (conv2d_core.cpp:28, 50-56). -/
def convColumns (g : ConvGeo) (padv : α) (oh ow : Nat) (im : List α) : Res (List α) :=
  if is1x1 g then .ok im else
    match im2col g padv im with
    | .ok l => if l.length ≤ g.c * g.kh * g.kw * oh * ow then .ok l else .ub
    | r => r

variable [CommSemiring α]

/-- one iteration of the batch loop, conv2d_core.cpp:58-98: `im` is the input from `pinput` on, `dst` the part of the
output belonging to this image. -/
def convImage (isFloat kernelPacked : Bool) (g : ConvGeo) (padv : α) (oh ow : Nat) (im w dst : List α) :
    Res (List α) := do
  let col ← convColumns g padv oh ow im
  gemmPacked isFloat g.o (oh * ow) (g.c * g.kh * g.kw) w col (!kernelPacked) true dst

/-- `Conv2D::run` for NCHW without CBLAS, base_conv2d.cpp:115-206 and conv2d_core.cpp:17-99: output extents and data.
`x`, `w` and the uninitialised output buffer `init` are flat; a negative extent cannot be allocated. The input channel
check (base_conv2d.cpp:126) is implied: both tensors have `g.c` channels. -/
def conv2dRun (isFloat kernelPacked : Bool) (g : ConvGeo) (padv : α) (x w : List α) (init : Nat → List α) :
    Res ((Nat × Nat) × List α) := do
  let oh ← convForward g.h g.top g.bottom g.kh g.sh g.dh
  let ow ← convForward g.w g.left g.right g.kw g.sw g.dw
  if oh < 0 ∨ ow < 0 then .ub
  else
    let oh := oh.toNat
    let ow := ow.toNat
    let imgs ← forEach (fun i => convImage isFloat kernelPacked g padv oh ow (x.drop (i * (g.c * g.h * g.w))) w
      (init i)) (List.range g.n)
    .ok ((oh, ow), imgs.flatten)

end Verif.Kernels
