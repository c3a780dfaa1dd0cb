import Verif.Kernels.Conv
import Verif.Kernels.Pad
import Verif.Kernels.Buf
/-!
# Transposed convolution without CBLAS (src/backend/base/base_conv2d_transpose.cpp, src/kernels/cpu/transpose_conv2d_core.cpp, im2col.cpp)

In `ConvGeo`, `o` is the number of channels of the input and `h`, `w` are its extents; `c` is the number of channels of the output. Element arithmetic
is exact; index arithmetic is on mathematical integers, the extents are computed in checked `int` arithmetic.
-/
namespace Verif.Kernels
open Verif.Core

variable {α : Type} [CommSemiring α]

/-- one step of `col2im_cpu`, im2col.cpp:152-164: column element (channel `c`, kernel cell (kr, kc), position (i, j)) is added to the image of
`height` x `width`. Row, column and the position in the columns are given in closed form; skipped rows advance the position by `ow` (153). -/
def col2imStep (g : ConvGeo) (height width oh ow : Nat) (col : List α) (c kr kc i j : Nat) (im : List α) : Res (List α) :=
  let r : Int := -g.top + kr * g.dh + i * g.sh
  let q : Int := -g.left + kc * g.dw + j * g.sw
  if (0 ≤ r ∧ r < height) ∧ 0 ≤ q ∧ q < width then do
    let v ← rd col (((c * g.kh + kr) * g.kw + kc) * (oh * ow) + (i * ow + j))
    let a ← rdI im ((c : Int) * (height * width) + (r * width + q))
    wrI im ((c : Int) * (height * width) + (r * width + q)) (a + v)
  else .ok im

/-- `col2im_cpu`, im2col.cpp:130-172: the image is cleared, then every column element is added. It computes the extents of the columns again. -/
def col2im (g : ConvGeo) (height width : Nat) (col : List α) (im : List α) : Res (List α) := do
  let im ← loop (fun im i => wr im i 0) (height * width * g.c) im
  let oh ← convForward height g.top g.bottom g.kh g.sh g.dh
  let ow ← convForward width g.left g.right g.kw g.sw g.dw
  if oh < 0 ∨ ow < 0 then .ub
  else loop (fun im c => loop (fun im kr => loop (fun im kc => loop (fun im i => loop (fun im j =>
    col2imStep g height width oh.toNat ow.toNat col c kr kc i j im) ow.toNat im) oh.toNat im) g.kw im) g.kh im) g.c im

/-- the weights transposed to one row per output channel and kernel cell, transpose_conv2d_core.cpp:54-55 (the operator itself is C16) -/
def transposedWeights (g : ConvGeo) (w : List α) : Res (List α) :=
  forEach (fun p => rd w (p % g.o * (g.c * g.kh * g.kw) + p / g.o)) (List.range (g.c * g.kh * g.kw * g.o))

/-- one image, transpose_conv2d_core.cpp:75-104: `im` is the input from `pinput` on, `col0` the column buffer, `dst` the part of the output that
belongs to this image; `std::memcpy` for 1x1 kernels -/
def tconvImage (isFloat : Bool) (g : ConvGeo) (yh yw : Nat) (tw im col0 dst : List α) : Res (List α) := do
  let col ← gemmPacked isFloat (g.c * g.kh * g.kw) (g.h * g.w) g.o tw im true true col0
  if is1x1 g then
    if col.length ≤ dst.length then .ok (col ++ dst.drop col.length) else .ub
  else col2im g yh yw col dst

/-- `Conv2DTranspose::run`, base_conv2d_transpose.cpp:143-256, transpose_conv2d_core.cpp:24-137. `dtype` is that of the input (10 `FLOAT32`,
11 `FLOAT64`), `same` says that the weights have it too, `wo` is the first extent of the weights, `nchw` the layout; `fresh i n` is the memory of image
`i` of the output (`n` elements), `freshCol i n` the contents of the column buffer at image `i`. -/
def tconvRun (dtype : Nat) (same nchw packed : Bool) (wo : Nat) (g : ConvGeo) (x w : List α) (fresh freshCol : Nat → Nat → List α) :
    Res ((Nat × Nat) × List α) :=
  if !same ∨ wo ≠ g.o then .err
  else do
    let yh ← convBackward g.h g.top g.bottom g.kh g.sh g.dh
    let yw ← convBackward g.w g.left g.right g.kw g.sw g.dw
    if yh < 0 ∨ yw < 0 then .ub
    else if !nchw ∨ (dtype ≠ 10 ∧ dtype ≠ 11) ∨ packed then .err
    else do
      let tw ← transposedWeights g w
      let imgs ← forEach (fun i => tconvImage (dtype == 10) g yh.toNat yw.toNat tw (x.drop (i * (g.o * (g.h * g.w))))
        (freshCol i (g.c * g.kh * g.kw * (g.h * g.w))) (fresh i (g.c * (yh.toNat * yw.toNat)))) (List.range g.n)
      .ok ((yh.toNat, yw.toNat), imgs.flatten)

end Verif.Kernels
