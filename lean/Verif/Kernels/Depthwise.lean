import Verif.Kernels.Conv
import Verif.Kernels.Buf
import Verif.Kernels.Pad
/-!
# Depthwise convolution (src/kernels/cpu/depthwise_conv2d_core.cpp, depthwise_conv2d_algorithm.cpp, base_depthwise_conv2d.cpp)

Element arithmetic is exact. `x` and the output are whole tensors, `w` is the memory that is readable from the first weight on (the tensor's
weights, and whatever lies behind them). Index arithmetic is on mathematical integers. The parallel loop over the channels is modelled in the
order of the channels. In `ConvGeo`, `c` is the number of channels of the input and of the output; `o` is not used.
-/
namespace Verif.Kernels
open Verif.Core

variable {α : Type} [CommSemiring α]

/-- one step of the sum, depthwise_conv2d_algorithm.cpp:26-37 and 62-77: `r`, `q` are the row and column of the input, `xb` the start of the channel -/
def dwStep (g : ConvGeo) (padv : α) (x w : List α) (xb wb : Nat) (r q : Int) (p : Nat) (s : α) : Res α := do
  let k ← rd w (wb + p)
  if 0 ≤ r ∧ r < g.h ∧ 0 ≤ q ∧ q < g.w then do
    let v ← rdI x (xb + r * g.w + q)
    .ok (s + v * k)
  else .ok (s + padv * k)

/-- the sum over the cells of the kernel, for the output position (h, w), depthwise_conv2d_algorithm.cpp:23-38 (3x3, dilation 1) and 57-80 -/
def dwSum (g : ConvGeo) (kh kw dh dw : Nat) (padv : α) (x w : List α) (xb wb : Nat) (h q : Int) : Res α :=
  loop (fun s i => loop (fun s j =>
    dwStep g padv x w xb wb (h * g.sh - g.top + i * dh) (q * g.sw - g.left + j * dw) (i * kw + j) s) kw s) kh 0

/-- `depthwise_general`, depthwise_conv2d_algorithm.cpp:43-84; the output pointer advances by one per iteration, its position is given in closed
form -/
def dwGeneral (g : ConvGeo) (padv : α) (x w : List α) (oh ow : Nat) (dst : List α) : Res (List α) :=
  loop (fun dst n => loop (fun dst c => loop (fun dst h => loop (fun dst q => do
    let s ← dwSum g g.kh g.kw g.dh g.dw padv x w ((n * g.c + c) * (g.h * g.w)) (c * g.kh * g.kw) h q
    wr dst (((n * g.c + c) * oh + h) * ow + q) s) ow dst) oh dst) g.c dst) g.n dst

/-- the parts of `depthwise_3x3_s1` and `_s2` that do not change: geometry, padding value, input, weights, starts of the channel in input, weights
and output, output width, and the weights loaded into three registers of four -/
structure DwEnv (α : Type) where
  g : ConvGeo
  padv : α
  x : List α
  w : List α
  xb : Nat
  wb : Nat
  ob : Nat
  ow : Nat
  regs : List α

/-- `depthwise_inner`, depthwise_conv2d_algorithm.cpp:11-40 -/
def DwEnv.inner (e : DwEnv α) (dst : List α) (h q : Int) : Res (List α) := do
  let s ← dwSum e.g 3 3 1 1 e.padv e.x e.w e.xb e.wb h q
  wrI dst (e.ob + h * e.ow + q) s

/-- one lane of the vectorised sum, depthwise_conv2d_algorithm.cpp:181-222, 355-379: register `i` of the kernel times the input row `i`, from the
first row and column on -/
def DwEnv.lane (e : DwEnv α) (r q : Int) : Res α :=
  loop (fun s i => loop (fun s j => do
    let v ← rdI e.x (e.xb + (r + i) * e.g.w + (q + j))
    .ok (s + v * e.regs.getD (4 * i + j) 0)) 3 s) 3 0

/-- four outputs of a row, depthwise_conv2d_algorithm.cpp:177-223 and 350-380 (one row of the two), from (h, q) on -/
def DwEnv.four (e : DwEnv α) (dst : List α) (h q : Int) : Res (List α) :=
  loop (fun dst l => do
    let s ← e.lane (h * e.g.sh - e.g.top) ((q + l) * e.g.sw - e.g.left)
    wrI dst (e.ob + h * e.ow + (q + l)) s) 4 dst

/-- `rows` rows from `h` on, depthwise_conv2d_algorithm.cpp:161-239 (two rows) and 343-389 (one row) -/
def DwEnv.band (e : DwEnv α) (rows : Nat) (ws we : Int) (dst : List α) (h : Int) : Res (List α) := do
  let dst ← loop (fun dst q => loop (fun dst r => e.inner dst (h + r) q) rows dst) ws.toNat dst
  let m := ((we - ws) / 4).toNat
  let dst ← loop (fun dst k => loop (fun dst r => e.four dst (h + r) (ws + 4 * k)) rows dst) m dst
  loop (fun dst k => loop (fun dst r => e.inner dst (h + r) (ws + 4 * m + k)) rows dst) (e.ow - (ws + 4 * m)).toNat dst

/-- one channel, depthwise_conv2d_algorithm.cpp:149-249 and 329-398: the rows before `hs`, bands of `rows` rows as long as they end before `he`, the
rest -/
def DwEnv.plane (e : DwEnv α) (rows : Nat) (hs he ws we : Int) (oh : Nat) (dst : List α) : Res (List α) := do
  let dst ← loop (fun dst h => loop (fun dst q => e.inner dst h q) e.ow dst) hs.toNat dst
  let m := ((he - hs) / rows).toNat
  let dst ← loop (fun dst k => e.band rows ws we dst (hs + rows * k)) m dst
  loop (fun dst k => loop (fun dst q => e.inner dst (hs + rows * m + k) q) e.ow dst) (oh - (hs + rows * m)).toNat dst

/-- how many rows or columns of outputs a padding of `p` touches, depthwise_conv2d_algorithm.cpp:122-125 (stride 1) and 302-305 (stride 2);
`/` of C truncates -/
def dwEdge (s : Nat) (p : Int) : Int := if p = 0 then 0 else if s = 1 then p else Int.tdiv (p - 1) 2 + 1

/-- the three registers, depthwise_conv2d_algorithm.cpp:148-150, 325-327: each load reads four elements -/
def dwRegs (w : List α) (wb : Nat) : Res (List α) := forEach (fun p => rd w (wb + p / 4 * 3 + p % 4)) (List.range 12)

/-- one channel of `depthwise_3x3_s1` (`s = 1`) or `depthwise_3x3_s2` (`s = 2`) -/
def dwChannel (s : Nat) (g : ConvGeo) (padv : α) (x w : List α) (oh ow n c : Nat) (dst : List α) : Res (List α) := do
  let regs ← dwRegs w (c * 9)
  let e : DwEnv α := { g := g, padv := padv, x := x, w := w, xb := n * (g.c * (g.h * g.w)) + c * (g.h * g.w), wb := c * 9,
                       ob := n * (g.c * (oh * ow)) + c * (oh * ow), ow := ow, regs := regs }
  e.plane (if s = 1 then 2 else 1) (dwEdge s g.top) (oh - dwEdge s g.bottom) (dwEdge s g.left) (ow - dwEdge s g.right) oh dst

/-- `depthwise_3x3_s1` (`s = 1`) or `depthwise_3x3_s2` (`s = 2`), depthwise_conv2d_algorithm.cpp:98-251, 265-402 -/
def dwSpecial (s : Nat) (g : ConvGeo) (padv : α) (x w : List α) (oh ow : Nat) (dst : List α) : Res (List α) :=
  loop (fun dst n => loop (fun dst c => dwChannel s g padv x w oh ow n c dst) g.c dst) g.n dst

/-- does the special kernel with stride `s` apply? depthwise_conv2d_core.cpp:27-31 -/
def dwSpecialised (s : Nat) (g : ConvGeo) : Bool := g.kh == 3 && g.kw == 3 && g.sh == s && g.sw == s && g.dh == 1 && g.dw == 1

/-- `cpu_depthwise_conv2d_nchw_compute_run`, depthwise_conv2d_core.cpp:11-36 -/
def dwCompute (isFloat packed : Bool) (g : ConvGeo) (padv : α) (x w : List α) (oh ow : Nat) (dst : List α) : Res (List α) :=
  if packed then .err
  else if !isFloat then dwGeneral g padv x w oh ow dst
  else if dwSpecialised 1 g then dwSpecial 1 g padv x w oh ow dst
  else if dwSpecialised 2 g then dwSpecial 2 g padv x w oh ow dst
  else dwGeneral g padv x w oh ow dst

/-- `DepthwiseConv2D::run` for NCHW, base_conv2d.cpp:115-206, base_depthwise_conv2d.cpp:11-25, depthwise_conv2d_core.cpp:38-57. `wc` are the first two
extents of the weights, `dtype` that of the input (10 `FLOAT32`, 11 `FLOAT64`), `same` says that the weights have it too; `fresh` is the new
output. -/
def dwRun (dtype : Nat) (same packed : Bool) (wc : Nat × Nat) (g : ConvGeo) (padv : α) (x w : List α) (fresh : Nat → List α) :
    Res ((Nat × Nat) × List α) :=
  if !same ∨ wc.2 ≠ g.c then .err
  else do
    let oh ← convForward g.h g.top g.bottom g.kh g.sh g.dh
    let ow ← convForward g.w g.left g.right g.kw g.sw g.dw
    if wc.1 ≠ 1 then .err
    else if oh < 0 ∨ ow < 0 then .ub
    else if dtype = 10 ∨ dtype = 11 then do
      let out ← dwCompute (dtype == 10) packed g padv x w oh.toNat ow.toNat (fresh (g.n * g.c * (oh.toNat * ow.toNat)))
      .ok ((oh.toNat, ow.toNat), out)
    else .err

end Verif.Kernels
