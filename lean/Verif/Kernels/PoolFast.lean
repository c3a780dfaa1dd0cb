import Verif.Kernels.Pooling
import Verif.Kernels.ShapeIndex
/-!
# The specialised max-pooling kernels of `float` (src/kernels/cpu/pooling_algorithm.cpp)

`max_pooling_k3s2` (lines 19-342) and `max_pooling_k2s2` (lines 351-495) walk pointers through the input and the output.
A pointer is an integer offset into the buffer; reading or writing outside the buffer is undefined. The two functions
have the same control flow and differ in the number of rows and columns of a window and in the treatment of the
windows that are cut at the edges; the shared parts are modelled once and parametrised by these differences. `int`
overflow is not modelled (every offset is within one row of the buffers' ends). `mx` is `std::max`, `vmx` one lane of
`max_float32x4`.
-/
namespace Verif.Kernels
open Verif.Core

variable {α : Type}

/-- `std::max(std::max(a, b), c)` -/
def reduce1 (mx : α → α → α) : List α → Res α
  | [] => .ub
  | v :: t => .ok (t.foldl mx v)

/-- the greatest of `p[o]` for the offsets `o` of one row pointer, e.g. pooling_algorithm.cpp:115 -/
def reduceAt (mx : α → α → α) (x : List α) (offs : List Int) (p : Int) : Res α := do
  let vs ← forEach (fun o => readAtInt x (p + o)) offs
  reduce1 mx vs

/-- the greatest of these over all row pointers, e.g. pooling_algorithm.cpp:198-201 -/
def cellAt (mx : α → α → α) (x : List α) (offs ps : List Int) : Res α := do
  let vs ← forEach (reduceAt mx x offs) ps
  reduce1 mx vs

/-- row pointers, output pointer and output buffer -/
structure Walk (α : Type) where
  ps : List Int
  o : Int
  dst : List α
  deriving DecidableEq

/-- `*out_at = …; out_at++;` and the row pointers advance by `step` -/
def walkCell (mx : α → α → α) (x : List α) (offs : List Int) (step : Int) (s : Walk α) : Res (Walk α) := do
  let v ← cellAt mx x offs s.ps
  let dst ← wrAtInt s.dst s.o v
  .ok ⟨s.ps.map (· + step), s.o + 1, dst⟩

/-- the loop over the remaining cells, pooling_algorithm.cpp:114-121, 197-205, 275-281, 318-323, 417-421, 450-456, 481-485 -/
def walkCells (mx : α → α → α) (x : List α) (full : List Int) : Nat → Walk α → Res (Walk α)
  | 0, s => .ok s
  | m + 1, s => do
    let s ← walkCell mx x full 2 s
    walkCells mx x full m s

/-- `i0_max_x4.store(out_at)` -/
def storeLanes : List α → Int → List α → Res (List α)
  | [], _, dst => .ok dst
  | v :: t, o, dst => do
    let dst ← wrAtInt dst o v
    storeLanes t (o + 1) dst

/-- one block of four cells: lane `l` of `inc_load(i0 + k, 2)` is `i0[k + 2l]` (simd_sse_def.h, simd_base_def.h,
simd_neon_def.h `_simd_f32x4_interval_load`), pooling_algorithm.cpp:92-111, 165-194, 253-272, 304-315, 407-414, 434-447,
471-478. -/
def walkBlock (vmx : α → α → α) (x : List α) (full : List Int) (s : Walk α) : Res (Walk α) := do
  let vs ← forEach (fun (l : Int) => cellAt vmx x full (s.ps.map (· + 2 * l))) [0, 1, 2, 3]
  let dst ← storeLanes vs s.o s.dst
  .ok ⟨s.ps.map (· + 8), s.o + 4, dst⟩

/-- `incx4x2_load(p, 2)` for every row pointer: reads `p[0]` … `p[7]` (simd.h:215; its value is not used here) -/
def preload (x : List α) (d : Int) (ps : List Int) : Res Unit := do
  let _ ← forEach (fun p => forEach (fun (l : Int) => readAtInt x (p + d + l)) [0, 1, 2, 3, 4, 5, 6, 7]) ps
  .ok ()

/-- the loop over the blocks. In builds with `TS_USE_NEON` the 3×3 kernel also loads the eight elements after the block
(pooling_algorithm.cpp:77-91 and the same in the other branches); the four values it stores are the same. -/
def walkBlocks (vmx : α → α → α) (neon : Bool) (x : List α) (full : List Int) : Nat → Walk α → Res (Walk α)
  | 0, s => .ok s
  | m + 1, s => do
    let _ ← if neon then preload x 8 s.ps else .ok ()
    let s ← walkBlock vmx x full s
    walkBlocks vmx neon x full m s

/-- what is computed before the loops, pooling_algorithm.cpp:38-56 and 371-391 -/
structure FastGeom where
  /-- `real_pad_right`, `real_pad_bottom` -/
  right : Int
  bottom : Int
  /-- `output_height`, `output_width`, less one if there is padding at the end -/
  oh : Int
  ow : Int
  blocks : Int
  remain : Int

/-- pooling_algorithm.cpp:38-56 (`extra` = 1), 371-391 (`extra` = 0) -/
def fastGeom (extra h w oh ow top left : Int) : FastGeom :=
  let padW := 2 * ow + extra - w
  let padH := 2 * oh + extra - h
  let right := (if padW < 0 then 0 else padW) - left
  let bottom := (if padH < 0 then 0 else padH) - top
  let oh' := if bottom > 0 then oh - 1 else oh
  let ow' := if right > 0 then ow - 1 else ow
  { right := right, bottom := bottom, oh := oh', ow := ow'
    blocks := if left = 1 then (ow' - 1).tdiv 4 else ow'.tdiv 4
    remain := if left = 1 then w - ow' * 2 + 1 else w - ow' * 2 }

/-- One output row: the cell at the left edge, the blocks, the remaining cells, the cell at the right edge,
pooling_algorithm.cpp:68-135 and the same in the other branches. `first`, `full`, `last` are the column offsets of a
window at the left edge, inside, and at the right edge. -/
def walkRow (mx vmx : α → α → α) (neon : Bool) (x : List α) (first full : List Int) (last : Option (List Int))
    (left : Int) (g : FastGeom) (s : Walk α) : Res (Walk α) := do
  let s ← if left = 1 then walkCell mx x first 1 s else .ok s
  let _ ← if neon then preload x 0 s.ps else .ok ()
  let s ← walkBlocks vmx neon x full g.blocks.toNat s
  let idx := if left = 1 then g.blocks * 4 + 1 else g.blocks * 4
  let s ← walkCells mx x full (g.ow - idx).toNat s
  match last with
  | some offs => walkCell mx x offs 0 s
  | none => .ok s

/-- the rows between the top and the bottom edge, pooling_algorithm.cpp:141-223, 427-465 -/
def walkCenter (row : Walk α → Res (Walk α)) (step : Int) : Nat → Walk α → Res (Walk α)
  | 0, s => .ok s
  | m + 1, s => do
    let s ← row s
    walkCenter row step m ⟨s.ps.map (· + step), s.o, s.dst⟩

/-- One plane, pooling_algorithm.cpp:60-338 (`n` = 3 row pointers) and 394-492 (`n` = 2): the top row uses one pointer
less, a bottom row the first `b`. -/
def fastPlane (row : Walk α → Res (Walk α)) (n : Nat) (bot : Option Nat) (w top : Int) (g : FastGeom)
    (base obase : Int) (dst : List α) : Res (List α) := do
  let s : Walk α := ⟨(List.range (n - 1)).map fun (i : Nat) => base + i * w, obase, dst⟩
  let s ← if top = 1 then do
      let s ← row s
      .ok (⟨s.ps.map (· + g.remain), s.o, s.dst⟩ : Walk α)
    else .ok s
  let h : Int := if top = 1 then 1 else 0
  let s ← walkCenter row (g.remain + w) (g.oh - h).toNat ⟨s.ps ++ [s.ps.getLastD 0 + w], s.o, s.dst⟩
  match bot with
  | some b => do
    let s ← row ⟨s.ps.take b, s.o, s.dst⟩
    .ok s.dst
  | none => .ok s.dst

/-- the loops over samples and channels, pooling_algorithm.cpp:58-64, 392-398; one channel counter, as in `poolLoops` -/
def fastPlanes (plane : Int → Int → List α → Res (List α)) (isz osz : Int) : Nat → Nat → List α → Res (List α)
  | _, 0, dst => .ok dst
  | c, m + 1, dst => do
    let dst ← plane (c * isz) (c * osz) dst
    fastPlanes plane isz osz (c + 1) m dst

/-- `PoolingAlgorithm<float>::max_pooling_k3s2`, pooling_algorithm.cpp:19-342 -/
def maxPoolK3S2 (mx vmx : α → α → α) (neon : Bool) (x : List α) (chans h w oh ow : Nat) (top left : Nat)
    (dst : List α) : Res (List α) :=
  let g := fastGeom 1 h w oh ow top left
  let last := if g.right = 1 then some [0, 1] else if g.right = 2 then some [0] else none
  let bot := if g.bottom = 1 then some 2 else if g.bottom = 2 then some 1 else none
  fastPlanes (fastPlane (walkRow mx vmx neon x [0, 1] [0, 1, 2] last left g) 3 bot w top g) (h * w) (oh * ow) 0 chans dst

/-- `PoolingAlgorithm<float>::max_pooling_k2s2`, pooling_algorithm.cpp:351-495 -/
def maxPoolK2S2 (mx vmx : α → α → α) (x : List α) (chans h w oh ow : Nat) (top left : Nat) (dst : List α) :
    Res (List α) :=
  let g := fastGeom 0 h w oh ow top left
  let last := if g.right > 0 then some [0] else none
  let bot := if g.bottom > 0 then some 1 else none
  fastPlanes (fastPlane (walkRow mx vmx false x [0] [0, 1] last left g) 2 bot w top g) (h * w) (oh * ow) 0 chans dst

/-- the kernel `get_pooling_kernel` chooses for `float`, pooling2d_core.cpp:19-45 -/
def poolSpecial (mx vmx : α → α → α) (neon : Bool) (x : List α) (chans h w oh ow : Nat) (p : Window) (dst : List α) :
    Res (List α) :=
  if p.kw = 3 ∧ p.kh = 3 then maxPoolK3S2 mx vmx neon x chans h w oh ow p.top p.left dst
  else maxPoolK2S2 mx vmx x chans h w oh ow p.top p.left dst

end Verif.Kernels
