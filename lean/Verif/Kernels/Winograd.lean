import Verif.Kernels.Conv
import Verif.Kernels.Buf
import Verif.Kernels.Pad
import Mathlib.Algebra.Field.Basic
/-!
# Winograd convolution (src/kernels/cpu/winograd_algorithm.cpp, conv2d_winograd.cpp, src/backend/base/base_conv2d_winograd.cpp)

3x3 kernels, stride 1, NCHW, `float`. Element arithmetic is that of a field (exact). Buffers are flat lists; index arithmetic is on
mathematical integers. The parallel loops over the channels write disjoint cells. Both algorithms have the same loops and differ in the tile and
in the three transformations of one tile, which are the fields of `WinoAlg`.
-/
namespace Verif.Kernels
open Verif.Core

variable {α : Type}

/-! ## padding and cutting -/

/-- one centre row of `pad2d`, pad2d_algorithm.cpp:145-172: the row starts at `at` in the destination, the source row at `src`. Rows of 12 and
more are copied with `memcpy` to `dst_at + pad_left`. -/
def pad2dRow (x : List α) (padv : α) (left : Int) (srcW outW src at_ : Nat) (dst : List α) : Res (List α) := do
  let l := left.toNat
  let dst ← loop (fun dst w => wr dst (at_ + w) padv) l dst
  let dst ← if srcW < 12 then
      loop (fun dst i => do
        let v ← rd x (src + (((l + i : Nat) : Int) - left).toNat)
        wr dst (at_ + (l + i)) v) (left + srcW - l).toNat dst
    else
      loop (fun dst i => do
        let v ← rd x (src + i)
        wrI dst (at_ + left + i) v) srcW dst
  let w := if srcW < 12 then l + (left + srcW - l).toNat else l + srcW
  loop (fun dst i => wr dst (at_ + (w + i)) padv) (outW - w) dst

/-- a row of padding, pad2d_algorithm.cpp:136-142, 175-181 -/
def fillRow (padv : α) (outW at_ : Nat) (dst : List α) : Res (List α) := loop (fun dst w => wr dst (at_ + w) padv) outW dst

/-- one channel of `pad2d`, pad2d_algorithm.cpp:128-182; the row counter `h` starts at 0 also if `pad_top` is negative, and the source pointer at
the first row -/
def padChannel (x : List α) (padv : α) (top left : Int) (srcH srcW outH outW src at_ : Nat) (dst : List α) : Res (List α) := do
  let t := top.toNat
  let dst ← loop (fun dst h => fillRow padv outW (at_ + h * outW) dst) t dst
  let n := (top + srcH - t).toNat
  let dst ← loop (fun dst i => pad2dRow x padv left srcW outW (src + i * srcW) (at_ + (t + i) * outW) dst) n dst
  loop (fun dst i => fillRow padv outW (at_ + (t + n + i) * outW) dst) (outH - (t + n)) dst

/-- `PadAlgorithm::pad2d`, pad2d_algorithm.cpp:89-185, into a tensor of height `outH` and width `outW` -/
def pad2d (num ch srcH srcW outH outW : Nat) (top left : Int) (padv : α) (x dst : List α) : Res (List α) :=
  loop (fun dst n => loop (fun dst c => padChannel x padv top left srcH srcW outH outW ((n * ch + c) * (srcH * srcW))
    ((n * ch + c) * (outH * outW)) dst) ch dst) num dst

/-- `PadAlgorithm::cut2d`, pad2d_algorithm.cpp:188-247, cutting at the bottom and at the right (`cut_top = cut_left = 0`, as in the only
calls); both ways of copying copy the same elements -/
def cut2d (num ch srcH srcW outH outW : Nat) (x dst : List α) : Res (List α) :=
  loop (fun dst n => loop (fun dst c => loop (fun dst h => loop (fun dst w => do
    let v ← rd x ((n * ch + c) * (srcH * srcW) + h * srcW + w)
    wr dst ((n * ch + c) * (outH * outW) + h * outW + w) v) outW dst) outH dst) ch dst) num dst

/-- `round_up`, kernels/common/math.h:66-69 -/
def roundUp (i t : Nat) : Nat := (i + t - 1) / t * t

/-! ## the transformations of one tile -/

/-- tile of outputs, and the transformations of a kernel, a patch of inputs, a patch of products -/
structure WinoAlg (α : Type) where
  tile : Nat
  kern : (Nat → Nat → α) → Nat → Nat → α
  inp : (Nat → Nat → α) → Nat → Nat → α
  outp : (Nat → Nat → α) → Nat → Nat → α

section
variable [Field α]

/-- entry of a constant matrix -/
def entry (m : List (List α)) (i j : Nat) : α := (m.getD i []).getD j 0

/-- `G` of F(2x2, 3x3), winograd_algorithm.cpp:67-72 -/
def G23 : List (List α) := [[1, 0, 0], [1 / 2, 1 / 2, 1 / 2], [1 / 2, -1 / 2, 1 / 2], [0, 0, 1]]

/-- `G` of F(6x6, 3x3), winograd_algorithm.cpp:514-523 -/
def G63 : List (List α) := [[1, 0, 0], [-2 / 9, -2 / 9, -2 / 9], [-2 / 9, 2 / 9, -2 / 9], [1 / 90, 1 / 45, 2 / 45], [1 / 90, -1 / 45, 2 / 45],
  [1 / 45, 1 / 90, 1 / 180], [1 / 45, -1 / 90, 1 / 180], [0, 0, 1]]

/-- `U = G k G^T`, winograd_algorithm.cpp:90-106 and 538-552 -/
def kernTransform (G : List (List α)) (k : Nat → Nat → α) (i j : Nat) : α :=
  let tmp := fun r => k r 0 * entry G j 0 + k r 1 * entry G j 1 + k r 2 * entry G j 2
  tmp 0 * entry G i 0 + tmp 1 * entry G i 1 + tmp 2 * entry G i 2

/-- the combinations that winograd_algorithm.cpp:196-214 applies to rows and to columns -/
def bt23 (v : Nat → α) : Nat → α
  | 0 => v 0 - v 2
  | 1 => v 1 + v 2
  | 2 => v 2 - v 1
  | _ => v 1 - v 3

/-- `t = BT d B`, winograd_algorithm.cpp:196-214: rows are combined first -/
def inp23 (d : Nat → Nat → α) (i j : Nat) : α := bt23 (fun y => bt23 (fun x => d x y) i) j

/-- the combinations of winograd_algorithm.cpp:325-337 -/
def at23 (v : Nat → α) : Nat → α
  | 0 => v 0 + v 1 + v 2
  | _ => v 1 - v 2 - v 3

/-- `AT m A`, winograd_algorithm.cpp:324-337 -/
def out23 (m : Nat → Nat → α) (i j : Nat) : α := at23 (fun x => at23 (fun y => m x y) j) i

/-- one row of the patch, winograd_algorithm.cpp:639-659 -/
def bt63Row (v : Nat → α) : Nat → α
  | 0 => v 0 - v 6 + (v 4 - v 2) * (21 / 4)
  | 1 => (v 2 + v 6 - v 4 * (17 / 4)) + (v 1 + v 5 - v 3 * (17 / 4))
  | 2 => (v 2 + v 6 - v 4 * (17 / 4)) - (v 1 + v 5 - v 3 * (17 / 4))
  | 3 => (v 6 + v 2 * (1 / 4) - v 4 * (5 / 4)) + (v 1 * (1 / 2) - v 3 * (5 / 2) + v 5 * 2)
  | 4 => (v 6 + v 2 * (1 / 4) - v 4 * (5 / 4)) - (v 1 * (1 / 2) - v 3 * (5 / 2) + v 5 * 2)
  | 5 => (v 6 + (v 2 - v 4 * (5 / 4)) * 4) + (v 1 * 2 - v 3 * (5 / 2) + v 5 * (1 / 2))
  | 6 => (v 6 + (v 2 - v 4 * (5 / 4)) * 4) - (v 1 * 2 - v 3 * (5 / 2) + v 5 * (1 / 2))
  | _ => v 7 - v 1 + (v 3 - v 5) * (21 / 4)

/-- one column, winograd_algorithm.cpp:674-694 -/
def bt63Col (v : Nat → α) : Nat → α
  | 0 => v 0 - v 6 + (v 4 - v 2) * (21 / 4)
  | 1 => (v 2 + v 6 - v 4 * (17 / 4)) + (v 1 - v 3 * (17 / 4) + v 5)
  | 2 => (v 2 + v 6 - v 4 * (17 / 4)) - (v 1 - v 3 * (17 / 4) + v 5)
  | 3 => (v 6 + v 2 * (1 / 4) - v 4 * (5 / 4)) + (v 1 * (1 / 2) - v 3 * (5 / 2) + v 5 * 2)
  | 4 => (v 6 + v 2 * (1 / 4) - v 4 * (5 / 4)) - (v 1 * (1 / 2) - v 3 * (5 / 2) + v 5 * 2)
  | 5 => (v 6 + (v 2 - v 4 * (5 / 4)) * 4) + (v 1 * 2 - v 3 * (5 / 2) + v 5 * (1 / 2))
  | 6 => (v 6 + (v 2 - v 4 * (5 / 4)) * 4) - (v 1 * 2 - v 3 * (5 / 2) + v 5 * (1 / 2))
  | _ => v 7 - v 1 + (v 3 - v 5) * (21 / 4)

/-- winograd_algorithm.cpp:636-695: rows first (`dB[i]`), then columns -/
def inp63 (d : Nat → Nat → α) (i j : Nat) : α := bt63Col (fun x => bt63Row (fun y => d x y) j) i

/-- winograd_algorithm.cpp:777-789 and 815-827 -/
def at63 (v : Nat → α) : Nat → α
  | 0 => v 0 + (v 1 + v 2) + (v 3 + v 4) + (v 5 + v 6) * 32
  | 1 => (v 1 - v 2) + (v 3 - v 4) + (v 3 - v 4) + (v 5 - v 6) * 16
  | 2 => (v 1 + v 2) + (v 3 + v 4) * 4 + (v 5 + v 6) * 8
  | 3 => (v 1 - v 2) + (v 3 - v 4) * 8 + (v 5 - v 6) * 4
  | 4 => (v 1 + v 2) + (v 3 + v 4) * 16 + (v 5 + v 6) + (v 5 + v 6)
  | _ => (v 1 - v 2) + (v 3 - v 4) * 32 + (v 5 - v 6) + v 7

/-- winograd_algorithm.cpp:766-828 -/
def out63 (m : Nat → Nat → α) (i j : Nat) : α := at63 (fun x => at63 (fun y => m x y) j) i

/-- F(2x2, 3x3) -/
def f23 : WinoAlg α := { tile := 2, kern := kernTransform G23, inp := inp23, outp := out23 }
/-- F(6x6, 3x3) -/
def f63 : WinoAlg α := { tile := 6, kern := kernTransform G63, inp := inp63, outp := out63 }

end

/-! ## the loops -/

/-- side of a patch of inputs -/
def WinoAlg.side (a : WinoAlg α) : Nat := a.tile + 2
/-- cells of a patch, `in_tile_size`, winograd_algorithm.cpp:398 -/
def WinoAlg.cells (a : WinoAlg α) : Nat := a.side * a.side

/-- an array of values as a matrix with `T` columns -/
def asMatrix [Zero α] (T : Nat) (d : List α) (i j : Nat) : α := d.getD (i * T + j) 0

variable [CommSemiring α]

/-- one kernel, winograd_algorithm.cpp:83-107, 533-553: `w` from `p * kernel_num_offset + q * 9` on, to cell `(i * T + j) * stride` -/
def winoKernelCell (a : WinoAlg α) (oc ic : Nat) (w : List α) (p q : Nat) (dst : List α) : Res (List α) := do
  let k ← forEach (fun i => rd w (p * (ic * 9) + q * 9 + i)) (List.range 9)
  loop (fun dst i => loop (fun dst j =>
    wr dst ((i * a.side + j) * (oc * ic) + (p * ic + q)) (a.kern (asMatrix 3 k) i j)) a.side dst) a.side dst

/-- `winograd_f23_transform_and_pack_kernel` and `_f63_`, winograd_algorithm.cpp:57-119, 504-565, into fresh buffers -/
def winoKernel (a : WinoAlg α) (oc ic : Nat) (w fresh : List α) : Res (List α) := do
  let tr ← loop (fun dst p => loop (fun dst q => winoKernelCell a oc ic w p q dst) ic dst) oc fresh
  let parts ← forEach (fun i => pack8A oc ic (tr.drop (i * (oc * ic))) ic) (List.range a.cells)
  .ok parts.flatten

/-- one patch, winograd_algorithm.cpp:184-241, 632-697; the state counts the patches of the channel -/
def winoInputTile (a : WinoAlg α) (W ic tc : Nat) (x : List α) (src at_ i j : Nat) (st : Nat × List α) : Res (Nat × List α) := do
  let d ← forEach (fun p => rd x (src + (i * a.tile + p / a.side) * W + (j * a.tile + p % a.side))) (List.range a.cells)
  let dst ← loop (fun dst p => wr dst (at_ + st.1 + p * (ic * tc)) (a.inp (asMatrix a.side d) (p / a.side) (p % a.side))) a.cells st.2
  .ok (st.1 + 1, dst)

/-- the number of iterations of `for (int h = 0; h + 2 < H; h += tile)` -/
def inputTiles (t H : Nat) : Nat := (H - 2 + (t - 1)) / t

/-- `winograd_f23_transform_and_pack_input` and `_f63_`, winograd_algorithm.cpp:158-246, 607-702 -/
def winoInput (a : WinoAlg α) (num ic H W tc : Nat) (x dst : List α) : Res (List α) :=
  loop (fun dst n => loop (fun dst c => do
    let st ← loop (fun st i => loop (fun st j =>
        winoInputTile a W ic tc x (n * (ic * (H * W)) + c * (H * W)) (n * (ic * tc * a.cells) + c * tc) i j st)
      (inputTiles a.tile W) st) (inputTiles a.tile H) (0, dst)
    .ok st.2) ic dst) num dst

/-- the products, winograd_algorithm.cpp:425-448, 913-936; `fresh` are the parts of the new buffer. The kernel of cell `i` is the part of the
packed kernels from `i * transform_kernel_tile_offset` on. -/
def winoProducts (a : WinoAlg α) (num oc ic tc : Nat) (ker inp : List α) (fresh : Nat → List α) : Res (List α) := do
  let parts ← forEach (fun p =>
    gemmPacked true oc tc ic ((ker.drop (p % a.cells * (oc * ic))).take (oc * ic)) (inp.drop (p * (ic * tc))) false true (fresh p))
    (List.range (num * a.cells))
  .ok parts.flatten

/-- one tile of outputs, winograd_algorithm.cpp:299-340, 760-830 -/
def winoOutputTile (a : WinoAlg α) (oW oc tc : Nat) (m : List α) (src at_ i j : Nat) (st : Nat × List α) : Res (Nat × List α) := do
  let d ← forEach (fun p => rd m (src + st.1 + p * (oc * tc))) (List.range a.cells)
  let dst ← loop (fun dst u => loop (fun dst v =>
      wr dst (at_ + (i * a.tile + u) * oW + (j * a.tile + v)) (a.outp (asMatrix a.side d) u v)) a.tile dst) a.tile st.2
  .ok (st.1 + 1, dst)

/-- `winograd_f23_transform_output` and `_f63_`, winograd_algorithm.cpp:278-344, 738-833; `h + (tile - 1) < out_height` holds for
`out_height / tile` tiles -/
def winoOutput (a : WinoAlg α) (num oc oH oW tc : Nat) (m dst : List α) : Res (List α) :=
  loop (fun dst n => loop (fun dst c => do
    let st ← loop (fun st i => loop (fun st j =>
        winoOutputTile a oW oc tc m (n * (a.cells * (oc * tc)) + c * tc) (n * (oc * (oH * oW)) + c * (oH * oW)) i j st)
      (oW / a.tile) st) (oH / a.tile) (0, dst)
    .ok st.2) oc dst) num dst

/-- contents of the buffers that a run allocates, by length -/
structure WinoFresh (α : Type) where
  padded : Nat → List α
  input : Nat → List α
  product : Nat → Nat → List α
  output : Nat → List α
  result : Nat → List α

/-- height or width of the padded input, function.cpp:38-47 -/
def winoExtent (x : Nat) (before after : Int) (o t : Nat) : Int := max (x + before + after) ((roundUp o t : Int) - 1 + 3)

/-- the padded input, function.cpp:48-58: only if its size differs -/
def winoPadded (g : ConvGeo) (padv : α) (x : List α) (H W : Nat) (fresh : Nat → List α) : Res (List α) :=
  if H ≠ g.h ∨ W ≠ g.w then pad2d g.n g.c g.h g.w H W g.top g.left padv x (fresh (g.n * g.c * (H * W))) else .ok x

/-- `winograd_f23` and `winograd_f63` with a transformed kernel, winograd_algorithm.cpp:357-457, 846-945, with `in_out_pad_and_fix_size`,
function.cpp:14-78. The padded output is overwritten; its initial contents (the padding of an uninitialised tensor) are arbitrary. -/
def winoForward (a : WinoAlg α) (g : ConvGeo) (padv : α) (x ker : List α) (oh ow : Nat) (f : WinoFresh α) : Res (List α) := do
  let H := (winoExtent g.h g.top g.bottom oh a.tile).toNat
  let W := (winoExtent g.w g.left g.right ow a.tile).toNat
  let oH := roundUp oh a.tile
  let oW := roundUp ow a.tile
  let tc := (oH / a.tile) * (oW / a.tile)
  let xp ← winoPadded g padv x H W f.padded
  let v ← winoInput a g.n g.c H W tc xp (f.input (g.n * a.cells * (g.c * tc)))
  let m ← winoProducts a g.n g.o g.c tc ker v (f.product (g.o * tc))
  if oH ≠ oh ∨ oW ≠ ow then do
    let o ← winoOutput a g.n g.o oH oW tc m (f.output (g.n * g.o * (oH * oW)))
    cut2d g.n g.o oH oW oh ow o (f.result (g.n * g.o * (oh * ow)))
  else winoOutput a g.n g.o oH oW tc m (f.result (g.n * g.o * (oh * ow)))

/-! ## the operator -/

/-- `winograd_mode_select_on_arm`, function.cpp:154-174: is it F(6x6, 3x3)? -/
def selects63 (g : ConvGeo) : Bool := decide (256 * 256 ≤ g.c * g.o ∧ 16 < g.h ∧ 16 < g.w)

/-- what the operator keeps between runs: mode and transformed kernel (`m_winograd_mode`, `m_k_transformed`) -/
abbrev WinoState (α : Type) := Option (Bool × List α)

/-- the algorithm of a mode -/
def winoAlg [Field α] (is63 : Bool) : WinoAlg α := if is63 then f63 else f23

/-- mode and transformed kernel, kept or made, base_conv2d_winograd.cpp:146-163 -/
def winoPrepare {β : Type} [Field β] (g : ConvGeo) (w : List β) (freshK : Nat → List β) : WinoState β → Res (Bool × List β)
  | some s => .ok s
  | none => do
    let k ← winoKernel (winoAlg (selects63 g)) g.o g.c w (freshK ((winoAlg (selects63 g) : WinoAlg β).cells * (g.o * g.c)))
    .ok (selects63 g, k)

/-- `Conv2DWinograd::run` for `float` NCHW, base_conv2d_winograd.cpp:125-167 and 80-123 (`infer`), conv2d_winograd.cpp. The transformed kernel is
kept from the first run on; `kernel_winograd_transformed` is not a parameter because it changes nothing: the kernel is transformed as long as
`m_k_transformed` is empty (146), and after that it is passed as transformed. Only the extents in `g` that `infer` uses are looked at; the
kernel is assumed to be 3x3 (nothing checks it). -/
def winoRun {β : Type} [Field β] (st : WinoState β) (g : ConvGeo) (padv : β) (x w : List β) (freshK : Nat → List β) (f : WinoFresh β) :
    Res (WinoState β × ((Nat × Nat) × List β)) := do
  let oh ← convForward g.h g.top g.bottom 3 1 1
  let ow ← convForward g.w g.left g.right 3 1 1
  if oh < 0 ∨ ow < 0 then .ub
  else do
    let st ← winoPrepare g w freshK st
    let out ← winoForward (winoAlg st.1) g padv x st.2 oh.toNat ow.toNat f
    .ok (some st, ((oh.toNat, ow.toNat), out))

end Verif.Kernels
