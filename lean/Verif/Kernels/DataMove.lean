import Verif.Kernels.Concat
import Verif.Core.Shape
import Verif.Core.ShapeLemmas
import Verif.Concurrency.SplitBins
/-!
# Operators that only move elements: tile, slice, gather, gather_v2, gather_elements, dimshuffle, scatter_nd, stack, split, chunk

Sources: src/backend/base/base_{tile,slice,slice_v2,gather,gatherv2,gather_elements,dimshuffle,scatter_nd,split,chunk}.cpp,
src/kernels/cpu/{tile,slice,slice_v2,gather,gatherv2,gather_elements,dimshuffle,scatter_nd,stack_tensor,split,chunk}.cpp, on the CPU.

As for concat, extents are naturals, and products of extents that stay below the element count of a tensor are natural
numbers. A shape holds at most seven extents (include/core/tensor.h:23); going beyond writes past its buffer.
-/
namespace Verif.Kernels
open Verif.Core

variable {α : Type}

/-- the types in the `DECLARE_COMPUTE_RUN` lists (INT8 … UINT64, FLOAT32, FLOAT64), e.g. tile.cpp:57-68 -/
def plainType (d : Nat) : Bool := decide (d ∈ [1, 2, 3, 4, 5, 6, 7, 8, 10, 11])

/-- copies whose source index is computed as an `int` -/
def runMovesI (src : List α) (ms : List (Nat × Int)) (dst : List α) : Res (List α) :=
  if ms.all fun m => decide (0 ≤ m.2) then runMoves src (ms.map fun m => (m.1, m.2.toNat)) dst else .ub

/-! ## tile -/

/-- ones inserted at the front up to rank `n`, base_tile.cpp:41-50 -/
def padOnes (n : Nat) (s : List Nat) : List Nat := List.replicate (n - s.length) 1 ++ s

/-- `y[i] = x[i] * repeats[i]`, base_tile.cpp:51-54 -/
def mulExt : List Nat → List Nat → Res (List Nat)
  | x :: xs, r :: rs => do
    let y ← int32 ((x : Int) * r)
    let ys ← mulExt xs rs
    .ok (y.toNat :: ys)
  | _, _ => .ok []

/-- `o_index[k] = r_index[k] * x_shape[k] + x_index[k]`, tile.cpp:41-43 -/
def tileCoord : List Int → List Int → List Int → Res (List Int)
  | r :: rs, s :: ss, x :: xs => do
    let p ← int32 (r * s)
    let o ← int32 (p + x)
    let os ← tileCoord rs ss xs
    .ok (o :: os)
  | _, _, _ => .ok []

/-- the inner loop over the repeats, tile.cpp:39-48; `j` iterations left; returns the copies and the iterator -/
def tileInner (xs rs wo : List Int) (i : Nat) (xc : List Int) : Nat → List Int → Res (List (Nat × Nat) × List Int)
  | 0, rc => .ok ([], rc)
  | j + 1, rc => do
    let oc ← tileCoord rc xs xc
    let o ← toIndex wo oc
    let d ← idxNat o
    let (ms, rc') ← tileInner xs rs wo i xc j (increase rs rc)
    .ok ((d, i) :: ms, rc')

/-- the loop over the elements, tile.cpp:36-50; `n` elements left, at element `i` -/
def tileLoop (xs rs wo : List Int) (reps : Nat) : Nat → Nat → List Int → List Int → Res (List (Nat × Nat))
  | 0, _, _, _ => .ok []
  | n + 1, i, xc, rc => do
    let (ms, rc') ← tileInner xs rs wo i xc reps rc
    let ms' ← tileLoop xs rs wo reps n (i + 1) (increase xs xc) rc'
    .ok (ms ++ ms')

/-- `Tile::init` and `run`, base_tile.cpp:16-96, `TileV2::run`, base_tile_v2.cpp:20-107 (the same with the repeats taken
from a tensor), and the kernel, tile.cpp:22-75. `dst` is the initial content of the output. The repeats are a `Shape`, which
holds seven values (base_tile.h; otl.h). -/
def tileRun (x : Operand α) (repeats : List Int) (dst : List α) : Res (List Nat × List α) :=
  if 7 < repeats.length then .ub
  else if repeats.any fun r => decide (r < 0) then .err
  else
    let rs := padOnes x.shape.length (repeats.map Int.toNat)
    let xs := padOnes repeats.length x.shape
    do
    let y ← mulExt xs rs
    if repeats.any fun r => decide (r = 0) then .ok (y, dst)
    else if plainType x.dtype then do
      let wo ← weights (ints y)
      let reps ← int32 (Spec.prod rs)
      let ms ← tileLoop (ints xs) (ints rs) wo reps.toNat (Spec.prod xs) 0 (iterStart (ints xs)) (iterStart (ints rs))
      let r ← runMoves x.data ms dst
      .ok (y, r)
    else .err

/-! ## slice -/

/-- `tensor_long_to_int`, base_slice.cpp:19-34: clamped to `int` -/
def clampInt (v : Int) : Int := if v > 2147483647 then 2147483647 else if v < -2147483648 then -2147483648 else v

/-- the loop of `infer_slice`, base_slice.cpp:52-61, base_slice_v2.cpp:29-38 -/
def boxSliceExt : List Nat → List Int → List Int → Res (List Nat)
  | x :: xs, b :: bs, s :: ss =>
    if b < 0 ∨ (x : Int) ≤ b then .err
    else do
      let e ← int32 (b + (if s < 0 then x - b else s))
      if (x : Int) < e then .err
      else do
        let r ← boxSliceExt xs bs ss
        .ok ((if s < 0 then x - b else s).toNat :: r)
  | _, _, _ => .ok []

/-- `tmp_shape[k] += begins[k]`, slice.cpp:25-27 -/
def addCoord : List Int → List Int → Res (List Int)
  | c :: cs, b :: bs => do
    let a ← int32 (c + b)
    let r ← addCoord cs bs
    .ok (a :: r)
  | _, _ => .ok []

/-- the loop of the kernel, slice.cpp:23-31 -/
def boxSliceLoop (wx wo begins : List Int) : List Nat → Res (List (Nat × Nat))
  | [] => .ok []
  | i :: is => do
    let c ← toCoordinate wo i
    let t ← addCoord c begins
    let x ← toIndex wx t
    let s ← idxNat x
    let ms ← boxSliceLoop wx wo begins is
    .ok ((i, s) :: ms)

/-- `Slice::run` and `SliceV2::run`, base_slice.cpp:36-92, base_slice_v2.cpp:74-95, slice.cpp:12-60; `begins` and `sizes` are
the `long` values given. -/
def boxSliceRun (x : Operand α) (begins sizes : List Int) (dst : List α) : Res (List Nat × List α) :=
  if sizes.length ≠ begins.length ∨ sizes.length ≠ x.shape.length then .err
  else do
    let o ← boxSliceExt x.shape (begins.map clampInt) (sizes.map clampInt)
    if plainType x.dtype then do
      let wx ← weights (ints x.shape)
      let wo ← weights (ints o)
      let ms ← boxSliceLoop wx wo (begins.map clampInt) (List.range (Spec.prod o))
      let r ← runMoves x.data ms dst
      .ok (o, r)
    else .err

/-! ## gather -/

/-- `indices[i] < 0 ? indices[i] + x.size(m_axis) : indices[i]`, base_gather.cpp:64-68; `m_axis` is not corrected here, so a
negative one reads before the extents -/
def fixIndex (axis : Int) (extent : Nat) (i : Int) : Res Int :=
  if i < 0 then if axis < 0 then .ub else .ok (i + extent) else .ok i

def fixIndices (axis : Int) (extent : Nat) : List Int → Res (List Int)
  | [] => .ok []
  | i :: is => do
    let a ← fixIndex axis extent i
    let r ← fixIndices axis extent is
    .ok (a :: r)

/-- the loops of the kernel, gather.cpp:35-47: index by index, one `memcpy` of `width` elements for every row `n` -/
def gatherMoves (number extent width : Nat) (idx : List Int) : List (Nat × Int) :=
  (List.range idx.length).flatMap fun i => (List.range number).flatMap fun n => (List.range width).map fun t =>
    ((n * idx.length + i) * width + t, ((n * extent : Nat) + idx.getD i 0) * width + t)

/-- `Gather::run`, base_gather.cpp:23-40 and 54-80, gather.cpp:13-48. `ishape` and `idx`: shape and elements of the indices,
cast to `int`. -/
def gatherRun (axis : Int) (x : Operand α) (ishape : List Nat) (idx : List Int) (dst : List α) :
    Res (List Nat × List α) :=
  if x.shape.length = 0 then .err
  else do
    let d ← fixDim axis x.shape.length
    let o := x.shape.take d ++ ishape ++ x.shape.drop (d + 1)
    if 7 < o.length then .ub
    else do
      let is ← fixIndices axis (x.shape.getD d 0) idx
      let r ← runMovesI x.data (gatherMoves (Spec.prod (x.shape.take d)) (x.shape.getD d 0)
        (Spec.prod (x.shape.drop (d + 1))) is) dst
      .ok (o, r)

/-- the loop of the kernel, gatherv2.cpp:39-52: tuple by tuple, one `memcpy` of `width` elements -/
def gatherNdLoop (wx : List Int) (rank k width : Nat) (idx : List Int) : List Nat → Res (List (Nat × Int))
  | [] => .ok []
  | i :: is => do
    let c := ((idx.drop (i * k)).take k) ++ List.replicate (rank - k) 0
    let x ← toIndex wx c
    let ms ← gatherNdLoop wx rank k width idx is
    .ok (((List.range width).map fun t => (i * width + t, x + t)) ++ ms)

/-- `GatherV2::run`, base_gatherv2.cpp:20-71, gatherv2.cpp:14-54 -/
def gatherNdRun (x : Operand α) (ishape : List Nat) (idx : List Int) (dst : List α) : Res (List Nat × List α) :=
  if x.shape.length = 0 ∨ ishape.length = 0 then .err
  else
    let k := ishape.getLastD 0
    if x.shape.length < k then .err
    else
      let o := ishape.dropLast ++ x.shape.drop k
      if 7 < o.length then .ub
      else do
        let wx ← weights (ints x.shape)
        let ms ← gatherNdLoop wx x.shape.length k (Spec.prod (x.shape.drop k)) idx
          (List.range (Spec.prod ishape.dropLast))
        let r ← runMovesI x.data ms dst
        .ok (o, r)

/-- the loops of the kernel, gather_elements.cpp:41-52; reading past the indices is undefined -/
def gatherElemLoop (extent width : Nat) (idx : List Int) : List Nat → Res (List (Nat × Int))
  | [] => .ok []
  | o :: os =>
    match idx[o]? with
    | none => .ub
    | some i => do
      let ms ← gatherElemLoop extent width idx os
      .ok ((o, ((o / width * extent : Nat) + i) * width + (o % width : Nat)) :: ms)

/-- `GatherElements::run`, base_gather_elements.cpp:21-77, gather_elements.cpp:24-78. `x.size(m_axis)` is read before the axis
is corrected. The loops `n`, `i` visit `out_index = n * width + i` in increasing order. -/
def gatherElemRun (axis : Int) (x : Operand α) (ishape : List Nat) (idx : List Int) (dst : List α) :
    Res (List Nat × List α) :=
  if x.shape.length = 0 then .err
  else do
    let d ← fixDim axis x.shape.length
    if axis < 0 then .ub
    else do
      let is ← fixIndices axis (x.shape.getD d 0) idx
      if plainType x.dtype then do
        let width := Spec.prod (x.shape.drop (d + 1))
        let ms ← gatherElemLoop (x.shape.getD d 0) width is (List.range (Spec.prod (x.shape.take d) * width))
        let r ← runMovesI x.data ms dst
        .ok (ishape, r)
      else .err

/-! ## dimshuffle -/

/-- the loops of the kernel, dimshuffle.cpp:40-46 -/
def shuffleMoves (pre extent back : Nat) (sh : List Nat) : List (Nat × Nat) :=
  (List.range pre).flatMap fun k => (List.range sh.length).flatMap fun i => (List.range back).map fun t =>
    (k * (back * sh.length) + i * back + t, k * (extent * back) + sh.getD i 0 * back + t)

/-- `Dimshuffle::init` and `run`, base_dimshuffle.cpp:20-79, dimshuffle.cpp:11-47. The extent is read before the dimension is
checked: with seven or more that is past the buffer of the shape, otherwise the value is not used. -/
def dimshuffleRun (dim : Int) (shuffle : List Int) (x : Operand α) (dst : List α) : Res (List Nat × List α) :=
  if dim < 0 ∨ shuffle = [] ∨ (shuffle.any fun s => decide (s < 0)) then .err
  else if 7 ≤ dim then .ub
  else if (x.shape.length : Int) ≤ dim then .err
  else
    let d := dim.toNat
    if shuffle.any fun s => decide ((x.shape.getD d 0 : Int) ≤ s) then .err
    else do
      let r ← runMoves x.data (shuffleMoves (Spec.prod (x.shape.take d)) (x.shape.getD d 0)
        (Spec.prod (x.shape.drop (d + 1))) (shuffle.map Int.toNat)) dst
      .ok (x.shape.set d shuffle.length, r)

/-! ## scatter_nd -/

/-- the loop of the kernel, scatter_nd.cpp:15-22: one `memcpy` of a block for every index -/
def scatterLoop (block : Nat) (idx : List Int) (updates : List α) : List Nat → List α → Res (List α)
  | [], out => .ok out
  | i :: is, out =>
    match idx[i]? with
    | none => .ub
    | some j =>
      if block ≠ 0 ∧ j < 0 then .ub
      else do
        let out' ← runMoves updates ((List.range block).map fun t => (j.toNat * block + t, i * block + t)) out
        scatterLoop block idx updates is out'

/-- `ScatterND::run`, base_scatter_nd.cpp:12-33, scatter_nd.cpp:10-23. `updates.slice(i)` takes the extents after the first
(tensor.cpp:626-633); reading the first extent of a scalar is undefined. -/
def scatterRun (x : Operand α) (ishape : List Nat) (idx : List Int) (u : Operand α) (dst : List α) :
    Res (List Nat × List α) :=
  if x.dtype ≠ u.dtype then .err
  else if ishape = [] then .ub
  else if u.shape = [] ∧ ishape.getD 0 0 ≠ 0 then .ub
  else do
    let o ← runMoves x.data ((List.range x.data.length).map fun i => (i, i)) dst
    let r ← scatterLoop (Spec.prod u.shape.tail) idx u.data (List.range (ishape.getD 0 0)) o
    .ok (x.shape, r)

/-! ## stack and split -/

/-- every operand with an extent 1 inserted, stack_tensor.cpp:31-36; inserting past the end of a shape, or an eighth extent,
is undefined -/
def stackShapes (d : Nat) : List (Operand α) → Res (List (Operand α))
  | [] => .ok []
  | x :: xs =>
    if x.shape.length < d ∨ 7 ≤ x.shape.length then .ub
    else do
      let r ← stackShapes d xs
      .ok ({ x with shape := x.shape.take d ++ 1 :: x.shape.drop d } :: r)

/-- `StackTensor::run` on the CPU, stack_tensor.cpp:18-39: reshape, then concat along the same axis -/
def stackRun (axis : Int) (xs : List (Operand α)) (dst : List α) : Res (List Nat × List α) :=
  match xs with
  | [] => .err
  | x :: _ => do
    let d ← fixDim axis (x.shape.length + 1)
    let ys ← stackShapes d xs
    concatRun axis ys dst

/-- the destination index and the pointer into the source for part `i` at row `n`, split.cpp:30-42: `from` has advanced by
all parts of the rows before and by the parts before in this row, `to` by the rows before -/
def splitMoves (number width total off size : Nat) : List (Nat × Nat) :=
  (List.range number).flatMap fun n => (List.range (size * width)).map fun t =>
    (n * (size * width) + t, n * (total * width) + off * width + t)

/-- the outputs one after the other (the copies of different outputs do not interfere) -/
def splitCopy (number width total : Nat) (src : List α) : Nat → List Nat → List (List α) → Res (List (List α))
  | _, [], _ => .ok []
  | _, _ :: _, [] => .ub
  | off, s :: ss, d :: ds => do
    let r ← runMoves src (splitMoves number width total off s) d
    let rs ← splitCopy number width total src (off + s) ss ds
    .ok (r :: rs)

/-- `Split::run`, base_split.cpp:20-79, split.cpp:12-70; `dsts` are the initial contents of the outputs. Nothing relates the
parts to the extent. A negative part makes a negative allocation, treated as undefined. -/
def splitRun (dim : Int) (x : Operand α) (parts : List Int) (dsts : List (List α)) :
    Res (List (List Nat) × List (List α)) := do
  let d ← fixDim dim x.shape.length
  if parts.any fun p => decide (p < 0) then .ub
  else if plainType x.dtype then do
    let ps := parts.map Int.toNat
    let r ← splitCopy (Spec.prod (x.shape.take d)) (Spec.prod (x.shape.drop (d + 1))) ps.sum x.data 0 ps dsts
    .ok (ps.map fun p => x.shape.set d p, r)
  else .err

/-- `Chunk::init` and `run`, base_chunk.cpp:19-87, chunk.cpp:22-97. The bins are those of `split_bins` (`q`: its double
quotient; the fuel suffices); `bins[i]` is read for every `i < m_chunks`, whether there are that many or not. -/
def chunkRun (q : ℚ) (chunks dim : Int) (x : Operand α) (dsts : List (List α)) :
    Res (List (List Nat) × List (List α)) :=
  if chunks ≤ 0 then .err
  else do
    let d ← fixDim dim x.shape.length
    let extent := x.shape.getD d 0
    if (extent : Int) < chunks then .err
    else
      match Concurrency.splitBins (extent + 1) q 0 extent chunks with
      | some (.ok bins) =>
        if (bins.length : Int) < chunks then .ub
        else
          let ps := (bins.take chunks.toNat).map fun b => (b.2 - b.1).toNat
          if typeBytes x.dtype ∈ [1, 2, 4, 8, 16] then do
            let r ← splitCopy (Spec.prod (x.shape.take d)) (Spec.prod (x.shape.drop (d + 1))) extent x.data 0 ps dsts
            .ok (ps.map fun p => x.shape.set d p, r)
          else .err
      | some .err => .err
      | _ => .ub

end Verif.Kernels
