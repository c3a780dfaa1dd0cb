import Verif.Core.Shape
import Verif.Kernels.Buf
import Verif.Kernels.DataMove
import Verif.Core.ShapeSpec
import Verif.Core.ShapeLemmas
/-!
# pad, space_to_batch4d, batch_to_space4d

Sources: src/backend/base/base_{pad,spacetobatch4d,batchtospace4d}.cpp and
src/kernels/cpu/{pad_cpu,pad2d_algorithm,spacetobatch4d,batchtospace4d}.cpp, on the CPU.

The padding value is already converted to the element type (`T(padding_value)`). The buffer of the output holds
arbitrary elements `dst` before the kernel runs. Offsets into buffers are `int`s; they are sums of terms that are not negative
unless a parameter is, and an offset outside the buffer is undefined, so their overflow is not modelled separately.
-/
namespace Verif.Kernels
open Verif.Core

variable {α : Type}

/-- `b[i]` for an `int` index -/
def rdI (b : List α) (i : Int) : Res α := if 0 ≤ i then rd b i.toNat else .ub
/-- `b[i] = v` for an `int` index -/
def wrI (b : List α) (i : Int) (v : α) : Res (List α) := if 0 ≤ i then wr b i.toNat v else .ub

/-! ## pad -/

/-- the loop of `Pad::infer`, base_pad.cpp:36-39 -/
def padExtents : List Nat → List (Int × Int) → Res (List Nat)
  | s :: ss, p :: ps => do
    let q ← int32 (p.1 + p.2)
    let e ← int32 (s + q)
    let r ← padExtents ss ps
    .ok ((if e < 1 then 1 else e.toNat) :: r)
  | [], _ => .ok []
  | _ :: _, [] => .ub

/-- `transpose_pad`, pad_cpu.cpp:27-40: the coordinate in the input, or none -/
def transposePad : List Int → List (Int × Int) → List Int → Res (Option (List Int))
  | c :: cs, p :: ps, s :: ss => do
    let offset ← int32 (c - p.1)
    if offset < 0 ∨ s ≤ offset then .ok none
    else do
      let r ← transposePad cs ps ss
      .ok (r.map (offset :: ·))
  | [], _, _ => .ok (some [])
  | _ :: _, _, _ => .ub

/-- the body of the loop, pad_cpu.cpp:75-83 -/
def padCell (v : α) (x : List α) (xshape w : List Int) (ps : List (Int × Int)) (c : List Int) : Res α := do
  match ← transposePad c ps xshape with
  | some xc => do
    let i ← toIndex w xc
    rdI x i
  | none => .ok v

/-- the generic loop of `cpu_pad_compute_run`, pad_cpu.cpp:62-84 -/
def padGeneric (v : α) (x : List α) (xshape oshape : List Nat) (ps : List (Int × Int)) (dst : List α) : Res (List α) := do
  let w ← weights (ints xshape)
  let r ← loop (fun (st : List Int × List α) i => do
    let e ← padCell v x (ints xshape) w ps st.1
    let out ← wr st.2 i e
    .ok (increase (ints oshape) st.1, out)) (Spec.prod oshape) (iterStart (ints oshape), dst)
  .ok r.2

/-- what is left of an extent after cutting, pad2d_algorithm.cpp:35-40 -/
def cutExtent (s : Nat) (p : Int × Int) : Int :=
  let d := if p.1 < 0 then s + p.1 else (s : Int)
  if p.2 < 0 then d + p.2 else d

/-- the two innermost loops, pad2d_algorithm.cpp:71-82; `memcpy` and the loop copy the same elements -/
def padRow (x : List α) (input output : Int) (tile : Nat) (out : List α) : Res (List α) :=
  loop (fun out l => do
    let e ← rdI x (input + l)
    wrI out (output + l) e) tile out

/-- `pad_nchw_nhwc`, pad2d_algorithm.cpp:12-86 -/
def padRank4 (v : α) (x : List α) (s0 s1 s2 s3 o0 o1 o2 o3 : Nat) (p0 p1 p2 p3 : Int × Int) : Res (List α) :=
  let inOff (p : Int × Int) : Int := if p.1 ≥ 0 then 0 else -p.1
  let outOff (p : Int × Int) : Int := if p.1 < 0 then 0 else p.1
  loop (fun out n =>
    loop (fun out i =>
      loop (fun out j =>
        padRow x
          ((n + inOff p0) * (s1 * (s2 * s3)) + (i + inOff p1) * (s2 * s3) + (j + inOff p2) * s3 + inOff p3)
          ((n + outOff p0) * (o1 * (o2 * o3)) + (i + outOff p1) * (o2 * o3) + (j + outOff p2) * o3 + outOff p3)
          (cutExtent s3 p3).toNat out) (cutExtent s2 p2).toNat out) (cutExtent s1 p1).toNat out) s0
    (List.replicate (o0 * (o1 * (o2 * o3))) v)

/-- `cpu_pad_compute_run`, pad_cpu.cpp:42-85; the case without padding, 44-52, is met in `Pad::run` already -/
def padKernel (v : α) (x : List α) (xshape oshape : List Nat) (ps : List (Int × Int)) (dst : List α) : Res (List α) :=
  match xshape, oshape, ps with
  | [s0, s1, s2, s3], [o0, o1, o2, o3], [p0, p1, p2, p3] => padRank4 v x s0 s1 s2 s3 o0 o1 o2 o3 p0 p1 p2 p3
  | _, _, _ => padGeneric v x xshape oshape ps dst

/-- `Pad::run`, base_pad.cpp:47-85, with `infer` (24-45) and the dispatch on the type, pad_cpu.cpp:87-106. Without padding the
operand is pushed again. `fresh n` is the content of a new buffer of `n` elements. -/
def padRun (v : α) (x : Operand α) (ps : List (Int × Int)) (fresh : Nat → List α) : Res (List Nat × List α) :=
  if ps.length = x.shape.length then do
    let o ← padExtents x.shape ps
    if ps.all fun p => decide (p = (0, 0)) then .ok (x.shape, x.data)
    else if plainType x.dtype then do
      let out ← padKernel v x.data x.shape o ps (fresh (Spec.prod o))
      .ok (o, out)
    else .err
  else .err

/-! ## space_to_batch4d -/

/-- `cpu_spacetobatch4d_compute_run`, spacetobatch4d.cpp:16-71; the state is `at_input_i` and the output. `/` and `%` of `int`s
truncate. -/
def s2bLoop (x : List α) (N C H W : Nat) (oC oH oW : Nat) (pt pl bh bw : Int) (zeros : List α) : Res (Nat × List α) :=
  loop (fun st n =>
    loop (fun st c =>
      loop (fun st h =>
        loop (fun (st : Nat × List α) w => do
          let on := ((h + pt).tmod bh * bw + (w + pl).tmod bw) * N + n
          let e ← rd x st.1
          let out ← wrI st.2 (on * (oC * oH * oW) + c * (oH * oW) + (h + pt).tdiv bh * oW + (w + pl).tdiv bw) e
          .ok (st.1 + 1, out)) W st) H st) C st) N (0, zeros)

/-- `m_padding[i] + …` as the sources add it up: `a + p + q` in `int`s, base_spacetobatch4d.cpp:21-22, 54-55 -/
def spanS (a : Nat) (p q : Int) : Res Int := do
  let u ← int32 (a + p)
  int32 (u + q)

/-- the extents of the output, base_spacetobatch4d.cpp:14-24; extents that are negative cannot be allocated (`.ub` here) -/
def s2bShape (N C : Nat) (hs ws bh bw : Int) : Res (List Nat) := do
  let a ← int32 (N * bh)
  let b ← int32 (a * bw)
  if hs.tdiv bh < 0 ∨ ws.tdiv bw < 0 then .ub else .ok [b.toNat, C, (hs.tdiv bh).toNat, (ws.tdiv bw).toNat]

/-- `SpaceToBatch4D`: the checks of `init` (base_spacetobatch4d.cpp:46) and `infer` (49-66), `run` (68-81), the dispatch on the type
(spacetobatch4d.cpp:74-96) -/
def spaceToBatchRun (zero : α) (x : Operand α) (pt pb pl pr bh bw : Int) : Res (List Nat × List α) :=
  if 1 ≤ bh ∧ 1 ≤ bw then
    match x.shape with
    | [N, C, H, W] => do
      let hs ← spanS H pt pb
      if hs.tmod bh ≠ 0 then .err
      else do
        let ws ← spanS W pl pr
        if ws.tmod bw ≠ 0 then .err
        else do
          let o ← s2bShape N C hs ws bh bw
          if plainType x.dtype then do
            let r ← s2bLoop x.data N C H W C (o.getD 2 0) (o.getD 3 0) pt pl bh bw (List.replicate (Spec.prod o) zero)
            .ok (o, r.2)
          else .err
    | _ => .err
  else .err

/-! ## batch_to_space4d -/

/-- `cpu_batchtospace4d_compute_run`, batchtospace4d.cpp:16-71; the state is `at_output_i` and the output -/
def b2sLoop (x : List α) (C H W : Nat) (oN oC oH oW : Nat) (ct cl bh bw : Int) (dst : List α) : Res (Nat × List α) :=
  loop (fun st n =>
    loop (fun st c =>
      loop (fun st h =>
        loop (fun (st : Nat × List α) w => do
          let i := ((h + ct).tmod bh * bw + (w + cl).tmod bw) * oN + n
          let e ← rdI x (i * (C * H * W) + c * (H * W) + (h + ct).tdiv bh * W + (w + cl).tdiv bw)
          let out ← wr st.2 st.1 e
          .ok (st.1 + 1, out)) oW st) oH st) oC st) oN (0, dst)

/-- `a * b - p - q` in `int`s, base_batchtospace4d.cpp:21-22 -/
def spanB (a : Nat) (b p q : Int) : Res Int := do
  let m ← int32 (a * b)
  let u ← int32 (m - p)
  int32 (u - q)

/-- the extents of the output, base_batchtospace4d.cpp:14-24; extents that are negative cannot be allocated (`.ub` here) -/
def b2sShape (N C H W : Nat) (bb ct cb cl cr bh bw : Int) : Res (List Nat) := do
  let oh ← spanB H bh ct cb
  let ow ← spanB W bw cl cr
  if oh < 0 ∨ ow < 0 then .ub else .ok [((N : Int).tdiv bb).toNat, C, oh.toNat, ow.toNat]

/-- `BatchToSpace4D`: the checks of `init` (base_batchtospace4d.cpp:48) and `infer` (51-68), `run`, the dispatch on the type -/
def batchToSpaceRun (x : Operand α) (ct cb cl cr bh bw : Int) (fresh : Nat → List α) : Res (List Nat × List α) :=
  if 1 ≤ bh ∧ 1 ≤ bw then
    match x.shape with
    | [N, C, H, W] =>
      if N = 0 then .err
      else do
        let bb ← int32 (bh * bw)
        if (N : Int).tmod bb ≠ 0 then .err
        else do
          let o ← b2sShape N C H W bb ct cb cl cr bh bw
          if plainType x.dtype then do
            let r ← b2sLoop x.data C H W (o.getD 0 0) C (o.getD 2 0) (o.getD 3 0) ct cl bh bw (fresh (Spec.prod o))
            .ok (o, r.2)
          else .err
    | _ => .err
  else .err

end Verif.Kernels
