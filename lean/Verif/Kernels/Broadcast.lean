import Verif.Kernels.ElementWise
import Verif.Kernels.Buf
import Verif.Kernels.DataMove
/-!
# broadcast, where and equal

Sources: src/backend/base/base_{broadcast_v2,where,equal}.cpp, src/kernels/cpu/{broadcast_v2,where,equal}.cpp.

Extents are naturals (a requested extent is an `int`). Alignment of the reinterpreted pointers in `memset_v2` is not modelled.
-/
namespace Verif.Kernels
open Verif.Core

variable {α γ : Type}

/-- `HypeShape::shape(i)` for every `i` below the rank of the coordinate, tensor_iterator.h:297: beyond the rank of the operand it reads
outside the shape. Then `to_mod_index`, broadcast_v2.cpp:34-40, where.cpp:12-18, equal.cpp:14-20. -/
def modIndexR (shape w c : List Int) : Res Nat := if shape.length < c.length then .ub else modIndex shape w c

/-- the operand positions in the order of the output, broadcast_v2.cpp:51-55; `c` is the coordinate of the iterator -/
def modReads (w s shape : List Int) : Nat → List Int → Res (List Nat)
  | 0, _ => .ok []
  | n + 1, c => do
    let a ← modIndexR s w c
    let t ← modReads w s shape n (increase shape c)
    .ok (a :: t)

/-- the positions in an operand of shape `s` for the whole output of shape `o` -/
def modPositions (s o : List Nat) : Res (List Nat) := do
  let w ← weights (s.map Int.ofNat)
  let cnt ← prod32 1 (o.map Int.ofNat)
  modReads w (s.map Int.ofNat) (o.map Int.ofNat) cnt.toNat (iterStart (o.map Int.ofNat))

/-! ## broadcast -/

/-- write the elements of `v` from position `p` on -/
def wrAll (dst : List α) (p : Nat) (v : List α) : Res (List α) :=
  if p + v.length ≤ dst.length then .ok (dst.take p ++ v ++ dst.drop (p + v.length)) else .ub

/-- read `n` elements from position `p` on -/
def rdAll (dst : List α) (p n : Nat) : Res (List α) := if p + n ≤ dst.length then .ok ((dst.drop p).take n) else .ub

/-- `memset<T>(dst, N, val)` with its specialisations, broadcast_v2.cpp:58-94. A unit is a list of elements; depth 0 is `uint64_t` (the plain
loop 58-64), depth 3 is `uint8_t`. `memset_v2` (66-82) writes two units, and fills with units of double width. -/
def fillUnits : Nat → List α → Nat → Nat → List α → Res (List α)
  | 0, dst, p, N, val => loop (fun dst i => wrAll dst (p + i * val.length) val) N dst
  | d + 1, dst, p, N, val =>
    if 1 < N then do
      let dst ← wrAll dst p val
      let dst ← wrAll dst (p + val.length) val
      let two ← rdAll dst p (2 * val.length)
      let dst ← fillUnits d dst (p + 2 * val.length) ((N - 2) / 2) two
      if N % 2 ≠ 0 then wrAll dst (p + (N - 1) * val.length) val else .ok dst
    else if 0 < N then wrAll dst p val
    else .ok dst

/-- how often the width of a type doubles up to eight bytes, broadcast_v2.cpp:84-94 and the dispatch 143-151; other widths are refused -/
def fillDepth (bytes : Nat) : Option Nat :=
  match bytes with
  | 1 => some 3 | 2 => some 2 | 4 => some 1 | 8 => some 0 | _ => none

/-- `cpu_broadcast_with_scalar`, broadcast_v2.cpp:96-103 -/
def broadcastScalar (depth : Nat) (x : List α) (count : Nat) (dst : List α) : Res (List α) := do
  let v ← rd x 0
  fillUnits depth dst 0 count [v]

/-- `cpu_broadcast_with_bias`, broadcast_v2.cpp:105-138 -/
def broadcastBias (depth : Nat) (x : List α) (o : List Nat) (dim : Nat) (dst : List α) : Res (List α) :=
  let number := Spec.prod (o.take dim)
  let count := Spec.prod (o.drop (dim + 1))
  let channels := o.getD dim 0
  if count = 1 then
    loop (fun dst n => loop (fun dst c => do
      let v ← rd x c
      wr dst (n * channels + c) v) channels dst) number dst
  else
    loop (fun dst n => loop (fun dst c => do
      let v ← rd x c
      fillUnits depth dst ((n * channels + c) * count) count [v]) channels dst) number dst

/-- `cpu_broadcast_compute_run`, broadcast_v2.cpp:42-56 -/
def broadcastGeneral (x : List α) (s o : List Nat) (dst : List α) : Res (List α) := do
  let ps ← modPositions s o
  loop (fun dst i => do
    let p ← rd ps i
    let v ← rd x p
    wr dst i v) ps.length dst

/-- the loop of `BroadcastV2::broadcast(x, shape, output)`, base_broadcast_v2.cpp:184-190; the request is `int`s -/
def broadcastExtents : List Nat → List Int → Res (List Nat)
  | a :: x, b :: y => do
    if (a : Int) ≠ b ∧ a ≠ 1 ∧ b ≠ 1 then .err
    else
      let o ← broadcastExtents x y
      .ok ((max (a : Int) b).toNat :: o)
  | _, _ => .ok []

/-- the dispatch on the merged shapes, base_broadcast_v2.cpp:145-153; `x` and `o` are the extents of operand and output -/
def broadcastDispatch (depth : Nat) (data : List α) (x o : List Nat) (dst : List α) : Res (List α) :=
  if Spec.prod x = 1 then broadcastScalar depth data (Spec.prod o) dst
  else match isBias o x with
  | some dim => broadcastBias depth data o dim dst
  | none => broadcastGeneral data x o dst

/-- `BroadcastV2::run`, base_broadcast_v2.cpp:117-156. Equal shapes are returned without looking at the type. In `reduce_shape` (78-115, the
algorithm of element_wise_reduce.cpp) only comparisons of the requested extents with 1 and with the operand's matter, and a negative extent
equals neither (an operand extent that differs from it is 1), so it may be replaced by 0. `fresh` is the content of the new buffer. -/
def broadcastRun (x : Operand α) (request : List Int) (fresh : Nat → List α) : Res (List Nat × List α) := do
  let xs := frontOnes x.shape request.length
  let ys := List.replicate (x.shape.length - request.length) 1 ++ request
  if xs.map Int.ofNat = ys then .ok (xs, x.data)
  else do
    let o ← broadcastExtents xs ys
    let ds := reduceDims o.length ((ys.map Int.toNat).zip (xs.zip o))
    match fillDepth (typeBytes x.dtype) with
    | none => .err
    | some depth => do
      let out ← broadcastDispatch depth x.data (ds.map fun d => d.2.1) (ds.map fun d => d.2.2) (fresh (Spec.prod o))
      .ok (o, out)

/-! ## where -/

/-- the loop of `Where::reduce`, base_where.cpp:48-65: output extents and `do_broadcast` -/
def whereExtents : List Nat → List Nat → List Nat → Res (List Nat × Bool)
  | c :: cs, l :: ls, r :: rs => do
    if ¬(c = l ∧ c = r) ∧ ((c ≠ 1 ∧ l ≠ 1 ∧ c ≠ l) ∨ (c ≠ 1 ∧ r ≠ 1 ∧ c ≠ r) ∨ (l ≠ 1 ∧ r ≠ 1 ∧ l ≠ r)) then .err
    else
      let o ← whereExtents cs ls rs
      .ok ((if c = l ∧ c = r then c else max (max c l) r) :: o.1, if c = l ∧ c = r then o.2 else true)
  | _, _, _ => .ok ([], false)

/-- `Where::reduce` with broadcasting, base_where.cpp:11-73: the three padded shapes, the output shape, `do_broadcast` -/
def whereShapes (c l r : List Nat) : Res (List Nat × List Nat × List Nat × List Nat × Bool) :=
  if c = l ∧ c = r then .ok (c, l, r, c, false)
  else do
    let n := max (max c.length l.length) r.length
    let o ← whereExtents (frontOnes c n) (frontOnes l n) (frontOnes r n)
    .ok (frontOnes c n, frontOnes l n, frontOnes r n, o.1, o.2)

/-- `compute_run_same_shape`, where.cpp:45-56: only the chosen element is read -/
def whereSame (cond : List Nat) (lhs rhs : List α) (n : Nat) (dst : List α) : Res (List α) :=
  loop (fun dst i => do
    let b ← rd cond i
    let v ← if b ≠ 0 then rd lhs i else rd rhs i
    wr dst i v) n dst

/-- `compute_run_broadcast`, where.cpp:20-43 -/
def whereBroadcast (cond : List Nat) (lhs rhs : List α) (c l r o : List Nat) (dst : List α) : Res (List α) := do
  let pc ← modPositions c o
  let pl ← modPositions l o
  let pr ← modPositions r o
  loop (fun dst i => do
    let ic ← rd pc i
    let b ← rd cond ic
    let il ← rd pl i
    let u ← rd lhs il
    let ir ← rd pr i
    let v ← rd rhs ir
    wr dst i (if b ≠ 0 then u else v)) pc.length dst

/-- a list converted element by element, `type_cast_template`, tensor_builder.cpp:41-58 -/
def castAll (conv : γ → Res Nat) : List γ → Res (List Nat)
  | [] => .ok []
  | x :: xs => do
    let b ← conv x
    let bs ← castAll conv xs
    .ok (b :: bs)

/-- `Where::run` and `infer`, base_where.cpp:75-139, with the dispatch where.cpp:58-110. `conv` is the conversion of an element of the
condition to `uint8_t` (`intime::cast(cond, BOOLEAN)`, base_where.cpp:112). -/
def whereRun (conv : γ → Res Nat) (cond : Operand γ) (lhs rhs : Operand α) (fresh : Nat → List α) : Res (List Nat × List α) :=
  if lhs.dtype ≠ rhs.dtype then .err
  else do
    let s ← whereShapes cond.shape lhs.shape rhs.shape
    let bytes ← castAll conv cond.data
    if plainType lhs.dtype then do
      let o := s.2.2.2.1
      let out ← if s.2.2.2.2 then whereBroadcast bytes lhs.data rhs.data s.1 s.2.1 s.2.2.1 o (fresh (Spec.prod o))
        else whereSame bytes lhs.data rhs.data (Spec.prod o) (fresh (Spec.prod o))
      .ok (o, out)
    else .err

/-- `static_cast<uint8_t>` of an integer, tensor_builder.cpp:49 -/
def intByte (x : Int) : Res Nat := .ok (x % 256).toNat

/-! ## equal -/

/-- `compute_run`, equal.cpp:22-41, on the operands' own (not padded) shapes -/
def equalGeneral (eqv : α → α → Bool) (lhs rhs : List α) (l r o : List Nat) (dst : List Nat) : Res (List Nat) := do
  let pl ← modPositions l o
  let pr ← modPositions r o
  loop (fun dst i => do
    let il ← rd pl i
    let u ← rd lhs il
    let ir ← rd pr i
    let v ← rd rhs ir
    wr dst i (if eqv u v then 1 else 0)) pl.length dst

/-- `compute_run_scalar`, equal.cpp:43-59 -/
def equalScalar (eqv : α → α → Bool) (lhs rhs : List α) (n : Nat) (dst : List Nat) : Res (List Nat) := do
  let v ← rd rhs 0
  loop (fun dst i => do
    let u ← rd lhs i
    wr dst i (if eqv u v then 1 else 0)) n dst

/-- `compute_run_same_shape`, equal.cpp:61-77 -/
def equalSame (eqv : α → α → Bool) (lhs rhs : List α) (n : Nat) (dst : List Nat) : Res (List Nat) :=
  loop (fun dst i => do
    let u ← rd lhs i
    let v ← rd rhs i
    wr dst i (if eqv u v then 1 else 0)) n dst

/-- `Equal::run`, base_equal.cpp:26-60, for operands already of their common type `dtype` (`upcast_dtype`). The padded shapes are used to choose
the kernel, but the operands are not reshaped to them (45-46). -/
def equalRun (eqv : α → α → Bool) (dtype : Nat) (ls rs : List Nat) (lhs rhs : List α) (fresh : Nat → List Nat) : Res (List Nat × List Nat) := do
  let (l, r, o, b) ← reduceShapes ls rs
  if plainType dtype then do
    let n := Spec.prod o
    let out ←
      if !b then equalSame eqv lhs rhs n (fresh n)
      else if Spec.prod r = 1 then equalScalar eqv lhs rhs n (fresh n)
      else if Spec.prod l = 1 then equalScalar eqv rhs lhs n (fresh n)
      else equalGeneral eqv lhs rhs ls rs o (fresh n)
    .ok (o, out)
  else .err

end Verif.Kernels
