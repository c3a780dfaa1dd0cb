import Verif.Runtime.Machine
/-!
# The LSTM operator

Models `src/backend/base/base_lstm.cpp` and `src/kernels/cpu/lstm.cpp` on the stack machine of
`Verif.Runtime.Machine`. The operator does no arithmetic itself: it slices its tensors, pushes them on the
stack and runs the operators `gemm` (with `transB`), `add`, `mul`, `sigmoid`, `tanh` and `concat` in
sub-frames (`RunOperator`). These callees are given here by what they compute per element; their own code
is the subject of other properties (gemm C46, add and mul C19, activations C75, concat C17, reshape C42).

A tensor is its type, its extents and the function from coordinates to elements; only the two element types
the callees accept are kept. The scalar operations are parameters (`Scalar`), so the result is exact for
whatever rounding they have.

`ft` and `ot` are pointers into the deque that holds the stack (lstm.cpp:56, 71) and are read after further
`erase` calls in the middle of that deque (lstm.cpp:104, 113). The C++ standard calls them invalidated; the
standard libraries move only the shorter side of the deque, which is never the side these slots are on, so
the model reads the slot with the same index.
-/
namespace Verif.Lstm
open Verif.Runtime

/-- the element types the callees accept: `FLOAT32`, `FLOAT64` -/
inductive Dt where
  | f32
  | f64
  deriving Repr, DecidableEq

/-- one field of a `Tensor`: type, extents, elements by coordinate -/
structure Ten (R : Type) where
  ty : Dt
  shape : List Nat
  el : List Nat → R

/-- a `Tensor`: its own field and the further ones it is packed with (`m_fields`, src/core/tensor.cpp:241-254) -/
structure Tsr (R : Type) where
  hd : Ten R
  more : List (Ten R)

/-- an unpacked tensor -/
def Ten.t {R : Type} (t : Ten R) : Tsr R := ⟨t, []⟩

/-- The scalar operations of the callees: `lin a b c` is the element of a matrix product with row `a` of the
left and row `b` of the (transposed) right operand and the addend `c`. -/
structure Scalar (R : Type) where
  lin : List R → List R → R → R
  add : R → R → R
  mul : R → R → R
  sigmoid : R → R
  tanh : R → R
  zero : R

variable {R : Type}

/-- An operator that computes one tensor of its whole frame and pushes it (`return 1`). -/
def pure1 (g : List (Tsr R) → Option (Ten R)) : Op (Tsr R) := fun s =>
  match g (s.cells.drop s.base) with
  | some v => .ok (s.push v.t) 1
  | none => .err s

/-- `gemm` with `alpha = beta = 1`, `transA = false`, `transB = true`: checks of src/backend/base/base_gemm.cpp:19-74
and the elements it computes. -/
def gemmT (S : Scalar R) : List (Tsr R) → Option (Ten R)
  | [⟨a, _⟩, ⟨b, _⟩, ⟨c, _⟩] =>
    match a.shape, b.shape with
    | [m, k], [n, k'] =>
      if c.shape.length > 2 then none
      else if a.ty ≠ b.ty ∨ c.ty ≠ a.ty then none
      else if k ≠ k' then none
      else
        let cs := List.replicate (2 - c.shape.length) 1 ++ c.shape
        let c0 := cs.getD 0 0
        let c1 := cs.getD 1 0
        if (c0 ≠ 1 ∧ c0 ≠ m) ∨ (c1 ≠ 1 ∧ c1 ≠ n) then none
        else some ⟨a.ty, [m, n], fun idx =>
          let i := idx.getD 0 0
          let j := idx.getD 1 0
          S.lin ((List.range k).map fun q => a.el [i, q]) ((List.range k).map fun q => b.el [j, q])
            (c.el (([if c0 = 1 then 0 else i, if c1 = 1 then 0 else j]).drop (2 - c.shape.length)))⟩
    | _, _ => none
  | _ => none

/-- the wider of two element types, `upcast_dtype`, src/backend/base/element_wise_reduce.cpp:76-118 -/
def wider (a b : Dt) : Dt := if a = .f32 ∧ b = .f32 then .f32 else .f64

/-- `add` and `mul`: src/backend/base/element_wise_reduce.cpp:21-63 and 120-140. Operands of equal shape are
combined coordinate by coordinate, others are broadcast; the conversion to the wider type is exact. -/
def zip (f : R → R → R) : List (Tsr R) → Option (Ten R)
  | [⟨a, _⟩, ⟨b, _⟩] =>
    if a.shape = b.shape then some ⟨wider a.ty b.ty, a.shape, fun idx => f (a.el idx) (b.el idx)⟩
    else
      let n := max a.shape.length b.shape.length
      let sa := List.replicate (n - a.shape.length) 1 ++ a.shape
      let sb := List.replicate (n - b.shape.length) 1 ++ b.shape
      if (List.zipWith (fun p q => decide (p = q ∨ p = 1 ∨ q = 1)) sa sb).all id then
        some ⟨wider a.ty b.ty, List.zipWith (fun p q => if p = q then p else p * q) sa sb, fun idx =>
          f (a.el ((List.zipWith (fun p i => if p = 1 then 0 else i) sa idx).drop (n - a.shape.length)))
            (b.el ((List.zipWith (fun p i => if p = 1 then 0 else i) sb idx).drop (n - b.shape.length)))⟩
      else none
  | _ => none

/-- `sigmoid` and `tanh`: src/backend/base/base_activation.cpp, one function on every element -/
def map1 (f : R → R) : List (Tsr R) → Option (Ten R)
  | [⟨a, _⟩] => some ⟨a.ty, a.shape, fun idx => f (a.el idx)⟩
  | _ => none

/-- `concat` of two tensors along `dim` (0 or 1): src/backend/base/base_concat.cpp:37-104 -/
def concat (dim : Nat) : List (Tsr R) → Option (Ten R)
  | [⟨a, _⟩, ⟨b, _⟩] =>
    if a.ty ≠ b.ty then none
    else if a.shape.length ≤ dim then none
    else if a.shape.length ≠ b.shape.length then none
    else if a.shape.eraseIdx dim ≠ b.shape.eraseIdx dim then none
    else some ⟨a.ty, a.shape.set dim (a.shape.getD dim 0 + b.shape.getD dim 0), fun idx =>
      if idx.getD dim 0 < a.shape.getD dim 0 then a.el idx
      else b.el (idx.set dim (idx.getD dim 0 - a.shape.getD dim 0))⟩
  | _ => none

/-- lift a computation without stack: `none` is undefined behaviour -/
def orUbV {σ α : Type} (s : σ) (o : Option α) : Out σ α :=
  match o with | some a => .ok s a | none => .ub

/-- `Tensor::slice(int i)`, src/core/tensor.cpp:626-633: nothing is checked, so an index outside the first
extent (or a tensor without extents) is undefined. -/
def slice1 (t : Ten R) (i : Int) : Option (Ten R) :=
  match t.shape with
  | [] => none
  | n :: sh => if 0 ≤ i ∧ i < n then some ⟨t.ty, sh, fun idx => t.el (i.toNat :: idx)⟩ else none

/-- `Tensor::slice(int beg, int end)`, src/core/tensor.cpp:635-646: only `beg < end` is checked. -/
def slice2 (t : Ten R) (b e : Int) (s : Stk (Tsr R)) : Out (Stk (Tsr R)) (Ten R) :=
  if b < e then
    match t.shape with
    | [] => .ub
    | n :: sh =>
      if 0 ≤ b ∧ e ≤ n then
        .ok s ⟨t.ty, (e - b).toNat :: sh, fun idx => t.el ((b.toNat + idx.headD 0) :: idx.tail)⟩
      else .ub
  else .err s

/-- `shape.insert(shape.begin() + at, 1)` and `reshape`, lstm.cpp:119-125 and base_lstm.cpp:231-258: the
elements stay where they are, the new coordinate is skipped. A position behind the last extent makes
`otl::vector::_insert` move a negative number of bytes (include/utils/otl.h:430-437): undefined. -/
def expand (t : Ten R) (at_ : Nat) : Option (Ten R) :=
  if at_ ≤ t.shape.length then
    some ⟨t.ty, t.shape.take at_ ++ 1 :: t.shape.drop at_, fun idx => t.el (idx.eraseIdx at_)⟩
  else none

/-- The four slices of one weight matrix or bias: input, output, forget and cell gate (lstm.cpp:10-28) -/
structure Gates (R : Type) where
  i : Ten R
  o : Ten R
  f : Ten R
  c : Ten R

/-- four consecutive slices of `H` rows beginning at row `H * k`, lstm.cpp:10-28 -/
def gates (t : Ten R) (H : Int) (k : Int) (s : Stk (Tsr R)) : Out (Stk (Tsr R)) (Gates R) :=
  (slice2 t (H * k) (H * (k + 1)) s).bind fun s i =>
  (slice2 t (H * (k + 1)) (H * (k + 2)) s).bind fun s o =>
  (slice2 t (H * (k + 2)) (H * (k + 3)) s).bind fun s f =>
  (slice2 t (H * (k + 3)) (H * (k + 4)) s).bind fun s c => .ok s ⟨i, o, f, c⟩

/-- One gate, lstm.cpp:44-55 (and 59-70, 74-85, 89-100): two products, their sum, an activation. -/
def gate (S : Scalar R) (act : R → R) (xt w wb h r rb : Ten R) (s : Stk (Tsr R)) : Out (Stk (Tsr R)) Unit :=
  (runOperator (pure1 (gemmT S)) 3 (((s.push xt.t).push w.t).push wb.t)).bind fun s _ =>
  (runOperator (pure1 (gemmT S)) 3 (((s.push h.t).push r.t).push rb.t)).bind fun s _ =>
  (runOperator (pure1 (zip S.add)) 2 s).bind fun s _ =>
  (runOperator (pure1 (map1 act)) 1 s).bind fun s _ => .ok s ()

/-- `stack.top()`: undefined on an empty stack -/
def top (s : Stk (Tsr R)) : Option (Ten R) := (s.cells.getLast?).map (·.hd)

/-- The index of the slot `stack.top()` points to, lstm.cpp:56 and 71 -/
def topSlot (s : Stk (Tsr R)) : Nat := s.cells.length - 1

/-- reading through such a pointer, lstm.cpp:104 and 113 -/
def deref (s : Stk (Tsr R)) (p : Nat) : Option (Tsr R) := s.cells[p]?

/-- One step of the recurrence, lstm.cpp:39-115: the new `Ht` and `Ct`. -/
def cellStep (S : Scalar R) (w r wb rb : Gates R) (xt h c : Ten R) (s : Stk (Tsr R)) :
    Out (Stk (Tsr R)) (Ten R × Ten R) :=
  (gate S S.sigmoid xt w.f wb.f h r.f rb.f s).bind fun s _ =>
  let ft := topSlot s
  (gate S S.sigmoid xt w.o wb.o h r.o rb.o s).bind fun s _ =>
  let ot := topSlot s
  (gate S S.sigmoid xt w.i wb.i h r.i rb.i s).bind fun s _ =>
  (gate S S.tanh xt w.c wb.c h r.c rb.c s).bind fun s _ =>
  (runOperator (pure1 (zip S.mul)) 2 s).bind fun s _ =>
  (orUbV s (deref s ft)).bind fun s vf =>
  (runOperator (pure1 (zip S.mul)) 2 ((s.push vf).push c.t)).bind fun s _ =>
  (runOperator (pure1 (zip S.add)) 2 s).bind fun s _ =>
  (orUbV s (top s)).bind fun s ct =>
  (runOperator (pure1 (map1 S.tanh)) 1 s).bind fun s _ =>
  (orUbV s (deref s ot)).bind fun s vo =>
  (runOperator (pure1 (zip S.mul)) 2 (s.push vo)).bind fun s _ =>
  (orUbV s (top s)).bind fun s ht => .ok s (ht, ct)

/-- Collecting the outputs, lstm.cpp:128-142: the first `Ht` alone, later ones behind (or, in reverse, before)
what has been collected. -/
def collect (rev : Bool) (out : Option (Ten R)) (eh : Ten R) (s : Stk (Tsr R)) : Out (Stk (Tsr R)) (Ten R) :=
  match out with
  | none => .ok s eh
  | some out =>
    (runOperator (pure1 (concat 0)) 2 (if rev then (s.push eh.t).push out.t else (s.push out.t).push eh.t)).bind
      fun s _ => orUbV s (top s)

/-- The unrolled loop, lstm.cpp:38-145: `k` steps left, step number `i`; the results are the collected output
(`none` before the first step), `Ht` and `Ct`. -/
def unroll (S : Scalar R) (x : Ten R) (T : Nat) (rev : Bool) (w r wb rb : Gates R) :
    Nat → Nat → Option (Ten R) → Ten R → Ten R → Stk (Tsr R) →
      Out (Stk (Tsr R)) (Option (Ten R) × Ten R × Ten R)
  | 0, _, out, h, c, s => .ok s (out, h, c)
  | k + 1, i, out, h, c, s =>
    (orUbV s (slice1 x (if rev then (T : Int) - i - 1 else i))).bind fun s xt =>
    (cellStep S w r wb rb xt h c s).bind fun s hc =>
    (orUbV s (expand hc.1 0)).bind fun s eh =>
    (collect rev out eh s).bind fun s out' =>
    (orUb (s.erase 7 (-1))).bind fun s _ =>
    unroll S x T rev w r wb rb k (i + 1) (some out') hc.1 hc.2 s

/-- `LSTM::lstm_compute`, src/kernels/cpu/lstm.cpp:7-150 -/
def compute (S : Scalar R) (H : Int) (x w r b h0 c0 : Ten R) (rev : Bool) (s : Stk (Tsr R)) :
    Out (Stk (Tsr R)) (Option (Ten R) × Ten R × Ten R) :=
  (gates w H 0 s).bind fun s w =>
  (gates r H 0 s).bind fun s r =>
  (gates b H 0 s).bind fun s wb =>
  (gates b H 4 s).bind fun s rb =>
  let T := x.shape.headD 0
  unroll S x T rev w r wb rb T 0 none h0 c0 s

/-- `m_direction` as `LSTM::init` sets it, base_lstm.cpp:15-18: 2 for "bidirectional", else 0 (never 1) -/
def directionOf (dir : String) : Nat := if dir = "bidirectional" then 2 else 0

/-- An initial state that is not given with three extents is replaced by FLOAT32 zeros,
base_lstm.cpp:173-180; the extents it is built from are read unchecked. -/
def initial (S : Scalar R) (x w r h : Ten R) : Option (Ten R) :=
  if h.shape.length < 3 then
    if 1 ≤ w.shape.length ∧ 2 ≤ x.shape.length ∧ 3 ≤ r.shape.length then
      some ⟨.f32, [w.shape.getD 0 0, x.shape.getD 1 0, r.shape.getD 2 0], fun _ => S.zero⟩
    else none
  else some h

/-- what one direction is computed from -/
structure Dir (R : Type) where
  w : Ten R
  r : Ten R
  b : Ten R
  h : Ten R
  c : Ten R

/-- slicing direction `d` out of every tensor, base_lstm.cpp:198-202 (212-216, 217-221) -/
def sliceDir (w r b h0 c0 : Ten R) (d : Nat) (s : Stk (Tsr R)) : Out (Stk (Tsr R)) (Dir R) :=
  (orUbV s (slice1 w d)).bind fun s w =>
  (orUbV s (slice1 r d)).bind fun s r =>
  (orUbV s (slice1 b d)).bind fun s b =>
  (orUbV s (slice1 h0 d)).bind fun s h0 =>
  (orUbV s (slice1 c0 d)).bind fun s c0 => .ok s ⟨w, r, b, h0, c0⟩

/-- the three results of a direction with the extent of the direction inserted, base_lstm.cpp:227-259; the
output of a sequence of length zero is a default tensor without extents, into whose shape nothing can be
inserted at position 1 -/
def expandAll (s : Stk (Tsr R)) (v : Option (Ten R) × Ten R × Ten R) :
    Out (Stk (Tsr R)) (Ten R × Ten R × Ten R) :=
  (orUbV s v.1).bind fun s y =>
  (orUbV s (expand y 1)).bind fun s y =>
  (orUbV s (expand v.2.1 0)).bind fun s h =>
  (orUbV s (expand v.2.2 0)).bind fun s c => .ok s (y, h, c)

/-- concatenating a forward and a reverse result, base_lstm.cpp:261-278: the result is taken off the stack -/
def joinTwo (dim : Nat) (f r : Ten R) (s : Stk (Tsr R)) : Out (Stk (Tsr R)) (Ten R) :=
  (runOperator (pure1 (concat dim)) 2 ((s.push f.t).push r.t)).bind fun s _ =>
  (orUbV s (top s)).bind fun s v =>
  (orUb (s.eraseOne (-1))).bind fun s _ => .ok s v

/-- the six operands, base_lstm.cpp:166-171; `stack[i]` throws `std::out_of_range` when it is missing -/
def operand (s : Stk (Tsr R)) (i : Nat) : Out (Stk (Tsr R)) (Ten R) :=
  match s.index i with
  | some v => .ok s v.hd
  | none => .err s

/-- what `infer` computes, base_lstm.cpp:142-158: the extents of the three results. It allocates them, so a
negative hidden size throws; the extents of `x` are read unchecked. -/
def infer (dir : String) (H : Int) (s : Stk (Tsr R)) : Out (Stk (Tsr R)) (List (List Int)) :=
  (operand s 0).bind fun s x =>
  (operand s 1).bind fun s _ =>
  (operand s 2).bind fun s _ =>
  if x.shape.length < 2 then .ub
  else if H < 0 then .err s
  else
    let dirs : Int := if directionOf dir = 2 then 2 else 1
    .ok s [[x.shape.getD 0 0, dirs, x.shape.getD 1 0, H], [dirs, x.shape.getD 1 0, H], [dirs, x.shape.getD 1 0, H]]

/-- `LSTM::run`, src/backend/base/base_lstm.cpp:160-294 with `init` (15-21); branches for `m_direction = 1`,
which is never set, are left out. -/
def run (S : Scalar R) (dir : String) (H : Int) : Op (Tsr R) := fun s =>
  if s.size < 3 then .err s
  else
    (infer dir H s).bind fun s _ =>
    (operand s 0).bind fun s x =>
    (operand s 1).bind fun s w =>
    (operand s 2).bind fun s r =>
    (operand s 3).bind fun s b =>
    (operand s 4).bind fun s h =>
    (operand s 5).bind fun s c =>
    (orUbV s (initial S x w r h)).bind fun s h0 =>
    (orUbV s (initial S x w r c)).bind fun s c0 =>
    if directionOf dir = 2 then
      (sliceDir w r b h0 c0 0 s).bind fun s d0 =>
      (sliceDir w r b h0 c0 1 s).bind fun s d1 =>
      (compute S H x d0.w d0.r d0.b d0.h d0.c false s).bind fun s vf =>
      (compute S H x d1.w d1.r d1.b d1.h d1.c true s).bind fun s vr =>
      (orUb (s.eraseOne (-1))).bind fun s _ =>
      (expandAll s vf).bind fun s f =>
      (expandAll s vr).bind fun s g =>
      (joinTwo 1 f.1 g.1 s).bind fun s y =>
      (joinTwo 0 f.2.1 g.2.1 s).bind fun s yh =>
      (joinTwo 0 f.2.2 g.2.2 s).bind fun s yc =>
      .ok (s.push ⟨y, [yh, yc]⟩) 1
    else
      (sliceDir w r b h0 c0 0 s).bind fun s d0 =>
      (compute S H x d0.w d0.r d0.b d0.h d0.c false s).bind fun s vf =>
      (orUb (s.eraseOne (-1))).bind fun s _ =>
      (expandAll s vf).bind fun s f =>
      .ok (s.push ⟨f.1, [f.2.1, f.2.2]⟩) 1

end Verif.Lstm
