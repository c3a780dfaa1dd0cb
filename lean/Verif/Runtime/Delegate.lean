import Verif.Runtime.MachineLemmas
import Verif.Core.Res
import Verif.Core.ShapeSpec

/-!
# The operators that take their geometry as operands

Models `src/kernels/cpu/{conv2d_v2,depthwise_conv2d_v2,pooling2d_v2}.cpp` and the `init` functions of the operators they
drive (`src/backend/base/{base_conv2d,base_pooling2d}.cpp`). `conv2d_winograd_v2.cpp` has the same code, but the operator it
drives keeps the kernel of its first run (`Kernels/Winograd`, C60), so it is not a function of its parameters and is left out.

Each of these operators owns an operator of the first version, remembers the operands it last gave to that one as
parameters, and initialises it again when an operand differs from the remembered one. The state of the two objects
survives a call and survives an exception.

Not modelled: the logging (a missing inner operator is only logged, `conv2d_v2.cpp:32`, the model assumes it exists), the
retention parameters `#op`, `#name`, …, the parameter checking mode (strict, the default), and `tensor::cast`, which is an
arbitrary function of the operand.
-/
namespace Verif.Runtime.Delegate
open Verif.Core Verif.Runtime

/-- An `INT32` tensor as `tensor::cast(INT32, ·)` returns it (src/core/tensor_builder.cpp:124-146). -/
structure IntT where
  shape : List Nat
  data : List Int
  deriving Repr, DecidableEq

/-- as many elements as the shape says -/
def IntT.Wf (t : IntT) : Prop := t.data.length = Verif.Spec.prod t.shape
instance (t : IntT) : Decidable t.Wf := by unfold IntT.Wf; infer_instance

/-- The element loop of `is_int_equal` (conv2d_v2.cpp:54-56): `n` elements from position `i` on. Reading past a buffer is
undefined. -/
def sameFrom (l r : List Int) : Nat → Nat → Res Bool
  | _, 0 => .ok true
  | i, n + 1 => match l[i]?, r[i]? with
      | some a, some b => if a ≠ b then .ok false else sameFrom l r (i + 1) n
      | _, _ => .ub

/-- `is_int_equal(lhs, rhs)` (conv2d_v2.cpp:51-58, depthwise_conv2d_v2.cpp:49-56, pooling2d_v2.cpp:45-52). `none` is the
default-constructed tensor the operator starts with: no extents, no memory. -/
def isIntEqual (lhs : IntT) (rhs : Option IntT) : Res Bool :=
  match rhs with
  | none => if lhs.shape ≠ [] then .ok false else sameFrom lhs.data [] 0 (Verif.Spec.prod lhs.shape)
  | some r => if lhs.shape ≠ r.shape then .ok false else sameFrom lhs.data r.data 0 (Verif.Spec.prod lhs.shape)

/-- An operator of the first version: what a new one holds, what `init` makes of the parameters given as operands
(unset: `none`) and of the members it had — an `init` that throws leaves some members changed —, and what `run` and
`infer` do with the members. Neither changes them. -/
structure Inner (S V P : Type) where
  fresh : S
  init : List (Option IntT) → S → S × Res Unit
  run : S → Op V
  infer : S → Stk V → Out (Stk V) P

/-- The members: `m_int_padding4x2` (for pooling the three remembered tensors), the parameters set on the inner operator,
its members. -/
structure V2 (S : Type) where
  mem : List (Option IntT)
  par : List (Option IntT)
  inner : S
  deriving Repr, DecidableEq

/-- Which operands are parameters and which are handed on. -/
structure Config where
  arity : Nat
  params : List Nat
  args : List Nat
  deriving Repr, DecidableEq

/-- `conv2d_v2.cpp:60-93`, `depthwise_conv2d_v2.cpp:58-91`: three operands, the padding is the
second, the first and the third are handed on. -/
def convConfig : Config := ⟨3, [1], [0, 2]⟩
/-- `pooling2d_v2.cpp:54-124`: four operands; padding, window and stride; only the first is handed on. -/
def poolConfig : Config := ⟨4, [1, 2, 3], [0]⟩

/-- The constructed and initialised object (`Conv2DV2::init`, conv2d_v2.cpp:25-48; `Pooling2DV2::init`,
pooling2d_v2.cpp:22-43): a new inner operator with the fixed parameters copied. -/
def create (c : Config) (I : Inner S V P) : V2 S := ⟨c.params.map fun _ => none, c.params.map fun _ => none, I.fresh⟩

/-- Calling `init()` once more (conv2d_v2.cpp:25-48): a new inner operator, the remembered tensors stay. -/
def reinit (c : Config) (I : Inner S V P) (st : V2 S) : V2 S := ⟨st.mem, c.params.map fun _ => none, I.fresh⟩

/-- The comparisons and updates (conv2d_v2.cpp:65-69, pooling2d_v2.cpp:61-76): the remembered tensors, the parameters, and
whether anything was replaced. -/
def refresh : List IntT → List (Option IntT) → List (Option IntT) → Res (List (Option IntT) × List (Option IntT) × Bool)
  | v :: vs, m :: ms, p :: ps => do
      let same ← isIntEqual v m
      let (ms', ps', u) ← refresh vs ms ps
      if same then .ok (m :: ms', p :: ps', u) else .ok (some v :: ms', some v :: ps', true)
  | _, ms, ps => .ok (ms, ps, false)

/-- `stack.push(i)` for every handed-on operand (conv2d_v2.cpp:72-73; include/runtime/stack.h). -/
def pushArgs : List Nat → Stk V → Out (Stk V) Unit
  | [], s => .ok s ()
  | i :: is, s => match s.index i with
      | some v => pushArgs is (s.push v)
      | none => .err s

/-- the operands at the given positions, cast to `INT32`; `none` when the position is missing or the cast throws
(conv2d_v2.cpp:63, pooling2d_v2.cpp:57-59) -/
def casts (cast : V → Option IntT) (s : Stk V) : List Nat → Option (List IntT)
  | [] => some []
  | i :: is => do
      let v ← s.index i
      let t ← cast v
      let ts ← casts cast s is
      some (t :: ts)

/-- `run` and `infer` up to the delegated call `go` (conv2d_v2.cpp:60-93, pooling2d_v2.cpp:54-124): the object afterwards
and the outcome. -/
def call (I : Inner S V P) (c : Config) (cast : V → Option IntT) (go : S → Stk V → Out (Stk V) β) (st : V2 S)
    (s : Stk V) : V2 S × Out (Stk V) β :=
  if s.size ≠ c.arity then (st, .err s) else
  match casts cast s c.params with
  | none => (st, .err s)
  | some vs =>
    match refresh vs st.mem st.par with
    | .err => (st, .err s)
    | .ub => (st, .ub)
    | .ok (mem, par, updated) =>
      let r := if updated then I.init par st.inner else (st.inner, Res.ok ())
      (⟨mem, par, r.1⟩,
        match r.2 with
        | .err => .err s
        | .ub => .ub
        | .ok () => (pushArgs c.args s).bind fun s' _ => go r.1 s')

/-- `InferOperator(op, stack, nargs, output)` (src/runtime/operator.cpp:280-294): frame, infer, clear the frame. -/
def inferOperator (g : Stk V → Out (Stk V) P) (nargs : Nat) (s : Stk V) : Out (Stk V) P :=
  if s.size < nargs then .err s
  else Out.finallyDo ((g (s.pushBase (-(nargs : Int)))).bind fun s1 r => .ok s1.clear r) Stk.popBase

/-- `run(stack)` -/
def run (I : Inner S V P) (c : Config) (cast : V → Option IntT) : V2 S → Stk V → V2 S × Out (Stk V) Int :=
  call I c cast fun m s => runOperator (I.run m) c.args.length s

/-- `infer(stack, output)` -/
def infer (I : Inner S V P) (c : Config) (cast : V → Option IntT) : V2 S → Stk V → V2 S × Out (Stk V) P :=
  call I c cast fun m s => inferOperator (I.infer m) c.args.length s

/-- A call made on the object. -/
inductive Call (V : Type) where
  | run (s : Stk V)
  | infer (s : Stk V)

/-- The object after one call; nothing is left to say after undefined behaviour. -/
def step (I : Inner S V P) (c : Config) (cast : V → Option IntT) (st : V2 S) : Call V → Option (V2 S)
  | .run s => match run I c cast st s with
      | (_, .ub) => none
      | (st', _) => some st'
  | .infer s => match infer I c cast st s with
      | (_, .ub) => none
      | (st', _) => some st'

/-- The object after a history of calls, whatever they returned or threw. -/
def after (I : Inner S V P) (c : Config) (cast : V → Option IntT) : List (Call V) → V2 S → Option (V2 S)
  | [], st => some st
  | e :: es, st => (step I c cast st e).bind (after I c cast es)

/-! ## The inner operators -/

inductive Fmt where
  | nchw | nhwc
  deriving Repr, DecidableEq

/-- the two supported names (base_conv2d.cpp:66-72) -/
def parseFmt (s : String) : Option Fmt :=
  if s = "NCHW" then some .nchw else if s = "NHWC" then some .nhwc else none

/-- The fixed parameters `conv2d_v2` copies to its inner `conv2d` (conv2d_v2.cpp:41-47). `R` is the type of the padding
value. -/
structure ConvAttr (R : Type) where
  format : String
  stride : IntT
  dilation : Option IntT
  dialations : Option IntT
  padValue : R
  packed : Bool

/-- Members of `base::Conv2D` (include/backend/base/base_conv2d.h:35-41); `none`: not yet assigned. -/
structure ConvState (R : Type) where
  format : Option Fmt
  pad : List Int
  padValue : Option R
  stride : List Int
  dil : List Int
  packed : Bool
  deriving Repr, DecidableEq

/-- a new `base::Conv2D` -/
def convFresh : ConvState R := ⟨none, [], none, [], [], false⟩

/-- the entries of an attribute at the given positions are all `v` -/
def allAt (xs : List Int) (v : Int) (is : List Nat) : Bool := is.all fun i => xs[i]? == some v

/-- `base::Conv2D::init` (base_conv2d.cpp:39-113). The members are assigned before the values are judged. -/
def convInit (a : ConvAttr R) (par : List (Option IntT)) (s : ConvState R) : ConvState R × Res Unit :=
  match par with
  | [some pad] =>
    let s := { s with padValue := some a.padValue, packed := a.packed }
    match a.dilation <|> a.dialations with
    | none => (s, .err)
    | some dil =>
      if ¬ (pad.shape = [4, 2] ∧ a.stride.shape = [4] ∧ dil.shape = [4]) then (s, .err) else
      match parseFmt a.format with
      | none => (s, .err)
      | some f =>
        let s := { s with format := some f, pad := pad.data.take 8, stride := a.stride.data.take 4, dil := dil.data.take 4 }
        match f with
        | .nchw =>
          if allAt s.pad 0 [0, 1, 2, 3] && allAt s.stride 1 [0, 1] && allAt s.dil 1 [0, 1] then (s, .ok ()) else (s, .err)
        | .nhwc =>
          if allAt s.pad 0 [0, 1, 6, 7] && allAt s.stride 1 [0, 3] && allAt s.dil 1 [0, 3] then (s, .ok ()) else (s, .err)
  | _ => (s, .err)

/-- What the convolution is called with: layout, padding (top, bottom, left, right), padding value, stride, dilation
(height, width), whether the weights are packed. -/
structure Geom (R : Type) where
  format : Fmt
  pad : Int × Int × Int × Int
  padValue : R
  stride : Int × Int
  dil : Int × Int
  packed : Bool
  deriving Repr, DecidableEq

/-- `valarray::operator[]`: no check -/
def at' (xs : List Int) (i : Nat) : Res Int := match xs[i]? with | some x => .ok x | none => .ub

/-- Reading the members at the start of `infer` and `run` (base_conv2d.cpp:137-150, 181-195). An unassigned member or an
index outside an empty array is undefined. -/
def convGeom (s : ConvState R) : Res (Geom R) :=
  match s.format, s.padValue with
  | some .nchw, some v => do
      let t ← at' s.pad 4; let b ← at' s.pad 5; let l ← at' s.pad 6; let r ← at' s.pad 7
      let sh ← at' s.stride 2; let sw ← at' s.stride 3
      let dh ← at' s.dil 2; let dw ← at' s.dil 3
      .ok ⟨.nchw, (t, b, l, r), v, (sh, sw), (dh, dw), s.packed⟩
  | some .nhwc, some v => do
      let t ← at' s.pad 2; let b ← at' s.pad 3; let l ← at' s.pad 4; let r ← at' s.pad 5
      let sh ← at' s.stride 1; let sw ← at' s.stride 2
      let dh ← at' s.dil 1; let dw ← at' s.dil 2
      .ok ⟨.nhwc, (t, b, l, r), v, (sh, sw), (dh, dw), s.packed⟩
  | _, _ => .ub

/-- a call that first reads the members -/
def withGeom (g : Res G) (k : G → Stk V → Out (Stk V) β) (s : Stk V) : Out (Stk V) β :=
  match g with
  | .ok x => k x s
  | .err => .err s
  | .ub => .ub

/-- The inner `conv2d` (or `depthwise_conv2d`, which inherits `init`, base_depthwise_conv2d.h): `k` and `ki` are the
computations of `run` and `infer` once the geometry is read. -/
def convInner (a : ConvAttr R) (k : Geom R → Op V) (ki : Geom R → Stk V → Out (Stk V) P) : Inner (ConvState R) V P where
  fresh := convFresh
  init := convInit a
  run := fun s => withGeom (convGeom s) k
  infer := fun s => withGeom (convGeom s) ki

/-- Fixed parameters of `pooling2d_v2` (pooling2d_v2.cpp:40-42). -/
structure PoolAttr where
  format : String
  type : Int
  paddingType : Int

/-- Members of `base::Pooling2D` (include/backend/base/base_pooling2d.h). -/
structure PoolState where
  format : Option Fmt
  type : Option Int
  paddingType : Option Int
  pad : List Int
  ksize : List Int
  stride : List Int
  deriving Repr, DecidableEq

/-- `base::Pooling2D::init` (base_pooling2d.cpp:37-97). -/
def poolInit (a : PoolAttr) (par : List (Option IntT)) (s : PoolState) : PoolState × Res Unit :=
  match par with
  | [some pad, some ks, some sd] =>
    let s := { s with type := some a.type, paddingType := some a.paddingType }
    if ¬ (pad.shape = [4, 2] ∧ ks.shape = [4] ∧ sd.shape = [4]) then (s, .err) else
    match parseFmt a.format with
    | none => (s, .err)
    | some f =>
      let s := { s with format := some f, pad := pad.data.take 8, ksize := ks.data.take 4, stride := sd.data.take 4 }
      match f with
      | .nchw =>
        if allAt s.pad 0 [0, 1, 2, 3] && allAt s.ksize 1 [0, 1] && allAt s.stride 1 [0, 1] then (s, .ok ()) else (s, .err)
      | .nhwc =>
        if allAt s.pad 0 [0, 1, 6, 7] && allAt s.ksize 1 [0, 3] && allAt s.stride 1 [0, 3] then (s, .ok ()) else (s, .err)
  | _ => (s, .err)

/-- Layout, kind, kind of padding, padding, window, stride. -/
structure PoolGeom where
  format : Fmt
  type : Int
  paddingType : Int
  pad : Int × Int × Int × Int
  ksize : Int × Int
  stride : Int × Int
  deriving Repr, DecidableEq

/-- reading the members (base_pooling2d.cpp:112-123, 156-168) -/
def poolGeom (s : PoolState) : Res PoolGeom :=
  match s.format, s.type, s.paddingType with
  | some .nchw, some y, some z => do
      let t ← at' s.pad 4; let b ← at' s.pad 5; let l ← at' s.pad 6; let r ← at' s.pad 7
      let kh ← at' s.ksize 2; let kw ← at' s.ksize 3
      let sh ← at' s.stride 2; let sw ← at' s.stride 3
      .ok ⟨.nchw, y, z, (t, b, l, r), (kh, kw), (sh, sw)⟩
  | some .nhwc, some y, some z => do
      let t ← at' s.pad 2; let b ← at' s.pad 3; let l ← at' s.pad 4; let r ← at' s.pad 5
      let kh ← at' s.ksize 1; let kw ← at' s.ksize 2
      let sh ← at' s.stride 1; let sw ← at' s.stride 2
      .ok ⟨.nhwc, y, z, (t, b, l, r), (kh, kw), (sh, sw)⟩
  | _, _, _ => .ub

def poolInner (a : PoolAttr) (k : PoolGeom → Op V) (ki : PoolGeom → Stk V → Out (Stk V) P) : Inner PoolState V P where
  fresh := ⟨none, none, none, [], [], []⟩
  init := poolInit a
  run := fun s => withGeom (poolGeom s) k
  infer := fun s => withGeom (poolGeom s) ki

end Verif.Runtime.Delegate
