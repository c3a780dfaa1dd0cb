import Verif.Kernels.Winograd
import Verif.Kernels.Conv
/-!
# The option that replaces convolutions by Winograd convolutions

`Conv2dZipperOption`, src/compiler/option/winograd_zipper_option.cpp: the only option of the zipper, compiled in on ARM (zipper.cpp:88-99), where
it is on by default. Parameters are given after `tensor::cast(INT32, …)`; strings and booleans as such.
-/
namespace Verif.Compiler.WinogradZip
open Verif.Core Verif.Kernels

variable {α : Type}

/-- an integer tensor: extents and elements -/
structure IntParam where
  shape : List Nat
  data : List Int
  deriving DecidableEq, Repr

/-- the operators that the option looks at, winograd_zipper_option.cpp:22 -/
inductive Op where
  | conv2d
  | conv2dV2
  | other
  deriving DecidableEq, Repr

/-- an operand: the node, and extents and elements of its value if it is a constant -/
structure Operand (α : Type) where
  node : Nat
  value : Option (List Nat × List α)
  deriving DecidableEq, Repr

/-- a node, with the parameters that the option or the convolution reads -/
structure ConvNode (α : Type) where
  name : String
  op : Op
  inputs : List (Operand α)
  format : Option String
  padding : Option IntParam
  paddingValue : Option α
  stride : Option IntParam
  dilation : Option IntParam
  dialations : Option IntParam
  packed : Bool
  deriving DecidableEq, Repr

/-- a node `conv2d_winograd` or `conv2d_winograd_v2` -/
structure WinoNode (α : Type) where
  name : String
  v2 : Bool
  inputs : List (Operand α)
  format : String
  padding : Option IntParam
  paddingValue : Option α
  deriving DecidableEq, Repr

/-- `Bubble::get`, bubble.cpp:80-91, and `Operator::get`: an absent parameter throws -/
def need {β : Type} : Option β → Res β
  | some b => .ok b
  | none => .err

/-- `data<int32_t>(i)`, unchecked -/
def cell (p : IntParam) (i : Nat) : Res Int :=
  match p.data[i]? with
  | some v => .ok v
  | none => .ub

/-- an extent of a `Shape`, unchecked -/
def shapeAt (s : List Nat) (i : Nat) : Res Nat :=
  match s[i]? with
  | some v => .ok v
  | none => .ub

/-- `winograd_check`, kernels/common/function.cpp:80-96 -/
def winogradCheck (k : List Nat) (stride dilation : Int × Int) : Res Bool := do
  let kh ← shapeAt k 2
  let kw ← shapeAt k 3
  let i ← shapeAt k 1
  let o ← shapeAt k 0
  .ok (decide (kh = 3 ∧ kw = 3 ∧ stride.2 = 1 ∧ stride.1 = 1 ∧ dilation.1 = 1 ∧ dilation.2 = 1 ∧ 32 ≤ i ∧ 32 ≤ o))

/-- the third and fourth of four cells, all of which are read, winograd_zipper_option.cpp:40-43 and 45-46 -/
def fourCells (p : IntParam) : Res (Int × Int) := do
  let _ ← cell p 0
  let _ ← cell p 1
  let a ← cell p 2
  let b ← cell p 3
  .ok (a, b)

/-- the constant that is the kernel, winograd_zipper_option.cpp:62-70: `value` of the last operand; a node that is no constant has none -/
def kernelOf (op : Op) (inputs : List (Operand α)) : Res (List Nat × List α) :=
  match op, inputs with
  | .conv2d, [_, k] => need k.value
  | .conv2dV2, [_, _, k] => need k.value
  | _, _ => .err

/-- the padding parameter, read for `conv2d` only, winograd_zipper_option.cpp:65 -/
def paddingOf (nd : ConvNode α) : Res (Option IntParam) :=
  if nd.op = .conv2d then do
    let p ← need nd.padding
    .ok (some p)
  else .ok none

/-- the dilation; a `valarray` of zeros if the parameter is absent (the parameter `dialations` is not looked at),
winograd_zipper_option.cpp:32-43 -/
def dilationOf (nd : ConvNode α) : Res (Int × Int) :=
  match nd.dilation with
  | some d => fourCells d
  | none => .ok (0, 0)

/-- `Conv2dZipperOption::zip`, winograd_zipper_option.cpp:16-96: the new node, if the node is replaced; `cpu` is `device.type() == CPU` -/
def zip (cpu : Bool) (nd : ConvNode α) : Res (Option (WinoNode α)) :=
  if cpu = false then .ok none
  else if nd.op = .other then .ok none
  else do
    let f ← need nd.format
    if f ≠ "NCHW" then .ok none
    else do
      let s ← need nd.stride
      let d ← dilationOf nd
      let s ← fourCells s
      let k ← kernelOf nd.op nd.inputs
      let p ← paddingOf nd
      let c ← winogradCheck k.1 s d
      .ok (if c then some ⟨nd.name, decide (nd.op = .conv2dV2), nd.inputs, f, p, nd.paddingValue⟩ else none)

/-- The decision of `PackTranslatorOption` for a convolution on ARM with Winograd on, pack_translator_option.cpp:142-176: is the kernel packed?
(For devices other than the CPU see C07.) -/
def packsKernel (nd : ConvNode α) : Res Bool :=
  match kernelOf nd.op nd.inputs with
  | .ok k => do
    let s ← need nd.stride
    let s2 ← cell s 2
    let s3 ← cell s 3
    let d ← need nd.dilation
    let d2 ← cell d 2
    let d3 ← cell d 3
    let c ← winogradCheck k.1 (s2, s3) (d2, d3)
    .ok (!c)
  | _ => .ok false

/-- the packed convolution, pack_translator_option.cpp:178-222: other elements in a constant of the same extents, and the mark -/
def packed (nd : ConvNode α) (w : List α) : ConvNode α :=
  { nd with
    inputs := nd.inputs.dropLast ++ (nd.inputs.getLast?.toList.map fun k => { k with value := k.value.map fun v => (v.1, w) })
    packed := true }

/-! ## the operators -/

/-- an image tensor: extents and elements -/
structure Image (α : Type) where
  n : Nat
  c : Nat
  h : Nat
  w : Nat
  data : List α

/-- one run: the image, the padding operand (of the `_v2` operators), and what freshly allocated memory holds -/
structure Run (α : Type) where
  x : Image α
  pad : IntParam
  out : Nat → Nat → List α
  kernel : Nat → List α
  wino : WinoFresh α

/-- top, bottom, left, right of an NCHW padding, base_conv2d.cpp:60, 74-86, base_conv2d_winograd.cpp:40, 56-67 -/
def padding4 (p : IntParam) : Res (Int × Int × Int × Int) :=
  if p.shape = [4, 2] then
    match p.data with
    | [n0, n1, c0, c1, t, b, l, r] => if n0 ≠ 0 ∨ n1 ≠ 0 ∨ c0 ≠ 0 ∨ c1 ≠ 0 then .err else .ok (t, b, l, r)
    | _ => .ub
  else .err

/-- stride or dilation of an NCHW convolution, base_conv2d.cpp:61-62, 87-94. Negative ones are outside the model. -/
def pair4 (p : IntParam) : Res (Nat × Nat) :=
  if p.shape = [4] then
    match p.data with
    | [n, c, a, b] => if n ≠ 1 ∨ c ≠ 1 then .err else if 0 ≤ a ∧ 0 ≤ b then .ok (a.toNat, b.toNat) else .ub
    | _ => .ub
  else .err

/-- the padding in force: the parameter, or the operand of `conv2d_v2`, conv2d_v2.cpp:62-94 -/
def padIn (v2 : Bool) (param : Option IntParam) (operand : IntParam) : Res IntParam :=
  if v2 then .ok operand else need param

/-- the dilation in force, base_conv2d.cpp:50-58 -/
def dilationIn (nd : ConvNode α) : Res IntParam :=
  match nd.dilation with
  | some d => .ok d
  | none => need nd.dialations

/-- the geometry of a run on `x` with a kernel of extents `k` -/
def geometry (x : Image α) (o kh kw : Nat) (p : Int × Int × Int × Int) (s d : Nat × Nat) : ConvGeo :=
  ⟨x.n, x.c, x.h, x.w, o, kh, kw, p.1, p.2.1, p.2.2.1, p.2.2.2, s.1, s.2, d.1, d.2⟩

/-- A run of `conv2d` or `conv2d_v2` on `float` tensors with a constant kernel, base_conv2d.cpp:14-206. NCHW only: other formats are treated as
refused (the option does not touch them). -/
def convRunNode [CommSemiring α] (nd : ConvNode α) (r : Run α) : Res ((Nat × Nat) × List α) := do
  let f ← need nd.format
  let p ← padIn (decide (nd.op = .conv2dV2)) nd.padding r.pad
  let s ← need nd.stride
  let d ← dilationIn nd
  let p ← padding4 p
  let s ← pair4 s
  let d ← pair4 d
  let k ← kernelOf nd.op nd.inputs
  if f ≠ "NCHW" then .err
  else
    match k.1 with
    | [o, c, kh, kw] =>
      if c ≠ r.x.c then .err
      else do
        let g := geometry r.x o kh kw p s d
        let oh ← convForward g.h g.top g.bottom g.kh g.sh g.dh
        let ow ← convForward g.w g.left g.right g.kw g.sw g.dw
        conv2dRun true nd.packed g (nd.paddingValue.getD 0) r.x.data k.2 fun i => r.out (o * (oh.toNat * ow.toNat)) i
    | _ => .err

/-- runs of a convolution, one after the other; it keeps nothing between runs -/
def convRuns [CommSemiring α] (nd : ConvNode α) : List (Run α) → Res (List ((Nat × Nat) × List α))
  | [] => .ok []
  | r :: rs => do
    let y ← convRunNode nd r
    let ys ← convRuns nd rs
    .ok (y :: ys)

/-- what a Winograd operator keeps: the transformed kernel, and (`_v2`) the padding it was initialised with -/
structure WinoKept (α : Type) where
  saved : Option IntParam
  kernel : WinoState α

/-- a new operator -/
def WinoKept.new : WinoKept α := ⟨none, none⟩

/-- `Conv2DWinogradV2::run` sets the padding and initialises the inner operator again if the padding operand has changed, which drops the
transformed kernel (`m_kernel_transformed` is set to `false`), conv2d_winograd_v2.cpp:66-82, base_conv2d_winograd.cpp:31-38, 146 -/
def refresh (v2 : Bool) (p : IntParam) (st : WinoKept α) : WinoKept α :=
  if v2 then (if st.saved = some p then st else ⟨some p, none⟩) else st

/-- A run of `conv2d_winograd` or `conv2d_winograd_v2` on `float` tensors, base_conv2d_winograd.cpp:15-167, conv2d_winograd_v2.cpp. Extents of
the kernel other than the first are not looked at by `infer`; the channels of image and kernel are not compared (the model takes those of the
image). -/
def winoRunNode [Field α] (z : WinoNode α) (st : WinoKept α) (r : Run α) : Res (WinoKept α × ((Nat × Nat) × List α)) := do
  let p ← padIn z.v2 z.padding r.pad
  let q ← padding4 p
  let k ← kernelOf (if z.v2 then .conv2dV2 else .conv2d) z.inputs
  if z.format ≠ "NCHW" then .err
  else
    match k.1 with
    | [o, _, _, _] => do
      let st := refresh z.v2 p st
      let y ← winoRun st.kernel (geometry r.x o 3 3 q (1, 1) (1, 1)) (z.paddingValue.getD 0) r.x.data k.2 r.kernel r.wino
      .ok (⟨st.saved, y.1⟩, y.2)
    | _ => .err

/-- runs of one Winograd operator, one after the other -/
def winoRunsNode [Field α] (z : WinoNode α) : WinoKept α → List (Run α) → Res (List ((Nat × Nat) × List α))
  | _, [] => .ok []
  | st, r :: rs => do
    let y ← winoRunNode z st r
    let ys ← winoRunsNode z y.1 rs
    .ok (y.2 :: ys)

end Verif.Compiler.WinogradZip
