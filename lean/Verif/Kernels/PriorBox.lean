import Verif.Kernels.ShapeIndex
import Verif.Kernels.Buf
import Verif.Kernels.Concat
/-!
# prior_box

Models `src/kernels/cpu/prior_box.cpp`. Numbers are given by their exact values; `fl` rounds to `float`, `fd` to `double`, `sq` is the
square root of a `float` and `sqi` that of an `int` (a `double`). Infinities and not-a-number are not modelled: they arise only from
aspect ratios that are not positive and from an image operand with an extent of zero.
-/
namespace Verif.Kernels
open Verif.Core

/-- the arithmetic of the platform -/
structure PriorArith where
  fl : Rat → Rat
  fd : Rat → Rat
  sq : Rat → Rat
  sqi : Int → Rat

/-- the `double` nearest to 1e-6, prior_box.cpp:61 and 230 -/
def priorTol : Rat := 4722366482869645 / 4722366482869645213696

/-- the fields, prior_box.cpp:31-45. `step_h` and `step_w` may be given as any number. -/
structure PriorParams where
  minSize : List Rat
  maxSize : List Rat
  ratios : List Rat
  flip : Bool
  clip : Bool
  variance : List Rat
  imgH : Option Int
  imgW : Option Int
  imgSize : Option Int
  stepH : Option Rat
  stepW : Option Rat
  step : Option Rat
  offset : Rat

/-- the members, prior_box.cpp:15-29 -/
structure PriorState where
  minSizes : List Rat
  maxSizes : List Rat
  ratios : List Rat
  num : Nat
  clip : Bool
  variance : List Rat
  imgH : Int
  imgW : Int
  stepH : Rat
  stepW : Rat
  offset : Rat
  deriving DecidableEq

/-- one aspect ratio, prior_box.cpp:57-72 -/
def addRatio (A : PriorArith) (flip : Bool) (rs : List Rat) (ar : Rat) : List Rat :=
  if rs.any (fun r => |A.fl (ar - r)| < priorTol) then rs
  else if flip then rs ++ [ar, A.fl (A.fd (1 / ar))] else rs ++ [ar]

/-- the variances are appended to those of an earlier call, prior_box.cpp:85-99 -/
def initVariance (A : PriorArith) (old given : List Rat) : Res (List Rat) :=
  if given.length > 1 then
    if given.length = 4 then (if given.all (0 < ·) then .ok (old ++ given) else .err) else .err
  else if given.length = 1 then (if given.all (0 < ·) then .ok (old ++ given) else .err)
  else .ok (old ++ [A.fl (1 / 10)])

/-- the size of the image, prior_box.cpp:101-116: a field that is not set is refused by `get` -/
def initImage (p : PriorParams) : Res (Int × Int) :=
  if p.imgH.isSome ∨ p.imgW.isSome then
    match p.imgSize, p.imgH, p.imgW with
    | none, some h, some w => if h > 0 then (if w > 0 then .ok (h, w) else .err) else .err
    | _, _, _ => .err
  else
    match p.imgSize with
    | some s => if s > 0 then .ok (s, s) else .err
    | none => .ok (0, 0)

/-- the steps, prior_box.cpp:118-133: `step_h` and `step_w` go through `int` -/
def initStep (A : PriorArith) (p : PriorParams) : Res (Rat × Rat) :=
  if p.stepH.isSome ∨ p.stepW.isSome then
    match p.step, p.stepH, p.stepW with
    | none, some h, some w => do
      let h ← intOfReal h
      if A.fl h > 0 then do
        let w ← intOfReal w
        if A.fl w > 0 then .ok (A.fl h, A.fl w) else .err
      else .err
    | _, _, _ => .err
  else
    match p.step with
    | some s => if s > 0 then .ok (s, s) else .err
    | none => .ok (0, 0)

/-- `init`, prior_box.cpp:47-136; `old` is `variance_` before the call. `num_priors_` is taken as a natural number. Without
sizes `TS_AUTO_ASSERT` ends the process (C83): the caller gets no answer, so this counts with the undefined outcomes. -/
def priorInit (A : PriorArith) (old : List Rat) (p : PriorParams) : Res PriorState :=
  if p.minSize.isEmpty then .ub
  else if p.minSize.all (0 < ·) then
    let rs := p.ratios.foldl (addRatio A p.flip) [1]
    if p.maxSize.length > 0 ∧ p.maxSize.length ≠ p.minSize.length then .err
    else if (p.maxSize.zip p.minSize).all (fun q => q.2 < q.1) then do
      let v ← initVariance A old p.variance
      let im ← initImage p
      let st ← initStep A p
      .ok ⟨p.minSize, p.maxSize, rs, rs.length * p.minSize.length + p.maxSize.length, p.clip, v, im.1, im.2, st.1, st.2, p.offset⟩
    else .err
  else .err

/-- `infer_top_shape`, prior_box.cpp:138-150: the shape of the feature map is not checked. All factors are natural numbers and the
number of priors is positive, so the `int`s overflow exactly when the product does. -/
def priorTop (num : Nat) (feat : List Nat) : Res Nat :=
  if feat.length < 4 then .ub
  else if feat.getD 3 0 * feat.getD 2 0 * num * 4 ≤ 2147483647 then .ok (feat.getD 3 0 * feat.getD 2 0 * num * 4) else .ub

/-- `infer`, prior_box.cpp:152-158: the type is that of the operand -/
def priorInfer (s : PriorState) (dtype : Nat) (feat : List Nat) : Res (Nat × List Nat) := do
  let d ← priorTop s.num feat
  .ok (dtype, [1, 2, d])

/-- `top_data[idx++] = v` -/
def putNext (v : Rat) (st : List Rat × Nat) : Res (List Rat × Nat) := do
  let b ← wr st.1 st.2 v
  .ok (b, st.2 + 1)

/-- the image and the steps that `run` works with -/
structure PriorView where
  imgW : Nat
  imgH : Nat
  stepW : Rat
  stepH : Rat

/-- the lower corner along one axis, `(center - size / 2.) / img`: in `double`, where halving a `float` is exact -/
def cornerLo (A : PriorArith) (c size : Rat) (img : Nat) : Rat := A.fl (A.fd (A.fd (c - size / 2) / img))

/-- the upper corner along one axis -/
def cornerHi (A : PriorArith) (c size : Rat) (img : Nat) : Rat := A.fl (A.fd (A.fd (c + size / 2) / img))

/-- the four corners of a box, prior_box.cpp:203-210, 217-224, 235-242 -/
def putBox (A : PriorArith) (v : PriorView) (cx cy bw bh : Rat) (st : List Rat × Nat) : Res (List Rat × Nat) := do
  let st ← putNext (cornerLo A cx bw v.imgW) st
  let st ← putNext (cornerLo A cy bh v.imgH) st
  let st ← putNext (cornerHi A cx bw v.imgW) st
  putNext (cornerHi A cy bh v.imgH) st

/-- the boxes of the remaining ratios, prior_box.cpp:228-243 -/
def putRatios (A : PriorArith) (v : PriorView) (cx cy : Rat) (m : Int) : List Rat → List Rat × Nat → Res (List Rat × Nat)
  | [], st => .ok st
  | ar :: rs, st =>
    if |A.fd (ar - 1)| < priorTol then putRatios A v cx cy m rs st
    else do
      let st ← putBox A v cx cy (A.fl (A.fl m * A.sq ar)) (A.fl (A.fl m / A.sq ar)) st
      putRatios A v cx cy m rs st

/-- the boxes of one size, prior_box.cpp:199-244: the sizes go through `int` -/
def putSize (A : PriorArith) (s : PriorState) (v : PriorView) (cx cy : Rat) (i : Nat) (st : List Rat × Nat) :
    Res (List Rat × Nat) := do
  let m ← rd s.minSizes i
  let m ← intOfReal m
  let st ← putBox A v cx cy (A.fl m) (A.fl m) st
  let st ← if s.maxSizes.length > 0 then
      if s.minSizes.length = s.maxSizes.length then do
        let x ← rd s.maxSizes i
        let x ← intOfReal x
        let p ← int32 (m * x)
        putBox A v cx cy (A.fl (A.sqi p)) (A.fl (A.sqi p)) st
      else .err
    else .ok st
  putRatios A v cx cy m s.ratios st

/-- the boxes of all places, prior_box.cpp:193-246 -/
def putAllBoxes (A : PriorArith) (s : PriorState) (v : PriorView) (H W : Nat) (st : List Rat × Nat) : Res (List Rat × Nat) :=
  loop (fun st h => loop (fun st w =>
    loop (fun st i => putSize A s v (A.fl (A.fl (A.fl w + s.offset) * v.stepW)) (A.fl (A.fl (A.fl h + s.offset) * v.stepH)) i st)
      s.minSizes.length st) W st) H st

/-- `std::min(std::max(v, 0), 1)` -/
def clampUnit (v : Rat) : Rat := if 1 < (if v < 0 then 0 else v) then 1 else if v < 0 then 0 else v

/-- the clipping, prior_box.cpp:248-252 -/
def clipBoxes (dim : Nat) (b : List Rat) : Res (List Rat) :=
  loop (fun b d => do
    let v ← rd b d
    wr b d (clampUnit v)) dim b

/-- only if asked for, prior_box.cpp:248 -/
def clipIf (clip : Bool) (dim : Nat) (b : List Rat) : Res (List Rat) := if clip then clipBoxes dim b else .ok b

/-- the variances, prior_box.cpp:253-271. A single one is set by `memset`, others by counting. -/
def putVariances (variance : List Rat) (H W num dim : Nat) (b : List Rat) : Res (List Rat) :=
  if variance.length = 1 then do
    let v ← rd variance 0
    loop (fun b i => wr b (dim + i) v) dim b
  else do
    let r ← loop (fun st _ => loop (fun st _ => loop (fun st _ => loop (fun st j => do
      let v ← rd variance j
      putNext v st) 4 st) num st) W st) H (b, dim)
    .ok r.1

/-- the size of the image in `run`, prior_box.cpp:173-182. The result is pushed before the number of operands is checked, so a
missing second operand is not noticed: the result itself, of three dimensions, is taken for it. -/
def runImage (s : PriorState) (img : Option (List Nat)) : Res (Nat × Nat) :=
  if s.imgH = 0 ∨ s.imgW = 0 then
    match img with
    | some d => if d.length < 4 then .ub else .ok (d.getD 2 0, d.getD 3 0)
    | none => .ub
  else .ok (s.imgH.toNat, s.imgW.toNat)

/-- `run`, prior_box.cpp:165-274: `feat` and `img` are the shapes of the operands, `fresh` the contents of new memory -/
def priorRun (A : PriorArith) (fresh : Nat → Rat) (s : PriorState) (feat : List Nat) (img : Option (List Nat)) :
    Res (Operand Rat) := do
  let dim ← priorTop s.num feat
  if 2 * dim ≤ 2147483647 then do
    let im ← runImage s img
    let H := feat.getD 2 0
    let W := feat.getD 3 0
    let v : PriorView := if s.stepW = 0 ∨ s.stepH = 0 then ⟨im.2, im.1, A.fl (A.fl im.2 / A.fl W), A.fl (A.fl im.1 / A.fl H)⟩
      else ⟨im.2, im.1, s.stepW, s.stepH⟩
    let st ← putAllBoxes A s v H W ((List.range (2 * dim)).map fresh, 0)
    let b ← clipIf s.clip dim st.1
    let b ← putVariances s.variance H W s.num dim b
    .ok ⟨10, [1, 2, dim], b⟩
  else .ub

end Verif.Kernels
