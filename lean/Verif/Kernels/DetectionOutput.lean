import Verif.Kernels.PriorBox
import Verif.Kernels.Pooling
import Verif.Kernels.TopK
import Mathlib.Data.List.Sort
/-!
# detection_output

Models `src/kernels/cpu/detection_output.cpp` and the functions of `src/kernels/cpu/caffe/bbox_util.cpp` it calls. Numbers are given by
their exact values; `fl` rounds to `float`, `fd` to `double`; `ex v s` is `exp(v) * s` as the platform rounds it to `float`. Infinities
and not-a-number are not modelled, except where a division by zero can produce them (`detWithin`). The operands are those after the
cast to `float` (140-142). The number of classes is taken as a natural number.
-/
namespace Verif.Kernels
open Verif.Core

/-- the arithmetic of the platform -/
structure DetArith where
  fl : Rat → Rat
  fd : Rat → Rat
  ex : Rat → Rat → Rat

/-- the members that `init` sets, detection_output.cpp:32-47 -/
structure DetParams where
  classes : Nat
  share : Bool
  bg : Int
  code : Int
  encoded : Bool
  keep : Int
  conf : Rat
  nms : Rat
  eta : Rat
  topK : Int
  deriving DecidableEq

/-- `num_loc_classes_`, detection_output.cpp:69 -/
def DetParams.locs (p : DetParams) : Nat := if p.share then 1 else p.classes

/-- the checks of `init`, detection_output.cpp:79-82 -/
def detInit (p : DetParams) : Res DetParams :=
  if 0 ≤ p.nms then
    if 0 < p.eta then
      if p.eta ≤ 1 then .ok p else .err
    else .err
  else .err

/-- `infer_top_shape` as `run` uses it, detection_output.cpp:89-104: the number of priors. `size` does not check the rank. -/
def detPriors (p : DetParams) (loc conf prior : List Nat) : Res Nat := do
  let n0 ← rd loc 0
  let n1 ← rd conf 0
  if n0 = n1 then do
    let s ← rd prior 2
    let a ← int32 ((s / 4 : Nat) * p.locs)
    let b ← int32 (a * 4)
    let l1 ← rd loc 1
    if b = l1 then do
      let k ← int32 ((s / 4 : Nat) * p.classes)
      let c1 ← rd conf 1
      if k = c1 then .ok (s / 4) else .err
    else .err
  else .err

/-- `infer`, detection_output.cpp:123-129, given the element type of the first operand: always one row of seven -/
def detInfer (p : DetParams) (dtype : Nat) (loc conf prior : List Nat) : Res (Nat × List Nat) := do
  let _ ← detPriors p loc conf prior
  .ok (dtype, [1, 1, 1, 7])

/-- `NormalizedBBox`, bbox_util.hpp:32-41: the corners. The cached `size` is always that of `detSize` where it is read: it is set from it and,
being zero, counts as absent. -/
structure NBox where
  xmin : Rat
  ymin : Rat
  xmax : Rat
  ymax : Rat
  deriving DecidableEq

/-- four successive elements as a box, bbox_util.cpp:1234-1237 and 1752-1755 -/
def boxFrom (data : List Rat) (at' : Nat) : Res NBox := do
  let a ← rd data at'
  let b ← rd data (at' + 1)
  let c ← rd data (at' + 2)
  let d ← rd data (at' + 3)
  .ok ⟨a, b, c, d⟩

/-- `GetLocPredictions`, bbox_util.cpp:1217-1242: the boxes of label `c` of image `i`, in the order of the priors. The code runs over the
labels within the priors; it only reads. -/
def detLoc (loc : List Rat) (P L i c : Nat) : Res (List NBox) :=
  forEach (fun p => boxFrom loc (i * (P * L * 4) + (p * L * 4 + c * 4))) (List.range P)

/-- `GetConfidenceScores`, bbox_util.cpp:1422-1437: the scores of label `c` of image `i`, in the order of the priors -/
def detScores (conf : List Rat) (P K i c : Nat) : Res (List Rat) :=
  forEach (fun p => rd conf (i * (P * K) + (p * K + c))) (List.range P)

/-- `GetPriorBBoxes`, bbox_util.cpp:1745-1770: boxes, and variances (as four numbers in the order of the corners) -/
def detPrior (prior : List Rat) (P : Nat) : Res (List NBox × List NBox) := do
  let bs ← forEach (fun p => boxFrom prior (p * 4)) (List.range P)
  let vs ← forEach (fun p => boxFrom prior ((P + p) * 4)) (List.range P)
  .ok (bs, vs)

/-- the offset of a coordinate: scaled by the variance unless that is encoded in the target -/
def detOffset (A : DetArith) (encoded : Bool) (var x : Rat) : Rat := if encoded then x else A.fl (var * x)

/-- a corner coded as an offset, bbox_util.cpp:526-544 -/
def detCorner (A : DetArith) (encoded : Bool) (prior var x : Rat) : Rat := A.fl (prior + detOffset A encoded var x)

/-- a corner coded as an offset relative to the size, bbox_util.cpp:583-600 -/
def detCornerSize (A : DetArith) (encoded : Bool) (prior var x size : Rat) : Rat :=
  A.fl (prior + A.fl (detOffset A encoded var x * size))

/-- the centre along one axis, bbox_util.cpp:550-551, 558-559 and 564-567: the division by two is one of `double` -/
def detCentre (A : DetArith) (encoded : Bool) (lo hi size var x : Rat) : Rat :=
  A.fl (A.fl (detOffset A encoded var x * size) + A.fl (A.fd (A.fl (lo + hi) / 2)))

/-- the extent along one axis, bbox_util.cpp:560-561 and 568-571 -/
def detExtent (A : DetArith) (encoded : Bool) (size var x : Rat) : Rat := A.ex (detOffset A encoded var x) size

/-- `DecodeBBox`, bbox_util.cpp:521-609, without clipping: prior, its variance, the prediction -/
def detDecode (A : DetArith) (code : Int) (encoded : Bool) (b v x : NBox) : Res NBox :=
  if code = 1 then
    .ok ⟨detCorner A encoded b.xmin v.xmin x.xmin, detCorner A encoded b.ymin v.ymin x.ymin,
      detCorner A encoded b.xmax v.xmax x.xmax, detCorner A encoded b.ymax v.ymax x.ymax⟩
  else if code = 2 then
    let w := A.fl (b.xmax - b.xmin)
    let h := A.fl (b.ymax - b.ymin)
    if 0 < w then
      if 0 < h then
        let cx := detCentre A encoded b.xmin b.xmax w v.xmin x.xmin
        let cy := detCentre A encoded b.ymin b.ymax h v.ymin x.ymin
        let dw := detExtent A encoded w v.xmax x.xmax
        let dh := detExtent A encoded h v.ymax x.ymax
        .ok ⟨A.fl (A.fd (cx - dw / 2)), A.fl (A.fd (cy - dh / 2)), A.fl (A.fd (cx + dw / 2)), A.fl (A.fd (cy + dh / 2))⟩
      else .err
    else .err
  else if code = 3 then
    let w := A.fl (b.xmax - b.xmin)
    let h := A.fl (b.ymax - b.ymin)
    if 0 < w then
      if 0 < h then
        .ok ⟨detCornerSize A encoded b.xmin v.xmin x.xmin w, detCornerSize A encoded b.ymin v.ymin x.ymin h,
          detCornerSize A encoded b.xmax v.xmax x.xmax w, detCornerSize A encoded b.ymax v.ymax x.ymax h⟩
      else .err
    else .err
  else .err

/-- `DecodeBBoxes`, bbox_util.cpp:611-630; the three lists have one element per prior -/
def detDecodes (A : DetArith) (code : Int) (encoded : Bool) (bs vs xs : List NBox) : Res (List NBox) :=
  if bs.length = vs.length then
    if bs.length = xs.length then
      forEach (fun p => do
        let b ← rd bs p
        let v ← rd vs p
        let x ← rd xs p
        detDecode A code encoded b v x) (List.range bs.length)
    else .err
  else .err

/-- one label of one image in `DecodeBBoxesAll`, bbox_util.cpp:646-659; `none` is a label that is skipped. With no priors the label is not
found, which is only logged, and the iterator past the end is used (651-656). -/
def detDecodeLabel (A : DetArith) (q : DetParams) (bs vs xs : List NBox) (P c : Nat) : Res (Option (List NBox)) :=
  if (if q.share then -1 else (c : Int)) = q.bg then .ok none
  else if P = 0 then .ub
  else do
    let r ← detDecodes A q.code q.encoded bs vs xs
    .ok (some r)

/-- all labels of one image, bbox_util.cpp:642-661 -/
def detDecodeImage (A : DetArith) (q : DetParams) (loc : List Rat) (bs vs : List NBox) (P i : Nat) : Res (List (Option (List NBox))) :=
  forEach (fun c => do
    let xs ← detLoc loc P q.locs i c
    detDecodeLabel A q bs vs xs P c) (List.range q.locs)

/-- `BBoxSize`, bbox_util.cpp:160-178 -/
def detSize (A : DetArith) (b : NBox) : Rat :=
  if b.xmax < b.xmin ∨ b.ymax < b.ymin then 0 else A.fl (A.fl (b.xmax - b.xmin) * A.fl (b.ymax - b.ymin))

/-- `IntersectBBox`, bbox_util.cpp:143-158 -/
def detMeet (a b : NBox) : NBox :=
  if a.xmax < b.xmin ∨ b.xmax < a.xmin ∨ a.ymax < b.ymin ∨ b.ymax < a.ymin then ⟨0, 0, 0, 0⟩
  else ⟨max a.xmin b.xmin, max a.ymin b.ymin, min a.xmax b.xmax, min a.ymax b.ymax⟩

/-- `JaccardOverlap(a, b) <= t`, bbox_util.cpp:353-373 and 2015-2016: a quotient by zero is infinite or not a number and never at most `t` -/
def detWithin (A : DetArith) (t : Rat) (a b : NBox) : Bool :=
  let m := detMeet a b
  let w := A.fl (m.xmax - m.xmin)
  let h := A.fl (m.ymax - m.ymin)
  if 0 < w ∧ 0 < h then
    let s := A.fl (w * h)
    let d := A.fl (A.fl (detSize A a + detSize A b) - s)
    decide (d ≠ 0 ∧ A.fl (s / d) ≤ t)
  else decide (0 ≤ t)

/-- `GetMaxScoreIndex`, bbox_util.cpp:1835-1852: the positions with a score above the threshold, by `std::stable_sort` in descending order
(the result of a stable sort is determined: it is that of `List.insertionSort`), the first `top_k` -/
def detRanked (scores : List Rat) (thr : Rat) (topK : Int) : List Nat :=
  let c := (List.range scores.length).filter fun p => decide (thr < scores.getD p 0)
  let s := c.insertionSort fun a b => scores.getD b 0 ≤ scores.getD a 0
  if -1 < topK ∧ topK < s.length then s.take topK.toNat else s

/-- the inner loop of `ApplyNMSFast`, bbox_util.cpp:2011-2020: does candidate `x` stay -/
def detStays (A : DetArith) (boxes : List NBox) (t : Rat) (x : Nat) : List Nat → Res Bool
  | [] => .ok true
  | k :: ks => do
    let a ← rd boxes x
    let b ← rd boxes k
    if detWithin A t a b then detStays A boxes t x ks else .ok false

/-- the threshold after another box was kept, bbox_util.cpp:2025-2027 -/
def detLower (A : DetArith) (eta t : Rat) : Rat := if eta < 1 ∧ 1 / 2 < t then A.fl (t * eta) else t

/-- the outer loop of `ApplyNMSFast`, bbox_util.cpp:2009-2028 -/
def detGreedy (A : DetArith) (boxes : List NBox) (eta : Rat) : List Nat → Rat → List Nat → Res (List Nat)
  | [], _, kept => .ok kept
  | x :: xs, t, kept => do
    let s ← detStays A boxes t x kept
    if s then detGreedy A boxes eta xs (detLower A eta t) (kept ++ [x]) else detGreedy A boxes eta xs t kept

/-- `ApplyNMSFast`, bbox_util.cpp:1994-2029 -/
def detNms (A : DetArith) (q : DetParams) (boxes : List NBox) (scores : List Rat) : Res (List Nat) :=
  if boxes.length = scores.length then detGreedy A boxes q.eta (detRanked scores q.conf q.topK) q.nms [] else .err

/-- one label of one image, detection_output.cpp:183-203: the positions kept, with the label; nothing for the background -/
def detLabel (A : DetArith) (q : DetParams) (conf : List Rat) (dec : List (Option (List NBox))) (P i c : Nat) : Res (List Nat) :=
  if (c : Int) = q.bg then .ok []
  else if P = 0 then .err
  else do
    let scores ← detScores conf P q.classes i c
    match ← rd dec (if q.share then 0 else c) with
    | none => .err
    | some boxes => detNms A q boxes scores

/-- the pairs of label and position, detection_output.cpp:206-221 -/
def detPairs (found : List (List Nat)) : List (Nat × Nat) :=
  (List.range found.length).flatMap fun c => (found.getD c []).map fun p => (c, p)

/-- `keep_top_k`, detection_output.cpp:205-239: `std::sort` of the pairs by descending score (`psort` sorts the positions in the list of pairs),
the first ones, by label again. `score` is `all_conf_scores[i]`. -/
def detKeep (psort : (Nat → Nat → Bool) → Nat → List Nat → List Nat) (score : Nat → Nat → Rat) (keep : Int) (found : List (List Nat)) :
    List (List Nat) :=
  let pairs := detPairs found
  if -1 < keep ∧ keep < pairs.length then
    let val := fun j => score (pairs.getD j (0, 0)).1 (pairs.getD j (0, 0)).2
    let order := (psort (fun a b => decide (val b < val a)) pairs.length (List.range pairs.length)).take keep.toNat
    let best := order.map fun j => pairs.getD j (0, 0)
    (List.range found.length).map fun c => (best.filter fun u => u.1 = c).map Prod.snd
  else found

/-- one image, detection_output.cpp:178-239 -/
def detImage (A : DetArith) (psort : (Nat → Nat → Bool) → Nat → List Nat → List Nat) (q : DetParams) (conf : List Rat)
    (dec : List (Option (List NBox))) (P i : Nat) : Res (List (List Nat)) := do
  let found ← forEach (fun c => detLabel A q conf dec P i c) (List.range q.classes)
  .ok (detKeep psort (fun c p => conf.getD (i * (P * q.classes) + (p * q.classes + c)) 0) q.keep found)

/-- one row, detection_output.cpp:286-293 -/
def detRow (A : DetArith) (i c : Nat) (score : Rat) (b : NBox) (st : List Rat × Nat) : Res (List Rat × Nat) := do
  let st ← putNext (A.fl i) st
  let st ← putNext (A.fl c) st
  let st ← putNext score st
  let st ← putNext b.xmin st
  let st ← putNext b.ymin st
  let st ← putNext b.xmax st
  putNext b.ymax st

/-- the rows of the positions of one label, detection_output.cpp:284-296 -/
def detRows (A : DetArith) (scores : List Rat) (boxes : List NBox) (i c : Nat) : List Nat → List Rat × Nat → Res (List Rat × Nat)
  | [], st => .ok st
  | p :: ps, st => do
    let s ← rd scores p
    let b ← rd boxes p
    let st ← detRow A i c s b st
    detRows A scores boxes i c ps st

/-- the rows of one label, detection_output.cpp:267-296; `it` runs over the labels present, all others have no positions -/
def detPutLabel (A : DetArith) (q : DetParams) (conf : List Rat) (dec : List (Option (List NBox))) (P i c : Nat) (ps : List Nat)
    (st : List Rat × Nat) : Res (List Rat × Nat) :=
  if (c : Int) = q.bg then .ok st
  else do
    let scores ← detScores conf P q.classes i c
    match ← rd dec (if q.share then 0 else c) with
    | none => .err
    | some boxes => detRows A scores boxes i c ps st

/-- the rows of one image, detection_output.cpp:263-298 -/
def detPutImage (A : DetArith) (q : DetParams) (conf : List Rat) (P i : Nat) (dec : List (Option (List NBox))) (chosen : List (List Nat))
    (st : List Rat × Nat) : Res (List Rat × Nat) :=
  loop (fun st c => do
    let ps ← rd chosen c
    detPutLabel A q conf dec P i c ps st) q.classes st

/-- the rows of an output without detections, detection_output.cpp:251-256 -/
def detFake (A : DetArith) (N : Nat) (buf : List Rat) : Res (List Rat) :=
  loop (fun b i => wr b (i * 7) (A.fl i)) N buf

/-- the result, detection_output.cpp:242-301: `fresh n` is a new buffer of `n` elements -/
def detOutput (A : DetArith) (q : DetParams) (conf : List Rat) (P N : Nat) (decs : List (List (Option (List NBox))))
    (chosen : List (List (List Nat))) (fresh : Nat → List Rat) : Res (List Nat × List Rat) :=
  let kept := (chosen.map fun l => (l.map List.length).sum).sum
  if kept = 0 then do
    let b ← detFake A N (List.replicate (N * 7) (-1))
    .ok ([1, 1, N, 7], b)
  else do
    let st ← loop (fun st i => do
      let d ← rd decs i
      let ch ← rd chosen i
      detPutImage A q conf P i d ch st) N (fresh (kept * 7), 0)
    .ok ([1, 1, kept, 7], st.1)

/-- `run`, detection_output.cpp:137-304, for three operands (a fourth one is ignored; another number ends the process) -/
def detRun (A : DetArith) (psort : (Nat → Nat → Bool) → Nat → List Nat → List Nat) (q : DetParams) (loc conf prior : Operand Rat)
    (fresh : Nat → List Rat) : Res (List Nat × List Rat) := do
  let P ← detPriors q loc.shape conf.shape prior.shape
  let N ← rd loc.shape 0
  let bv ← detPrior prior.data P
  let decs ← forEach (fun i => detDecodeImage A q loc.data bv.1 bv.2 P i) (List.range N)
  let chosen ← forEach (fun i => do
    let d ← rd decs i
    detImage A psort q conf.data d P i) (List.range N)
  detOutput A q conf.data P N decs chosen fresh

end Verif.Kernels
