import Verif.Kernels.Pooling
import Verif.Kernels.TopK
/-!
# yolo and yolo_poster

Models `src/kernels/cpu/yolo.cpp` and `src/kernels/cpu/yolo_poster.cpp`. Numbers of `float` tensors are given by their exact
values, `fl` rounds the result of every `float` operation; infinities and not-a-number only where a division by zero can
occur (`yoloOverlaps`). The number of classes is taken as a natural number.
-/
namespace Verif.Kernels
open Verif.Core

variable {α : Type}

/-- `entry_index`, yolo.cpp:86-90 and yolo_poster.cpp:59-63. All terms are natural numbers, so the `int`s overflow exactly when
the sum does; `location / (w * h)` is undefined for an empty map. -/
def entryIndex (w h classes outputs batch location entry : Nat) : Res Nat :=
  if w * h = 0 then .ub
  else if batch * outputs + location / (w * h) * (w * h) * (4 + classes + 1) + entry * (w * h) + location % (w * h) ≤ 2147483647 then
    .ok (batch * outputs + location / (w * h) * (w * h) * (4 + classes + 1) + entry * (w * h) + location % (w * h))
  else .ub

/-- `activate_array(data + start, n)`, yolo.cpp:92-97; `act` is the sigmoid of the element type -/
def activateArray (act : α → α) (start n : Nat) (data : List α) : Res (List α) :=
  loop (fun d i => do
    let v ← rd d (start + i)
    wr d (start + i) (act v)) n data

/-- one anchor of one image, yolo.cpp:105-108 -/
def activateAnchor (act : α → α) (w h classes outputs b n : Nat) (data : List α) : Res (List α) := do
  let i ← entryIndex w h classes outputs b (n * w * h) 0
  let data ← activateArray act i (2 * w * h) data
  let i ← entryIndex w h classes outputs b (n * w * h) 4
  activateArray act i ((1 + classes) * w * h) data

/-- `compute_run`, yolo.cpp:99-111 -/
def activateHead (act : α → α) (w h classes outputs batch n : Nat) (data : List α) : Res (List α) :=
  loop (fun d b => loop (fun d a => activateAnchor act w h classes outputs b a d) n d) batch data

/-- `run` with its `infer`, yolo.cpp:51-74, 113-159, for one operand: the check of the channels, the copy, the activation. Of
the packed result this is the first tensor; the others are the parameters, unchanged. -/
def yoloRun (act : α → α) (classes n : Nat) (x : Operand α) : Res (List Nat × List α) :=
  match x.shape with
  | [B, C, H, W] =>
    if C = n * (classes + 4 + 1) then
      if plainType x.dtype then do
        let out ← activateHead act W H classes (C * H * W) B n x.data
        .ok (x.shape, out)
      else .err
    else .err
  | _ => .err

/-! ## yolo_poster -/

/-- `detection::box`: the centre and the size, yolo_poster.cpp:118-123 -/
structure YBox where
  x : Rat
  y : Rat
  w : Rat
  h : Rat
  deriving DecidableEq

/-- `detection`, yolo_poster.cpp:117-126, one probability per class -/
structure YDet where
  box : YBox
  objectness : Rat
  prob : List Rat
  deriving DecidableEq

/-- one operand from the second on: the four packed tensors (field 0 to 3), yolo_poster.cpp:340-353. `chans` etc. are the extents of field 0. -/
structure YHead where
  batch : Nat
  chans : Nat
  h : Nat
  w : Nat
  data : List Rat
  classes : Nat
  mask : List Int
  anchors : List Rat

/-- `get_yolo_box`, yolo_poster.cpp:181-189; `ex v a s` is `exp(v) * a / s` as rounded by the platform's `exp` and division -/
def yoloBox (fl : Rat → Rat) (ex : Rat → Rat → Nat → Rat) (data anchors : List Rat) (n : Int)
    (index i j lw lh netw neth stride : Nat) : Res YBox := do
  let vx ← rd data (index + 0 * stride)
  let vy ← rd data (index + 1 * stride)
  let vw ← rd data (index + 2 * stride)
  let aw ← readAtInt anchors (2 * n)
  let vh ← rd data (index + 3 * stride)
  let ah ← readAtInt anchors (2 * n + 1)
  .ok ⟨fl (fl (i + vx) / lw), fl (fl (j + vy) / lh), ex vw aw netw, ex vh ah neth⟩

/-- the probability of a class, yolo_poster.cpp:209-211 -/
def yoloProb (fl : Rat → Rat) (thresh objectness p : Rat) : Rat := if thresh < fl (objectness * p) then fl (objectness * p) else 0

/-- one place and one anchor, yolo_poster.cpp:199-214: what is appended to the list. `l.output` is `data`. -/
def yoloCell (fl : Rat → Rat) (ex : Rat → Rat → Nat → Rat) (thresh : Rat) (netw neth : Nat) (l : YHead) (data : List Rat)
    (i n : Nat) (dets : List YDet) : Res (List YDet) := do
  let oi ← entryIndex l.w l.h l.classes (l.chans * l.h * l.w) 0 (n * l.w * l.h + i) 4
  let obj ← rd data oi
  if obj ≤ thresh then .ok dets
  else do
    let bi ← entryIndex l.w l.h l.classes (l.chans * l.h * l.w) 0 (n * l.w * l.h + i) 0
    let m ← rd l.mask n
    let box ← yoloBox fl ex data l.anchors m bi (i % l.w) (i / l.w) l.w l.h netw neth (l.w * l.h)
    let prob ← forEach (fun j => do
      let ci ← entryIndex l.w l.h l.classes (l.chans * l.h * l.w) 0 (n * l.w * l.h + i) (4 + 1 + j)
      let p ← rd data ci
      .ok (yoloProb fl thresh obj p)) (List.range l.classes)
    .ok (dets ++ [⟨box, obj, prob⟩])

/-- `get_yolo_detections`, yolo_poster.cpp:191-218; `detection_list` grows by `realloc` (141-163), which keeps its contents -/
def yoloDetections (fl : Rat → Rat) (ex : Rat → Rat → Nat → Rat) (thresh : Rat) (netw neth : Nat) (l : YHead)
    (data : List Rat) (dets : List YDet) : Res (List YDet) :=
  loop (fun dets i => loop (fun dets n => yoloCell fl ex thresh netw neth l data i n dets) l.mask.length dets) (l.w * l.h) dets

/-- the detections of image `b` of all heads, yolo_poster.cpp:339-356: `slice(b, b + 1)` moves the pointer. Heads whose number
of classes differs from the last one's are refused. -/
def yoloHeads (fl : Rat → Rat) (ex : Rat → Rat → Nat → Rat) (thresh : Rat) (netw neth classes b : Nat) :
    List YHead → List YDet → Res (List YDet)
  | [], dets => .ok dets
  | l :: ls, dets =>
    if l.classes = classes then
      if b * (l.chans * l.h * l.w) ≤ l.data.length then do
        let dets ← yoloDetections fl ex thresh netw neth l (l.data.drop (b * (l.chans * l.h * l.w))) dets
        yoloHeads fl ex thresh netw neth classes b ls dets
      else .ub
    else .err

/-- `clamp` of a number, yolo_poster.cpp:282-284, with the bounds 0 and 1 of the call (361) -/
def clamp01 (v : Rat) : Rat := if 0 < (if v < 1 then v else 1) then (if v < 1 then v else 1) else 0

/-- `clamp` of a box, yolo_poster.cpp:286-299 -/
def clampBox (fl : Rat → Rat) (b : YBox) : YBox :=
  let left := clamp01 (fl (b.x - fl (b.w / 2)))
  let right := clamp01 (fl (b.x + fl (b.w / 2)))
  let top := clamp01 (fl (b.y - fl (b.h / 2)))
  let bottom := clamp01 (fl (b.y + fl (b.h / 2)))
  let width := fl (right - left)
  let height := fl (bottom - top)
  ⟨fl (left + fl (width / 2)), fl (top + fl (height / 2)), width, height⟩

/-- `overlap`, yolo_poster.cpp:220-229 -/
def yoloOverlap (fl : Rat → Rat) (x1 w1 x2 w2 : Rat) : Rat :=
  let l1 := fl (x1 - fl (w1 / 2))
  let l2 := fl (x2 - fl (w2 / 2))
  let left := if l2 < l1 then l1 else l2
  let r1 := fl (x1 + fl (w1 / 2))
  let r2 := fl (x2 + fl (w2 / 2))
  let right := if r1 < r2 then r1 else r2
  fl (right - left)

/-- `box_intersection`, yolo_poster.cpp:231-238 -/
def yoloInter (fl : Rat → Rat) (a b : YBox) : Rat :=
  let w := yoloOverlap fl a.x a.w b.x b.w
  let h := yoloOverlap fl a.y a.h b.y b.h
  if w < 0 ∨ h < 0 then 0 else fl (w * h)

/-- `box_union`, yolo_poster.cpp:240-245 -/
def yoloUnion (fl : Rat → Rat) (a b : YBox) : Rat :=
  fl (fl (fl (a.w * a.h) + fl (b.w * b.h)) - yoloInter fl a b)

/-- `box_iou(a, b) > thresh`, yolo_poster.cpp:247-250 and 274. Division by zero: a positive intersection gives infinity, zero
by zero is not a number and compares false. -/
def yoloOverlaps (fl : Rat → Rat) (thresh : Rat) (a b : YBox) : Bool :=
  if yoloUnion fl a b = 0 then decide (0 < yoloInter fl a b)
  else decide (thresh < fl (yoloInter fl a b / yoloUnion fl a b))

/-- the inner loop, yolo_poster.cpp:271-277, from position `i + 1` of `sorted` on; `p` is `prob[k]` of all detections -/
def nmsInner (sup : Nat → Nat → Bool) (sorted : List Nat) (i a : Nat) (p : List Rat) : Res (List Rat) :=
  loop (fun p j => do
    let b ← rd sorted (i + 1 + j)
    if sup a b then wr p b 0 else .ok p) (sorted.length - (i + 1)) p

/-- the loops of one class, yolo_poster.cpp:267-278 -/
def nmsOuter (sup : Nat → Nat → Bool) (sorted : List Nat) (p : List Rat) : Res (List Rat) :=
  loop (fun p i => do
    let a ← rd sorted i
    let v ← rd p a
    if v = 0 then .ok p else nmsInner sup sorted i a p) sorted.length p

/-- one class of `do_nms_sort`, yolo_poster.cpp:261-279: `std::sort` by the probability of the class, descending -/
def nmsClass (psort : (Nat → Nat → Bool) → Nat → List Nat → List Nat) (sup : Nat → Nat → Bool) (p : List Rat) : Res (List Rat) := do
  let sorted ← partialSort psort (fun a b => cellLt (fun u v : Rat => decide (u < v)) p 0 b a) p.length (List.range p.length)
  nmsOuter sup sorted p

/-- `prob[k]` of all detections, yolo_poster.cpp:125, 265 -/
def probColumn (dets : List YDet) (k : Nat) : Res (List Rat) := forEach (fun d => rd d.prob k) dets

/-- does the box of detection `a` suppress that of `b`? yolo_poster.cpp:270-274 -/
def detOverlaps (fl : Rat → Rat) (thresh : Rat) (dets : List YDet) (a b : Nat) : Bool :=
  match dets[a]?, dets[b]? with
  | some u, some v => yoloOverlaps fl thresh u.box v.box
  | _, _ => false

/-- `do_nms_sort`, yolo_poster.cpp:252-280. The iteration for class `k` only touches the probabilities of that class, which are
given here as one list per class: entry `d` of list `k` is `dets[d].prob[k]` afterwards. -/
def yoloNms (fl : Rat → Rat) (psort : (Nat → Nat → Bool) → Nat → List Nat → List Nat) (nms : Rat) (classes : Nat)
    (dets : List YDet) : Res (List (List Rat)) :=
  forEach (fun k => do
    let p ← probColumn dets k
    nmsClass psort (detOverlaps fl nms dets) p) (List.range classes)

/-- one row of the result, yolo_poster.cpp:373-374 with `BindingBox`, 301-314: left, top, width, height, score, class -/
def yoloRow (fl : Rat → Rat) (b : YBox) (score : Rat) (label : Nat) : List Rat :=
  [fl (b.x - fl (b.w / 2)), fl (b.y - fl (b.h / 2)), b.w, b.h, score, label]

/-- the rows of one detection, yolo_poster.cpp:371-376 -/
def yoloRowsOf (fl : Rat → Rat) (thresh : Rat) (cols : List (List Rat)) (classes d : Nat) (box : YBox) : Res (List (List Rat)) := do
  let rows ← forEach (fun k => do
    let c ← rd cols k
    let p ← rd c d
    .ok (if thresh < p then [yoloRow fl box p k] else [])) (List.range classes)
  .ok rows.flatten

/-- one image, yolo_poster.cpp:338-383: detections, clamp, suppression, rows -/
def yoloImage (fl : Rat → Rat) (ex : Rat → Rat → Nat → Rat) (psort : (Nat → Nat → Bool) → Nat → List Nat → List Nat)
    (thresh nms : Rat) (netw neth classes : Nat) (heads : List YHead) (b : Nat) : Res (List (List Rat)) := do
  let dets ← yoloHeads fl ex thresh netw neth classes b heads []
  let dets := dets.map fun d => { d with box := clampBox fl d.box }
  let cols ← yoloNms fl psort nms classes dets
  let rows ← forEach (fun d => do
    let det ← rd dets d
    yoloRowsOf fl thresh cols classes d det.box) (List.range dets.length)
  .ok rows.flatten

/-- `run`, yolo_poster.cpp:316-392: one tensor of rows per image of the last head; the extents of the network's input are
`neth`, `netw`. Without heads the last operand is the input itself, which has no fields (an error). -/
def yoloPoster (fl : Rat → Rat) (ex : Rat → Rat → Nat → Rat) (psort : (Nat → Nat → Bool) → Nat → List Nat → List Nat)
    (thresh nms : Rat) (netw neth : Nat) (heads : List YHead) : Res (List (List (List Rat))) :=
  match heads.getLast? with
  | none => .err
  | some l => forEach (yoloImage fl ex psort thresh nms netw neth l.classes heads) (List.range l.batch)

/-- `yolo_num_detections`, yolo_poster.cpp:65-78 -/
def yoloCount (thresh : Rat) (l : YHead) : Res Nat :=
  loop (fun c i => loop (fun c n => do
    let oi ← entryIndex l.w l.h l.classes (l.chans * l.h * l.w) 0 (n * l.w * l.h + i) 4
    let obj ← rd l.data oi
    .ok (if thresh < obj then c + 1 else c)) l.mask.length c) (l.w * l.h) 0

/-- `infer`, yolo_poster.cpp:86-115: as many shapes as images of the last head -/
def yoloPosterInfer (thresh : Rat) (heads : List YHead) : Res (List (List Nat)) :=
  match heads.getLast? with
  | none => .err
  | some last => do
    let cs ← forEach (fun l => if l.classes = last.classes then yoloCount thresh l else .err) heads
    .ok (List.replicate last.batch [cs.sum, 4 + 1 + 1])

end Verif.Kernels
