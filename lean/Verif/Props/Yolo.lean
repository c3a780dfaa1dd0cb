import Verif.Kernels.YoloLemmas
import Verif.Core.Float32Mono
/-!
# C81: yolo and yolo_poster

`yolo` applies the sigmoid to everything but the extents of the boxes. `yolo_poster` decodes the boxes whose objectness is above
the threshold, cuts them at the border of the image, suppresses overlapping ones class by class and returns what is left.
-/
namespace Verif.Props
open Verif.Core Verif.Spec Verif.Kernels

variable {α : Type}

/-! ## the operator yolo -/

/-- **C81, yolo.** Of every anchor (`5 + K` channels: x, y, w, h, objectness, classes) the channels w and h are passed on as they
are, all others go through the sigmoid, each exactly once. -/
theorem C81_head (act : α → α) {B N K H W : Nat} {dt : Nat} {data : List α} {X : List Nat → α}
    (hX : Holds [B, N * (K + 4 + 1), H, W] data X) (hs : prod [B, N * (K + 4 + 1), H, W] ≤ 2147483647) (hW : 0 < W) (hH : 0 < H)
    (ht : plainType dt) :
    ∃ out, yoloRun act K N ⟨dt, [B, N * (K + 4 + 1), H, W], data⟩ = .ok ([B, N * (K + 4 + 1), H, W], out) ∧
      ∀ b n e r c, b < B → n < N → e < 5 + K → r < H → c < W →
        out[lin [B, N * (K + 4 + 1), H, W] [b, n * (K + 4 + 1) + e, r, c]]? =
          some (if e = 2 ∨ e = 3 then X [b, n * (K + 4 + 1) + e, r, c] else act (X [b, n * (K + 4 + 1) + e, r, c])) := by
  have hl : data.length = B * (N * ((5 + K) * (W * H))) := by rw [hX.1]; simp only [prod]; ring
  obtain ⟨out, e1, h1, h2⟩ := activateHead_ok act hW hH hl (by rw [hX.1]; exact hs)
  refine ⟨out, ?_, ?_⟩
  · unfold yoloRun
    simp only
    rw [if_pos trivial, if_pos ht, e1, Res.bind_ok]
  · intro b n e r c hb hn he hr hc
    have hq : r * W + c < W * H := by rw [Nat.mul_comm W H]; exact cell2_lt hr hc
    have hi : lin [B, N * (K + 4 + 1), H, W] [b, n * (K + 4 + 1) + e, r, c] =
        (b * N + n) * ((5 + K) * (W * H)) + e * (W * H) + (r * W + c) := by rw [entry_lin]; ring
    have hv := hX.2 [b, n * (K + 4 + 1) + e, r, c] ⟨hb, cell2_lt hn (by omega), hr, hc, trivial⟩
    rw [hi] at hv ⊢
    rw [h2 b n e _ hb hn he hq, hv]
    rfl

example : ∃ out, yoloRun (fun v : Int => v + 100) 0 1 ⟨10, [1, 5, 1, 1], [1, 2, 3, 4, 5]⟩ = .ok ([1, 5, 1, 1], out) ∧
    out = [101, 102, 3, 4, 105] := ⟨_, by decide, rfl⟩

/-- **C81, yolo refuses** maps with the wrong number of channels and operands that are not of four dimensions. -/
theorem C81_head_rejects (act : α → α) {K N : Nat} {x : Operand α} (h : ∀ B H W, x.shape ≠ [B, N * (K + 4 + 1), H, W]) :
    yoloRun act K N x = .err := by
  unfold yoloRun
  split
  · rename_i B C H W he
    rw [if_neg (by rintro rfl; exact h B H W (by rw [he, Nat.add_assoc K])) ]
  · rfl

example : ∀ B H W, [1, 6, 2, 2] ≠ [B, 1 * (0 + 4 + 1), H, W] := by intros; simp

/-- **C81, empty maps are undefined**: with no rows or columns the index of the first entry divides by zero. -/
theorem C81_head_empty_false : yoloRun (fun v : Int => v) 0 1 ⟨10, [1, 5, 0, 3], []⟩ = .ub := by decide

/-! ## the candidates -/

/-- what an operand of `yolo_poster` holds: for every image, place and anchor the numbers `X [image, channel, row, column]`; `mask`
says which of the prior sizes the anchors are -/
structure HeadView where
  images : Nat
  anchors : Nat
  rows : Nat
  cols : Nat
  X : List Nat → Rat
  mask : Nat → Nat
  width : Nat → Rat
  height : Nat → Rat

/-- entry `e` of anchor `i` at row `r`, column `c` of image `b`; an anchor has `5 + K` entries -/
def HeadView.at (v : HeadView) (K b i e r c : Nat) : Rat := v.X [b, i * (K + 4 + 1) + e, r, c]

/-- the operand holds the view -/
structure Shows (K : Nat) (l : YHead) (v : HeadView) : Prop where
  batch : l.batch = v.images
  chans : l.chans = v.anchors * (K + 4 + 1)
  h : l.h = v.rows
  w : l.w = v.cols
  classes : l.classes = K
  data : Holds [v.images, v.anchors * (K + 4 + 1), v.rows, v.cols] l.data v.X
  small : prod [v.images, v.anchors * (K + 4 + 1), v.rows, v.cols] ≤ 2147483647
  mask : l.mask = (List.range v.anchors).map fun i => (v.mask i : Int)
  width : ∀ i, i < v.anchors → l.anchors[2 * v.mask i]? = some (v.width (v.mask i))
  height : ∀ i, i < v.anchors → l.anchors[2 * v.mask i + 1]? = some (v.height (v.mask i))

/-- the score of a class: objectness times class, 0 if not above the threshold -/
def scoreOf (fl : Rat → Rat) (thresh : Rat) (K : Nat) (v : HeadView) (b i r c k : Nat) : Rat :=
  if thresh < fl (v.at K b i 4 r c * v.at K b i (5 + k) r c) then fl (v.at K b i 4 r c * v.at K b i (5 + k) r c) else 0

/-- anchor `i` at row `r`, column `c`: the centre relative to the place, the size relative to the prior, both relative to the image -/
def decode (fl : Rat → Rat) (ex : Rat → Rat → Nat → Rat) (thresh : Rat) (netw neth K : Nat) (v : HeadView) (b i r c : Nat) : YDet where
  box := ⟨fl (fl (c + v.at K b i 0 r c) / v.cols), fl (fl (r + v.at K b i 1 r c) / v.rows),
    ex (v.at K b i 2 r c) (v.width (v.mask i)) netw, ex (v.at K b i 3 r c) (v.height (v.mask i)) neth⟩
  objectness := v.at K b i 4 r c
  prob := (List.range K).map (scoreOf fl thresh K v b i r c)

/-- all anchors of an image with an objectness above the threshold, by row, column and anchor -/
def candidates (fl : Rat → Rat) (ex : Rat → Rat → Nat → Rat) (thresh : Rat) (netw neth K b : Nat) (v : HeadView) : List YDet :=
  (List.range v.rows).flatMap fun r => (List.range v.cols).flatMap fun c => (List.range v.anchors).flatMap fun i =>
    if thresh < v.at K b i 4 r c then [decode fl ex thresh netw neth K v b i r c] else []

theorem loop_append {β : Type} {f : List β → Nat → Res (List β)} {g : Nat → List β} {n : Nat}
    (h : ∀ s i, i < n → f s i = .ok (s ++ g i)) (s : List β) : loop f n s = .ok (s ++ (List.range n).flatMap g) := by
  induction n with
  | zero => simp [loop]
  | succ n ih =>
    unfold loop
    rw [ih fun s i hi => h s i (by omega), Res.bind_ok, h _ n (by omega), List.range_succ, List.flatMap_append]
    simp

theorem flatMap_places {β : Type} (F : Nat → Nat → List β) {W : Nat} (hW : 0 < W) (H : Nat) :
    (List.range (W * H)).flatMap (fun i => F (i / W) (i % W)) =
      (List.range H).flatMap fun r => (List.range W).flatMap fun c => F r c := by
  induction H with
  | zero => simp
  | succ H ih =>
    rw [Nat.mul_succ, List.range_add, List.flatMap_append, ih, List.range_succ, List.flatMap_append, List.flatMap_map]
    congr 1
    simp only [List.flatMap_cons, List.flatMap_nil, List.append_nil]
    have : ∀ l : List Nat, (∀ c ∈ l, c < W) → (l.flatMap fun x => F ((W * H + x) / W) ((W * H + x) % W)) = l.flatMap fun c => F H c := by
      intro l
      induction l with
      | nil => intro _; rfl
      | cons c l ihl =>
        intro hc
        rw [List.flatMap_cons, List.flatMap_cons, ihl fun c hc' => hc c (by simp [hc'])]
        have := hc c (by simp)
        rw [Nat.mul_add_div hW, Nat.div_eq_of_lt this, Nat.mul_add_mod, Nat.mod_eq_of_lt this, Nat.add_zero]
    exact this _ fun c hc => List.mem_range.1 hc

theorem drop_at {β : Type} {l : List β} {n i : Nat} {v : β} (h : l[n + i]? = some v) : rd (l.drop n) i = .ok v :=
  rd_ok (by rw [List.getElem?_drop]; exact h)

theorem yoloCell_ok (fl : Rat → Rat) (ex : Rat → Rat → Nat → Rat) (thresh : Rat) (netw neth : Nat) {K : Nat} {l : YHead}
    {v : HeadView} (hs : Shows K l v) {b i r c : Nat} (hb : b < v.images) (hi : i < v.anchors) (hr : r < v.rows) (hc : c < v.cols)
    (dets : List YDet) :
    yoloCell fl ex thresh netw neth l (l.data.drop (b * (l.chans * l.h * l.w))) (r * v.cols + c) i dets =
      .ok (dets ++ if thresh < v.at K b i 4 r c then [decode fl ex thresh netw neth K v b i r c] else []) := by
  obtain ⟨batch, chans, h, w, classes, data, small, mask, width, height⟩ := hs
  have hin : ∀ e, e < 5 + K → InBounds [v.images, v.anchors * (K + 4 + 1), v.rows, v.cols] [b, i * (K + 4 + 1) + e, r, c] :=
    fun e he => ⟨hb, cell2_lt hi (by omega), hr, hc, trivial⟩
  have hpos : ∀ e, lin [v.images, v.anchors * (K + 4 + 1), v.rows, v.cols] [b, i * (K + 4 + 1) + e, r, c] =
      b * (v.anchors * (K + 4 + 1) * v.rows * v.cols) + (i * (v.cols * v.rows) * (4 + K + 1) + e * (v.cols * v.rows) + (r * v.cols + c)) := by
    intro e; rw [entry_lin]; ring
  have hidx : ∀ e, e < 5 + K → entryIndex v.cols v.rows K (v.anchors * (K + 4 + 1) * v.rows * v.cols) 0 (i * v.cols * v.rows + (r * v.cols + c)) e =
      .ok (i * (v.cols * v.rows) * (4 + K + 1) + e * (v.cols * v.rows) + (r * v.cols + c)) := by
    intro e he
    have := lin_lt (hin e he)
    rw [hpos] at this
    rw [entryIndex_ok hr hc (by omega)]
    congr 1
    omega
  have hrd : ∀ e, e < 5 + K → rd (l.data.drop (b * (v.anchors * (K + 4 + 1) * v.rows * v.cols)))
      (i * (v.cols * v.rows) * (4 + K + 1) + e * (v.cols * v.rows) + (r * v.cols + c)) = .ok (v.at K b i e r c) := by
    intro e he
    have := data.2 _ (hin e he)
    rw [hpos] at this
    exact drop_at this
  have hrd' : ∀ e, e < 4 → rd (l.data.drop (b * (v.anchors * (K + 4 + 1) * v.rows * v.cols)))
      (i * (v.cols * v.rows) * (4 + K + 1) + 0 * (v.cols * v.rows) + (r * v.cols + c) + e * (v.cols * v.rows)) = .ok (v.at K b i e r c) := by
    intro e he
    rw [← hrd e (by omega)]
    congr 1
    ring
  have hm : rd l.mask i = .ok (v.mask i : Int) := by
    refine rd_ok ?_
    rw [mask, List.getElem?_map, List.getElem?_range hi]; rfl
  have ha : readAtInt l.anchors (2 * (v.mask i : Int)) = .ok (v.width (v.mask i)) := by
    have := width i hi
    obtain ⟨hlt, he⟩ := List.getElem?_eq_some_iff.1 this
    rw [show (2 * (v.mask i : Int)) = ((2 * v.mask i : Nat) : Int) by push_cast; rfl, readAtInt_ok hlt, he]
  have hh : readAtInt l.anchors (2 * (v.mask i : Int) + 1) = .ok (v.height (v.mask i)) := by
    have := height i hi
    obtain ⟨hlt, he⟩ := List.getElem?_eq_some_iff.1 this
    rw [show (2 * (v.mask i : Int) + 1) = ((2 * v.mask i + 1 : Nat) : Int) by push_cast; rfl, readAtInt_ok hlt, he]
  have hmod : (r * v.cols + c) % v.cols = c := by rw [Nat.add_comm, Nat.add_mul_mod_self_right, Nat.mod_eq_of_lt hc]
  have hdiv : (r * v.cols + c) / v.cols = r := by
    rw [Nat.add_comm, Nat.add_mul_div_right _ _ (by omega), Nat.div_eq_of_lt hc]; omega
  unfold yoloCell
  rw [chans, h, w, classes, hidx 4 (by omega), Res.bind_ok, hrd 4 (by omega), Res.bind_ok]
  by_cases ho : thresh < v.at K b i 4 r c
  · rw [if_neg (by linarith), if_pos ho, hidx 0 (by omega), Res.bind_ok, hm, Res.bind_ok]
    have hbox : yoloBox fl ex (l.data.drop (b * (v.anchors * (K + 4 + 1) * v.rows * v.cols))) l.anchors (v.mask i : Int)
        (i * (v.cols * v.rows) * (4 + K + 1) + 0 * (v.cols * v.rows) + (r * v.cols + c)) ((r * v.cols + c) % v.cols)
        ((r * v.cols + c) / v.cols) v.cols v.rows netw neth (v.cols * v.rows) = .ok (decode fl ex thresh netw neth K v b i r c).box := by
      unfold yoloBox
      rw [hrd' 0 (by omega), Res.bind_ok, hrd' 1 (by omega), Res.bind_ok, hrd' 2 (by omega), Res.bind_ok, ha, Res.bind_ok,
        hrd' 3 (by omega), Res.bind_ok, hh, Res.bind_ok, hmod, hdiv]
      rfl
    rw [hbox, Res.bind_ok]
    have hprob : forEach (fun j => do
        let ci ← entryIndex v.cols v.rows K (v.anchors * (K + 4 + 1) * v.rows * v.cols) 0 (i * v.cols * v.rows + (r * v.cols + c)) (4 + 1 + j)
        let p ← rd (l.data.drop (b * (v.anchors * (K + 4 + 1) * v.rows * v.cols))) ci
        Res.ok (yoloProb fl thresh (v.at K b i 4 r c) p)) (List.range K) =
        .ok ((List.range K).map (scoreOf fl thresh K v b i r c)) := by
      refine forEach_ok ?_
      intro j hj
      rw [List.mem_range] at hj
      show (entryIndex _ _ _ _ _ _ (4 + 1 + j) >>= _) = _
      rw [hidx (4 + 1 + j) (by omega), Res.bind_ok, hrd _ (by omega), Res.bind_ok]
      rfl
    rw [hprob, Res.bind_ok]
    rfl
  · rw [if_pos (by linarith), if_neg ho, List.append_nil]

theorem yoloDetections_ok (fl : Rat → Rat) (ex : Rat → Rat → Nat → Rat) (thresh : Rat) (netw neth : Nat) {K : Nat} {l : YHead}
    {v : HeadView} (hs : Shows K l v) {b : Nat} (hb : b < v.images) (dets : List YDet) :
    yoloDetections fl ex thresh netw neth l (l.data.drop (b * (l.chans * l.h * l.w))) dets =
      .ok (dets ++ candidates fl ex thresh netw neth K b v) := by
  have hml : l.mask.length = v.anchors := by rw [hs.mask]; simp
  have hcell : ∀ s i, i < v.cols * v.rows → loop (fun dets n => yoloCell fl ex thresh netw neth l (l.data.drop (b * (l.chans * l.h * l.w))) i n dets)
      l.mask.length s = .ok (s ++ (fun r c => (List.range v.anchors).flatMap fun n =>
        if thresh < v.at K b n 4 r c then [decode fl ex thresh netw neth K v b n r c] else []) (i / v.cols) (i % v.cols)) := by
    intro s i hi
    have hp : 0 < v.cols := by
      rcases Nat.eq_zero_or_pos v.cols with h | h
      · rw [h] at hi; omega
      · exact h
    rw [hml]
    refine loop_append ?_ s
    intro s n hn
    have hr : i / v.cols < v.rows := Nat.div_lt_of_lt_mul hi
    have := yoloCell_ok fl ex thresh netw neth hs hb hn hr (Nat.mod_lt i hp) s
    rw [show i / v.cols * v.cols + i % v.cols = i by rw [Nat.mul_comm]; exact Nat.div_add_mod i v.cols] at this
    exact this
  unfold yoloDetections
  rw [hs.w, hs.h]
  rw [hs.w, hs.h] at hcell
  rw [loop_append hcell dets]
  congr 2
  rcases Nat.eq_zero_or_pos v.cols with h | h
  · unfold candidates
    rw [h]; simp
  · exact flatMap_places (fun r c => (List.range v.anchors).flatMap fun n =>
      if thresh < v.at K b n 4 r c then [decode fl ex thresh netw neth K v b n r c] else []) h v.rows

theorem yoloHeads_ok (fl : Rat → Rat) (ex : Rat → Rat → Nat → Rat) (thresh : Rat) (netw neth : Nat) {K : Nat} {ls : List YHead}
    {vs : List HeadView} (hs : List.Forall₂ (Shows K) ls vs) {b : Nat} (hb : ∀ v ∈ vs, b < v.images) (dets : List YDet) :
    yoloHeads fl ex thresh netw neth K b ls dets = .ok (dets ++ vs.flatMap (candidates fl ex thresh netw neth K b)) := by
  induction hs generalizing dets with
  | nil => simp [yoloHeads]
  | @cons l v ls vs h _ ih =>
    have hbv := hb v (by simp)
    have hle : b * (l.chans * l.h * l.w) ≤ l.data.length := by
      rw [h.data.1, h.chans, h.h, h.w]
      simp only [prod, Nat.mul_one]
      rw [show v.images * (v.anchors * (K + 4 + 1) * (v.rows * v.cols)) = v.images * (v.anchors * (K + 4 + 1) * v.rows * v.cols) by ring]
      exact Nat.mul_le_mul_right _ (by omega)
    unfold yoloHeads
    rw [if_pos h.classes, if_pos hle, yoloDetections_ok fl ex thresh netw neth h hbv, Res.bind_ok,
      ih (fun v hv => hb v (by simp [hv]))]
    simp

/-! ## the result -/

/-- the score of detection `d` for class `k` -/
def detScore (D : List YDet) (k d : Nat) : Rat :=
  match D[d]? with
  | some u => u.prob.getD k 0
  | none => 0

/-- the rows of an image: every detection and class whose remaining score is above the threshold, as left, top, width, height,
score, class -/
def rowsOf (fl : Rat → Rat) (thresh : Rat) (K : Nat) (D : List YDet) (S : Nat → Nat → Rat) : List (List Rat) :=
  D.zipIdx.flatMap fun (u, d) => (List.range K).flatMap fun k => if thresh < S k d then
    [[fl (u.box.x - fl (u.box.w / 2)), fl (u.box.y - fl (u.box.h / 2)), u.box.w, u.box.h, S k d, (k : Rat)]] else []

theorem forEach_choose {β γ : Type} [Inhabited γ] {f : β → Res γ} {l : List β} {P : β → γ → Prop}
    (h : ∀ b ∈ l, ∃ y, f b = .ok y ∧ P b y) : ∃ g : β → γ, forEach f l = .ok (l.map g) ∧ ∀ b ∈ l, P b (g b) := by
  classical
  let g : β → γ := fun b => if hb : b ∈ l then (h b hb).choose else default
  have hg : ∀ b ∈ l, f b = .ok (g b) ∧ P b (g b) := by
    intro b hb
    have := (h b hb).choose_spec
    simp only [g, dif_pos hb]
    exact this
  exact ⟨g, forEach_ok fun b hb => (hg b hb).1, fun b hb => (hg b hb).2⟩

theorem yoloNms_ok {psort : (Nat → Nat → Bool) → Nat → List Nat → List Nat} (hps : SortContract psort) (fl : Rat → Rat) (nms : Rat)
    {K : Nat} {D : List YDet} (hD : ∀ u ∈ D, u.prob.length = K) :
    ∃ (C : Nat → List Rat) (S : Nat → Nat → Rat), yoloNms fl psort nms K D = .ok ((List.range K).map C) ∧
      ∀ k, k < K → (∀ d, d < D.length → (C k)[d]? = some (S k d)) ∧
        Suppressed (detOverlaps fl nms D) D.length (detScore D k) (S k) := by
  have hsym : ∀ a b, detOverlaps fl nms D a b = detOverlaps fl nms D b a := by
    intro a b
    unfold detOverlaps
    rcases D[a]? with _ | u <;> rcases D[b]? with _ | v <;> try rfl
    exact yoloOverlaps_symm fl nms u.box v.box
  have hk : ∀ k ∈ List.range K, ∃ q : List Rat, (probColumn D k >>= fun p => nmsClass psort (detOverlaps fl nms D) p) = .ok q ∧
      ∃ g : Nat → Rat, (∀ d, d < D.length → q[d]? = some (g d)) ∧ Suppressed (detOverlaps fl nms D) D.length (detScore D k) g := by
    intro k hk
    rw [List.mem_range] at hk
    have e1 : probColumn D k = .ok (D.map fun u => u.prob.getD k 0) := by
      unfold probColumn
      refine forEach_ok ?_
      intro u hu
      refine rd_ok ?_
      rw [List.getD_eq_getElem?_getD, List.getElem?_eq_getElem (by rw [hD u hu]; exact hk)]; rfl
    obtain ⟨q, g, h1, _, h3, h4⟩ := nmsClass_ok hps hsym (p := D.map fun u => u.prob.getD k 0) (n := D.length) (f := detScore D k)
      (by simp) (by
        intro d hd
        unfold detScore
        rw [List.getElem?_map, List.getElem?_eq_getElem hd]; rfl)
    exact ⟨q, by rw [e1, Res.bind_ok, h1], g, h3, h4⟩
  obtain ⟨C, e, hC⟩ := forEach_choose hk
  choose! S hS using fun (k : Nat) (h : k < K) => hC k (List.mem_range.2 h)
  exact ⟨C, S, e, hS⟩

theorem rows_ok (fl : Rat → Rat) (thresh : Rat) {K : Nat} {D : List YDet} {C : Nat → List Rat} {S : Nat → Nat → Rat}
    (h : ∀ k, k < K → ∀ d, d < D.length → (C k)[d]? = some (S k d)) :
    (forEach (fun d => do
      let det ← rd D d
      yoloRowsOf fl thresh ((List.range K).map C) K d det.box) (List.range D.length) >>= fun rows => Res.ok rows.flatten) =
      .ok (rowsOf fl thresh K D S) := by
  have hrow : ∀ d (hd : d < D.length), yoloRowsOf fl thresh ((List.range K).map C) K d D[d].box =
      .ok ((List.range K).flatMap fun k => if thresh < S k d then
        [[fl (D[d].box.x - fl (D[d].box.w / 2)), fl (D[d].box.y - fl (D[d].box.h / 2)), D[d].box.w, D[d].box.h, S k d, (k : Rat)]] else []) := by
    intro d hd
    unfold yoloRowsOf
    rw [forEach_ok (g := fun k => if thresh < S k d then
        [[fl (D[d].box.x - fl (D[d].box.w / 2)), fl (D[d].box.y - fl (D[d].box.h / 2)), D[d].box.w, D[d].box.h, S k d, (k : Rat)]] else []),
      Res.bind_ok, List.flatMap_def]
    intro k hk
    rw [List.mem_range] at hk
    show (rd _ k >>= _) = _
    rw [rd_ok (v := C k) (by rw [List.getElem?_map, List.getElem?_range hk]; rfl), Res.bind_ok, rd_ok (h k hk d hd), Res.bind_ok]
    rfl
  rw [forEach_ok (g := fun d => match D[d]? with
    | some u => (List.range K).flatMap fun k => if thresh < S k d then
        [[fl (u.box.x - fl (u.box.w / 2)), fl (u.box.y - fl (u.box.h / 2)), u.box.w, u.box.h, S k d, (k : Rat)]] else []
    | none => []), Res.bind_ok]
  · unfold rowsOf
    rw [List.flatMap_def]
    congr 2
    refine List.ext_getElem (by simp) ?_
    intro d h1 h2
    have hd : d < D.length := by simpa using h1
    simp [List.getElem?_eq_getElem hd]
  · intro d hd
    rw [List.mem_range] at hd
    rw [List.getElem?_eq_getElem hd]
    show (rd D d >>= _) = _
    rw [rd_ok (List.getElem?_eq_getElem hd), Res.bind_ok, hrow d hd]

/-- the detections of an image: the candidates of all operands, in order, with their boxes cut at the border -/
def detectionsOf (fl : Rat → Rat) (ex : Rat → Rat → Nat → Rat) (thresh : Rat) (netw neth K b : Nat) (vs : List HeadView) : List YDet :=
  (vs.flatMap (candidates fl ex thresh netw neth K b)).map fun d => { d with box := clampBox fl d.box }

theorem candidates_prob {fl : Rat → Rat} {ex : Rat → Rat → Nat → Rat} {thresh : Rat} {netw neth K b : Nat} {v : HeadView} {u : YDet}
    (h : u ∈ candidates fl ex thresh netw neth K b v) : u.prob.length = K := by
  unfold candidates at h
  simp only [List.mem_flatMap] at h
  obtain ⟨r, _, c, _, i, _, h⟩ := h
  split at h
  · simp only [List.mem_singleton] at h
    rw [h]; simp [decode]
  · simp at h

/-- **C81, yolo_poster.** For every image: the anchors above the threshold are decoded and cut at the border; class by class
overlapping ones are suppressed, so that kept ones do not overlap and every dropped one overlaps a kept one of no smaller score;
what is left above the threshold is returned, one row per detection and class, in order. -/
theorem C81_poster (fl : Rat → Rat) (ex : Rat → Rat → Nat → Rat) {psort : (Nat → Nat → Bool) → Nat → List Nat → List Nat}
    (hps : SortContract psort) (thresh nms : Rat) (netw neth : Nat) {K : Nat} {ls : List YHead} {vs : List HeadView}
    (hs : List.Forall₂ (Shows K) ls vs) {last : HeadView} (hlast : vs.getLast? = some last) (hb : ∀ v ∈ vs, last.images ≤ v.images) :
    ∃ rows : Nat → List (List Rat),
      yoloPoster fl ex psort thresh nms netw neth ls = .ok ((List.range last.images).map rows) ∧
      ∀ b, b < last.images → ∃ S : Nat → Nat → Rat,
        (∀ k, k < K → Suppressed (detOverlaps fl nms (detectionsOf fl ex thresh netw neth K b vs))
          (detectionsOf fl ex thresh netw neth K b vs).length (detScore (detectionsOf fl ex thresh netw neth K b vs) k) (S k)) ∧
        rows b = rowsOf fl thresh K (detectionsOf fl ex thresh netw neth K b vs) S := by
  obtain ⟨l, el, hl⟩ : ∃ l, ls.getLast? = some l ∧ Shows K l last := by
    clear hb
    induction hs with
    | nil => simp at hlast
    | @cons l v ls vs h ht ih =>
      cases ht with
      | nil =>
        simp only [List.getLast?_singleton, Option.some.injEq] at hlast
        subst hlast
        exact ⟨l, rfl, h⟩
      | @cons l' v' ls vs h' ht =>
        rw [List.getLast?_cons_cons] at hlast
        obtain ⟨l2, e2, h2⟩ := ih hlast
        exact ⟨l2, by rw [List.getLast?_cons_cons]; exact e2, h2⟩
  have hrow : ∀ b ∈ List.range last.images, ∃ rows : List (List Rat),
      yoloImage fl ex psort thresh nms netw neth l.classes ls b = .ok rows ∧ ∃ S : Nat → Nat → Rat,
        (∀ k, k < K → Suppressed (detOverlaps fl nms (detectionsOf fl ex thresh netw neth K b vs))
          (detectionsOf fl ex thresh netw neth K b vs).length (detScore (detectionsOf fl ex thresh netw neth K b vs) k) (S k)) ∧
        rows = rowsOf fl thresh K (detectionsOf fl ex thresh netw neth K b vs) S := by
    intro b hbr
    rw [List.mem_range] at hbr
    have e1 := yoloHeads_ok fl ex thresh netw neth hs (b := b) (fun v hv => by have := hb v hv; omega) []
    rw [List.nil_append] at e1
    obtain ⟨C, S, e2, h2⟩ := yoloNms_ok hps fl nms (K := K) (D := detectionsOf fl ex thresh netw neth K b vs) (by
      intro u hu
      unfold detectionsOf at hu
      simp only [List.mem_map, List.mem_flatMap] at hu
      obtain ⟨w, ⟨v, _, hw⟩, rfl⟩ := hu
      have := candidates_prob hw
      exact this)
    refine ⟨_, ?_, S, fun k hk => (h2 k hk).2, rfl⟩
    unfold yoloImage
    rw [hl.classes, e1, Res.bind_ok]
    show (yoloNms fl psort nms K (detectionsOf fl ex thresh netw neth K b vs) >>= _) = _
    rw [e2, Res.bind_ok]
    exact rows_ok fl thresh fun k hk d hd => (h2 k hk).1 d hd
  obtain ⟨rows, e, h⟩ := forEach_choose hrow
  refine ⟨rows, ?_, fun b hbb => h b (List.mem_range.2 hbb)⟩
  unfold yoloPoster
  rw [el, ← hl.batch] at *
  exact e

/-- one image, one row, two columns, one anchor, no rounding: the left place has objectness 1/4, the right one 3/4 -/
def exampleView : HeadView where
  images := 1
  anchors := 1
  rows := 1
  cols := 2
  X := fun c => match c with
    | [_, 4, _, 0] => 1 / 4
    | [_, 4, _, _] => 3 / 4
    | [_, 5, _, _] => 1
    | [_, 2, _, _] => 0
    | [_, 3, _, _] => 0
    | _ => 1 / 2
  mask := fun _ => 1
  width := fun _ => 8
  height := fun _ => 4

def exampleHead : YHead := ⟨1, 6, 1, 2, [1/2, 1/2, 1/2, 1/2, 0, 0, 0, 0, 1/4, 3/4, 1, 1], 1, [1], [2, 2, 8, 4]⟩

theorem exampleShows : List.Forall₂ (Shows 1) [exampleHead] [exampleView] := by
  refine List.Forall₂.cons ⟨rfl, rfl, rfl, rfl, rfl, ⟨rfl, ?_⟩, by decide, rfl, ?_, ?_⟩ List.Forall₂.nil
  · intro c hc
    obtain ⟨b, e, r, x, rfl⟩ : ∃ b e r x, c = [b, e, r, x] := by
      match c, hc with
      | [b, e, r, x], _ => exact ⟨b, e, r, x, rfl⟩
    obtain ⟨h1, h2, h3, h4, _⟩ := hc
    simp only [exampleView] at h1 h2 h3 h4
    have hb : b = 0 := by omega
    have hr : r = 0 := by omega
    subst hb hr
    interval_cases e <;> interval_cases x <;> rfl
  · intro i hi; rfl
  · intro i hi; rfl

/-- only the right place is a candidate; its box sticks out at the right and is cut there -/
example : yoloPoster id (fun v a s => if v = 0 then a / s else 0) (fun _ _ l => l) (1 / 2) (1 / 2) 16 16 [exampleHead] =
    .ok [[[1 / 2, 3 / 8, 1 / 2, 1 / 4, 3 / 4, 0]]] := by decide +kernel

/-! ## what the tests and the cuts mean, without rounding -/

/-- a box with its centre and extents, as an interval -/
def Extent (lo hi centre size : Rat) : Prop := lo = centre - size / 2 ∧ hi = centre + size / 2

/-- the length of the part two intervals have in common -/
def common (lo hi lo' hi' : Rat) : Rat := max 0 (min hi hi' - max lo lo')

/-- **C81, overlap.** Without rounding the test compares the area of the intersection with that of the union. -/
theorem C81_overlap_exact_partial {t : Rat} {a b : YBox} (ha : 0 ≤ a.w ∧ 0 ≤ a.h) (hb : 0 ≤ b.w ∧ 0 ≤ b.h)
    {al ar at' ab bl br bt bb : Rat} (h1 : Extent al ar a.x a.w) (h2 : Extent at' ab a.y a.h) (h3 : Extent bl br b.x b.w)
    (h4 : Extent bt bb b.y b.h) :
    yoloOverlaps id t a b = true ↔
      t * (a.w * a.h + b.w * b.h - common al ar bl br * common at' ab bt bb) < common al ar bl br * common at' ab bt bb := by
  have hov : ∀ x1 w1 x2 w2 : Rat, yoloOverlap id x1 w1 x2 w2 = min (x1 + w1 / 2) (x2 + w2 / 2) - max (x1 - w1 / 2) (x2 - w2 / 2) := by
    intro x1 w1 x2 w2
    unfold yoloOverlap
    simp only [id]
    congr 1
    · rw [min_def]; split_ifs <;> linarith
    · rw [max_def]; split_ifs <;> linarith
  have hin : yoloInter id a b = common al ar bl br * common at' ab bt bb := by
    unfold yoloInter common
    simp only [hov, id]
    rw [h1.1, h1.2, h2.1, h2.2, h3.1, h3.2, h4.1, h4.2]
    generalize min (a.x + a.w / 2) (b.x + b.w / 2) - max (a.x - a.w / 2) (b.x - b.w / 2) = u
    generalize min (a.y + a.h / 2) (b.y + b.h / 2) - max (a.y - a.h / 2) (b.y - b.h / 2) = v
    by_cases hc : u < 0 ∨ v < 0
    · rw [if_pos hc]
      rcases hc with h | h
      · rw [max_eq_left (le_of_lt h)]; ring
      · rw [max_eq_left (le_of_lt h)]; ring
    · rw [if_neg hc]
      rw [not_or, not_lt, not_lt] at hc
      rw [max_eq_right hc.1, max_eq_right hc.2]
  have hle : ∀ (lo hi lo' hi' c s c' s' : Rat), Extent lo hi c s → Extent lo' hi' c' s' → 0 ≤ s → 0 ≤ s' →
      0 ≤ common lo hi lo' hi' ∧ common lo hi lo' hi' ≤ s ∧ common lo hi lo' hi' ≤ s' := by
    rintro lo hi lo' hi' c s c' s' ⟨rfl, rfl⟩ ⟨rfl, rfl⟩ h h'
    unfold common
    refine ⟨le_max_left _ _, max_le h ?_, max_le h' ?_⟩
    · linarith [min_le_left (c + s / 2) (c' + s' / 2), le_max_left (c - s / 2) (c' - s' / 2)]
    · linarith [min_le_right (c + s / 2) (c' + s' / 2), le_max_right (c - s / 2) (c' - s' / 2)]
  obtain ⟨p1, p2, p3⟩ := hle _ _ _ _ _ _ _ _ h1 h3 ha.1 hb.1
  obtain ⟨q1, q2, q3⟩ := hle _ _ _ _ _ _ _ _ h2 h4 ha.2 hb.2
  have hI0 : 0 ≤ yoloInter id a b := by rw [hin]; positivity
  have hIa : yoloInter id a b ≤ a.w * a.h := by rw [hin]; exact mul_le_mul p2 q2 q1 ha.1
  have hIb : yoloInter id a b ≤ b.w * b.h := by rw [hin]; exact mul_le_mul p3 q3 q1 hb.1
  rw [← hin]
  have hU : yoloUnion id a b = a.w * a.h + b.w * b.h - yoloInter id a b := rfl
  unfold yoloOverlaps
  rw [hU]
  generalize yoloInter id a b = I at hI0 hIa hIb ⊢
  generalize a.w * a.h = A at hIa ⊢
  generalize b.w * b.h = B at hIb ⊢
  by_cases h0 : A + B - I = 0
  · rw [if_pos h0, h0, decide_eq_true_eq, mul_zero]
  · rw [if_neg h0, decide_eq_true_eq]
    have : 0 < A + B - I := lt_of_le_of_ne (by linarith) (Ne.symm h0)
    show t < I / (A + B - I) ↔ _
    rw [lt_div_iff₀ this]

example : yoloOverlaps id (1 / 4) ⟨1 / 4, 1 / 2, 1 / 2, 1⟩ ⟨1 / 2, 1 / 2, 1 / 2, 1⟩ = true ∧
    yoloOverlaps id (1 / 3) ⟨1 / 4, 1 / 2, 1 / 2, 1⟩ ⟨1 / 2, 1 / 2, 1 / 2, 1⟩ = false := by decide +kernel

/-- **C81, cut.** Without rounding the cut box is the part of the box inside the unit square. -/
theorem C81_cut_exact_partial (b : YBox) :
    (∀ l r, Extent l r b.x b.w → Extent (max 0 (min 1 l)) (max 0 (min 1 r)) (clampBox id b).x (clampBox id b).w) ∧
    (∀ l r, Extent l r b.y b.h → Extent (max 0 (min 1 l)) (max 0 (min 1 r)) (clampBox id b).y (clampBox id b).h) := by
  have hc : ∀ v, clamp01 v = max 0 (min 1 v) := by
    intro v
    unfold clamp01
    rw [min_def, max_def]
    split_ifs <;> linarith
  refine ⟨?_, ?_⟩
  · rintro l r ⟨rfl, rfl⟩
    simp only [clampBox, hc, id]
    constructor <;> ring
  · rintro l r ⟨rfl, rfl⟩
    simp only [clampBox, hc, id]
    constructor <;> ring

/-- **C81, cut, with rounding.** The extents of a cut box are between 0 and 1, for every rounding that keeps the order and the
numbers 0 and 1. -/
theorem C81_cut_bounds {fl : Rat → Rat} (hm : ∀ u v, u ≤ v → fl u ≤ fl v) (h0 : fl 0 = 0) (h1 : fl 1 = 1) (b : YBox) (hw : 0 ≤ b.w)
    (hh : 0 ≤ b.h) :
    0 ≤ (clampBox fl b).w ∧ (clampBox fl b).w ≤ 1 ∧ 0 ≤ (clampBox fl b).h ∧ (clampBox fl b).h ≤ 1 := by
  have hc : ∀ v, clamp01 v = max 0 (min 1 v) := by
    intro v
    unfold clamp01
    rw [min_def, max_def]
    split_ifs <;> linarith
  have key : ∀ c s : Rat, 0 ≤ s → 0 ≤ fl (clamp01 (fl (c + fl (s / 2))) - clamp01 (fl (c - fl (s / 2)))) ∧
      fl (clamp01 (fl (c + fl (s / 2))) - clamp01 (fl (c - fl (s / 2)))) ≤ 1 := by
    intro c s hs
    have hh : 0 ≤ fl (s / 2) := by rw [← h0]; exact hm _ _ (by linarith)
    have hle : fl (c - fl (s / 2)) ≤ fl (c + fl (s / 2)) := hm _ _ (by linarith)
    rw [hc, hc]
    have g1 : max 0 (min 1 (fl (c - fl (s / 2)))) ≤ max 0 (min 1 (fl (c + fl (s / 2)))) := max_le_max le_rfl (min_le_min le_rfl hle)
    have g2 : max 0 (min 1 (fl (c + fl (s / 2)))) ≤ 1 := max_le (by norm_num) (min_le_left _ _)
    have g3 : 0 ≤ max 0 (min 1 (fl (c - fl (s / 2)))) := le_max_left _ _
    constructor
    · rw [← h0]
      rw [h0]
      have := hm 0 _ (sub_nonneg.2 g1)
      rwa [h0] at this
    · have := hm _ 1 (show max 0 (min 1 (fl (c + fl (s / 2)))) - max 0 (min 1 (fl (c - fl (s / 2)))) ≤ 1 by linarith)
      rwa [h1] at this
  exact ⟨(key b.x b.w hw).1, (key b.x b.w hw).2, (key b.y b.h hh).1, (key b.y b.h hh).2⟩

/-- `float` does -/
example (b : YBox) (hw : 0 ≤ b.w) (hh : 0 ≤ b.h) : (clampBox f32 b).w ≤ 1 :=
  (C81_cut_bounds (fun _ _ => f32_mono) f32_zero f32_one b hw hh).2.1

/-! ## infer -/

/-- **C81, infer.** The inferred number of rows is the number of candidates of the *first* image, for every image. -/
theorem C81_infer (fl : Rat → Rat) (ex : Rat → Rat → Nat → Rat) (thresh : Rat) (netw neth : Nat) {K : Nat} {ls : List YHead}
    {vs : List HeadView} (hs : List.Forall₂ (Shows K) ls vs) {last : HeadView} (hlast : vs.getLast? = some last)
    (hb : ∀ v ∈ vs, 0 < v.images) :
    yoloPosterInfer thresh ls =
      .ok (List.replicate last.images [(vs.flatMap (candidates fl ex thresh netw neth K 0)).length, 6]) := by
  have hcount : ∀ l v, Shows K l v → 0 < v.images → yoloCount thresh l = .ok (candidates fl ex thresh netw neth K 0 v).length := by
    intro l v h hv
    have hml : l.mask.length = v.anchors := by rw [h.mask]; simp
    have key : ∀ n (s : List YDet), n ≤ l.w * l.h →
        ∃ t, loop (fun dets i => loop (fun dets n => yoloCell fl ex thresh netw neth l (l.data.drop (0 * (l.chans * l.h * l.w))) i n dets)
          l.mask.length dets) n s = .ok (s ++ t) ∧ ∀ c, loop (fun c i => loop (fun c n => do
            let oi ← entryIndex l.w l.h l.classes (l.chans * l.h * l.w) 0 (n * l.w * l.h + i) 4
            let obj ← rd l.data oi
            .ok (if thresh < obj then c + 1 else c)) l.mask.length c) n c = .ok (c + t.length) := by
      intro n
      induction n with
      | zero => intro s _; exact ⟨[], by simp [loop], fun c => by simp [loop]⟩
      | succ n ih =>
        intro s hn
        obtain ⟨t, e1, e2⟩ := ih s (by omega)
        have hp : 0 < v.cols := by
          rcases Nat.eq_zero_or_pos v.cols with h' | h'
          · rw [h.w, h'] at hn; omega
          · exact h'
        have hr : n / v.cols < v.rows := by
          rw [h.w, h.h] at hn
          exact Nat.div_lt_of_lt_mul (by omega)
        have hin : ∀ m (s : List YDet), m ≤ v.anchors → ∃ t, loop (fun dets k => yoloCell fl ex thresh netw neth l
            (l.data.drop (0 * (l.chans * l.h * l.w))) n k dets) m s = .ok (s ++ t) ∧ ∀ c, loop (fun c k => do
            let oi ← entryIndex l.w l.h l.classes (l.chans * l.h * l.w) 0 (k * l.w * l.h + n) 4
            let obj ← rd l.data oi
            .ok (if thresh < obj then c + 1 else c)) m c = .ok (c + t.length) := by
          intro m
          induction m with
          | zero => intro s _; exact ⟨[], by simp [loop], fun c => by simp [loop]⟩
          | succ m ihm =>
            intro s hm
            obtain ⟨t, e3, e4⟩ := ihm s (by omega)
            have hcell := yoloCell_ok fl ex thresh netw neth h hv (i := m) (by omega) hr (Nat.mod_lt n hp) (s ++ t)
            rw [show n / v.cols * v.cols + n % v.cols = n by rw [Nat.mul_comm]; exact Nat.div_add_mod n v.cols] at hcell
            refine ⟨t ++ if thresh < v.at K 0 m 4 (n / v.cols) (n % v.cols) then
              [decode fl ex thresh netw neth K v 0 m (n / v.cols) (n % v.cols)] else [], ?_, ?_⟩
            · unfold loop
              rw [e3, Res.bind_ok, hcell, List.append_assoc]
            · intro c
              unfold loop
              rw [e4, Res.bind_ok]
              have hin : InBounds [v.images, v.anchors * (K + 4 + 1), v.rows, v.cols] [0, m * (K + 4 + 1) + 4, n / v.cols, n % v.cols] :=
                ⟨hv, cell2_lt (by omega) (by omega), hr, Nat.mod_lt n hp, trivial⟩
              have hpos := lin_lt hin
              have hval := h.data.2 _ hin
              rw [entry_lin] at hpos hval
              have hidx := entryIndex_ok (W := v.cols) (H := v.rows) (K := K) (outputs := v.anchors * (K + 4 + 1) * v.rows * v.cols)
                (b := 0) (n := m) (e := 4) hr (Nat.mod_lt n hp) (by have := h.small; omega)
              rw [show n / v.cols * v.cols + n % v.cols = n by rw [Nat.mul_comm]; exact Nat.div_add_mod n v.cols] at hidx hval
              rw [h.w, h.h, h.classes, h.chans, hidx, Res.bind_ok, rd_ok hval, Res.bind_ok]
              show Res.ok (if thresh < v.at K 0 m 4 (n / v.cols) (n % v.cols) then _ else _) = _
              split_ifs <;> simp <;> omega
        obtain ⟨t', e5, e6⟩ := hin v.anchors (s ++ t) le_rfl
        refine ⟨t ++ t', ?_, ?_⟩
        · unfold loop
          rw [e1, Res.bind_ok, hml, e5, List.append_assoc]
        · intro c
          unfold loop
          rw [e2, Res.bind_ok, hml, e6, List.length_append, Nat.add_assoc]
    obtain ⟨t, e1, e2⟩ := key (l.w * l.h) [] le_rfl
    have e3 := yoloDetections_ok fl ex thresh netw neth h hv []
    unfold yoloDetections at e3
    rw [e1] at e3
    injection e3 with e3
    rw [List.nil_append, List.nil_append] at e3
    have e4 := e2 0
    unfold yoloCount
    rw [e4, e3, Nat.zero_add]
  obtain ⟨l, el, hl⟩ : ∃ l, ls.getLast? = some l ∧ Shows K l last := by
    clear hb
    induction hs with
    | nil => simp at hlast
    | @cons l v ls vs h ht ih =>
      cases ht with
      | nil =>
        simp only [List.getLast?_singleton, Option.some.injEq] at hlast
        subst hlast
        exact ⟨l, rfl, h⟩
      | @cons l' v' ls vs h' ht =>
        rw [List.getLast?_cons_cons] at hlast
        obtain ⟨l2, e2, h2⟩ := ih hlast
        exact ⟨l2, by rw [List.getLast?_cons_cons]; exact e2, h2⟩
  have hsum : ∃ cs : List Nat, forEach (fun x => if x.classes = l.classes then yoloCount thresh x else .err) ls = .ok cs ∧
      cs.sum = (vs.flatMap (candidates fl ex thresh netw neth K 0)).length := by
    rw [hl.classes]
    clear el hlast
    induction hs with
    | nil => exact ⟨[], rfl, rfl⟩
    | @cons l' v' ls vs h' ht ih =>
      obtain ⟨cs, e1, e2⟩ := ih fun v hv => hb v (by simp [hv])
      refine ⟨(candidates fl ex thresh netw neth K 0 v').length :: cs, ?_, ?_⟩
      · unfold forEach
        rw [if_pos h'.classes, hcount l' v' h' (hb v' (by simp)), Res.bind_ok, e1, Res.bind_ok]
      · rw [List.sum_cons, e2]; simp
  obtain ⟨cs, e1, e2⟩ := hsum
  unfold yoloPosterInfer
  rw [el]
  simp only
  rw [e1, Res.bind_ok, e2, hl.batch]

example : yoloPosterInfer (1 / 2) [exampleHead] = .ok [[1, 6]] := by decide +kernel

/-- two images: nothing in the first, in the second one place that is above the threshold for both classes -/
def twoImages : YHead := ⟨2, 7, 1, 1, [0, 0, 0, 0, 0, 0, 0, 1/2, 1/2, 0, 0, 1, 1, 1], 2, [0], [8, 8]⟩

/-- **C81, infer is not the shape of the result**: it announces no row for both images, the second one has two (one detection for
two classes). Sorting a single detection does nothing. -/
theorem C81_infer_false :
    yoloPosterInfer (1 / 2) [twoImages] = .ok [[0, 6], [0, 6]] ∧
    yoloPoster id (fun _ a s => a / s) (fun _ _ l => l) (1 / 2) (1 / 2) 16 16 [twoImages] =
      .ok [[], [[1 / 4, 1 / 4, 1 / 2, 1 / 2, 1, 0], [1 / 4, 1 / 4, 1 / 2, 1 / 2, 1, 1]]] := by
  constructor <;> decide +kernel

/-! ## misuse -/

/-- two anchors at the same place, with the same box -/
def samePlace : YHead := ⟨1, 12, 1, 1, [1/2, 1/2, 0, 0, 1, 1, 1/2, 1/2, 0, 0, 1/2, 1], 1, [0, 0], [8, 8]⟩

/-- **C81, a negative threshold brings the suppressed boxes back**, with score 0: suppression sets the score to 0, which is above
the threshold. With the threshold 0 there is only one row. -/
theorem C81_negative_threshold_false :
    yoloPoster id (fun _ a s => a / s) (fun _ _ l => l) (-1) (1 / 2) 16 16 [samePlace] =
      .ok [[[1 / 4, 1 / 4, 1 / 2, 1 / 2, 1, 0], [1 / 4, 1 / 4, 1 / 2, 1 / 2, 0, 0]]] ∧
    yoloPoster id (fun _ a s => a / s) (fun _ _ l => l) 0 (1 / 2) 16 16 [samePlace] =
      .ok [[[1 / 4, 1 / 4, 1 / 2, 1 / 2, 1, 0]]] := by
  constructor <;> decide +kernel

/-- **C81, masks are not checked**: an anchor whose mask is not one of the priors reads outside of them. -/
theorem C81_mask_false (psort : (Nat → Nat → Bool) → Nat → List Nat → List Nat) :
    yoloPoster id (fun _ a s => a / s) psort (1 / 2) (1 / 2) 16 16 [{ exampleHead with mask := [2] }] = .ub := by
  have h : yoloHeads id (fun _ a s => a / s) (1 / 2) 16 16 1 0 [{ exampleHead with mask := [2] }] [] = .ub := by decide +kernel
  unfold yoloPoster
  show forEach (yoloImage id (fun _ a s => a / s) psort (1 / 2) (1 / 2) 16 16 1 [{ exampleHead with mask := [2] }]) [0] = _
  unfold forEach yoloImage
  rw [h]
  rfl

/-- **C81, operands of different batch sizes are not refused**: an operand with fewer images than the last one is read behind its end. -/
theorem C81_batch_false :
    yoloPoster id (fun _ a s => a / s) (fun _ _ l => l) 2 (1 / 2) 16 16
      [exampleHead, { exampleHead with batch := 2, data := exampleHead.data ++ exampleHead.data }] = .ub := by decide +kernel

/-- **C81, refused**: an operand whose number of classes is not that of the last one, by `infer` and by `run` (if there is an image),
and the absence of operands. -/
theorem C81_rejects (fl : Rat → Rat) (ex : Rat → Rat → Nat → Rat) (psort : (Nat → Nat → Bool) → Nat → List Nat → List Nat)
    (thresh nms : Rat) (netw neth : Nat) {l last : YHead} {ls : List YHead} (hl : ls.getLast? = some last)
    (hc : l.classes ≠ last.classes) (hb : 0 < last.batch) :
    yoloPoster fl ex psort thresh nms netw neth (l :: ls) = .err ∧ yoloPosterInfer thresh (l :: ls) = .err ∧
    yoloPoster fl ex psort thresh nms netw neth [] = .err := by
  have hl' : (l :: ls).getLast? = some last := by
    cases ls with
    | nil => simp at hl
    | cons a t => rw [List.getLast?_cons_cons]; exact hl
  refine ⟨?_, ?_, rfl⟩
  · unfold yoloPoster
    rw [hl']
    show forEach _ (List.range last.batch) = _
    obtain ⟨m, hm⟩ : ∃ m, last.batch = m + 1 := ⟨last.batch - 1, by omega⟩
    rw [hm, List.range_succ_eq_map]
    unfold forEach yoloImage yoloHeads
    rw [if_neg hc]
    rfl
  · unfold yoloPosterInfer
    rw [hl']
    show (forEach _ (l :: ls) >>= _) = _
    unfold forEach
    rw [if_neg hc]
    rfl

example : ({ exampleHead with classes := 2 } : YHead).classes ≠ exampleHead.classes ∧ 0 < exampleHead.batch := by decide

end Verif.Props
