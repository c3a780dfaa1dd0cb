import Verif.Kernels.PriorBoxLemmas
import Verif.Props.ShapeIndex
/-!
# C82: prior_box

The specification: at every place of the feature map, around its centre, one box per size and aspect ratio; the corners relative to
the image; then as many variances.
-/
namespace Verif.Props
open Verif.Core Verif.Kernels

/-- the size of the image: set by fields, or that of the second operand -/
def ImageSize (p : PriorParams) (img : Option (List Nat)) (ih iw : Nat) : Prop :=
  (p.imgH = some (ih : Int) ∧ p.imgW = some (iw : Int)) ∨
  (p.imgH = none ∧ p.imgW = none ∧ p.imgSize = some (ih : Int) ∧ iw = ih) ∨
  (p.imgH = none ∧ p.imgW = none ∧ p.imgSize = none ∧ ∃ a b : Nat, img = some [a, b, ih, iw])

/-- the distance of the places: set by fields (whole numbers for `step_h`, `step_w`), or the image divided by the map -/
def StepSize (fl : Rat → Rat) (p : PriorParams) (ih iw H W : Nat) (sh sw : Rat) : Prop :=
  (∃ a b : Rat, p.stepH = some a ∧ p.stepW = some b ∧ sh = fl (truncQ a) ∧ sw = fl (truncQ b)) ∨
  (p.stepH = none ∧ p.stepW = none ∧ ∃ a : Rat, p.step = some a ∧ sh = a ∧ sw = a) ∨
  (p.stepH = none ∧ p.stepW = none ∧ p.step = none ∧ sh = fl (fl ih / fl H) ∧ sw = fl (fl iw / fl W))

/-- widths and heights of the boxes of one size: the square, the square of the geometric mean with the larger size if there is one,
and one box of about the same area per ratio -/
def sizeBoxes (A : PriorArith) (others : List Rat) (m : Int) (larger : Option Int) : List (Rat × Rat) :=
  (A.fl m, A.fl m) :: (larger.toList.map fun x => (A.fl (A.sqi (m * x)), A.fl (A.sqi (m * x)))) ++
    others.map fun a => (A.fl (A.fl m * A.sq a), A.fl (A.fl m / A.sq a))

/-- those of all sizes: the whole parts of the sizes count -/
def priorBoxes (A : PriorArith) (p : PriorParams) (others : List Rat) : List (Rat × Rat) :=
  (List.range p.minSize.length).flatMap fun i =>
    sizeBoxes A others (truncQ (p.minSize.getD i 0)) ((p.maxSize[i]?).map truncQ)

/-- cut to the unit interval if asked for -/
def unitCut (clip : Bool) (v : Rat) : Rat := if clip then max 0 (min v 1) else v

theorem clampUnit_eq (v : Rat) : clampUnit v = max 0 (min v 1) := by
  unfold clampUnit
  split_ifs with h1 h2 h3
  · norm_num at h2
  · rw [min_eq_left (by linarith), max_eq_left (by linarith)]
  · rw [min_eq_right (by linarith), max_eq_right (by norm_num)]
  · rw [min_eq_left (by linarith), max_eq_right (by linarith)]

/-- what the variances have to be -/
def VarianceOf (fl : Rat → Rat) (given : List Rat) (j : Nat) (v : Rat) : Prop :=
  (given = [] ∧ v = fl (1 / 10)) ∨ given = [v] ∨ (given.length = 4 ∧ given[j]? = some v)

theorem initVariance_ok {A : PriorArith} {given vs : List Rat} (h : initVariance A [] given = .ok vs) :
    (vs.length = 1 ∨ vs.length = 4) ∧ ∀ v, (vs = [v] → ∀ j, VarianceOf A.fl given j v) ∧ (vs.length = 4 → ∀ j, vs[j]? = some v → VarianceOf A.fl given j v) := by
  unfold initVariance at h
  split at h
  · split at h
    · rename_i h4
      split at h
      · simp only [List.nil_append, Res.ok.injEq] at h
        subst h
        refine ⟨Or.inr h4, fun v => ⟨fun e => by rw [e] at h4; simp at h4, fun _ j hj => Or.inr (Or.inr ⟨h4, hj⟩)⟩⟩
      · cases h
    · cases h
  · split at h
    · rename_i h1
      split at h
      · simp only [List.nil_append, Res.ok.injEq] at h
        subst h
        exact ⟨Or.inl h1, fun v => ⟨fun e _ => Or.inr (Or.inl e), fun h4 => by omega⟩⟩
      · cases h
    · rename_i h1 h2
      have : given = [] := by apply List.eq_nil_of_length_eq_zero; omega
      simp only [List.nil_append, Res.ok.injEq] at h
      subst h
      refine ⟨Or.inl rfl, fun v => ⟨fun e _ => Or.inl ⟨this, ?_⟩, fun h4 => by simp at h4⟩⟩
      simpa using e.symm

theorem priorInit_ok {A : PriorArith} {p : PriorParams} {s : PriorState} (h : priorInit A [] p = .ok s) :
    p.minSize ≠ [] ∧ (∀ m ∈ p.minSize, 0 < m) ∧ (p.maxSize = [] ∨ p.maxSize.length = p.minSize.length) ∧
    (∀ (i : Nat) (m x : Rat), p.minSize[i]? = some m → p.maxSize[i]? = some x → m < x) ∧
    s.minSizes = p.minSize ∧ s.maxSizes = p.maxSize ∧ s.ratios = p.ratios.foldl (addRatio A p.flip) [1] ∧
    s.num = s.ratios.length * p.minSize.length + p.maxSize.length ∧ s.clip = p.clip ∧
    initVariance A [] p.variance = .ok s.variance ∧ initImage p = .ok (s.imgH, s.imgW) ∧ initStep A p = .ok (s.stepH, s.stepW) ∧
    s.offset = p.offset := by
  unfold priorInit at h
  split at h
  · cases h
  rename_i h1
  split at h
  · rename_i h2
    simp only at h
    split at h
    · cases h
    rename_i h3
    split at h
    · rename_i h4
      rcases hv : initVariance A [] p.variance with v | _ | _ <;> rw [hv] at h
      · rw [Res.bind_ok] at h
        rcases him : initImage p with im | _ | _ <;> rw [him] at h
        · rw [Res.bind_ok] at h
          rcases hst : initStep A p with st | _ | _ <;> rw [hst] at h
          · rw [Res.bind_ok] at h
            cases h
            refine ⟨by simpa using h1, ?_, ?_, ?_, rfl, rfl, rfl, rfl, rfl, rfl, rfl, rfl, rfl⟩
            · intro m hm
              have := List.all_eq_true.1 h2 m hm
              simpa using this
            · by_cases hc : p.maxSize.length > 0
              · right
                by_contra hne
                exact h3 ⟨hc, hne⟩
              · left; apply List.eq_nil_of_length_eq_zero; omega
            · intro i m x hm hx
              have := List.all_eq_true.1 h4 (x, m) (by
                apply List.mem_of_getElem? (i := i)
                rw [List.getElem?_zip_eq_some]
                exact ⟨hx, hm⟩)
              simpa using this
          · cases h
          · cases h
        · cases h
        · cases h
      · cases h
      · cases h
    · cases h
  · cases h

theorem priorImage_ok {p : PriorParams} {s : PriorState} (h : initImage p = .ok (s.imgH, s.imgW)) {img : Option (List Nat)} {ih iw : Nat}
    (hs : ImageSize p img ih iw) : runImage s img = .ok (ih, iw) := by
  unfold initImage at h
  unfold runImage
  rcases hs with ⟨a, b⟩ | ⟨a, b, c, rfl⟩ | ⟨a, b, c, x, y, rfl⟩
  · rw [if_pos (by simp [a]), a, b] at h
    split at h
    · rename_i e1 e2
      cases e1; cases e2
      split at h
      · split at h
        · simp only [Res.ok.injEq, Prod.mk.injEq] at h
          rw [← h.1, ← h.2, if_neg (by omega)]
          simp
        · cases h
      · cases h
    · cases h
  · rw [if_neg (by simp [a, b]), c] at h
    simp only at h
    split at h
    · simp only [Res.ok.injEq, Prod.mk.injEq] at h
      rw [← h.1, ← h.2, if_neg (by omega)]
      simp
    · cases h
  · rw [if_neg (by simp [a, b]), c] at h
    simp only [Res.ok.injEq, Prod.mk.injEq] at h
    rw [← h.1]
    simp

theorem priorStep_ok {A : PriorArith} {p : PriorParams} {s : PriorState} (h : initStep A p = .ok (s.stepH, s.stepW)) {ih iw H W : Nat}
    {sh sw : Rat} (hs : StepSize A.fl p ih iw H W sh sw) :
    (if s.stepW = 0 ∨ s.stepH = 0 then (⟨iw, ih, A.fl (A.fl iw / A.fl W), A.fl (A.fl ih / A.fl H)⟩ : PriorView)
      else ⟨iw, ih, s.stepW, s.stepH⟩) = ⟨iw, ih, sw, sh⟩ := by
  unfold initStep at h
  rcases hs with ⟨x, y, a, b, rfl, rfl⟩ | ⟨a, b, x, c, rfl, rfl⟩ | ⟨a, b, c, rfl, rfl⟩
  · rw [if_pos (by simp [a]), a, b] at h
    split at h
    · rename_i e1 e2
      cases e1; cases e2
      have key : ∀ v : Rat, (∃ n, intOfReal v = .ok n ∧ n = truncQ v) ∨ intOfReal v = .ub := by
        intro v
        unfold intOfReal int32
        split
        · exact Or.inl ⟨_, rfl, rfl⟩
        · exact Or.inr rfl
      rcases key x with ⟨n, e, rfl⟩ | e
      · rw [e, Res.bind_ok] at h
        split at h
        · rename_i hpos
          rcases key y with ⟨n, e', rfl⟩ | e'
          · rw [e', Res.bind_ok] at h
            split at h
            · rename_i hpos'
              simp only [Res.ok.injEq, Prod.mk.injEq] at h
              rw [← h.1, ← h.2]
              rw [if_neg]
              rintro (hc | hc) <;> linarith
            · cases h
          · rw [e'] at h; cases h
        · cases h
      · rw [e] at h; cases h
    · cases h
  · rw [if_neg (by simp [a, b]), c] at h
    simp only at h
    split at h
    · simp only [Res.ok.injEq, Prod.mk.injEq] at h
      rw [← h.1, ← h.2, if_neg]
      rintro (hc | hc) <;> linarith
    · cases h
  · rw [if_neg (by simp [a, b]), c] at h
    simp only [Res.ok.injEq, Prod.mk.injEq] at h
    rw [← h.1, if_pos (Or.inr rfl)]

theorem intOfReal_ok {v : Rat} (h0 : 0 < v) (h1 : v < 2147483648) : intOfReal v = .ok (truncQ v) := by
  unfold intOfReal
  apply int32_ok
  obtain ⟨a, b, c⟩ := (truncQ_sides v).1 (le_of_lt h0)
  have : (truncQ v : Rat) < 2147483648 := by linarith
  have : truncQ v < 2147483648 := by exact_mod_cast this
  constructor <;> omega

/-- the boxes of one size -/
theorem putSize_emits {A : PriorArith} (hd : Double A.fd) {s : PriorState} {p : PriorParams} {tl : List Rat} (hr : s.ratios = 1 :: tl)
    (ht : ∀ a ∈ tl, ¬ |A.fd (a - 1)| < priorTol) (h1 : s.minSizes = p.minSize) (h2 : s.maxSizes = p.maxSize)
    (hl : p.maxSize = [] ∨ p.maxSize.length = p.minSize.length) (h0 : ∀ m ∈ p.minSize, 0 < m)
    (hlt : ∀ (i : Nat) (m x : Rat), p.minSize[i]? = some m → p.maxSize[i]? = some x → m < x)
    (hs : ∀ (i : Nat) (m : Rat), p.minSize[i]? = some m → m < 2147483648 ∧
      ∀ x, p.maxSize[i]? = some x → x < 2147483648 ∧ truncQ m * truncQ x ≤ 2147483647)
    (v : PriorView) (cx cy : Rat) {i : Nat} (hi : i < p.minSize.length) :
    Emits (putSize A s v cx cy i)
      ((sizeBoxes A tl (truncQ (p.minSize.getD i 0)) ((p.maxSize[i]?).map truncQ)).flatMap (fourOf A v cx cy)) := by
  have hm : p.minSize[i]? = some (p.minSize.getD i 0) := by
    rw [List.getD_eq_getElem?_getD, List.getElem?_eq_getElem hi]; rfl
  generalize p.minSize.getD i 0 = m at hm
  have m0 := h0 m (List.mem_of_getElem? hm)
  obtain ⟨m1, m2⟩ := hs i m hm
  have em := intOfReal_ok m0 m1
  have hrat := putRatios_emits A v cx cy (truncQ m) s.ratios
  rw [hr, filter_ratios hd ht, ← hr] at hrat
  have hbox := putBox_emits A v cx cy (A.fl (truncQ m)) (A.fl (truncQ m))
  rcases hl with hl | hl
  · have e : (p.maxSize[i]?).map truncQ = none := by rw [hl]; rfl
    rw [e]
    intro done rest hle
    unfold putSize
    rw [h1, h2, rd_ok hm, Res.bind_ok, em, Res.bind_ok, hl]
    have := Emits.seq hbox hrat done rest (by
      simpa [sizeBoxes, ratioBox, List.flatMap_cons, List.flatMap_map] using hle)
    simp only [List.length_nil, gt_iff_lt, Nat.lt_irrefl, if_false]
    simpa [sizeBoxes, ratioBox, List.flatMap_cons, List.flatMap_map] using this
  · obtain ⟨x, hx⟩ : ∃ x, p.maxSize[i]? = some x := ⟨_, List.getElem?_eq_getElem (by omega)⟩
    obtain ⟨x1, x2⟩ := m2 x hx
    have x0 : 0 < x := lt_trans m0 (hlt i m x hm hx)
    have ex := intOfReal_ok x0 x1
    have t1 := ((truncQ_sides m).1 (le_of_lt m0)).2.2
    have t2 := ((truncQ_sides x).1 (le_of_lt x0)).2.2
    have ep : int32 (truncQ m * truncQ x) = .ok (truncQ m * truncQ x) := by
      apply int32_ok
      have := Int.mul_nonneg t1 t2
      constructor <;> omega
    rw [hx]
    have hbox2 := putBox_emits A v cx cy (A.fl (A.sqi (truncQ m * truncQ x))) (A.fl (A.sqi (truncQ m * truncQ x)))
    intro done rest hle
    have := Emits.seq hbox (Emits.seq hbox2 hrat) done rest (by
      simpa [sizeBoxes, ratioBox, List.flatMap_cons, List.flatMap_map] using hle)
    unfold putSize
    rw [h1, h2, rd_ok hm, Res.bind_ok, em, Res.bind_ok]
    have hpos : p.maxSize.length > 0 := by omega
    simp only [if_pos hpos, if_pos hl.symm, rd_ok hx, Res.bind_ok, ex, ep]
    simpa [sizeBoxes, ratioBox, List.flatMap_cons, List.flatMap_map] using this

theorem putVariances_ok {fl : Rat → Rat} {given vs : List Rat} (hv : vs.length = 1 ∨ vs.length = 4)
    (hs : ∀ v, (vs = [v] → ∀ j, VarianceOf fl given j v) ∧ (vs.length = 4 → ∀ j, vs[j]? = some v → VarianceOf fl given j v))
    {H W P dim : Nat} (hd : dim = H * (W * (P * 4))) {b : List Rat} (hb : b.length = 2 * dim) :
    ∃ b', putVariances vs H W P dim b = .ok b' ∧ b'.length = 2 * dim ∧ (∀ i, i < dim → b'[i]? = b[i]?) ∧
      ∀ n j, n < H * (W * P) → j < 4 → ∃ v, b'[dim + (n * 4 + j)]? = some v ∧ VarianceOf fl given j v := by
  unfold putVariances
  rcases hv with h1 | h4
  · rw [if_pos h1]
    obtain ⟨v, rfl⟩ := List.length_eq_one_iff.1 h1
    rw [rd_ok (by rfl : ([v] : List Rat)[0]? = some v), Res.bind_ok]
    obtain ⟨b', e, l, g⟩ := loop_inv (f := fun (b : List Rat) i => wr b (dim + i) v) (n := dim) (s := b)
      (fun k (o : List Rat) => o.length = 2 * dim ∧ ∀ i, o[i]? = if dim ≤ i ∧ i < dim + k then some v else b[i]?)
      ⟨hb, fun i => by rw [if_neg (by omega)]⟩
      (by
        rintro k o hk ⟨l, g⟩
        refine ⟨_, wr_ok v (by omega), by simp [l], fun i => ?_⟩
        by_cases hi : i = dim + k
        · subst hi
          rw [set_eq (by omega), if_pos (by omega)]
        · rw [set_ne (Ne.symm hi), g i]
          have : (dim ≤ i ∧ i < dim + k) ↔ (dim ≤ i ∧ i < dim + (k + 1)) := by omega
          simp only [this])
    refine ⟨b', e, l, fun i hi => by rw [g, if_neg (by omega)], fun n j hn hj => ⟨v, ?_, (hs v).1 rfl j⟩⟩
    have := cell2_lt hn hj
    rw [g, if_pos]
    constructor
    · omega
    · have : H * (W * P) * 4 = dim := by rw [hd]; ring
      omega
  · rw [if_neg (by omega)]
    have hj : ∀ j, j < 4 → vs[j]? = some (vs.getD j 0) := by
      intro j hj
      rw [List.getD_eq_getElem?_getD, List.getElem?_eq_getElem (by omega)]; rfl
    have key : Emits (fun st => loop (fun st (_ : Nat) => loop (fun st (_ : Nat) => loop (fun st (_ : Nat) => loop (fun st j => do
        let v ← rd vs j
        putNext v st) 4 st) P st) W st) H st)
        ((List.range H).flatMap fun _ => (List.range W).flatMap fun _ => (List.range P).flatMap fun _ =>
          (List.range 4).flatMap fun j => [vs.getD j 0]) := by
      refine Emits.loop fun _ _ => Emits.loop fun _ _ => Emits.loop fun _ _ => Emits.loop fun j hj4 => ?_
      rw [show (fun st => (do
        let v ← rd vs j
        putNext v st : Res (List Rat × Nat))) = putNext (vs.getD j 0) by
          funext st; rw [rd_ok (hj j hj4), Res.bind_ok]]
      exact Emits.put _
    have l4 : ((List.range 4).flatMap fun j => [vs.getD j 0]).length = 4 := by simp
    have lP : ((List.range P).flatMap fun _ => (List.range 4).flatMap fun j => [vs.getD j 0]).length = P * 4 := by
      rw [block_length (m := 4) (fun _ _ => l4), List.length_range]
    have lW : ((List.range W).flatMap fun _ => (List.range P).flatMap fun _ => (List.range 4).flatMap fun j => [vs.getD j 0]).length = W * (P * 4) := by
      rw [block_length (m := P * 4) (fun _ _ => lP), List.length_range]
    have lH : ((List.range H).flatMap fun _ => (List.range W).flatMap fun _ => (List.range P).flatMap fun _ =>
          (List.range 4).flatMap fun j => [vs.getD j 0]).length = dim := by
      rw [block_length (m := W * (P * 4)) (fun _ _ => lW), List.length_range, hd]
    have hk := key (b.take dim) (b.drop dim) (by rw [lH, List.length_drop]; omega)
    rw [List.take_append_drop, List.length_take, Nat.min_eq_left (by omega)] at hk
    simp only at hk
    refine ⟨_, by rw [hk, Res.bind_ok], ?_, ?_, ?_⟩
    · simp only [List.length_append, List.length_take, List.length_drop, lH]
      omega
    · intro i hi
      rw [List.append_assoc, List.getElem?_append_left (by rw [List.length_take]; omega), List.getElem?_take_of_lt hi]
    · intro n j hn hj4
      have hn4 := cell2_lt hn hj4
      have e1 : H * (W * P) * 4 = dim := by rw [hd]; ring
      refine ⟨vs.getD j 0, ?_, (hs _).2 h4 j (hj j hj4)⟩
      have lt : (b.take dim).length = dim := by rw [List.length_take]; omega
      rw [List.append_assoc, List.getElem?_append_right (by omega), lt, Nat.add_sub_cancel_left, List.getElem?_append_left (by rw [lH]; omega)]
      -- the place
      have hP : 0 < P := by
        rcases Nat.eq_zero_or_pos P with rfl | h
        · simp at hn
        · exact h
      have hW : 0 < W := by
        rcases Nat.eq_zero_or_pos W with rfl | h
        · simp at hn
        · exact h
      have hWP : 0 < W * P := Nat.mul_pos hW hP
      have d1 : n / (W * P) < H := Nat.div_lt_of_lt_mul (by rw [Nat.mul_comm]; exact hn)
      have d2 : n % (W * P) / P < W := Nat.div_lt_of_lt_mul (by rw [Nat.mul_comm P W]; exact Nat.mod_lt _ hWP)
      have d3 : n % (W * P) % P < P := Nat.mod_lt _ hP
      have en : n * 4 + j = n / (W * P) * (W * (P * 4)) + (n % (W * P) / P * (P * 4) + (n % (W * P) % P * 4 + j)) := by
        have a1 := Nat.div_add_mod n (W * P)
        have a2 := Nat.div_add_mod (n % (W * P)) P
        have : n / (W * P) * (W * (P * 4)) + n % (W * P) / P * (P * 4) + n % (W * P) % P * 4 = (W * P * (n / (W * P)) + (P * (n % (W * P) / P) + n % (W * P) % P)) * 4 := by ring
        rw [a2, a1] at this
        omega
      have f3 : n % (W * P) % P * 4 + j < P * 4 := cell2_lt d3 hj4
      have f2 := cell2_lt d2 f3
      rw [en, block_get (m := W * (P * 4)) (b := n / (W * P)) (fun _ _ => lW) (by rw [List.getElem?_range d1]) f2,
        block_get (m := P * 4) (b := n % (W * P) / P) (fun _ _ => lP) (by rw [List.getElem?_range d2]) f3,
        block_get (m := 4) (b := n % (W * P) % P) (fun _ _ => l4) (by rw [List.getElem?_range d3]) hj4]
      have := block_get (g := fun j => [vs.getD j 0]) (m := 1) (l := List.range 4) (i := j) (r := 0) (b := j) (fun _ _ => rfl) (by rw [List.getElem?_range hj4]) (by omega)
      rw [Nat.mul_one, Nat.add_zero] at this
      rw [this]
      rfl

theorem priorBoxes_length {A : PriorArith} {p : PriorParams} {tl : List Rat} (hl : p.maxSize = [] ∨ p.maxSize.length = p.minSize.length) :
    (priorBoxes A p tl).length = (tl.length + 1) * p.minSize.length + p.maxSize.length := by
  unfold priorBoxes
  rcases hl with hl | hl
  · rw [block_length (m := tl.length + 1), List.length_range, hl]
    · simp [Nat.mul_comm]
    · intro i _; simp [hl, sizeBoxes]
  · rw [block_length (m := tl.length + 2), List.length_range, hl]
    · ring
    · intro i hi
      rw [List.mem_range] at hi
      rw [List.getElem?_eq_getElem (by omega)]
      simp [sizeBoxes]

/-- C82: at every place of the map the boxes of all sizes and ratios are returned, in this order, around its centre and relative to the
image, cut to the unit interval if asked for; and as many variances. -/
theorem C82_priors {A : PriorArith} (hA : A.fl = f32) (hd : Double A.fd) (fresh : Nat → Rat) {p : PriorParams} {s : PriorState}
    (hi : priorInit A [] p = .ok s) (hr : ∀ a ∈ p.ratios, 0 < a ∧ f32 a = a)
    (hs : ∀ (i : Nat) (m : Rat), p.minSize[i]? = some m → m < 2147483648 ∧
      ∀ x, p.maxSize[i]? = some x → x < 2147483648 ∧ truncQ m * truncQ x ≤ 2147483647)
    {N C H W : Nat} {img : Option (List Nat)} {ih iw : Nat} (him : ImageSize p img ih iw) {sh sw : Rat}
    (hst : StepSize A.fl p ih iw H W sh sw) {P : Nat} (hP : P = (priorBoxes A p s.ratios.tail).length)
    (hfit : 2 * (H * W * P * 4) ≤ 2147483647) :
    s.ratios.head? = some 1 ∧ P = s.ratios.length * p.minSize.length + p.maxSize.length ∧
    ∃ data, priorRun A fresh s [N, C, H, W] img = .ok ⟨10, [1, 2, H * W * P * 4], data⟩ ∧ data.length = 2 * (H * W * P * 4) ∧
      ∀ (h w k : Nat) (q : Rat × Rat), h < H → w < W → (priorBoxes A p s.ratios.tail)[k]? = some q →
        let cx := A.fl (A.fl (A.fl w + p.offset) * sw)
        let cy := A.fl (A.fl (A.fl h + p.offset) * sh)
        let at_ := fun (c j : Nat) => data[c * (H * W * P * 4) + (((h * W + w) * P + k) * 4 + j)]?
        at_ 0 0 = some (unitCut p.clip (A.fl (A.fd (A.fd (cx - q.1 / 2) / iw)))) ∧
        at_ 0 1 = some (unitCut p.clip (A.fl (A.fd (A.fd (cy - q.2 / 2) / ih)))) ∧
        at_ 0 2 = some (unitCut p.clip (A.fl (A.fd (A.fd (cx + q.1 / 2) / iw)))) ∧
        at_ 0 3 = some (unitCut p.clip (A.fl (A.fd (A.fd (cy + q.2 / 2) / ih)))) ∧
        ∀ j, j < 4 → ∃ v, at_ 1 j = some v ∧ VarianceOf A.fl p.variance j v := by
  obtain ⟨i1, i2, i3, i4, i5, i6, i7, i8, i9, i10, i11, i12, i13⟩ := priorInit_ok hi
  obtain ⟨tl, et, ht⟩ := ratios_ok hA hd p.flip p.ratios hr [] (by simp)
  rw [← i7] at et
  have etl : s.ratios.tail = tl := by rw [et]; rfl
  rw [etl] at hP ⊢
  have lP := priorBoxes_length (A := A) (p := p) (tl := tl) i3
  rw [← hP] at lP
  have hnum : s.num = P := by rw [i8, et, lP, List.length_cons]
  refine ⟨by rw [et]; rfl, by rw [lP, et, List.length_cons], ?_⟩
  have ed : W * H * P * 4 = H * W * P * 4 := by ring
  have htop : priorTop s.num [N, C, H, W] = .ok (H * W * P * 4) := by
    unfold priorTop
    rw [if_neg (by simp), hnum]
    show (if W * H * P * 4 ≤ 2147483647 then Res.ok (W * H * P * 4) else .ub) = _
    rw [ed, if_pos (by omega)]
  -- the boxes
  have hem : Emits (putAllBoxes A s ⟨iw, ih, sw, sh⟩ H W)
      ((List.range H).flatMap fun (h : Nat) => (List.range W).flatMap fun (w : Nat) => (priorBoxes A p tl).flatMap
        (fourOf A ⟨iw, ih, sw, sh⟩ (A.fl (A.fl (A.fl w + p.offset) * sw)) (A.fl (A.fl (A.fl h + p.offset) * sh)))) := by
    unfold putAllBoxes
    refine Emits.loop fun h _ => Emits.loop fun w _ => ?_
    rw [i5, i13]
    have := Emits.loop (n := p.minSize.length) fun i hi' => putSize_emits hd et ht i5 i6 i3 i2 i4 hs ⟨iw, ih, sw, sh⟩
      (A.fl (A.fl (A.fl w + p.offset) * sw)) (A.fl (A.fl (A.fl h + p.offset) * sh)) hi'
    rw [← List.flatMap_assoc] at this
    exact this
  have lp : ∀ cx cy, ((priorBoxes A p tl).flatMap (fourOf A ⟨iw, ih, sw, sh⟩ cx cy)).length = P * 4 := by
    intro cx cy
    rw [block_length (m := 4) (fun _ _ => rfl), hP]
  have lw : ∀ h : Nat, ((List.range W).flatMap fun (w : Nat) => (priorBoxes A p tl).flatMap
        (fourOf A ⟨iw, ih, sw, sh⟩ (A.fl (A.fl (A.fl w + p.offset) * sw)) (A.fl (A.fl (A.fl h + p.offset) * sh)))).length = W * (P * 4) := by
    intro h
    rw [block_length (m := P * 4) (fun _ _ => lp _ _), List.length_range]
  have lh : ((List.range H).flatMap fun (h : Nat) => (List.range W).flatMap fun (w : Nat) => (priorBoxes A p tl).flatMap
        (fourOf A ⟨iw, ih, sw, sh⟩ (A.fl (A.fl (A.fl w + p.offset) * sw)) (A.fl (A.fl (A.fl h + p.offset) * sh)))).length = H * W * P * 4 := by
    rw [block_length (m := W * (P * 4)) (fun _ _ => lw _), List.length_range]
    ring
  generalize hE : ((List.range H).flatMap fun (h : Nat) => (List.range W).flatMap fun (w : Nat) => (priorBoxes A p tl).flatMap
        (fourOf A ⟨iw, ih, sw, sh⟩ (A.fl (A.fl (A.fl w + p.offset) * sw)) (A.fl (A.fl (A.fl h + p.offset) * sh)))) = E at *
  generalize hD : H * W * P * 4 = dim at *
  have hrun := hem [] ((List.range (2 * dim)).map fresh) (by rw [lh]; simp; omega)
  simp only [List.nil_append, List.length_nil] at hrun
  generalize hb : E ++ ((List.range (2 * dim)).map fresh).drop E.length = b at hrun
  have lb : b.length = 2 * dim := by rw [← hb]; simp [lh]; omega
  have gb : ∀ i, i < dim → b[i]? = E[i]? := by
    intro i hi'
    rw [← hb, List.getElem?_append_left (by omega)]
  -- clipping
  obtain ⟨b2, e2, l2, g2⟩ : ∃ b2, clipIf s.clip dim b = .ok b2 ∧ b2.length = 2 * dim ∧
      ∀ i, i < dim → b2[i]? = (b[i]?).map (unitCut p.clip) := by
    rw [i9]
    unfold clipIf
    cases p.clip with
    | true =>
      obtain ⟨b2, e, l, g⟩ := clipBoxes_ok (dim := dim) (b := b) (by omega)
      refine ⟨b2, by rw [if_pos rfl, e], by omega, fun i hi' => ?_⟩
      rw [g i]
      congr 1
      funext v
      rw [if_pos hi', clampUnit_eq]
      rfl
    | false =>
      refine ⟨b, rfl, lb, fun i _ => ?_⟩
      have : unitCut false = id := by funext v; rfl
      rw [this, Option.map_id]; rfl
  -- variances
  obtain ⟨v1, v2⟩ := initVariance_ok i10
  obtain ⟨b3, e3, l3, g3, w3⟩ := putVariances_ok (H := H) (W := W) (P := P) (dim := dim) v1 v2 (by rw [← hD]; ring) l2
  refine ⟨b3, ?_, l3, ?_⟩
  · unfold priorRun
    rw [htop, Res.bind_ok, if_pos (by omega), priorImage_ok i11 him, Res.bind_ok]
    have := priorStep_ok i12 hst
    simp only [List.getD_cons_succ, List.getD_cons_zero]
    rw [this, hrun, Res.bind_ok]
    simp only
    rw [e2, Res.bind_ok, hnum, e3, Res.bind_ok]
  · intro h w k q hh hw hk
    have hkP : k < P := by
      rw [hP]
      exact (List.getElem?_eq_some_iff.1 hk).1
    have c1 := cell2_lt hh hw
    have c2 := cell2_lt c1 hkP
    have c3 : ∀ j, j < 4 → ((h * W + w) * P + k) * 4 + j < dim := fun j hj => by
      have := cell2_lt c2 hj
      rw [hD] at this
      exact this
    have gE : ∀ j, j < 4 → E[((h * W + w) * P + k) * 4 + j]? =
        (fourOf A ⟨iw, ih, sw, sh⟩ (A.fl (A.fl (A.fl w + p.offset) * sw)) (A.fl (A.fl (A.fl h + p.offset) * sh)) q)[j]? := by
      intro j hj
      have f3 : k * 4 + j < P * 4 := cell2_lt hkP hj
      have f2 := cell2_lt hw f3
      have en : ((h * W + w) * P + k) * 4 + j = h * (W * (P * 4)) + (w * (P * 4) + (k * 4 + j)) := by ring
      rw [en, ← hE, block_get (m := W * (P * 4)) (b := h) (fun _ _ => lw _) (by rw [List.getElem?_range hh]) f2,
        block_get (m := P * 4) (b := w) (fun _ _ => lp _ _) (by rw [List.getElem?_range hw]) f3,
        block_get (m := 4) (b := q) (fun _ _ => rfl) hk hj]
    have get : ∀ j, j < 4 → b3[0 * dim + (((h * W + w) * P + k) * 4 + j)]? =
        ((fourOf A ⟨iw, ih, sw, sh⟩ (A.fl (A.fl (A.fl w + p.offset) * sw)) (A.fl (A.fl (A.fl h + p.offset) * sh)) q)[j]?).map (unitCut p.clip) := by
      intro j hj
      rw [Nat.zero_mul, Nat.zero_add, g3 _ (c3 j hj), g2 _ (c3 j hj), gb _ (c3 j hj), gE j hj]
    simp only
    refine ⟨?_, ?_, ?_, ?_, ?_⟩
    · rw [get 0 (by omega)]; rfl
    · rw [get 1 (by omega)]; rfl
    · rw [get 2 (by omega)]; rfl
    · rw [get 3 (by omega)]; rfl
    · intro j hj
      rw [Nat.one_mul]
      exact w3 ((h * W + w) * P + k) j (by rw [← Nat.mul_assoc]; exact c2) hj

/-- a concrete case: one size with a larger one, a ratio and its inverse; four boxes per place -/
def exampleParams : PriorParams :=
  ⟨[4], [9], [4], true, true, [1 / 10, 1 / 10, 1 / 5, 1 / 5], none, none, some 8, none, none, some 4, 1 / 2⟩

/-- arithmetic without rounding, and square roots that are right for squares -/
def exactArith : PriorArith := ⟨f32, fun q => q, fun q => (Nat.sqrt q.num.toNat : Rat) / Nat.sqrt q.den, fun n => Nat.sqrt n.toNat⟩

theorem exactArith_double : Double exactArith.fd := fun q => by
  show |q - q| ≤ _
  rw [sub_self, abs_zero]
  positivity

/-- what `init` makes of it -/
def exampleState : PriorState := ⟨[4], [9], [1, 4, 1 / 4], 4, true, [1 / 10, 1 / 10, 1 / 5, 1 / 5], 8, 8, 4, 4, 1 / 2⟩

theorem exampleState_init : priorInit exactArith [] exampleParams = .ok exampleState := by decide +kernel

/-- `C82_priors` applies to the concrete case, on a map of 2 by 1 -/
example : ∃ data, priorRun exactArith (fun _ => 7) exampleState [1, 3, 1, 2] none = .ok ⟨10, [1, 2, 32], data⟩ ∧
    -- second place, second box: centre (6, 2), side 6
    data[20]? = some (3 / 8) ∧ data[21]? = some 0 ∧ data[22]? = some 1 ∧ data[23]? = some (5 / 8) ∧ data[52]? = some (1 / 10) ∧
    data[55]? = some (1 / 5) := by
  obtain ⟨_, _, data, e, _, h⟩ := C82_priors (A := exactArith) rfl exactArith_double (fun _ => 7) exampleState_init
    (by decide +kernel)
    (by
      intro i m hm
      match i, hm with
      | 0, hm =>
        cases hm
        refine ⟨by norm_num, fun x hx => ?_⟩
        cases hx
        exact ⟨by norm_num, by decide +kernel⟩
      | i + 1, hm => simp [exampleParams] at hm)
    (N := 1) (C := 3) (H := 1) (W := 2) (img := none) (ih := 8) (iw := 8) (Or.inr (Or.inl ⟨rfl, rfl, rfl, rfl⟩))
    (sh := 4) (sw := 4) (Or.inr (Or.inl ⟨rfl, rfl, 4, rfl, rfl, rfl⟩)) (P := 4) (by decide +kernel) (by norm_num)
  refine ⟨data, e, ?_⟩
  obtain ⟨h0, h1, h2, h3, h4⟩ := h 0 1 1 (6, 6) (by omega) (by omega) (by decide +kernel)
  obtain ⟨v0, a0, c0⟩ := h4 0 (by omega)
  obtain ⟨v3, a3, c3⟩ := h4 3 (by omega)
  refine ⟨h0.trans ?_, h1.trans ?_, h2.trans ?_, h3.trans ?_, a0.trans ?_, a3.trans ?_⟩
  · exact congrArg some (by decide +kernel)
  · exact congrArg some (by decide +kernel)
  · exact congrArg some (by decide +kernel)
  · exact congrArg some (by decide +kernel)
  · rcases c0 with ⟨c, _⟩ | c | ⟨_, c⟩
    · cases c
    · cases c
    · exact c.symm
  · rcases c3 with ⟨c, _⟩ | c | ⟨_, c⟩
    · cases c
    · cases c
    · exact c.symm

/-- C82: which ratios count. The list starts with 1; every given ratio is in it, up to the tolerance; nothing else is in it than given
ratios and, if `flip` is set, their inverses; and every given ratio in it is followed by its inverse. -/
theorem C82_ratios {A : PriorArith} {p : PriorParams} {s : PriorState} (h0 : A.fl 0 = 0) (hi : priorInit A [] p = .ok s) :
    s.ratios.head? = some 1 ∧ (∀ a ∈ p.ratios, ∃ r ∈ s.ratios, |A.fl (a - r)| < priorTol) ∧
    (∀ r ∈ s.ratios.tail, r ∈ p.ratios ∨ p.flip = true ∧ ∃ a ∈ p.ratios, a ∈ s.ratios ∧ r = A.fl (A.fd (1 / a))) ∧
    (p.flip = true → ∀ r ∈ s.ratios, r = 1 ∨ A.fl (A.fd (1 / r)) ∈ s.ratios ∨ ∃ a ∈ s.ratios, r = A.fl (A.fd (1 / a))) := by
  rw [(priorInit_ok hi).2.2.2.2.2.2.1]
  generalize p.ratios = given
  generalize p.flip = flip
  have key : ∀ (given tl : List Rat), ∃ tl', given.foldl (addRatio A flip) (1 :: tl) = 1 :: tl' ∧ tl <+: tl' ∧
      (∀ a ∈ given, ∃ r ∈ 1 :: tl', |A.fl (a - r)| < priorTol) ∧
      (∀ r ∈ tl', r ∈ tl ∨ r ∈ given ∨ flip = true ∧ ∃ a ∈ given, a ∈ tl' ∧ r = A.fl (A.fd (1 / a))) ∧
      (flip = true → ∀ r ∈ tl', r ∈ tl ∨ A.fl (A.fd (1 / r)) ∈ tl' ∨ ∃ a ∈ tl', r = A.fl (A.fd (1 / a))) := by
    intro given
    induction given with
    | nil => intro tl; exact ⟨tl, rfl, List.prefix_refl _, by simp, fun r hr => Or.inl hr, fun _ r hr => Or.inl hr⟩
    | cons a given ih =>
      intro tl
      rw [List.foldl_cons]
      obtain ⟨ex, e, h1⟩ : ∃ ex, addRatio A flip (1 :: tl) a = 1 :: (tl ++ ex) ∧
          ((ex = [] ∧ ∃ r ∈ 1 :: tl, |A.fl (a - r)| < priorTol) ∨ (ex = [a] ∧ flip = false) ∨ (ex = [a, A.fl (A.fd (1 / a))] ∧ flip = true)) := by
        unfold addRatio
        by_cases hc : ((1 :: tl).any fun r => decide (|A.fl (a - r)| < priorTol)) = true
        · rw [if_pos hc]
          refine ⟨[], by simp, Or.inl ⟨rfl, ?_⟩⟩
          rw [List.any_eq_true] at hc
          obtain ⟨r, hr, hd⟩ := hc
          exact ⟨r, hr, by simpa using hd⟩
        · rw [if_neg hc]
          cases flip with
          | true => exact ⟨[a, A.fl (A.fd (1 / a))], by simp, Or.inr (Or.inr ⟨rfl, rfl⟩)⟩
          | false => exact ⟨[a], by simp, Or.inr (Or.inl ⟨rfl, rfl⟩)⟩
      obtain ⟨tl', e', p1, g1, g2, g3⟩ := ih (tl ++ ex)
      have hin : ∀ r ∈ tl ++ ex, r ∈ tl' := fun r hr => p1.subset hr
      refine ⟨tl', by rw [e, e'], (List.prefix_append _ _).trans p1, ?_, ?_, ?_⟩
      · intro b hb
        rcases List.mem_cons.1 hb with rfl | hb
        · rcases h1 with ⟨rfl, r, hr, hd⟩ | ⟨rfl, _⟩ | ⟨rfl, _⟩
          · refine ⟨r, ?_, hd⟩
            rcases List.mem_cons.1 hr with rfl | hr
            · simp
            · exact List.mem_cons_of_mem _ (hin r (by simp [hr]))
          · refine ⟨b, List.mem_cons_of_mem _ (hin b (by simp)), ?_⟩
            rw [sub_self, h0, abs_zero]; norm_num [priorTol]
          · refine ⟨b, List.mem_cons_of_mem _ (hin b (by simp)), ?_⟩
            rw [sub_self, h0, abs_zero]; norm_num [priorTol]
        · exact g1 b hb
      · intro r hr
        rcases g2 r hr with h | h | ⟨hf, b, hb, hb', e⟩
        · rcases List.mem_append.1 h with h | h
          · exact Or.inl h
          · rcases h1 with ⟨rfl, _⟩ | ⟨rfl, _⟩ | ⟨rfl, hf⟩
            · cases h
            · right; left; simp at h; simp [h]
            · simp only [List.mem_cons, List.not_mem_nil, or_false] at h
              rcases h with rfl | rfl
              · right; left; simp
              · exact Or.inr (Or.inr ⟨hf, a, by simp, hin a (by simp), rfl⟩)
        · exact Or.inr (Or.inl (by simp [h]))
        · exact Or.inr (Or.inr ⟨hf, b, by simp [hb], hb', e⟩)
      · intro hf r hr
        rcases g3 hf r hr with h | h | h
        · rcases List.mem_append.1 h with h | h
          · exact Or.inl h
          · rcases h1 with ⟨rfl, _⟩ | ⟨rfl, hf'⟩ | ⟨rfl, _⟩
            · cases h
            · rw [hf] at hf'; cases hf'
            · simp only [List.mem_cons, List.not_mem_nil, or_false] at h
              rcases h with rfl | rfl
              · exact Or.inr (Or.inl (hin _ (by simp)))
              · exact Or.inr (Or.inr ⟨a, hin a (by simp), rfl⟩)
        · exact Or.inr (Or.inl h)
        · exact Or.inr (Or.inr h)
  obtain ⟨tl', e, _, g1, g2, g3⟩ := key given []
  rw [e]
  refine ⟨rfl, g1, ?_, ?_⟩
  · intro r hr
    rcases g2 r hr with h | h | ⟨hf, a, ha, ha', er⟩
    · cases h
    · exact Or.inl h
    · exact Or.inr ⟨hf, a, ha, List.mem_cons_of_mem _ ha', er⟩
  · intro hf r hr
    rcases List.mem_cons.1 hr with rfl | hr
    · exact Or.inl rfl
    · rcases g3 hf r hr with h | h | ⟨a, ha, er⟩
      · cases h
      · exact Or.inr (Or.inl (List.mem_cons_of_mem _ h))
      · exact Or.inr (Or.inr ⟨a, List.mem_cons_of_mem _ ha, er⟩)

example : ∃ r ∈ exampleState.ratios, |exactArith.fl (4 - r)| < priorTol := (C82_ratios f32_zero exampleState_init).2.1 4 (by decide +kernel)

/-- C82: rounding moves a corner by at most four units in the last place of the centre and one of the size -/
theorem C82_accuracy {A : PriorArith} (hf : Binary32 A.fl) (hd : Double A.fd) {w : Nat} (hw : w < 16777216) {offset step size : Rat}
    (hz : 0 ≤ size) {img : Nat} (hi : 0 < img) :
    let c := (w + offset) * step
    |A.fl (A.fd (A.fd (A.fl (A.fl (A.fl w + offset) * step) - size / 2) / img)) - (c - size / 2) / img| ≤ (4 * |c| + size) / 16777216 / img ∧
    |A.fl (A.fd (A.fd (A.fl (A.fl (A.fl w + offset) * step) + size / 2) / img)) - (c + size / 2) / img| ≤ (4 * |c| + size) / 16777216 / img := by
  intro c
  have ew : A.fl w = w := by
    have := hf.exact w (by rw [abs_lt]; omega)
    exact_mod_cast this
  rw [ew]
  have him : (0 : Rat) < img := by exact_mod_cast hi
  -- the centre
  have hc : |A.fl (A.fl (w + offset) * step) - c| ≤ |c| * (21 / 10) / 16777216 := by
    have a1 := hf.error (w + offset)
    have a2 := hf.error (A.fl (w + offset) * step)
    have a3 : |A.fl (w + offset) * step - c| ≤ |c| / 16777216 := by
      rw [show A.fl (w + offset) * step - c = (A.fl (w + offset) - (w + offset)) * step by ring, abs_mul,
        show |c| / 16777216 = |w + offset| / 16777216 * |step| by rw [show |c| = |w + offset| * |step| from abs_mul _ _]; ring]
      exact mul_le_mul_of_nonneg_right a1 (abs_nonneg _)
    have a4 := abs_sub_abs_le_abs_sub (A.fl (w + offset) * step) c
    have a5 := abs_sub_le (A.fl (A.fl (w + offset) * step)) (A.fl (w + offset) * step) c
    have := abs_nonneg c
    linarith
  generalize A.fl (A.fl (w + offset) * step) = cx at hc
  have half : ∀ x d : Rat, |x| ≤ |c| + |c| * (21 / 10) / 16777216 + size / 2 → |x - d| ≤ |c| * (21 / 10) / 16777216 →
      |A.fl (A.fd (A.fd x / img)) - d / img| ≤ (4 * |c| + size) / 16777216 / img := by
    intro x d hx hxd
    have b1 := hd x
    have b2 := hd (A.fd x / img)
    have b3 := hf.error (A.fd (A.fd x / img))
    have hdiv : ∀ q : Rat, |q / img| = |q| / img := fun q => by rw [abs_div, abs_of_pos him]
    generalize A.fd x = d1 at b1 b2 b3
    rw [hdiv] at b2
    generalize hq : A.fd (d1 / img) = d2 at b2 b3
    generalize A.fl d2 = v at b3
    have c2 : |d2 * img - d1| ≤ |d1| / 9007199254740992 := by
      rw [show d2 * img - d1 = (d2 - d1 / img) * img by field_simp, abs_mul, abs_of_pos him]
      calc |d2 - d1 / img| * img ≤ |d1| / img / 9007199254740992 * img := mul_le_mul_of_nonneg_right b2 (le_of_lt him)
        _ = |d1| / 9007199254740992 := by field_simp
    have c3 : |v * img - d2 * img| ≤ |d2 * img| / 16777216 := by
      rw [← sub_mul, abs_mul, abs_mul, abs_of_pos him]
      calc |v - d2| * img ≤ |d2| / 16777216 * img := mul_le_mul_of_nonneg_right b3 (le_of_lt him)
        _ = |d2| * img / 16777216 := by ring
    have fin : |v * img - d| ≤ (4 * |c| + size) / 16777216 := by
      have t1 := abs_sub_le (v * img) (d2 * img) d
      have t2 := abs_sub_le (d2 * img) d1 d
      have t3 := abs_sub_le d1 x d
      have t4 := abs_sub_abs_le_abs_sub (d2 * img) d1
      have t5 := abs_sub_abs_le_abs_sub d1 x
      have := abs_nonneg c
      linarith
    rw [show v - d / img = (v * img - d) / img by field_simp, hdiv]
    exact div_le_div_of_nonneg_right fin (le_of_lt him)
  have hcx : |cx| ≤ |c| + |c| * (21 / 10) / 16777216 := by
    have := abs_sub_abs_le_abs_sub cx c
    linarith
  constructor
  · apply half
    · have := abs_sub cx (size / 2)
      rw [abs_of_nonneg (show 0 ≤ size / 2 by linarith)] at this
      linarith
    · rw [show cx - size / 2 - (c - size / 2) = cx - c by ring]; exact hc
  · apply half
    · have := abs_add_le cx (size / 2)
      rw [abs_of_nonneg (show 0 ≤ size / 2 by linarith)] at this
      linarith
    · rw [show cx + size / 2 - (c + size / 2) = cx - c by ring]; exact hc

example : Binary32 exactArith.fl ∧ Double exactArith.fd := ⟨f32_binary32, exactArith_double⟩

/-- C82: the lower corner is not above the upper one, and clipped corners lie in the unit interval -/
theorem C82_ordered {A : PriorArith} (hf : ∀ a b, a ≤ b → A.fl a ≤ A.fl b) (hd : ∀ a b, a ≤ b → A.fd a ≤ A.fd b) (clip : Bool) {c size : Rat}
    (hz : 0 ≤ size) (img : Nat) :
    unitCut clip (A.fl (A.fd (A.fd (c - size / 2) / img))) ≤ unitCut clip (A.fl (A.fd (A.fd (c + size / 2) / img))) ∧
    (∀ v, 0 ≤ unitCut true v ∧ unitCut true v ≤ 1) := by
  have h : A.fl (A.fd (A.fd (c - size / 2) / img)) ≤ A.fl (A.fd (A.fd (c + size / 2) / img)) := by
    apply hf
    apply hd
    apply div_le_div_of_nonneg_right _ (by positivity)
    apply hd
    linarith
  refine ⟨?_, fun v => ⟨le_max_left _ _, max_le (by norm_num) (min_le_right _ _)⟩⟩
  unfold unitCut
  split
  · exact max_le_max (le_refl _) (min_le_min h (le_refl _))
  · exact h

example : (∀ a b, a ≤ b → exactArith.fl a ≤ exactArith.fl b) ∧ ∀ a b, a ≤ b → exactArith.fd a ≤ exactArith.fd b :=
  ⟨fun _ _ h => f32_mono h, fun _ _ h => h⟩

/-- C82: `infer` announces the shape of the result -/
theorem C82_infer (A : PriorArith) (fresh : Nat → Rat) (s : PriorState) (dtype : Nat) (feat : List Nat) (img : Option (List Nat)) {y : Operand Rat}
    (h : priorRun A fresh s feat img = .ok y) : ∃ d, priorInfer s dtype feat = .ok (d, y.shape) ∧ d = dtype := by
  unfold priorRun at h
  unfold priorInfer
  rcases ht : priorTop s.num feat with dim | _ | _ <;> rw [ht] at h
  · rw [Res.bind_ok] at h
    split at h
    · rcases e1 : runImage s img with im | _ | _ <;> rw [e1] at h
      · rw [Res.bind_ok] at h
        simp only at h
        generalize putAllBoxes A s _ _ _ _ = r1 at h
        rcases r1 with st | _ | _
        · rw [Res.bind_ok] at h
          rcases e2 : clipIf s.clip dim st.1 with b | _ | _ <;> rw [e2] at h
          · rw [Res.bind_ok] at h
            generalize putVariances s.variance _ _ _ _ _ = r2 at h
            rcases r2 with b | _ | _
            · rw [Res.bind_ok] at h
              cases h
              exact ⟨dtype, rfl, rfl⟩
            · cases h
            · cases h
          · cases h
          · cases h
        · cases h
        · cases h
      · cases h
      · cases h
    · cases h
  · cases h
  · cases h

/-- C82 disproved: the type that `infer` announces is that of the operand, the result is always `float` -/
theorem C82_infer_false : (∃ y, priorRun exactArith (fun _ => 7) exampleState [1, 3, 1, 2] none = .ok y ∧ y.dtype = 10) ∧
    priorInfer exampleState 11 [1, 3, 1, 2] = .ok (11, [1, 2, 32]) := by
  refine ⟨?_, by decide +kernel⟩
  have : (match priorRun exactArith (fun _ => 7) exampleState [1, 3, 1, 2] none with | .ok y => y.dtype == 10 | _ => false) = true := by
    decide +kernel
  rcases h : priorRun exactArith (fun _ => 7) exampleState [1, 3, 1, 2] none with y | _ | _ <;> rw [h] at this
  · exact ⟨y, rfl, by simpa using this⟩
  · cases this
  · cases this

/-- C82 disproved: without a size of the image and without a second operand the missing operand is not noticed -/
theorem C82_missing_image_false :
    ∃ s, priorInit exactArith [] { exampleParams with imgSize := none } = .ok s ∧ ∀ fresh, priorRun exactArith fresh s [1, 3, 1, 2] none = .ub := by
  refine ⟨{ exampleState with imgH := 0, imgW := 0 }, by decide +kernel, fun fresh => ?_⟩
  have e : priorTop 4 [1, 3, 1, 2] = .ok 32 := by decide
  show (priorTop 4 [1, 3, 1, 2] >>= _) = Res.ub
  rw [e, Res.bind_ok]
  rfl

/-- C82 disproved: initialising the operator again keeps the old variances; with one variance there are then two, and the third of them is read -/
theorem C82_reinit_false : ∃ s s', priorInit exactArith [] { exampleParams with variance := [1 / 2] } = .ok s ∧
    priorInit exactArith s.variance { exampleParams with variance := [1 / 2] } = .ok s' ∧ s'.variance = [1 / 2, 1 / 2] ∧
    priorRun exactArith (fun _ => 7) s' [1, 3, 1, 2] none = .ub := by
  refine ⟨{ exampleState with variance := [1 / 2] }, { exampleState with variance := [1 / 2, 1 / 2] }, by decide +kernel, by decide +kernel, rfl, ?_⟩
  have : (match priorRun exactArith (fun _ => 7) { exampleState with variance := [1 / 2, 1 / 2] } [1, 3, 1, 2] none with | .ub => true | _ => false) = true := by
    decide +kernel
  rcases h : priorRun exactArith (fun _ => 7) { exampleState with variance := [1 / 2, 1 / 2] } [1, 3, 1, 2] none with y | _ | _ <;> rw [h] at this
  · cases this
  · cases this

/-- C82 disproved: sizes are accepted as real numbers, but only their whole part counts: a size of one half gives empty boxes -/
theorem C82_fraction_false : (∃ s, priorInit exactArith [] { exampleParams with minSize := [1 / 2] } = .ok s) ∧
    priorBoxes exactArith { exampleParams with minSize := [1 / 2], maxSize := [] } [] = [(0, 0)] := by
  exact ⟨⟨{ exampleState with minSizes := [1 / 2] }, by decide +kernel⟩, by decide +kernel⟩

/-- C82 disproved: `step` is taken as it is, `step_h` and `step_w` lose their fraction -/
theorem C82_step_false : ∃ s s', priorInit exactArith [] { exampleParams with step := some (17 / 2) } = .ok s ∧
    priorInit exactArith [] { exampleParams with step := none, stepH := some (17 / 2), stepW := some (17 / 2) } = .ok s' ∧
    s.stepH = 17 / 2 ∧ s'.stepH = 8 :=
  ⟨{ exampleState with stepH := 17 / 2, stepW := 17 / 2 }, { exampleState with stepH := 8, stepW := 8 }, by decide +kernel, by decide +kernel, rfl, rfl⟩

/-- C82 disproved: the rank of the feature map is not checked -/
theorem C82_rank_false (A : PriorArith) (fresh : Nat → Rat) (s : PriorState) (img : Option (List Nat)) :
    priorRun A fresh s [3, 4] img = .ub := rfl

/-- C82 disproved: without sizes nothing is thrown, the process ends -/
theorem C82_empty_false (A : PriorArith) (old : List Rat) : priorInit A old { exampleParams with minSize := [] } = .ub := rfl

/-- C82: what `init` refuses -/
theorem C82_rejects {A : PriorArith} {old : List Rat} {p : PriorParams}
    (hne : p.minSize ≠ []) (h : (∃ m ∈ p.minSize, m ≤ 0) ∨ (p.maxSize ≠ [] ∧ p.maxSize.length ≠ p.minSize.length) ∨
      (∃ (i : Nat) (m x : Rat), p.minSize[i]? = some m ∧ p.maxSize[i]? = some x ∧ x ≤ m)) : priorInit A old p = .err := by
  unfold priorInit
  rw [if_neg (by simpa using hne)]
  rcases h with ⟨m, hm, h0⟩ | ⟨h1, h2⟩ | ⟨i, m, x, hm, hx, hle⟩
  · · rw [if_neg]
      intro hc
      have := List.all_eq_true.1 hc m hm
      simp at this
      linarith
  · · split
      · rw [if_pos ⟨List.length_pos_iff.2 h1, h2⟩]
      · rfl
  · · split
      · simp only
        split
        · rfl
        · rw [if_neg]
          intro hc
          have := List.all_eq_true.1 hc (x, m) (by
            apply List.mem_of_getElem? (i := i)
            rw [List.getElem?_zip_eq_some]
            exact ⟨hx, hm⟩)
          simp at this
          linarith
      · rfl

/-- C82: the other fields that `init` refuses: two or three variances, more than four or a variance that is not positive; both ways of
giving the size of the image or the steps, one of two, and sizes and steps that are not positive -/
theorem C82_rejects_fields {A : PriorArith} {old : List Rat} {p : PriorParams} (hne : p.minSize ≠ [])
    (h : (1 < p.variance.length ∧ p.variance.length ≠ 4) ∨ (∃ v ∈ p.variance, v ≤ 0) ∨
      ((p.imgH ≠ none ∨ p.imgW ≠ none) ∧ (p.imgSize ≠ none ∨ p.imgH = none ∨ p.imgW = none)) ∨
      (∃ n, (p.imgH = some n ∨ p.imgW = some n ∨ p.imgSize = some n) ∧ n ≤ 0) ∨
      ((p.stepH ≠ none ∨ p.stepW ≠ none) ∧ (p.step ≠ none ∨ p.stepH = none ∨ p.stepW = none)) ∨
      (p.stepH = none ∧ p.stepW = none ∧ ∃ x, p.step = some x ∧ x ≤ 0)) : priorInit A old p = .err := by
  have himg : initImage p = .err ∨ ∃ r, initImage p = .ok r := by
    unfold initImage
    repeat' split
    all_goals first | exact Or.inl rfl | exact Or.inr ⟨_, rfl⟩
  have hvar : initVariance A old p.variance = .err ∨ ∃ r, initVariance A old p.variance = .ok r := by
    unfold initVariance
    repeat' split
    all_goals first | exact Or.inl rfl | exact Or.inr ⟨_, rfl⟩
  have key : initVariance A old p.variance = .err ∨ initImage p = .err ∨ initStep A p = .err := by
    rcases h with ⟨h1, h4⟩ | ⟨v, hv, h0⟩ | ⟨h1, h2⟩ | ⟨n, h1, h0⟩ | ⟨h1, h2⟩ | ⟨h1, h2, x, h3, h0⟩
    · left
      unfold initVariance
      rw [if_pos h1, if_neg h4]
    · left
      have hn : ¬ (p.variance.all fun x => decide (0 < x)) = true := by
        intro hc
        have := List.all_eq_true.1 hc v hv
        simp at this
        linarith
      have hl : 0 < p.variance.length := List.length_pos_of_mem hv
      unfold initVariance
      rw [if_neg hn]
      split
      · split <;> rfl
      · rw [if_pos (by omega)]
    · right; left
      unfold initImage
      rw [if_pos (by rcases h1 with h | h <;> simp [Option.isSome_iff_ne_none, h])]
      split
      · rename_i e1 e2 e3
        rcases h2 with h | h | h
        · exact absurd e1 h
        · rw [h] at e2; cases e2
        · rw [h] at e3; cases e3
      · rfl
    · right; left
      unfold initImage
      rcases h1 with h | h | h
      · rw [if_pos (by simp [h])]
        split
        · rename_i e1 e2 e3
          rw [h] at e2
          cases e2
          rw [if_neg (by omega)]
        · rfl
      · rw [if_pos (by simp [h])]
        split
        · rename_i e1 e2 e3
          rw [h] at e3
          cases e3
          rw [if_neg (show ¬ n > 0 by omega)]
          split <;> rfl
        · rfl
      · split
        · split
          · rename_i e1 _ _
            rw [h] at e1; cases e1
          · rfl
        · rw [h]
          simp only
          rw [if_neg (by omega)]
    · right; right
      unfold initStep
      rw [if_pos (by rcases h1 with h | h <;> simp [Option.isSome_iff_ne_none, h])]
      split
      · rename_i e1 e2 e3
        rcases h2 with h | h | h
        · exact absurd e1 h
        · rw [h] at e2; cases e2
        · rw [h] at e3; cases e3
      · rfl
    · right; right
      unfold initStep
      rw [if_neg (by simp [h1, h2]), h3]
      simp only
      rw [if_neg (by linarith)]
  unfold priorInit
  rw [if_neg (by simpa using hne)]
  split
  · simp only
    split
    · rfl
    split
    · rcases hvar with hv | ⟨v, hv⟩
      · rw [hv]; rfl
      · rw [hv, Res.bind_ok]
        rcases himg with hm | ⟨im, hm⟩
        · rw [hm]; rfl
        · rw [hm, Res.bind_ok]
          rcases key with k | k | k
          · rw [k] at hv; cases hv
          · rw [k] at hm; cases hm
          · rw [k]; rfl
    · rfl
  · rfl

example : priorInit exactArith [] { exampleParams with variance := [1, 1] } = .err := C82_rejects_fields (by decide) (Or.inl ⟨by decide, by decide⟩)

example : priorInit exactArith [] { exampleParams with maxSize := [4] } = .err :=
  C82_rejects (by decide) (Or.inr (Or.inr ⟨0, 4, 4, rfl, rfl, le_refl _⟩))

end Verif.Props
