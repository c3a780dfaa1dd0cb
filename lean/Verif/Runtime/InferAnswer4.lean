import Verif.Runtime.InferAnswer3
import Verif.Runtime.InferAgree3
/-!
# When the rules of Verif/Runtime/InferRules2.lean answer

For operands that are known completely. The lemmas are used in Verif/Props/InferAnswer2.lean.
-/
namespace Verif.Runtime.Infer2
open Verif.Core hiding Fits
open Verif.Kernels Verif.Runtime.Infer Verif.Runtime.Infer3

theorem resize2d_answers {x ss size O : List Int} (hx : ∀ a ∈ x, 0 ≤ a) (h : Exec.resize2d x ss size = .ok O) :
    ∃ o, ruleResize2d size x = .ok (some o) := by
  unfold ruleResize2d
  rw [if_neg (by have := (resize2d_eq hx h).1; omega)]
  exact ⟨_, rfl⟩

theorem nearest_answers {d : Int} {x size O : List Int} (hx : ∀ a ∈ x, 0 ≤ a) (h : Exec.resizeNearest d x size = .ok O) :
    ∃ o, ruleNearest d size x = .ok (some o) := by
  obtain ⟨s, t, rfl, h0, h1, -⟩ := nearest_eq hx h
  simp only [ruleNearest]
  rw [if_neg (show ¬ d < 0 by omega), if_neg (by omega)]
  exact ⟨_, rfl⟩

theorem affine_answers {d : Int} {x size O : List Int} (h : Exec.affineSample d x size = .ok O) : ∃ o, ruleAffine d size x = .ok (some o) := by
  unfold Exec.affineSample at h
  unfold ruleAffine
  rw [Int.add_comm d]
  simp only at h ⊢
  generalize (if d < 0 then (x.length : Int) + d else d) = e at h ⊢
  split at h
  · cases h
  split at h
  · cases h
  rename_i he
  split at h
  · rw [if_neg (by omega)]
    exact ⟨_, rfl⟩
  · cases h

theorem dimshuffle_answers {d : Int} {s x O : List Int} (h : Exec.dimshuffle d s x = .ok O) : ∃ o, ruleDimshuffle d s x = .ok (some o) := by
  unfold Exec.dimshuffle at h
  unfold ruleDimshuffle
  split at h
  · cases h
  split at h
  · cases h
  split at h
  · split at h <;> cases h
  simp only
  rw [if_neg (show ¬ d < 0 by omega), if_neg (by omega)]
  exact ⟨_, rfl⟩

theorem centerCrop_answers {s x O : List Int} (h : Exec.centerCrop s x = .ok O) : ∃ o, ruleCenterCrop s x = .ok (some o) := by
  unfold Exec.centerCrop at h
  split at h
  · exact ⟨_, rfl⟩
  · cases h

theorem cropNd_answers {t x s O : List Int} (h : Exec.cropNd t x s = .ok O) : ∃ o, ruleResize2d s x = .ok (some o) := by
  unfold Exec.cropNd at h
  split at h
  · cases h
  rename_i hc
  unfold ruleResize2d
  rw [if_neg (by
    have : s.length = x.length := by
      by_contra hn
      exact hc fun a => hn a.2
    omega)]
  exact ⟨_, rfl⟩

theorem letterbox_answers {s x O : List Int} (h : Exec.letterbox s x = .ok O) : ∃ o, ruleLetterbox s x = .ok (some o) := by
  unfold Exec.letterbox at h
  split at h
  · cases h
  rename_i hl
  match x, hl with
  | [x0, x1, x2, x3], _ =>
    split at h
    · exact ⟨_, rfl⟩
    · exact ⟨_, rfl⟩
    · cases h
  | [], hl => simp at hl
  | [_], hl => simp at hl
  | [_, _], hl => simp at hl
  | [_, _, _], hl => simp at hl
  | _ :: _ :: _ :: _ :: _ :: _, hl => simp at hl

theorem scaleResize_answers {s x O : List Int} (h : Exec.scaleResize s x = .ok O) : ∃ o, ruleScaleResize s x = .ok (some o) := by
  unfold Exec.scaleResize at h
  split at h
  · split at h
    · simp only [Res.bind_eq_ok] at h
      obtain ⟨r, hr, -⟩ := h
      simp only [ruleScaleResize, hr, Res.bind_ok]
      exact ⟨_, rfl⟩
    · exact ⟨_, rfl⟩
    · cases h
  · cases h

theorem divided_answers {rnd : Rat → Rat} {s x O : List Int} (h : Exec.divided rnd s x = .ok O) : ∃ o, ruleDivided rnd s x = .ok (some o) := by
  unfold Exec.divided at h
  unfold ruleDivided
  split at h
  · cases h
  rename_i hl
  rw [if_neg hl]
  simp only [Res.bind_eq_ok] at h
  obtain ⟨y, hy, -⟩ := h
  rw [hy]
  exact ⟨_, rfl⟩

theorem force_answers {n : Int} {x : List Int} (h : x ≠ []) : ∃ o, ruleForce n x = .ok (some o) := by
  unfold ruleForce
  rw [if_neg h]
  exact ⟨_, rfl⟩

theorem forceColor_answers {n : Int} {x O : List Int} (h : Exec.forceColor x = .ok O) : ∃ o, ruleForce n x = .ok (some o) := by
  refine force_answers ?_
  rintro rfl
  cases h

theorem forceGray_answers {k : Nat} {n : Int} {x O : List Int} (h : Exec.forceGray k x = .ok O) : ∃ o, ruleForce n x = .ok (some o) := by
  refine force_answers ?_
  rintro rfl
  cases h

theorem int32_div {a b : Int} (ha : -2147483648 ≤ a ∧ a ≤ 2147483647) (hb : 1 ≤ b) : ∃ c, div32 a b = .ok c := by
  unfold div32
  rw [if_neg (by omega)]
  refine ⟨_, int32_of ?_⟩
  have h := Int.natAbs_tdiv a b
  have h2 : (a.tdiv b).natAbs ≤ a.natAbs := by
    rw [h]
    exact Nat.div_le_self _ _
  rcases Int.le_total 0 a with h0 | h0
  · have := Int.tdiv_nonneg h0 (by omega : 0 ≤ b)
    omega
  · have : a.tdiv b ≤ 0 := by
      have := Int.tdiv_nonneg (by omega : 0 ≤ -a) (by omega : 0 ≤ b)
      rw [Int.neg_tdiv] at this
      omega
    omega

theorem known_ok {a : Int} {v : Res Int} (h : ∃ y, v = .ok y) : ∃ y, known a v = .ok y := by
  unfold known
  split
  · exact ⟨_, rfl⟩
  · exact h

theorem spaceToBatch_answers {pad bl x O : List Int} (hx : ∀ a ∈ x, 0 ≤ a) (hop : Exec.spaceToBatch pad bl x = .ok O) :
    ∃ o, ruleSpaceToBatch pad bl x = .ok (some o) := by
  unfold Exec.spaceToBatch at hop
  split at hop
  · rename_i pt pb pl pr bh bw n c g w
    split at hop
    · cases hop
    rename_i hb
    simp only [Res.bind_eq_ok] at hop
    obtain ⟨hs, hhs, hop⟩ := hop
    split at hop
    · cases hop
    simp only [Res.bind_eq_ok] at hop
    obtain ⟨ws, hws, hop⟩ := hop
    split at hop
    · cases hop
    simp only [Res.bind_eq_ok, Res.ok.injEq] at hop
    obtain ⟨l, hl, -⟩ := hop
    have xn := hx n (by simp)
    have xg := hx g (by simp)
    have xw := hx w (by simp)
    simp only [s2bShape, Res.bind_eq_ok, toNat_ofNat xn] at hl
    obtain ⟨a, ha, b, hb', -⟩ := hl
    simp only [spanS, Res.bind_eq_ok, toNat_ofNat xg, toNat_ofNat xw] at hhs hws
    obtain ⟨u, hu, hv⟩ := hhs
    obtain ⟨u', hu', hv'⟩ := hws
    have d1 := int32_div (by have := of_int32 hv; omega : -2147483648 ≤ hs ∧ hs ≤ 2147483647) (by omega : 1 ≤ bh)
    have d2 := int32_div (by have := of_int32 hv'; omega : -2147483648 ≤ ws ∧ ws ≤ 2147483647) (by omega : 1 ≤ bw)
    obtain ⟨k1, e1⟩ := known_ok (a := n) (v := do let a ← int32 (n * bh); int32 (a * bw)) ⟨b, by rw [ha, Res.bind_ok, hb']⟩
    obtain ⟨k2, e2⟩ := known_ok (a := g) (v := do let a ← int32 (g + pt); let b ← int32 (a + pb); div32 b bh)
      (by rw [hu, Res.bind_ok, hv, Res.bind_ok]; exact d1)
    obtain ⟨k3, e3⟩ := known_ok (a := w) (v := do let a ← int32 (w + pl); let b ← int32 (a + pr); div32 b bw)
      (by rw [hu', Res.bind_ok, hv', Res.bind_ok]; exact d2)
    obtain ⟨k4, e4⟩ := known_ok (a := c) (v := .ok c) ⟨c, rfl⟩
    refine ⟨[k1, k4, k2, k3], ?_⟩
    simp only [ruleSpaceToBatch, sizeAt, List.getElem?_cons_zero, List.getElem?_cons_succ, Res.bind_ok]
    rw [e1, Res.bind_ok, e2, Res.bind_ok, e3, Res.bind_ok, e4]
    rfl
  · cases hop

theorem batchToSpace_answers {cr bl x O : List Int} (hx : ∀ a ∈ x, 0 ≤ a ∧ a < 2 ^ 31) (hop : Exec.batchToSpace cr bl x = .ok O) :
    ∃ o, ruleBatchToSpace cr bl x = .ok (some o) := by
  unfold Exec.batchToSpace at hop
  split at hop
  · rename_i ct cb cl cc bh bw n c g w
    split at hop
    · cases hop
    rename_i hb
    split at hop
    · cases hop
    simp only [Res.bind_eq_ok] at hop
    obtain ⟨bb, hbb, hop⟩ := hop
    split at hop
    · cases hop
    simp only [Res.bind_eq_ok, Res.ok.injEq] at hop
    obtain ⟨l, hl, -⟩ := hop
    have xn := hx n (by simp)
    have xg := (hx g (by simp)).1
    have xw := (hx w (by simp)).1
    simp only [b2sShape, spanB, Res.bind_eq_ok, toNat_ofNat xg, toNat_ofNat xw] at hl
    obtain ⟨oh, ⟨a, ha, b, hb', hc⟩, ow, ⟨a', ha', b', hb2, hc'⟩, -⟩ := hl
    have pos : 1 ≤ bb := by
      have := (of_int32 hbb).1
      have : 0 < bh * bw := Int.mul_pos (by omega) (by omega)
      omega
    have d1 := int32_div (by omega : -2147483648 ≤ n ∧ n ≤ 2147483647) pos
    obtain ⟨k1, e1⟩ := known_ok (a := n) (v := do let bb ← int32 (bh * bw); div32 n bb) (by rw [hbb, Res.bind_ok]; exact d1)
    obtain ⟨k2, e2⟩ := known_ok (a := g) (v := do let a ← int32 (g * bh); let b ← int32 (a - ct); int32 (b - cb))
      ⟨oh, by rw [ha, Res.bind_ok, hb', Res.bind_ok, hc]⟩
    obtain ⟨k3, e3⟩ := known_ok (a := w) (v := do let a ← int32 (w * bw); let b ← int32 (a - cl); int32 (b - cc))
      ⟨ow, by rw [ha', Res.bind_ok, hb2, Res.bind_ok, hc']⟩
    obtain ⟨k4, e4⟩ := known_ok (a := c) (v := .ok c) ⟨c, rfl⟩
    refine ⟨[k1, k4, k2, k3], ?_⟩
    simp only [ruleBatchToSpace, sizeAt, List.getElem?_cons_zero, List.getElem?_cons_succ, Res.bind_ok]
    rw [e1, Res.bind_ok, e2, Res.bind_ok, e3, Res.bind_ok, e4]
    rfl
  · cases hop

theorem gatherV2_answers {x i O : List Int} (hi : ∀ a ∈ i, 0 ≤ a) (h : Exec.gatherV2 x i = .ok O) : ∃ o, ruleGatherV2 x i = .ok (some o) := by
  unfold Exec.gatherV2 at h
  unfold ruleGatherV2
  split at h
  · cases h
  rename_i k hk
  rw [hk]
  simp only
  split at h
  · cases h
  rename_i hx
  split at h
  · cases h
  rename_i hle
  have h0 := hi k (List.mem_of_getLast? hk)
  rw [if_neg hx, if_neg (by omega), h]
  exact ⟨_, rfl⟩

theorem reduce_answers {a : List Int} {k : Bool} {x O : List Int} (hx : x.length ≤ 7) (ha : a.length = 1) (h : Exec.reduceAxis a k x = .ok O) :
    ∃ o, ruleReduce a k x = .ok (some o) := by
  match a, ha with
  | [axis], _ =>
    unfold Exec.reduceAxis at h
    simp only at h
    simp only [ruleReduce, fixAxes]
    generalize (if axis < 0 then axis + (x.length : Int) else axis) = d at h ⊢
    split at h
    · cases h
    rename_i hd
    rw [if_neg (by omega)]
    simp only [Option.map_some, sortDesc, List.foldr_cons, List.foldr_nil, insertDesc, reduceLoop]
    have hlen : (x.eraseIdx d.toNat).length = x.length - 1 := List.length_eraseIdx_of_lt (by omega)
    rw [if_neg (by omega)]
    cases k
    · exact ⟨_, rfl⟩
    · simp only [if_true]
      rw [if_neg (by omega)]
      unfold insertRow
      rw [if_neg (by simp; omega), if_neg (by rw [hlen]; simp; omega)]
      exact ⟨_, rfl⟩

theorem nms_answers {m : Int} {x s O : List Int} (h : Exec.nms m x s = .ok O) : ∃ o, ruleNms m s = .ok (some o) := by
  unfold Exec.nms at h
  split at h
  · exact ⟨_, rfl⟩
  · cases h

theorem transposeDim_answers {a : ConvAttrs} {i : Nat} {x k H : Int} (hp : -2147483648 ≤ a.pad (2 * i) + a.pad (2 * i + 1) ∧
    a.pad (2 * i) + a.pad (2 * i + 1) ≤ 2147483647)
    (hop : convBackward x (a.pad (2 * i)) (a.pad (2 * i + 1)) k (a.stride i) (a.dilation i) = .ok H) : ∃ h, ruleTransposeDim a i x k = .ok h := by
  unfold ruleTransposeDim
  split
  · exact ⟨_, rfl⟩
  simp only [convBackward, Res.bind_eq_ok] at hop
  obtain ⟨y, hy, b, hb, e, he, c, hc, c', hc', hH⟩ := hop
  rw [int32_of hp, Res.bind_ok]
  unfold ruleBackward
  rw [hy, Res.bind_ok, hb, Res.bind_ok, he, Res.bind_ok, hc, Res.bind_ok]
  refine ⟨_, int32_of ?_⟩
  have h1 := of_int32 hc'
  have h2 := of_int32 hH
  omega

theorem transposeConv_answers {a : ConvAttrs} {x w O : List Int}
    (hp : ∀ i, -2147483648 ≤ a.pad (2 * i) + a.pad (2 * i + 1) ∧ a.pad (2 * i) + a.pad (2 * i + 1) ≤ 2147483647)
    (hop : Exec.transposeConv .nchw a x w = .ok O) : ∃ o, ruleTransposeConv .nchw a x w = .ok (some o) := by
  unfold Exec.transposeConv at hop
  split at hop
  · split at hop
    · cases hop
    simp only [Res.bind_eq_ok] at hop
    obtain ⟨h, hh, v, hv, -⟩ := hop
    obtain ⟨h', e1⟩ := transposeDim_answers (i := 2) (hp 2) hh
    obtain ⟨v', e2⟩ := transposeDim_answers (i := 3) (hp 3) hv
    simp only [ruleTransposeConv, sizeAt, List.getElem?_cons_zero, List.getElem?_cons_succ, Res.bind_ok, e1, e2]
    exact ⟨_, rfl⟩
  · cases hop

theorem slice_answers {b s x O : List Int} (hx : ∀ a ∈ x, 0 ≤ a ∧ a < 2 ^ 31) (hs : ∀ v ∈ s, -2147483648 ≤ v ∧ v ≤ 2147483647)
    (h : Exec.slice b s x = .ok O) : ∃ o, ruleSlice b s x = .ok (some o) := by
  unfold Exec.slice at h
  split at h
  · cases h
  rename_i hl
  obtain ⟨y, hy⟩ := sliceLoop_answers hx (by omega) (by omega) hs h
  unfold ruleSlice
  rw [if_neg (by omega), if_neg (by omega), hy]
  exact ⟨_, rfl⟩

theorem limit_answers {s x : List Int} (hl : s.length = x.length) : ∃ o, ruleLimit s x = .ok (some o) := by
  unfold ruleLimit
  rw [if_neg (by omega)]
  exact ⟨_, rfl⟩

theorem whereLoop_same (l : List Int) : ∃ o, ruleWhereLoop l l l = some o := by
  induction l with
  | nil => exact ⟨_, rfl⟩
  | cons a l ih =>
    obtain ⟨o, ho⟩ := ih
    simp only [ruleWhereLoop, and_self, not_true_eq_false, false_and, if_false, ho]
    exact ⟨_, rfl⟩

theorem whereLoop_answers {c l r : List Int} {O : List Nat × Bool} (hc : ∀ a ∈ c, 0 ≤ a) (hl : ∀ a ∈ l, 0 ≤ a) (hr : ∀ a ∈ r, 0 ≤ a)
    (hop : whereExtents (c.map Int.toNat) (l.map Int.toNat) (r.map Int.toNat) = .ok O) : ∃ o, ruleWhereLoop c l r = some o := by
  induction c generalizing l r O with
  | nil => exact ⟨[], by unfold ruleWhereLoop; rfl⟩
  | cons a c ih =>
    cases l with
    | nil => exact ⟨[], by unfold ruleWhereLoop; rfl⟩
    | cons b l =>
      cases r with
      | nil => exact ⟨[], by unfold ruleWhereLoop; rfl⟩
      | cons d r =>
        have h1 := hc a (by simp)
        have h2 := hl b (by simp)
        have h3 := hr d (by simp)
        simp only [List.map_cons, whereExtents] at hop
        split at hop
        · cases hop
        rename_i hn
        simp only [Res.bind_eq_ok] at hop
        obtain ⟨o, ho, -⟩ := hop
        obtain ⟨z, hz⟩ := ih (fun a h => hc a (by simp [h])) (fun a h => hl a (by simp [h])) (fun a h => hr a (by simp [h])) ho
        simp only [ruleWhereLoop]
        rw [if_neg (by omega), hz]
        exact ⟨_, rfl⟩

theorem where_answers {c l r O : List Int} (hc : ∀ a ∈ c, 0 ≤ a) (hl : ∀ a ∈ l, 0 ≤ a) (hr : ∀ a ∈ r, 0 ≤ a) (hc7 : c.length ≤ 7)
    (hl7 : l.length ≤ 7) (hr7 : r.length ≤ 7) (hop : Exec.whereOp c l r = .ok O) : ∃ o, ruleWhere c l r = .ok (some o) := by
  unfold ruleWhere
  simp only
  obtain ⟨c', h1⟩ := eltPad_answers (n := max (max c.length l.length) r.length) hc7 (by omega)
  obtain ⟨l', h2⟩ := eltPad_answers (n := max (max c.length l.length) r.length) hl7 (by omega)
  obtain ⟨r', h3⟩ := eltPad_answers (n := max (max c.length l.length) r.length) hr7 (by omega)
  rw [h1, Res.bind_ok, h2, Res.bind_ok, h3, Res.bind_ok]
  have e1 := eltPad_ok (by omega) h1
  have e2 := eltPad_ok (by omega) h2
  have e3 := eltPad_ok (by omega) h3
  have pos : ∀ (x : List Int) (n : Nat), (∀ a ∈ x, 0 ≤ a) → ∀ a ∈ List.replicate n 1 ++ x, 0 ≤ a := by
    intro x n hx a ha
    simp only [List.mem_append, List.mem_replicate] at ha
    rcases ha with ⟨-, rfl⟩ | ha
    · decide
    · exact hx a ha
  have fo : ∀ (x : List Int) (n : Nat), frontOnes (x.map Int.toNat) n = (List.replicate (n - x.length) 1 ++ x).map Int.toNat := by
    intro x n
    simp [frontOnes]
  unfold Exec.whereOp at hop
  simp only [Res.bind_eq_ok, Res.ok.injEq] at hop
  obtain ⟨⟨a1, a2, a3, a4, a5⟩, hw, -⟩ := hop
  unfold whereShapes at hw
  split at hw
  · rename_i he
    have hcl : c = l := by rw [← toNat_id hc, ← toNat_id hl, he.1]
    have hcr : c = r := by rw [← toNat_id hc, ← toNat_id hr, he.2]
    subst hcl hcr
    have : c' = l' ∧ c' = r' := ⟨e1.trans e2.symm, e1.trans e3.symm⟩
    obtain ⟨rfl, rfl⟩ := this
    obtain ⟨o, ho⟩ := whereLoop_same c'
    rw [ho]
    exact ⟨_, rfl⟩
  · simp only [Res.bind_eq_ok] at hw
    obtain ⟨o, ho, -⟩ := hw
    simp only [List.length_map, fo] at ho
    rw [← e1, ← e2, ← e3] at ho
    obtain ⟨z, hz⟩ := whereLoop_answers (by rw [e1]; exact pos _ _ hc) (by rw [e2]; exact pos _ _ hl) (by rw [e3]; exact pos _ _ hr) ho
    rw [hz]
    exact ⟨_, rfl⟩

end Verif.Runtime.Infer2
