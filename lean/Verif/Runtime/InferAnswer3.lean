import Verif.Runtime.InferAgree4
/-!
# When the rules of Verif/Runtime/InferRules3.lean answer

For operands that are known completely, a rule answers if the operator can be executed. The lemmas are used in Verif/Props/InferAnswer3.lean.
-/
namespace Verif.Runtime.Infer3
open Verif.Core hiding Fits
open Verif.Kernels Verif.Runtime.Infer Verif.Runtime.Infer2

theorem sizeAt_some {x : List Int} {i : Nat} (h : i < x.length) : ∃ a, sizeAt x i = .ok a ∧ a ∈ x := by
  unfold sizeAt
  rw [List.getElem?_eq_getElem h]
  exact ⟨_, rfl, List.getElem_mem h⟩

theorem eltPad_answers {l : List Int} {n : Nat} (hl : l.length ≤ 7) (hn : n ≤ 7) : ∃ r, eltPad l n = .ok r := by
  unfold eltPad insertOnes
  split
  · rw [if_neg (by omega), if_neg (by omega), if_neg (by omega)]
    exact ⟨_, rfl⟩
  · exact ⟨_, rfl⟩

theorem ruleEltwise_answers {l r : List Int} (hl : l.length ≤ 7) (hr : r.length ≤ 7) : ∃ p, ruleEltwise l r = .ok (some p) := by
  obtain ⟨a, ha⟩ := eltPad_answers hl hr
  obtain ⟨b, hb⟩ := eltPad_answers hr hl
  unfold ruleEltwise
  rw [ha, hb]
  exact ⟨_, rfl⟩

theorem int32_of {a : Int} (h : -2147483648 ≤ a ∧ a ≤ 2147483647) : int32 a = .ok a := int32_ok (by unfold I32; exact h)

theorem of_int32 {a b : Int} (h : int32 a = .ok b) : b = a ∧ -2147483648 ≤ a ∧ a ≤ 2147483647 := by
  rw [int32_eq_ok] at h
  obtain ⟨h1, h2⟩ := h
  unfold I32 at h1
  exact ⟨h2, h1⟩

theorem sliceLoop_answers {x b s O : List Int} (hx : ∀ a ∈ x, 0 ≤ a ∧ a < 2 ^ 31) (hb : b.length = x.length) (hs : s.length = x.length)
    (hs32 : ∀ v ∈ s, -2147483648 ≤ v ∧ v ≤ 2147483647) (h : Exec.sliceLoop x b s = .ok O) : ∃ y, ruleSliceLoop x b s = .ok y := by
  induction x generalizing b s O with
  | nil => cases b <;> simp_all [ruleSliceLoop]
  | cons a x ih =>
    match b, s, hb, hs with
    | b :: bs, s :: ss, hb, hs =>
      simp only [Exec.sliceLoop, Res.bind_eq_ok, Res.ok.injEq] at h
      obtain ⟨d, hd, r, hr, -⟩ := h
      obtain ⟨y, hy⟩ := ih (fun a ha => hx a (by simp [ha])) (by simpa using hb) (by simpa using hs) (fun v hv => hs32 v (by simp [hv])) hr
      have ha := hx a (by simp)
      have hs0 := hs32 s (by simp)
      unfold Exec.sliceOne at hd
      split at hd
      · cases hd
      rename_i hb0
      have hone : ∃ z, ruleSliceOne a b s = .ok z := by
        unfold ruleSliceOne
        rw [if_neg (by omega), if_neg (by omega)]
        have hsum : -2147483648 ≤ b + s ∧ b + s ≤ 2147483647 := by
          split at hd
          · omega
          · simp only [Res.bind_eq_ok] at hd
            obtain ⟨e, he, -⟩ := hd
            exact (of_int32 he).2
        rw [int32_of hsum, Res.bind_ok, int32_of (by omega)]
        exact ⟨_, rfl⟩
      obtain ⟨z, hz⟩ := hone
      simp only [ruleSliceLoop, hz, hy, Res.bind_ok]
      exact ⟨_, rfl⟩

theorem sliceV2_answers {b s x O : List Int} (hx : ∀ a ∈ x, 0 ≤ a ∧ a < 2 ^ 31) (hs : ∀ v ∈ s, -2147483648 ≤ v ∧ v ≤ 2147483647)
    (hop : Exec.sliceV2 b s x = .ok O) : ∃ p, ruleSliceV2 b s x = .ok (some p) := by
  unfold Exec.sliceV2 at hop
  have e1 : s.map Exec.clampInt = s := by
    conv_rhs => rw [← List.map_id s]
    exact List.map_congr_left fun v hv => clampInt_id (hs v hv)
  have e2 : s.map wrapInt = s := by
    conv_rhs => rw [← List.map_id s]
    exact List.map_congr_left fun v hv => wrapInt_id (hs v hv)
  rw [e1] at hop
  unfold Exec.slice at hop
  split at hop
  · cases hop
  rename_i hl
  simp only [List.length_map, ne_eq, not_or, Decidable.not_not] at hl
  have hb := begins_small (fun a ha => (hx a ha).2) (by omega) hl.2 hop
  have e3 : b.map Exec.clampInt = b := by
    conv_rhs => rw [← List.map_id b]
    exact List.map_congr_left fun v hv => clampInt_id (hb v hv)
  have e4 : b.map wrapInt = b := by
    conv_rhs => rw [← List.map_id b]
    exact List.map_congr_left fun v hv => wrapInt_id (hb v hv)
  rw [e3] at hop
  obtain ⟨y, hy⟩ := sliceLoop_answers hx (by omega) hl.2 hs hop
  unfold ruleSliceV2 ruleSlice
  rw [e2, e4, if_neg (by omega), if_neg (by omega), hy]
  exact ⟨_, rfl⟩

theorem scaleKnown_answers {rnd : Rat → Rat} (hr : SignRound rnd) {c : Rat} (hc : 0 ≤ c) {a H : Int} (hop : Exec.floorScaled rnd c a = .ok H) :
    ∃ h, scaleKnown rnd c a = .ok h := by
  unfold scaleKnown
  split
  · rename_i h0
    unfold truncInt
    have n1 : (0 : Rat) ≤ rnd a := hr.2 _ (by exact_mod_cast (by omega : 0 ≤ a))
    have n2 := hr.2 _ (mul_nonneg n1 hc)
    rw [if_neg (by linarith)]
    exact ⟨H, hop⟩
  · exact ⟨_, rfl⟩

theorem sample2d_answers {rnd : Rat → Rat} (hrnd : SignRound rnd) {c : Rat} {d : Int} {x O : List Int} (hop : Exec.sample2d rnd c d x = .ok O) :
    ∃ p, ruleSample2d rnd c d x = .ok (some p) := by
  unfold Exec.sample2d at hop
  unfold ruleSample2d
  rw [Int.add_comm d]
  simp only at hop ⊢
  generalize hD : (if d < 0 then (x.length : Int) + d else d) = D at hop ⊢
  split at hop
  · cases hop
  rename_i hc
  split at hop
  · cases hop
  rename_i hd
  rw [if_neg (by omega)]
  simp only [Res.bind_eq_ok] at hop
  obtain ⟨A, hA, H, hH, B, hB, W, hW, -⟩ := hop
  have hc0 : (0 : Rat) ≤ c := by
    have : (1 : Rat) / 100000 ≤ c := by simpa using hc
    linarith
  obtain ⟨h, hh⟩ := scaleKnown_answers hrnd hc0 hH
  obtain ⟨w, hw⟩ := scaleKnown_answers hrnd hc0 hW
  rw [hA, Res.bind_ok, hh, Res.bind_ok, hB, Res.bind_ok, hw, Res.bind_ok]
  exact ⟨_, rfl⟩

theorem scaleLoop_answers {rnd : Rat → Rat} (hr : SignRound rnd) {x s : List Int} {c : List Rat} (hx : ∀ a ∈ x, 0 ≤ a)
    (hk : ∀ (i : Nat) a t, x[i]? = some a → c[i]? = some t → 0 < a → 1 ≤ scaledBy rnd t a)
    (hs : Exec.floorLoop rnd x c = .ok s) : ∃ o, scaleLoop rnd x c = .ok o := by
  induction x generalizing s c with
  | nil => exact ⟨_, rfl⟩
  | cons a x ih =>
    cases c with
    | nil => exact ⟨_, rfl⟩
    | cons t c =>
      simp only [Exec.floorLoop, Res.bind_eq_ok] at hs
      obtain ⟨H, hH, s', hs', -⟩ := hs
      obtain ⟨o, ho⟩ := ih (fun a ha => hx a (by simp [ha])) (fun i a t h1 h2 => hk (i + 1) a t (by simpa using h1) (by simpa using h2)) hs'
      have h1 : ∃ y, truncInt (rnd (rnd a * t)) = .ok y := by
        unfold truncInt
        have : ¬ rnd (rnd a * t) < 0 := by
          rcases (hx a (by simp)).lt_or_eq with hp | rfl
          · have := hk 0 a t rfl rfl hp
            unfold scaledBy at this
            linarith
          · simp [hr.1]
        rw [if_neg this]
        exact ⟨H, hH⟩
      obtain ⟨y, hy⟩ := h1
      simp only [scaleLoop, hy, ho, Res.bind_ok]
      exact ⟨_, rfl⟩

theorem winograd_answers {m : String} {x O : List Int} (hop : Exec.winograd m x = .ok O) : ∃ p, ruleWinograd m x = .ok (some p) := by
  unfold Exec.winograd at hop
  unfold ruleWinograd
  split at hop
  · rename_i n a b c d hm
    rw [hm]
    exact ⟨_, rfl⟩
  · cases hop

theorem ruleConvDim_answers {w : ConvAttrs} {d : Nat} {x k y : Int} (hx : 0 ≤ x ∧ x < 2 ^ 31) (hp : 0 ≤ w.pad (2 * d) ∧ 0 ≤ w.pad (2 * d + 1))
    (h : convForward x (w.pad (2 * d)) (w.pad (2 * d + 1)) k (w.stride d) (w.dilation d) = .ok y) : ruleConvDim w d x k = .ok y := by
  unfold ruleConvDim
  rw [if_neg (by omega)]
  unfold convForward at h ⊢
  simp only [Res.bind_eq_ok] at h
  obtain ⟨a, ha, b, hb, h⟩ := h
  obtain ⟨rfl, ha'⟩ := of_int32 ha
  obtain ⟨rfl, hb'⟩ := of_int32 hb
  rw [int32_of (by omega), Res.bind_ok, int32_of (by omega), Res.bind_ok, int32_of (by omega), Res.bind_ok]
  rw [show x + (w.pad (2 * d) + w.pad (2 * d + 1)) + 0 = x + w.pad (2 * d) + w.pad (2 * d + 1) by ring]
  simp only [Res.bind_eq_ok]
  exact h

theorem rulePoolDim_answers {rnd : Rat → Rat} {w : ConvAttrs} {d : Nat} {x y : Int} (hx : 0 ≤ x ∧ x < 2 ^ 31)
    (hp : 0 ≤ w.pad (2 * d) ∧ 0 ≤ w.pad (2 * d + 1))
    (h : poolForward rnd x (w.pad (2 * d)) (w.pad (2 * d + 1)) (w.ksize d) (w.stride d) = .ok y) : rulePoolDim rnd w d x = .ok y := by
  unfold rulePoolDim
  rw [if_neg (by omega)]
  unfold poolForward at h ⊢
  simp only [Res.bind_eq_ok] at h
  obtain ⟨a, ha, b, hb, h⟩ := h
  obtain ⟨rfl, ha'⟩ := of_int32 ha
  obtain ⟨rfl, hb'⟩ := of_int32 hb
  rw [int32_of (by omega), Res.bind_ok, int32_of (by omega), Res.bind_ok, int32_of (by omega), Res.bind_ok]
  rw [show x + (w.pad (2 * d) + w.pad (2 * d + 1)) + 0 = x + w.pad (2 * d) + w.pad (2 * d + 1) by ring]
  simp only [Res.bind_eq_ok]
  exact h

theorem conv2d_answers {w : ConvAttrs} {x k O : List Int} (hx : ∀ a ∈ x, 0 ≤ a ∧ a < 2 ^ 31) (hp : ∀ i, 0 ≤ w.pad i)
    (hop : conv2dShape .nchw w x k = .ok O) :
    ∃ x0 x1 x2 x3 k0 k1 k2 k3 h v, x = [x0, x1, x2, x3] ∧ k = [k0, k1, k2, k3] ∧ k1 = x1 ∧ ruleConvDim w 2 x2 k2 = .ok h ∧
      ruleConvDim w 3 x3 k3 = .ok v := by
  unfold conv2dShape at hop
  split at hop
  · rename_i x0 x1 x2 x3 k0 k1 k2 k3
    split at hop
    · cases hop
    rename_i hk
    simp only [Res.bind_eq_ok] at hop
    obtain ⟨h, hh, v, hv, -⟩ := hop
    exact ⟨x0, x1, x2, x3, k0, k1, k2, k3, h, v, rfl, rfl, by simpa using hk,
      ruleConvDim_answers (hx x2 (by simp)) ⟨hp _, hp _⟩ hh, ruleConvDim_answers (hx x3 (by simp)) ⟨hp _, hp _⟩ hv⟩
  · cases hop

theorem depthwise_answers {w : ConvAttrs} {x k O : List Int} (hx : ∀ a ∈ x, 0 ≤ a ∧ a < 2 ^ 31) (hp : ∀ i, 0 ≤ w.pad i)
    (hop : Exec.depthwise .nchw w x k = .ok O) : ∃ p, ruleDepthwise .nchw w x k = .ok (some p) := by
  unfold Exec.depthwise at hop
  simp only [Res.bind_eq_ok] at hop
  obtain ⟨y, hy, k0, hk0, hop⟩ := hop
  obtain ⟨x0, x1, x2, x3, k0', k1, k2, k3, h, v, rfl, rfl, rfl, hh, hv⟩ := conv2d_answers hx hp hy
  simp only [sizeAt, List.getElem?_cons_zero, Res.ok.injEq] at hk0
  subst hk0
  split at hop
  · cases hop
  simp only [Res.bind_eq_ok] at hop
  obtain ⟨c, hc, n, hn, -⟩ := hop
  simp only [sizeAt, List.getElem?_cons_succ, List.getElem?_cons_zero, Res.ok.injEq] at hc
  subst hc
  rw [Int.mul_comm] at hn
  simp [ruleDepthwise, sizeAt, hn, hh, hv]

theorem conv2dV2_answers {w : ConvAttrs} {x k O ps pad : List Int} (hx : ∀ a ∈ x, 0 ≤ a ∧ a < 2 ^ 31) (hp : ∀ a ∈ pad, 0 ≤ a)
    (hl : ps = [4, 2] → pad.length = 8) (hop : Exec.conv2dV2 .nchw w x ps pad k = .ok O) :
    ∃ p, ruleConv2dV2 .nchw w pad x k = .ok (some p) := by
  unfold Exec.conv2dV2 at hop
  split at hop
  · cases hop
  rename_i hs
  have h8 := hl (by simpa using hs)
  have hget : ∀ i, 0 ≤ pad.getD i 0 := by
    intro i
    rw [List.getD_eq_getElem?_getD]
    cases h : pad[i]? with
    | none => simp
    | some v => exact hp v (List.mem_of_getElem? h)
  obtain ⟨x0, x1, x2, x3, k0', k1, k2, k3, h, v, rfl, rfl, rfl, hh, hv⟩ := conv2d_answers hx hget hop
  unfold ruleConv2dV2
  rw [if_neg (by omega)]
  simp only [ruleConv2d, sizeAt, List.getElem?_cons_succ, List.getElem?_cons_zero, Res.bind_ok, hh, hv]
  exact ⟨_, rfl⟩

theorem pooling2dV2_answers {rnd : Rat → Rat} {f : Format} {w : ConvAttrs} {x O ps pad ks ksize ss stride : List Int}
    (hx : ∀ a ∈ x, 0 ≤ a ∧ a < 2 ^ 31) (hp : ∀ a ∈ pad, 0 ≤ a) (hl : ps = [4, 2] → pad.length = 8) (hlk : ks = [4] → ksize.length = 4)
    (hls : ss = [4] → stride.length = 4) (hop : Exec.pooling2dV2 rnd f w x ps pad ks ksize ss stride = .ok O) :
    ∃ p, rulePooling2dV2 rnd f w pad ksize stride x = .ok (some p) := by
  unfold Exec.pooling2dV2 at hop
  split at hop
  · cases hop
  rename_i hs
  simp only [ne_eq, not_or, Decidable.not_not] at hs
  have h8 := hl hs.1
  have h4 := hlk hs.2.1
  have h4' := hls hs.2.2
  unfold rulePooling2dV2
  rw [if_neg (by omega)]
  have hget : ∀ i, 0 ≤ pad.getD i 0 := by
    intro i
    rw [List.getD_eq_getElem?_getD]
    cases h : pad[i]? with
    | none => simp
    | some v => exact hp v (List.mem_of_getElem? h)
  generalize hw : ({ w with pad := fun i => pad.getD i 0, ksize := fun i => ksize.getD i 0, stride := fun i => stride.getD i 0 } : ConvAttrs) = w' at hop ⊢
  have hget' : ∀ i, 0 ≤ w'.pad i := by rw [← hw]; exact hget
  unfold pooling2dShape at hop
  split at hop
  · rename_i x0 x1 x2 x3
    cases f with
    | nchw =>
      simp only [Res.bind_eq_ok] at hop
      obtain ⟨h, hh, v, hv, -⟩ := hop
      have e1 := rulePoolDim_answers (d := 2) (hx x2 (by simp)) ⟨hget' _, hget' _⟩ hh
      have e2 := rulePoolDim_answers (d := 3) (hx x3 (by simp)) ⟨hget' _, hget' _⟩ hv
      simp [rulePooling2d, sizeAt, e1, e2]
    | nhwc =>
      simp only [Res.bind_eq_ok] at hop
      obtain ⟨h, hh, v, hv, -⟩ := hop
      have e1 := rulePoolDim_answers (d := 1) (hx x1 (by simp)) ⟨hget' _, hget' _⟩ hh
      have e2 := rulePoolDim_answers (d := 2) (hx x2 (by simp)) ⟨hget' _, hget' _⟩ hv
      simp [rulePooling2d, sizeAt, e1, e2]
  · cases hop

theorem roiAlign_answers {a b : Int} {x r O : List Int} (hop : Exec.roiAlign a b x r = .ok O) : ∃ p, ruleRoiAlign a b x r = .ok (some p) := by
  unfold Exec.roiAlign at hop
  unfold ruleRoiAlign
  simp only [Res.bind_eq_ok] at hop
  obtain ⟨N, hN, C, hC, -⟩ := hop
  rw [hN, Res.bind_ok, hC]
  exact ⟨_, rfl⟩

/-! ## strided_slice -/

theorem ruleDim_answers {x b e s n b' e' : Int} {bf ef : Bool} (hx : 0 ≤ x) (hop : sliceDim x b e s bf ef = .ok (n, b', e')) :
    ∃ r, ruleDim x b e s bf ef = .ok r := by
  unfold sliceDim at hop
  unfold ruleDim
  rw [if_pos hx]
  simp only [Res.bind_eq_ok] at hop
  obtain ⟨u, hu, hop⟩ := hop
  rw [hu, Res.bind_ok]
  cases u with
  | none => exact ⟨_, rfl⟩
  | some u =>
    simp only [Res.bind_eq_ok] at hop
    obtain ⟨v, hv, hop⟩ := hop
    simp only
    rw [hv, Res.bind_ok]
    cases v with
    | none => exact ⟨_, rfl⟩
    | some v =>
      simp only [Res.bind_eq_ok] at hop
      obtain ⟨m, hm, -⟩ := hop
      simp only
      unfold ruleCount
      split
      · exact ⟨_, rfl⟩
      · exact ⟨_, hm⟩

theorem ruleDim_whole_answers {x : Int} (hx : 0 ≤ x ∧ x < 2 ^ 31) : ∃ r, ruleDim x 0 0 1 true true = .ok r := by
  unfold ruleDim
  rw [if_pos hx.1]
  simp only [sliceBegin, sliceEnd, ruleCount, sliceCount]
  simp
  split
  · rw [int32_of (by omega), Res.bind_ok]
    unfold div32
    rw [if_neg (by omega), int32_of (by simp; omega), Res.bind_ok]
    rw [int32_of (by simp; omega)]
    exact ⟨_, rfl⟩
  · exact ⟨_, rfl⟩

theorem rest_answers {bm em i : Nat} {x : List Int} (hx : ∀ a ∈ x, 0 ≤ a ∧ a < 2 ^ 31) : ∃ o, ruleStridedLoop bm em i x [] [] [] = .ok o := by
  induction x generalizing i with
  | nil => exact ⟨_, rfl⟩
  | cons a x ih =>
    obtain ⟨r, hr⟩ := ruleDim_whole_answers (hx a (by simp))
    obtain ⟨o, ho⟩ := ih (i := i + 1) (fun b hb => hx b (by simp [hb]))
    simp only [ruleStridedLoop, hr, ho, Res.bind_ok]
    exact ⟨_, rfl⟩

theorem dims_answers {bm em bm' em' i : Nat} {xs bs es ss tx tb te ts rest ns bo : List Int} (hx : ∀ a ∈ xs, 0 ≤ a ∧ a < 2 ^ 31)
    (hrest : ∀ a ∈ rest, 0 ≤ a ∧ a < 2 ^ 31) (h1 : bs.length = xs.length) (h2 : es.length = xs.length) (h3 : ss.length = xs.length)
    (hb : ∀ j, j < i + xs.length → bit bm' j = bit bm j ∧ bit em' j = bit em j)
    (hop : sliceDims bm' em' i (xs ++ tx) (bs ++ tb) (es ++ te) (ss ++ ts) = .ok (ns, bo)) :
    ∃ rs, ruleStridedLoop bm em i (xs ++ rest) bs es ss = .ok rs := by
  induction xs generalizing i bs es ss ns bo with
  | nil =>
    cases bs with
    | cons _ _ => simp at h1
    | nil =>
    cases es with
    | cons _ _ => simp at h2
    | nil =>
    cases ss with
    | cons _ _ => simp at h3
    | nil => exact rest_answers hrest
  | cons x xs ih =>
    match bs, es, ss, h1, h2, h3 with
    | b :: bs, e :: es, s :: ss, h1, h2, h3 =>
      simp only [List.cons_append, sliceDims, Res.bind_eq_ok] at hop
      obtain ⟨⟨n, b', e'⟩, hd, ⟨ns', bo'⟩, hrec, -⟩ := hop
      obtain ⟨q1, q2⟩ := hb i (by simp)
      rw [q1, q2] at hd
      obtain ⟨r, hr⟩ := ruleDim_answers (hx x (by simp)).1 hd
      obtain ⟨rs, hrs⟩ := ih (fun a ha => hx a (by simp [ha])) (by simpa using h1) (by simpa using h2) (by simpa using h3)
        (fun j hj => hb j (by simp; omega)) hrec
      simp only [List.cons_append, ruleStridedLoop, hr, hrs, Res.bind_ok]
      exact ⟨_, rfl⟩

theorem strided_answers {b e s : List Int} {bm em sm : Nat} {x O : List Int} (hx : ∀ a ∈ x, 0 ≤ a ∧ a < 2 ^ 31)
    (hop : Exec.stridedSlice b e s bm em sm x = .ok O) : ∃ p, ruleStrided b e s bm em sm x = .ok (some p) := by
  unfold Exec.stridedSlice at hop
  simp only [Res.bind_eq_ok] at hop
  obtain ⟨pl, hpl, -, -, -⟩ := hop
  unfold slicePlan at hpl
  simp only [ellipsis_none, insertAxes_none, Res.bind_ok] at hpl
  split at hpl
  · cases hpl
  rename_i hl
  split at hpl
  · cases hpl
  unfold ruleStrided
  split at hpl
  · rename_i hlt
    simp only [Res.bind_eq_ok] at hpl
    obtain ⟨q, hq, ⟨ns, bs⟩, hd, -⟩ := hpl
    rw [if_neg (by omega), if_neg (by omega), if_neg (by omega)]
    have hlen : (x.take b.length).length = b.length := by simp; omega
    obtain ⟨y, hy⟩ := dims_answers (bm := bm) (em := em) (xs := x.take b.length) (bs := b) (es := e) (ss := s) (rest := x.drop b.length)
      (fun a ha => hx a (List.mem_of_mem_take ha)) (fun a ha => hx a (List.mem_of_mem_drop ha)) (by omega) (by omega) (by omega)
      (fun j hj => ⟨bit_high (by omega), bit_high (by omega)⟩) hd
    rw [List.take_append_drop] at hy
    rw [hy]
    exact ⟨_, rfl⟩
  · rename_i hlt
    split at hpl
    · cases hpl
    rename_i heq
    simp only [Res.bind_eq_ok] at hpl
    obtain ⟨⟨ns, bs⟩, hd, -⟩ := hpl
    rw [if_neg (by omega), if_neg (by omega), if_neg (by omega)]
    obtain ⟨y, hy⟩ := dims_answers (bm := bm) (em := em) (bm' := bm) (em' := em) (i := 0) (xs := x) (bs := b) (es := e) (ss := s) (rest := []) (tx := []) (tb := [])
      (te := []) (ts := []) (ns := ns) (bo := bs)
      hx (by simp) (by omega) (by omega) (by omega) (fun j hj => ⟨rfl, rfl⟩) (by simpa using hd)
    rw [List.append_nil] at hy
    rw [hy]
    exact ⟨_, rfl⟩

end Verif.Runtime.Infer3
