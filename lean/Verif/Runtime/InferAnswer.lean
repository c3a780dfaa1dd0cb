import Verif.Runtime.InferAnswer3
/-!
# When the rules of Verif/Runtime/InferRules.lean answer

As in Verif/Runtime/InferAnswer3.lean: for operands that are known completely. The lemmas are used in Verif/Props/InferAnswer.lean.
-/
namespace Verif.Runtime.Infer
open Verif.Core hiding Fits
open Verif.Kernels Verif.Runtime.Infer3

theorem squeezeLoop_answers {n : Nat} {axes y O : List Int} (hy : y.length ≤ n) (ha : ∀ a ∈ axes, 0 ≤ a) (h : overAxes squeezeStep axes y = .ok O) :
    ∃ p, ruleSqueezeLoop n axes y = .ok (some p) := by
  induction axes generalizing y with
  | nil => exact ⟨y, rfl⟩
  | cons a as ih =>
    simp only [overAxes, Res.bind_eq_ok] at h
    obtain ⟨s, hs, h⟩ := h
    have h0 := ha a (by simp)
    unfold squeezeStep at hs
    simp only [if_pos h0] at hs
    split at hs
    · cases hs
    rename_i hr
    have hs' : s = y.eraseIdx a.toNat := by
      split at hs
      · exact (Res.ok.inj hs).symm
      · cases hs
    subst hs'
    unfold ruleSqueezeLoop
    simp only
    rw [if_neg (by omega : ¬ a < 0), if_neg (by omega), if_neg (by omega)]
    exact ih (by have := List.length_eraseIdx_le y a.toNat; omega) (fun b hb => ha b (by simp [hb])) h

theorem squeeze_answers {axes x O : List Int} (h0 : axes ≠ []) (ha : ∀ a ∈ axes, 0 ≤ a) (h : squeezeShape axes x = .ok O) :
    ∃ p, ruleSqueeze axes x = .ok (some p) := by
  unfold squeezeShape at h
  unfold ruleSqueeze
  rw [if_neg h0] at h ⊢
  exact squeezeLoop_answers (Nat.le_refl _) (fun a h => ha a (by simpa using h)) h

theorem unsqueeze_answers {axes x O : List Int} (h : unsqueezeShape axes x = .ok O) : ∃ p, ruleUnsqueeze axes x = .ok (some p) := by
  unfold unsqueezeShape at h
  induction axes generalizing x with
  | nil => exact ⟨x, rfl⟩
  | cons a as ih =>
    simp only [overAxes, Res.bind_eq_ok] at h
    obtain ⟨s, hs, h⟩ := h
    unfold unsqueezeStep at hs
    simp only at hs
    split at hs
    · cases hs
    rename_i hr
    unfold ruleUnsqueeze
    simp only
    rw [if_neg hr]
    split at hs <;> rename_i hc
    · rw [if_pos hc, hs, Res.bind_ok]
      exact ih h
    · rw [if_neg hc, hs, Res.bind_ok]
      exact ih h

theorem insertOnes_len {s : List Int} {i n : Nat} {o : List Int} (h : insertOnes s i n = .ok o) : s.length + n ≤ 7 := by
  unfold insertOnes at h
  split at h
  · cases h
  split at h
  · cases h
  split at h
  · cases h
  omega

theorem expand_answers {inv : Bool} {n : Int} {x : List Int} {t : Tensor} (hx : x.length ≤ 7)
    (h : Core.expand (-1) (-1) inv n (.mk ⟨0, x, []⟩ []) = .ok t) : ∃ p, ruleExpand none none inv n x = .ok (some p) := by
  unfold Core.expand at h
  simp only [Res.bind_eq_ok] at h
  obtain ⟨s, hs, -⟩ := h
  have hn : 0 ≤ n ∧ n ≤ 7 := by
    unfold expandShape at hs
    split at hs
    · cases hs
    rename_i h0
    refine ⟨by omega, ?_⟩
    simp only at hs
    split at hs
    · cases hs
    rename_i h1
    split at hs
    · rename_i h2
      have : x.length = n.toNat := h2
      omega
    split at hs
    · cases hs
    have e : ∀ i, insertOnes x i (n.toNat - x.length) = .err ∨ insertOnes x i (n.toNat - x.length) = .ub ∨ x.length + (n.toNat - x.length) ≤ 7 := by
      intro i
      cases hh : insertOnes x i (n.toNat - x.length) with
      | err => exact .inl rfl
      | ub => exact .inr (.inl rfl)
      | ok o => exact .inr (.inr (insertOnes_len hh))
    have h1' : ¬ x.length > n.toNat := h1
    split at hs <;> simp only [expandEnd, expandFront, Tensor.own, if_pos (by decide : (-1 : Int) < 0)] at hs
    · rcases e x.length with e | e | e
      · rw [e] at hs; cases hs
      · rw [e] at hs; cases hs
      · omega
    · rcases e 0 with e | e | e
      · rw [e] at hs; cases hs
      · rw [e] at hs; cases hs
      · omega
  have k1 : ∀ y, ∃ z, ruleExpandEnd n n y = .ok z := by
    intro y
    unfold ruleExpandEnd
    split
    · exact ⟨_, rfl⟩
    · rw [if_neg (by omega)]; exact ⟨_, rfl⟩
  have k2 : ∀ y, ∃ z, ruleExpandFront n n y = .ok z := by
    intro y
    unfold ruleExpandFront
    split
    · exact ⟨_, rfl⟩
    · rw [if_neg (by omega)]; exact ⟨_, rfl⟩
  unfold ruleExpand
  simp only [Option.getD_none]
  split
  · obtain ⟨y, hy⟩ := k1 x
    obtain ⟨z, hz⟩ := k2 y
    rw [hy, Res.bind_ok, hz]
    exact ⟨_, rfl⟩
  · obtain ⟨y, hy⟩ := k2 x
    obtain ⟨z, hz⟩ := k1 y
    rw [hy, Res.bind_ok, hz]
    exact ⟨_, rfl⟩

theorem permLoop_answers {x q O : List Int} (h : permLoop x q = .ok O) : ∃ p, rulePermLoop x q = some p := by
  induction q generalizing O with
  | nil => exact ⟨[], rfl⟩
  | cons k ks ih =>
    simp only [permLoop, Res.bind_eq_ok] at h
    obtain ⟨v, hv, h⟩ := h
    split at h
    · simp only [Res.bind_eq_ok] at h
      obtain ⟨r, hr, -⟩ := h
      obtain ⟨p, hp⟩ := ih hr
      unfold getIdx at hv
      split at hv
      · rename_i hk
        split at hv
        · rename_i w hw
          unfold rulePermLoop
          rw [if_neg (by omega), hw, hp]
          exact ⟨_, rfl⟩
        · cases hv
      · cases hv
    · cases h

theorem transpose_answers {q x O m p : List Int} (hq : q ≠ []) (hm : initPermute (some q) = .ok m) (hp : getPermute m x.length = .ok p)
    (h : permutedShape x p = .ok O) : ∃ y, ruleTranspose (some q) x = .ok (some y) := by
  have e1 : m = q := by
    unfold initPermute at hm
    simp only at hm
    split at hm
    · exact (Res.ok.inj hm).symm
    · cases hm
  subst e1
  have e2 : p = m := by
    unfold getPermute at hp
    rw [if_pos hq] at hp
    split at hp
    · cases hp
    · exact (Res.ok.inj hp).symm
  subst e2
  unfold permutedShape at h
  simp only [Res.bind_eq_ok] at h
  obtain ⟨f, hf, h⟩ := h
  split at h
  · cases h
  obtain ⟨y, hy⟩ := permLoop_answers h
  unfold ruleTranspose
  simp only [hf, Res.bind_ok, hy]
  exact ⟨_, rfl⟩

theorem argmax_answers {d : Int} {x O : List Int} (h : argmaxShape d x = .ok O) : ∃ y, ruleArgmax d x = .ok (some y) := by
  unfold argmaxShape at h
  unfold ruleArgmax
  simp only at h ⊢
  generalize (if d < 0 then d + (x.length : Int) else d) = e at h ⊢
  split at h
  · rw [if_neg (by omega)]; exact ⟨_, rfl⟩
  · cases h

theorem gather_answers {a : Int} {x i O : List Int} (h : gatherShape a x i = .ok O) : ∃ y, ruleGather a x i = .ok (some y) := by
  unfold gatherShape at h
  unfold ruleGather
  simp only at h ⊢
  rw [Int.add_comm a]
  split at h
  · cases h
  split at h
  · cases h
  rename_i h1 h2
  rw [if_neg (by split <;> omega), h]
  exact ⟨_, rfl⟩

theorem stack_answers {a : Int} {xs : List (List Int)} {O : List Int} (h : stackShape a xs = .ok O) : ∃ y, ruleStack a xs = .ok (some y) := by
  unfold stackShape at h
  unfold ruleStack
  cases xs with
  | nil => cases h
  | cons x ys =>
    simp only at h ⊢
    split at h
    · cases h
    have e : (if a ≥ 0 then a else (x.length : Int) + 1 + a) = if a ≥ 0 then a else (x.length : Int) + a + 1 := by split <;> omega
    rw [e] at h
    generalize (if a ≥ 0 then a else (x.length : Int) + a + 1) = b at h ⊢
    split at h
    · cases h
    rw [if_neg (by omega), h]
    exact ⟨_, rfl⟩

theorem tileMul_answers {y r O : List Int} (hy : ∀ a ∈ y, 0 ≤ a) (h : tileMul y r = .ok O) : ruleTileMul y r = .ok O := by
  induction y generalizing r O with
  | nil => exact h
  | cons a y ih =>
    cases r with
    | nil => exact h
    | cons b r =>
      simp only [tileMul, Res.bind_eq_ok] at h
      obtain ⟨p, hp, l, hl, h⟩ := h
      unfold ruleTileMul
      rw [if_neg (by have := hy a (by simp); omega), hp, Res.bind_ok, ih (fun c hc => hy c (by simp [hc])) hl]
      exact h

theorem tile_answers {r x O : List Int} (hx : ∀ a ∈ x, 0 ≤ a) (h : tileShape r x = .ok O) : ∃ y, ruleTile r x = .ok (some y) := by
  unfold tileShape at h
  split at h
  · cases h
  simp only [Res.bind_eq_ok] at h
  obtain ⟨r', hr, y, hy, h⟩ := h
  unfold ruleTile
  rw [hr, Res.bind_ok, hy, Res.bind_ok]
  have hy0 : ∀ a ∈ y, 0 ≤ a := by
    unfold tilePad at hy
    split at hy
    · cases hy
    · cases hy
      intro a ha
      simp only [List.mem_append, List.mem_replicate] at ha
      rcases ha with ⟨-, rfl⟩ | ha
      · decide
      · exact hx a ha
  rw [tileMul_answers hy0 h]
  exact ⟨_, rfl⟩

theorem padLoop_answers {x p O : List Int} (hx : ∀ a ∈ x, 0 ≤ a) (h : padLoop x p = .ok O) : ∃ y, rulePadLoop x p = .ok y := by
  induction x generalizing p O with
  | nil => cases p with
    | nil => exact ⟨_, rfl⟩
    | cons a p => exact ⟨[], by cases p <;> rfl⟩
  | cons c x ih =>
    rcases p with _ | ⟨a, _ | ⟨b, p⟩⟩
    · exact ⟨_, rfl⟩
    · exact ⟨_, rfl⟩
    · simp only [padLoop, Res.bind_eq_ok] at h
      obtain ⟨q, hq, v, hv, l, hl, -⟩ := h
      obtain ⟨y, hy⟩ := ih (fun a ha => hx a (by simp [ha])) hl
      unfold rulePadLoop
      rw [if_neg (by have := hx c (by simp); omega), hq]
      simp only [Res.bind_ok]
      rw [hv, Res.bind_ok, hy]
      exact ⟨_, rfl⟩

theorem pad_answers {x ps p O : List Int} (hx : ∀ a ∈ x, 0 ≤ a) (hp : (p.length : Int) = ps.prod) (h : padShapeOp x ps p = .ok O) :
    ∃ y, rulePad p x = .ok (some y) := by
  unfold padShapeOp at h
  split at h
  · rename_i n two
    split at h
    · cases h
    rename_i h2
    split at h
    · cases h
    rename_i hn
    obtain ⟨y, hy⟩ := padLoop_answers hx h
    simp only [List.prod_cons, List.prod_nil, mul_one] at hp
    have h2' : two = 2 := by simpa using h2
    have hn' : n = (x.length : Int) := by simpa using hn
    subst h2' hn'
    unfold rulePad
    rw [if_neg (by push_neg; omega), hy]
    exact ⟨_, rfl⟩
  · cases h

theorem innerProd_answers {t : Bool} {a b O : List Int} (h : innerProdShape t a b = .ok O) : ∃ y, ruleInnerProd t a b = .ok (some y) := by
  unfold innerProdShape at h
  cases a with
  | nil => cases h
  | cons n a =>
    have : ∃ c, sizeAt b (if t then 0 else 1) = .ok c := by
      simp only at h
      have key : ∀ l', innerProd2 t l' b = .ok O → ∃ c, sizeAt b (if t then 0 else 1) = .ok c := by
        intro l' hl
        unfold innerProd2 at hl
        split at hl
        · cases t <;> exact ⟨_, rfl⟩
        · cases hl
      split at h
      · simp only [Res.bind_eq_ok] at h
        obtain ⟨l', -, h⟩ := h
        exact key _ h
      · exact key _ h
    obtain ⟨c, hc⟩ := this
    unfold ruleInnerProd
    rw [show sizeAt (n :: a) 0 = .ok n from rfl, Res.bind_ok, hc]
    exact ⟨_, rfl⟩

theorem gemm_answers {ta tb : Bool} {a b c O : List Int} (h : gemmShape ta tb a b c = .ok O) : ∃ y, ruleGemm ta tb a b = .ok (some y) := by
  unfold gemmShape at h
  split at h
  · cases ta <;> cases tb <;> exact ⟨_, rfl⟩
  · cases h

theorem globalPool_answers {f : Format} {x O : List Int} (h : globalPoolShape f x = .ok O) : ∃ y, ruleGlobalPool f x = .ok (some y) := by
  unfold globalPoolShape at h
  split at h
  · cases f <;> exact ⟨_, rfl⟩
  · cases h

theorem pooling2d_answers {rnd : Rat → Rat} {f : Format} {w : ConvAttrs} {x O : List Int} (hx : ∀ a ∈ x, 0 ≤ a ∧ a < 2 ^ 31) (hp : ∀ i, 0 ≤ w.pad i)
    (h : pooling2dShape rnd f w x = .ok O) : ∃ y, rulePooling2d rnd f w x = .ok (some y) := by
  unfold pooling2dShape at h
  split at h
  · rename_i x0 x1 x2 x3
    cases f with
    | nchw =>
      simp only [Res.bind_eq_ok] at h
      obtain ⟨a, ha, v, hv, -⟩ := h
      have e1 := rulePoolDim_answers (d := 2) (hx x2 (by simp)) ⟨hp _, hp _⟩ ha
      have e2 := rulePoolDim_answers (d := 3) (hx x3 (by simp)) ⟨hp _, hp _⟩ hv
      simp only [rulePooling2d, sizeAt, List.getElem?_cons_zero, List.getElem?_cons_succ, Res.bind_ok, e1, e2]
      exact ⟨_, rfl⟩
    | nhwc =>
      simp only [Res.bind_eq_ok] at h
      obtain ⟨a, ha, v, hv, -⟩ := h
      have e1 := rulePoolDim_answers (d := 1) (hx x1 (by simp)) ⟨hp _, hp _⟩ ha
      have e2 := rulePoolDim_answers (d := 2) (hx x2 (by simp)) ⟨hp _, hp _⟩ hv
      simp only [rulePooling2d, sizeAt, List.getElem?_cons_zero, List.getElem?_cons_succ, Res.bind_ok, e1, e2]
      exact ⟨_, rfl⟩
  · cases h

theorem conv2d_rule_answers {w : ConvAttrs} {x k O : List Int} (hx : ∀ a ∈ x, 0 ≤ a ∧ a < 2 ^ 31) (hp : ∀ i, 0 ≤ w.pad i)
    (hop : conv2dShape .nchw w x k = .ok O) : ∃ p, ruleConv2d .nchw w x k = .ok (some p) := by
  obtain ⟨x0, x1, x2, x3, k0, k1, k2, k3, h, v, rfl, rfl, rfl, hh, hv⟩ := conv2d_answers hx hp hop
  simp only [ruleConv2d, sizeAt, List.getElem?_cons_zero, List.getElem?_cons_succ, Res.bind_ok, hh, hv]
  exact ⟨_, rfl⟩

/-- the sum of the rule is the sum of the execution -/
theorem concatLoop_answers {d : Nat} {s0 : List Nat} {xs : List (List Int)} {acc n : Nat} (hd : d < s0.length) (hx : ∀ x ∈ xs, ∀ a ∈ x, 0 ≤ a)
    (h : concatLoop d s0 (xs.map nats) acc = .ok n) : ∃ v, ruleConcatLoop d xs acc = .ok v := by
  induction xs generalizing acc with
  | nil => exact ⟨_, rfl⟩
  | cons x xs ih =>
    simp only [List.map_cons, concatLoop] at h
    split at h
    · cases h
    rename_i hl
    split at h
    · cases h
    split at h
    · rename_i hs
      have hlt : d < x.length := by simp only [nats, List.length_map, ne_eq, Decidable.not_not] at hl; omega
      have h0 := hx x (by simp) _ (List.getElem_mem hlt)
      have e : (nats x).getD d 0 = (x[d]).toNat := by
        simp [nats, List.getD, List.getElem?_map, List.getElem?_eq_getElem hlt]
      rw [e] at h hs
      simp only [ruleConcatLoop, sizeAt, List.getElem?_eq_getElem hlt, Res.bind_ok]
      rw [if_neg (by omega), int32_of (by omega), Res.bind_ok]
      have e2 : (acc : Int) + x[d] = ((acc + (x[d]).toNat : Nat) : Int) := by omega
      rw [e2]
      exact ih (fun y hy => hx y (by simp [hy])) h
    · cases h

theorem concat_answers {dim : Int} {xs : List (List Int)} {O : List Nat} (hx : ∀ x ∈ xs, ∀ a ∈ x, 0 ≤ a)
    (hdim : ∀ x, xs = [x] → -(x.length : Int) ≤ dim ∧ dim < x.length)
    (h : concatInfer dim (xs.map fun x => (⟨0, nats x, []⟩ : Operand Unit)) = .ok O) : ∃ p, ruleConcat dim xs = .ok (some p) := by
  cases xs with
  | nil => cases h
  | cons x xs =>
    have step : ∀ d : Nat, d < x.length → (if dim < 0 then (x.length : Int) + dim else dim) = d →
        (∃ v, ruleConcatLoop d xs (x.getD d 0) = .ok v) → ∃ p, ruleConcat dim (x :: xs) = .ok (some p) := by
      rintro d hd hdd ⟨v, hv⟩
      unfold ruleConcat
      simp only [hdd]
      rw [if_neg (by omega)]
      simp only [Int.toNat_natCast, sizeAt, List.getElem?_eq_getElem hd, Res.bind_ok]
      rw [List.getD, List.getElem?_eq_getElem hd] at hv
      simp only [Option.getD_some] at hv
      rw [hv]
      exact ⟨_, rfl⟩
    cases xs with
    | nil =>
      obtain ⟨h1, h2⟩ := hdim x rfl
      refine step (if dim < 0 then (x.length : Int) + dim else dim).toNat ?_ ?_ ⟨_, rfl⟩ <;> split <;> omega
    | cons y ys =>
      simp only [List.map_cons, concatInfer] at h
      split at h
      · cases h
      simp only [Res.bind_eq_ok] at h
      obtain ⟨d, hd, n, hn, -⟩ := h
      unfold fixDim at hd
      simp only [nats, List.length_map] at hd
      have e : (if dim ≥ 0 then dim else (x.length : Int) + dim) = if dim < 0 then (x.length : Int) + dim else dim := by
        split <;> split <;> omega
      rw [e] at hd
      generalize hD : (if dim < 0 then (x.length : Int) + dim else dim) = D at hd step
      split at hd
      · cases hd
      rename_i hr
      cases hd
      have hlt : D.toNat < x.length := by omega
      refine step D.toNat hlt (by omega) ?_
      have hn' : concatLoop D.toNat (nats x) ((y :: ys).map nats) ((nats x).getD D.toNat 0) = .ok n := by
        simpa only [List.map_cons, List.map_map, Function.comp_def] using hn
      have hv := concatLoop_answers (by simpa [nats] using hlt) (fun z hz => hx z (by simp at hz ⊢; tauto)) hn'
      have h0 := hx x (by simp) _ (List.getElem_mem hlt)
      have e2 : (((nats x).getD D.toNat 0 : Nat) : Int) = x.getD D.toNat 0 := by
        simp [nats, List.getD, List.getElem?_map, List.getElem?_eq_getElem hlt, h0]
      rw [e2] at hv
      exact hv

end Verif.Runtime.Infer
