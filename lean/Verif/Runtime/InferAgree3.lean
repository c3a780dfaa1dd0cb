import Verif.Runtime.InferRules2
import Verif.Runtime.InferAgree2
import Verif.Props.Resize
import Mathlib.Data.Rat.Floor
import Mathlib.Tactic.Positivity
import Mathlib.Tactic.GCongr
import Mathlib.Tactic.NormNum
/-!
# Agreement of the further shape rules with the operators
-/
namespace Verif.Runtime.Infer2
open Verif.Core hiding Fits
open Verif.Kernels Verif.Runtime.Infer Verif.Props

theorem toNat_id {x : List Int} (h : ∀ a ∈ x, 0 ≤ a) : (x.map Int.toNat).map Int.ofNat = x := by
  induction x with
  | nil => rfl
  | cons a x ih =>
    have := h a (by simp)
    simp only [List.map_cons, List.cons.injEq]
    exact ⟨by simp; omega, ih fun b hb => h b (by simp [hb])⟩

/-- the shape that `_resize2d` makes: the wanted extents where they are positive -/
theorem resize2d_eq {x ss size O : List Int} (hx : ∀ a ∈ x, 0 ≤ a) (h : Exec.resize2d x ss size = .ok O) :
    size.length = x.length ∧ O = List.zipWith (fun s a => if s > 0 then s else a) size x := by
  unfold Exec.resize2d at h
  split at h
  · cases h
  rename_i hss
  clear hss
  simp only [Res.bind_eq_ok, Res.ok.injEq] at h
  obtain ⟨⟨i, o⟩, hr, rfl⟩ := h
  have hw := C65_request hr
  have hl : size.length = x.length := by have := hw.rank; simpa using this.symm
  refine ⟨hl, ?_⟩
  simp only
  rw [wanted_asked hw]
  clear hr hw
  induction x generalizing size with
  | nil => cases size <;> simp_all [askedShape]
  | cons a x ih =>
    cases size with
    | nil => simp at hl
    | cons s size =>
      have ha := hx a (by simp)
      have := ih (size := size) (fun b hb => hx b (by simp [hb])) (by simpa using hl)
      simp only [askedShape, List.map_cons, List.zipWith_cons_cons, List.cons.injEq] at this ⊢
      refine ⟨?_, this⟩
      by_cases h0 : 0 < s
      · simp [h0]; omega
      · simp [h0]; omega

theorem zip_fits {size p x : List Int} (h : Fits p x) (hl : size.length = p.length) :
    Fits (List.zipWith (fun s a => if s > 0 then s else a) size p) (List.zipWith (fun s a => if s > 0 then s else a) size x) := by
  induction p generalizing x size with
  | nil => cases x <;> cases size <;> simp_all [Fits]
  | cons a p ih =>
    cases x with
    | nil => simp [Fits] at h
    | cons b x =>
      cases size with
      | nil => simp at hl
      | cons s size =>
        refine ⟨?_, ih h.2 (by simpa using hl)⟩
        intro h0
        by_cases hs : s > 0
        · simp [hs]
        · simp only [hs, if_false] at h0 ⊢
          exact h.1 h0

theorem resize2d_agree {p x ss size o O : List Int} (h : Fits p x) (hx : ∀ a ∈ x, 0 ≤ a) (hop : Exec.resize2d x ss size = .ok O)
    (hr : ruleResize2d size p = .ok (some o)) : Fits o O := by
  obtain ⟨hl, rfl⟩ := resize2d_eq hx hop
  unfold ruleResize2d at hr
  split at hr
  · cases hr
  simp only [Res.ok.injEq, Option.some.injEq] at hr
  subst hr
  exact zip_fits h (by rw [hl, h.length])

theorem nearest_eq {dim : Int} {x size O : List Int} (hx : ∀ a ∈ x, 0 ≤ a) (h : Exec.resizeNearest dim x size = .ok O) :
    ∃ s t, size = [s, t] ∧ 0 ≤ dim ∧ dim.toNat + 1 < x.length ∧ O = (x.set dim.toNat s).set (dim.toNat + 1) t := by
  unfold Exec.resizeNearest at h
  split at h
  · rename_i s t
    split at h
    · cases h
    split at h
    · split at h <;> cases h
    split at h
    · cases h
    rename_i h1 h2 h3
    have hd : dim.toNat + 1 < x.length := by omega
    refine ⟨s, t, rfl, by omega, hd, ?_⟩
    obtain ⟨-, rfl⟩ := resize2d_eq hx h
    have ht : 0 < t := by omega
    have hs : 0 < s := by omega
    generalize dim.toNat = d at hd
    clear h h1 h2 h3
    apply List.ext_getElem?
    intro j
    rw [List.getElem?_zipWith]
    simp only [List.getElem?_set, List.length_set, List.length_replicate, List.getElem?_replicate]
    by_cases hj : j < x.length
    · rw [List.getElem?_eq_getElem hj]
      by_cases e1 : d + 1 = j
      · subst e1
        simp [hj, ht]
      · by_cases e2 : d = j
        · subst e2
          simp [hj, hs]
        · simp [e1, e2, hj]
    · rw [List.getElem?_eq_none (by omega)]
      have e1 : d + 1 ≠ j := by omega
      have e2 : d ≠ j := by omega
      simp [e1, e2, hj]
  · cases h

theorem nearest_agree {dim : Int} {p x size o O : List Int} (h : Fits p x) (hx : ∀ a ∈ x, 0 ≤ a)
    (hop : Exec.resizeNearest dim x size = .ok O) (hr : ruleNearest dim size p = .ok (some o)) : Fits o O := by
  obtain ⟨s, t, rfl, h0, h1, rfl⟩ := nearest_eq hx hop
  simp only [ruleNearest] at hr
  rw [if_neg (show ¬ dim < 0 by omega)] at hr
  split at hr
  · cases hr
  simp only [Res.ok.injEq, Option.some.injEq] at hr
  subst hr
  exact (h.set _ s s fun _ => rfl).set _ t t fun _ => rfl

theorem affine_agree {dim : Int} {p x size o O : List Int} (h : Fits p x) (hop : Exec.affineSample dim x size = .ok O)
    (hr : ruleAffine dim size p = .ok (some o)) : Fits o O := by
  unfold Exec.affineSample at hop
  unfold ruleAffine at hr
  rw [h.length, Int.add_comm dim] at hr
  simp only at hop hr
  generalize (if dim < 0 then (x.length : Int) + dim else dim) = d at hop hr
  split at hop
  · cases hop
  split at hop
  · cases hop
  split at hop
  · simp only [Res.ok.injEq] at hop
    subst hop
    split at hr
    · cases hr
    simp only [Res.ok.injEq, Option.some.injEq] at hr
    subst hr
    exact (h.set _ _ _ fun _ => rfl).set _ _ _ fun _ => rfl
  · cases hop

theorem dimshuffle_agree {dim : Int} {sh p x o O : List Int} (h : Fits p x) (hop : Exec.dimshuffle dim sh x = .ok O)
    (hr : ruleDimshuffle dim sh p = .ok (some o)) : Fits o O := by
  unfold Exec.dimshuffle at hop
  split at hop
  · cases hop
  split at hop
  · cases hop
  split at hop
  · split at hop <;> cases hop
  split at hop
  · cases hop
  simp only [Res.ok.injEq] at hop
  subst hop
  unfold ruleDimshuffle at hr
  simp only at hr
  rw [if_neg (show ¬ dim < 0 by omega)] at hr
  split at hr
  · cases hr
  simp only [Res.ok.injEq, Option.some.injEq] at hr
  subst hr
  exact h.set _ _ _ fun _ => rfl

/-! ## operators made of `pad` -/

/-- the paddings `p` turn the shape `x` into `y` -/
def PadsTo : List Int → List Int → List Int → Prop
  | [], [], [] => True
  | x :: xs, y :: ys, a :: b :: p => x + (a + b) = y ∧ PadsTo xs ys p
  | _, _, _ => False

theorem padLoop_to {x y p O o : List Int} (hp : PadsTo x y p) (ho : Fits o y) (h0 : ∀ a ∈ o, a ≠ 0) (h : padLoop x p = .ok O) : Fits o O := by
  induction x generalizing y p O o with
  | nil =>
    cases y <;> cases p <;> simp_all [PadsTo, padLoop]
  | cons a x ih =>
    match y, p, hp with
    | b :: y, c :: d :: p, hp =>
      cases o with
      | nil => simp [Fits] at ho
      | cons e o =>
        simp only [padLoop, Res.bind_eq_ok, int32_eq_ok, Res.ok.injEq] at h
        obtain ⟨_, ⟨_, rfl⟩, _, ⟨_, rfl⟩, l, hl, rfl⟩ := h
        refine ⟨?_, ih hp.2 ho.2 (fun a ha => h0 a (by simp [ha])) hl⟩
        intro he
        have h1 := ho.1 he
        have h2 := h0 e (by simp)
        have h3 := hp.1
        rw [if_neg (by omega)]
        omega

theorem padsTo_zero {x y p : List Int} (hp : PadsTo x y p) (hz : ∀ a ∈ p, a = 0) : x = y := by
  induction x generalizing y p with
  | nil => cases y <;> cases p <;> simp_all [PadsTo]
  | cons a x ih =>
    match y, p, hp with
    | b :: y, c :: d :: p, hp =>
      have h1 := hp.1
      have h2 := hz c (by simp)
      have h3 := hz d (by simp)
      rw [ih hp.2 fun a ha => hz a (by simp [ha])]
      congr 1
      omega

theorem padExec_to {x y p O o : List Int} (hp : PadsTo x y p) (ho : Fits o y) (h0 : ∀ a ∈ o, a ≠ 0) (h : Exec.padExec x p = .ok O) : Fits o O := by
  unfold Exec.padExec at h
  split at h
  · rename_i hz
    simp only [Res.ok.injEq] at h
    subst h
    rw [padsTo_zero hp (by simpa using hz)]
    exact ho
  · exact padLoop_to hp ho h0 h

theorem halves_to {x y p : List Int} (hl : x.length = y.length) (h : Exec.halves x y = .ok p) : PadsTo x y p := by
  induction x generalizing y p with
  | nil =>
    cases y with
    | nil => simp only [Exec.halves, Res.ok.injEq] at h; subst h; trivial
    | cons _ _ => simp at hl
  | cons a x ih =>
    cases y with
    | nil => simp at hl
    | cons b y =>
      simp only [Exec.halves, Res.bind_eq_ok, int32_eq_ok, Res.ok.injEq] at h
      obtain ⟨_, ⟨_, rfl⟩, _, ⟨_, rfl⟩, l, hl', rfl⟩ := h
      refine ⟨by omega, ih (by simpa using hl) hl'⟩

theorem limited_length {x l : List Int} (h : x.length = l.length) : (Exec.limited x l).length = x.length := by
  induction x generalizing l with
  | nil => cases l <;> simp_all [Exec.limited]
  | cons a x ih =>
    cases l with
    | nil => simp at h
    | cons b l => simp [Exec.limited, ih (l := l) (by simpa using h)]

theorem limit_zip {p x s : List Int} (h : Fits p x) (hs : s.length = p.length) :
    Fits (List.zipWith (fun s a => if s > 0 ∧ a > s then s else a) s p) (Exec.limited x s) ∧
    ((∀ a ∈ p, a ≠ 0) → ∀ a ∈ List.zipWith (fun s a => if s > 0 ∧ a > s then s else a) s p, a ≠ 0) := by
  induction p generalizing x s with
  | nil => cases x <;> cases s <;> simp_all [Fits, Exec.limited]
  | cons a p ih =>
    cases x with
    | nil => simp [Fits] at h
    | cons b x =>
      cases s with
      | nil => simp at hs
      | cons c s =>
        obtain ⟨i1, i2⟩ := ih h.2 (by simpa using hs)
        refine ⟨⟨?_, i1⟩, ?_⟩
        · show 0 ≤ (if c > 0 ∧ a > c then c else a) → (if c > 0 ∧ a > c then c else a) = if c ≤ 0 ∨ b ≤ c then b else c
          intro h0
          by_cases hc : c > 0 ∧ a > c
          · have e := h.1 (by omega)
            rw [if_pos hc, if_neg (by omega)]
          · rw [if_neg hc] at h0 ⊢
            have e := h.1 h0
            rw [if_pos (by omega), e]
        · intro hp e he
          simp only [List.zipWith_cons_cons, List.mem_cons] at he
          rcases he with rfl | he
          · have := hp a (by simp)
            split <;> omega
          · exact i2 (fun a ha => hp a (by simp [ha])) e he

theorem limit_agree {s p x o O : List Int} (h : Fits p x) (h0 : ∀ a ∈ p, a ≠ 0) (hop : Exec.limit s x = .ok O)
    (hr : ruleLimit s p = .ok (some o)) : Fits o O := by
  unfold ruleLimit at hr
  split at hr
  · cases hr
  rename_i hl
  simp only [ne_eq, Decidable.not_not] at hl
  simp only [Res.ok.injEq, Option.some.injEq] at hr
  subst hr
  have hlx : s.length = x.length := by rw [hl, h.length]
  obtain ⟨z1, z2⟩ := limit_zip h hl
  unfold Exec.limit at hop
  rw [if_neg (by omega)] at hop
  simp only [hlx, Nat.sub_self, List.replicate_zero, List.nil_append] at hop
  split at hop
  · rename_i he
    simp only [Res.ok.injEq] at hop
    subst hop
    rw [he] at z1
    exact z1
  · simp only [Res.bind_eq_ok] at hop
    obtain ⟨q, hq, hop⟩ := hop
    exact padExec_to (halves_to (limited_length hlx.symm).symm hq) z1 (z2 h0) hop

theorem centerCrop_agree {s p x o O : List Int} (h : Fits p x) (h0 : ∀ a ∈ p, a ≠ 0) (hs : ∀ a ∈ s, a ≠ 0) (hop : Exec.centerCrop s x = .ok O)
    (hr : ruleCenterCrop s p = .ok (some o)) : Fits o O := by
  unfold Exec.centerCrop at hop
  split at hop
  · rename_i w g x0 x1 x2 x3
    simp only [Res.bind_eq_ok] at hop
    obtain ⟨q, hq, hop⟩ := hop
    match p, h with
    | [p0, p1, p2, p3], h =>
      simp only [ruleCenterCrop, Res.ok.injEq, Option.some.injEq] at hr
      subst hr
      refine padExec_to (y := [x0, g, w, x3]) (halves_to (by simp) hq) ⟨h.1, fun _ => rfl, fun _ => rfl, h.2.2.2.1, trivial⟩ ?_ hop
      intro a ha
      simp only [List.mem_cons, List.not_mem_nil, or_false] at ha
      rcases ha with rfl | rfl | rfl | rfl
      · exact h0 _ (by simp)
      · exact hs _ (by simp)
      · exact hs _ (by simp)
      · exact h0 _ (by simp)
  · cases hop

theorem cropPads_to {x s p : List Int} {t : Option (List Int)} (hl : s.length = x.length) (ht : ∀ l, t = some l → l.length = x.length)
    (h : Exec.cropPads x s t = .ok p) : PadsTo x (List.zipWith (fun s a => if s > 0 then s else a) s x) p := by
  induction x generalizing s p t with
  | nil =>
    cases s with
    | cons _ _ => simp at hl
    | nil =>
      cases t <;> simp only [Exec.cropPads, Res.ok.injEq] at h <;> subst h <;> trivial
  | cons a x ih =>
    cases s with
    | nil => simp at hl
    | cons b s =>
      cases t with
      | none =>
        simp only [Exec.cropPads, Res.bind_eq_ok] at h
        obtain ⟨r, hr, h⟩ := h
        have hi := ih (by simpa using hl) (by simp) hr
        split at h
        · simp only [Res.ok.injEq] at h
          subst h
          refine ⟨?_, hi⟩
          show _ = if b > 0 then b else a
          rw [if_neg (by omega)]; omega
        · simp only [Res.bind_eq_ok, int32_eq_ok, Res.ok.injEq] at h
          obtain ⟨_, ⟨_, rfl⟩, _, ⟨_, rfl⟩, rfl⟩ := h
          refine ⟨?_, hi⟩
          show _ = if b > 0 then b else a
          rw [if_pos (by omega)]; omega
      | some l =>
        cases l with
        | nil => have := ht [] rfl; simp at this
        | cons c l =>
          have hl' : l.length = x.length := by have := ht _ rfl; simpa using this
          simp only [Exec.cropPads, Res.bind_eq_ok, int32_eq_ok] at h
          obtain ⟨_, ⟨_, rfl⟩, r, hr, h⟩ := h
          have hi := ih (t := some l) (by simpa using hl) (by intro l1 h1; cases h1; exact hl') hr
          split at h
          · simp only [Res.ok.injEq] at h
            subst h
            refine ⟨?_, hi⟩
            show _ = if b > 0 then b else a
            rw [if_neg (by omega)]; omega
          · simp only [Res.bind_eq_ok, int32_eq_ok, Res.ok.injEq] at h
            obtain ⟨_, ⟨_, rfl⟩, _, ⟨_, rfl⟩, rfl⟩ := h
            refine ⟨?_, hi⟩
            show _ = if b > 0 then b else a
            rw [if_pos (by omega)]; omega

theorem zip_ne_zero {s p : List Int} (h0 : ∀ a ∈ p, a ≠ 0) : ∀ a ∈ List.zipWith (fun s a => if s > 0 then s else a) s p, a ≠ 0 := by
  induction p generalizing s with
  | nil => simp
  | cons a p ih =>
    cases s with
    | nil => simp
    | cons b s =>
      intro e he
      simp only [List.zipWith_cons_cons, List.mem_cons] at he
      rcases he with rfl | he
      · have := h0 a (by simp)
        split <;> omega
      · exact ih (fun a ha => h0 a (by simp [ha])) e he

theorem cropNd_agree {t p x s o O : List Int} (h : Fits p x) (h0 : ∀ a ∈ p, a ≠ 0) (hop : Exec.cropNd t x s = .ok O)
    (hr : ruleResize2d s p = .ok (some o)) : Fits o O := by
  unfold Exec.cropNd at hop
  split at hop
  · cases hop
  rename_i hc
  simp only [Decidable.not_not] at hc
  split at hop
  · cases hop
  simp only [Res.bind_eq_ok] at hop
  obtain ⟨q, hq, hop⟩ := hop
  unfold ruleResize2d at hr
  split at hr
  · cases hr
  simp only [Res.ok.injEq, Option.some.injEq] at hr
  subst hr
  refine padExec_to (cropPads_to hc.2 ?_ hq) (zip_fits h (by rw [hc.2, h.length])) (zip_ne_zero h0) hop
  intro l hl
  split at hl
  · cases hl
  · simp only [Option.some.injEq] at hl
    subst hl
    rcases hc.1 with h1 | h1
    · contradiction
    · exact h1

theorem letterbox_agree {s p x o O : List Int} (h : Fits p x) (hop : Exec.letterbox s x = .ok O)
    (hr : ruleLetterbox s p = .ok (some o)) : Fits o O := by
  unfold Exec.letterbox at hop
  split at hop
  · cases hop
  rename_i hx
  simp only [ne_eq, Decidable.not_not] at hx
  match x, hx with
  | [x0, x1, x2, x3], _ =>
    match p, h with
    | [p0, p1, p2, p3], h =>
      split at hop
      · simp only [Exec.affineSample] at hop
        simp at hop
        subst hop
        simp only [ruleLetterbox, Res.ok.injEq, Option.some.injEq] at hr
        subst hr
        exact ⟨h.1, fun _ => rfl, fun _ => rfl, h.2.2.2.1, trivial⟩
      · simp only [Exec.affineSample] at hop
        simp at hop
        subst hop
        simp only [ruleLetterbox, Res.ok.injEq, Option.some.injEq] at hr
        subst hr
        exact ⟨h.1, fun _ => rfl, fun _ => rfl, h.2.2.2.1, trivial⟩
      · cases hop

theorem resize_mid {x0 x1 x2 x3 a b : Int} {O : List Int} (hx : ∀ v ∈ [x0, x1, x2, x3], 0 ≤ v)
    (h : Exec.resize2d [x0, x1, x2, x3] [4] [-1, a, b, -1] = .ok O) : O = [x0, a, b, x3] := by
  have e := (resize2d_eq hx h).2
  unfold Exec.resize2d at h
  split at h
  · cases h
  simp only [Res.bind_eq_ok, Res.ok.injEq] at h
  obtain ⟨⟨i, o⟩, hr, rfl⟩ := h
  have hw := C65_request hr
  have ha : 0 < a ∧ 0 < b := by
    have h2 := hw.two
    simp only [List.length_cons, List.length_nil] at h2
    obtain ⟨s, s1, s2, -⟩ := hw.rows
    obtain ⟨t, t1, t2, -⟩ := hw.cols
    match i, s1, t1 with
    | 0, s1, _ => simp at s1; omega
    | 1, s1, t1 => simp at s1 t1; omega
    | 2, _, t1 => simp at t1; omega
    | i + 3, _, _ => omega
  simp only at e ⊢
  rw [e]
  simp [ha.1, ha.2]

theorem scaleResize_agree {s p x o O : List Int} (h : Fits p x) (hx : ∀ a ∈ x, 0 ≤ a)
    (hk : ∀ (v : Int), s = [v] → ∀ (i : Nat), (i = 1 ∨ i = 2) → ∀ a, p[i]? = some a → 0 ≤ a) (hop : Exec.scaleResize s x = .ok O)
    (hr : ruleScaleResize s p = .ok (some o)) : Fits o O := by
  unfold Exec.scaleResize at hop
  split at hop
  · rename_i x0 x1 x2 x3
    match p, h with
    | [p0, p1, p2, p3], h =>
      split at hop
      · rename_i v
        have k1 := hk v rfl 1 (.inl rfl) p1 rfl
        have k2 := hk v rfl 2 (.inr rfl) p2 rfl
        have e1 := h.2.1 k1
        have e2 := h.2.2.1 k2
        subst e1 e2
        simp only [Res.bind_eq_ok] at hop
        obtain ⟨r, h1, hop⟩ := hop
        have := resize_mid hx hop
        subst this
        simp only [ruleScaleResize, Res.bind_eq_ok, Res.ok.injEq, Option.some.injEq] at hr
        obtain ⟨r', h2, rfl⟩ := hr
        rw [h1, Res.ok.injEq] at h2
        subst h2
        exact ⟨h.1, fun _ => rfl, fun _ => rfl, h.2.2.2.1, trivial⟩
      · have := resize_mid hx hop
        subst this
        simp only [ruleScaleResize, Res.ok.injEq, Option.some.injEq] at hr
        subst hr
        exact ⟨h.1, fun _ => rfl, fun _ => rfl, h.2.2.2.1, trivial⟩
      · cases hop
  · cases hop

/-! ## divided -/

/-- **Specification**: what is assumed of the rounding of `float`: between `2^-40` and `2^40` a number is not changed by more than a factor of two -/
def NearRound (rnd : Rat → Rat) : Prop := ∀ q : Rat, 1 / 2 ^ 40 ≤ q → q ≤ 2 ^ 40 → q / 2 ≤ rnd q ∧ rnd q ≤ 2 * q

theorem roundUp_pos {rnd : Rat → Rat} (hr : NearRound rnd) {x s y : Int} (hx : 1 ≤ x) (hx' : x < 2 ^ 31) (hs : 1 ≤ s) (hs' : s < 2 ^ 31)
    (h : Exec.roundUp rnd x s = .ok y) : y ≠ 0 := by
  unfold Exec.roundUp at h
  split at h
  · cases h
  simp only [Res.bind_eq_ok, int32_eq_ok] at h
  obtain ⟨_, ⟨_, rfl⟩, _, rfl⟩ := h
  have x1 : (1 : Rat) ≤ x := by exact_mod_cast hx
  have x2 : (x : Rat) ≤ 2 ^ 31 := by exact_mod_cast hx'.le
  have s1 : (1 : Rat) ≤ s := by exact_mod_cast hs
  have s2 : (s : Rat) ≤ 2 ^ 31 := by exact_mod_cast hs'.le
  obtain ⟨a1, a2⟩ := hr x (by norm_num; linarith) (by norm_num at x2 ⊢; linarith)
  obtain ⟨b1, b2⟩ := hr s (by norm_num; linarith) (by norm_num at s2 ⊢; linarith)
  norm_num at x2 s2
  have hb : 0 < rnd s := by linarith
  have q1 : 1 / 2 ^ 40 ≤ rnd x / rnd s := by
    rw [le_div_iff₀ hb]; norm_num; linarith
  have q2 : rnd x / rnd s ≤ 2 ^ 40 := by
    rw [div_le_iff₀ hb]; norm_num; linarith
  obtain ⟨c1, -⟩ := hr _ q1 q2
  have c3 : 0 < rnd (rnd x / rnd s) := by
    have : (0 : Rat) < 1 / 2 ^ 40 := by norm_num
    linarith
  have c4 : 0 < ⌈rnd (rnd x / rnd s)⌉ := Int.ceil_pos.2 c3
  exact mul_ne_zero (by omega) (by omega)

theorem divided_loop {rnd : Rat → Rat} (hr : NearRound rnd) {s p x o y : List Int} (h : Fits p x) (hl : s.length = p.length)
    (hs : ∀ a ∈ s, 1 ≤ a ∧ a < 2 ^ 31) (h0 : ∀ a ∈ p, a ≠ 0 ∧ a < 2 ^ 31)
    (hk : ∀ (i : Nat) a b, s[i]? = some a → p[i]? = some b → a ≠ 1 → 0 ≤ b)
    (hy : Exec.dividedLoop rnd x s = .ok y) (ho : Exec.dividedLoop rnd p s = .ok o) : Fits o y ∧ ∀ a ∈ o, a ≠ 0 := by
  induction p generalizing x s o y with
  | nil =>
    cases x with
    | cons _ _ => simp [Fits] at h
    | nil =>
      simp only [Exec.dividedLoop, Res.ok.injEq] at hy ho
      subst hy ho
      exact ⟨trivial, by simp⟩
  | cons a p ih =>
    cases x with
    | nil => simp [Fits] at h
    | cons b x =>
      cases s with
      | nil => simp at hl
      | cons c s =>
        simp only [Exec.dividedLoop, Res.bind_eq_ok, Res.ok.injEq] at hy ho
        obtain ⟨v, hv, l, hl1, rfl⟩ := hy
        obtain ⟨u, hu, k, hl2, rfl⟩ := ho
        obtain ⟨i1, i2⟩ := ih h.2 (by simpa using hl) (fun e he => hs e (by simp [he])) (fun e he => h0 e (by simp [he]))
          (fun i e f h1 h2 => hk (i + 1) e f (by simpa using h1) (by simpa using h2)) hl1 hl2
        have ha := h0 a (by simp)
        have hc := hs c (by simp)
        have hk0 := hk 0 c a rfl rfl
        unfold Exec.dividedOne at hv hu
        by_cases c1 : c = 1
        · subst c1
          simp only [if_true, Res.ok.injEq] at hv hu
          subst hv hu
          refine ⟨⟨h.1, i1⟩, ?_⟩
          intro e he
          simp only [List.mem_cons] at he
          rcases he with rfl | he
          · exact ha.1
          · exact i2 e he
        · rw [if_neg c1] at hv hu
          have e := h.1 (hk0 c1)
          subst e
          rw [hv, Res.ok.injEq] at hu
          subst hu
          refine ⟨⟨fun _ => rfl, i1⟩, ?_⟩
          intro e he
          simp only [List.mem_cons] at he
          rcases he with rfl | he
          · exact roundUp_pos hr (by have := hk0 c1; omega) ha.2 hc.1 hc.2 hv
          · exact i2 e he

theorem dividedLoop_length {rnd : Rat → Rat} {x s y : List Int} (hl : s.length = x.length) (h : Exec.dividedLoop rnd x s = .ok y) :
    y.length = x.length := by
  induction x generalizing s y with
  | nil => simp only [Exec.dividedLoop, Res.ok.injEq] at h; subst h; rfl
  | cons a x ih =>
    cases s with
    | nil => simp at hl
    | cons b s =>
      simp only [Exec.dividedLoop, Res.bind_eq_ok, Res.ok.injEq] at h
      obtain ⟨v, hv, l, hl1, rfl⟩ := h
      simp [ih (by simpa using hl) hl1]

theorem behindPads_to {x y p : List Int} (hl : y.length = x.length) (h : Exec.behindPads x y = .ok p) : PadsTo x y p := by
  induction x generalizing y p with
  | nil =>
    cases y with
    | nil => simp only [Exec.behindPads, Res.ok.injEq] at h; subst h; trivial
    | cons _ _ => simp at hl
  | cons a x ih =>
    cases y with
    | nil => simp at hl
    | cons b y =>
      simp only [Exec.behindPads, Res.bind_eq_ok, int32_eq_ok, Res.ok.injEq] at h
      obtain ⟨_, ⟨_, rfl⟩, l, hl', rfl⟩ := h
      exact ⟨by omega, ih (by simpa using hl) hl'⟩

theorem divided_agree {rnd : Rat → Rat} (hr : NearRound rnd) {s p x o O : List Int} (h : Fits p x) (hs : ∀ a ∈ s, 1 ≤ a ∧ a < 2 ^ 31)
    (h0 : ∀ a ∈ p, a ≠ 0 ∧ a < 2 ^ 31)
    (hk : ∀ (i : Nat) a b, s[i]? = some a → p[p.length - s.length + i]? = some b → a ≠ 1 → 0 ≤ b)
    (hop : Exec.divided rnd s x = .ok O) (hru : ruleDivided rnd s p = .ok (some o)) : Fits o O := by
  unfold Exec.divided at hop
  split at hop
  · cases hop
  rename_i hle
  simp only [Res.bind_eq_ok] at hop
  obtain ⟨y, hy, q, hq, hop⟩ := hop
  unfold ruleDivided at hru
  split at hru
  · cases hru
  simp only [Res.bind_eq_ok, Res.ok.injEq, Option.some.injEq] at hru
  obtain ⟨k, hk', rfl⟩ := hru
  have hlen := h.length
  rw [← hlen] at hy
  obtain ⟨i1, i2⟩ := divided_loop hr h (by simp; omega) (by
      intro a ha
      simp only [List.mem_append, List.mem_replicate] at ha
      rcases ha with ⟨-, rfl⟩ | ha
      · exact ⟨by decide, by decide⟩
      · exact hs a ha) h0 (by
      intro i a b h1 h2 h3
      by_cases hi : i < p.length - s.length
      · rw [List.getElem?_append_left (by simpa using hi)] at h1
        simp [List.getElem?_replicate, hi] at h1
        omega
      · rw [List.getElem?_append_right (by simpa using hi)] at h1
        simp only [List.length_replicate] at h1
        exact hk _ a b h1 (by rw [← h2]; congr 1; omega) h3) hy hk'
  exact padExec_to (behindPads_to (dividedLoop_length (by simp; omega) hy) hq) i1 i2 hop

/-! ## channels, blocks, indices -/

theorem withLast_fits {p x : List Int} (h : Fits p x) (n : Int) : Fits (Exec.withLast p n) (Exec.withLast x n) := by
  unfold Exec.withLast
  rw [h.length]
  exact h.set _ _ _ fun _ => rfl

theorem withLast_self {x : List Int} {c : Int} (h : x.getLast? = some c) : Exec.withLast x c = x := by
  unfold Exec.withLast
  rw [List.getLast?_eq_getElem?] at h
  apply List.ext_getElem?
  intro j
  by_cases hj : j = x.length - 1
  · subst hj
    have : x.length - 1 < x.length := by
      cases x with
      | nil => simp at h
      | cons _ _ => simp
    rw [List.getElem?_set_self this, h]
  · rw [List.getElem?_set_ne (by omega)]

theorem forceColor_agree {p x o O : List Int} (h : Fits p x) (hop : Exec.forceColor x = .ok O) (hr : ruleForce 3 p = .ok (some o)) : Fits o O := by
  unfold ruleForce at hr
  split at hr
  · cases hr
  simp only [Res.ok.injEq, Option.some.injEq] at hr
  subst hr
  unfold Exec.forceColor at hop
  split at hop
  · cases hop
  rename_i c hc
  split at hop
  · rename_i h3
    simp only [Res.ok.injEq] at hop
    subst hop h3
    have := withLast_fits h 3
    rwa [withLast_self hc] at this
  split at hop
  · cases hop
  simp only [Res.ok.injEq] at hop
  subst hop
  exact withLast_fits h 3

theorem forceGray_agree {n : Nat} {p x o O : List Int} (h : Fits p x) (hop : Exec.forceGray n x = .ok O) (hr : ruleForce 1 p = .ok (some o)) : Fits o O := by
  unfold ruleForce at hr
  split at hr
  · cases hr
  simp only [Res.ok.injEq, Option.some.injEq] at hr
  subst hr
  unfold Exec.forceGray at hop
  split at hop
  · cases hop
  rename_i c hc
  split at hop
  · rename_i h3
    simp only [Res.ok.injEq] at hop
    subst hop h3
    have := withLast_fits h 1
    rwa [withLast_self hc] at this
  have : O = Exec.withLast x 1 := by
    split at hop <;> split at hop <;> cases hop <;> rfl
  subst this
  exact withLast_fits h 1

theorem known_fits {a b y Y : Int} {v : Res Int} (h : 0 ≤ a → a = b) (hk : known a v = .ok y) (hv : 0 ≤ a → v = .ok y → y = Y) : 0 ≤ y → y = Y := by
  intro h0
  unfold known at hk
  split at hk
  · simp only [Res.ok.injEq] at hk; omega
  · exact hv (by omega) hk

theorem toNat_ofNat {a : Int} (h : 0 ≤ a) : ((a.toNat : Nat) : Int) = a := by omega

theorem spaceToBatch_agree {pad bl p x o O : List Int} (h : Fits p x) (hx : ∀ a ∈ x, 0 ≤ a) (hop : Exec.spaceToBatch pad bl x = .ok O)
    (hr : ruleSpaceToBatch pad bl p = .ok (some o)) : Fits o O := by
  unfold Exec.spaceToBatch at hop
  split at hop
  · rename_i pt pb pl pr bh bw n c g w
    split at hop
    · cases hop
    rename_i hb
    simp only [Res.bind_eq_ok] at hop
    obtain ⟨hs, hhs, hop⟩ := hop
    split at hop
    · cases hop
    simp only [Res.bind_eq_ok] at hop
    obtain ⟨ws, hws, hop⟩ := hop
    split at hop
    · cases hop
    simp only [Res.bind_eq_ok, Res.ok.injEq] at hop
    obtain ⟨l, hl, rfl⟩ := hop
    have xn := hx n (by simp)
    have xc := hx c (by simp)
    have xg := hx g (by simp)
    have xw := hx w (by simp)
    unfold s2bShape at hl
    simp only [Res.bind_eq_ok, int32_eq_ok] at hl
    obtain ⟨_, ⟨_, rfl⟩, _, ⟨_, rfl⟩, hl⟩ := hl
    split at hl
    · cases hl
    rename_i hn
    simp only [Res.ok.injEq] at hl
    subst hl
    simp only [spanS, Res.bind_eq_ok, int32_eq_ok, toNat_ofNat xg, toNat_ofNat xw] at hhs hws
    obtain ⟨_, ⟨_, rfl⟩, _, rfl⟩ := hhs
    obtain ⟨_, ⟨_, rfl⟩, _, rfl⟩ := hws
    simp only [ruleSpaceToBatch, Res.bind_eq_ok, Res.ok.injEq, Option.some.injEq] at hr
    obtain ⟨a0, ha0, n', hn', a2, ha2, h', hh', a3, ha3, w', hw', a1, ha1, c', hc', rfl⟩ := hr
    have e0 := sizeAt_fits h ha0
    have e1 := sizeAt_fits h ha1
    have e2 := sizeAt_fits h ha2
    have e3 := sizeAt_fits h ha3
    simp at e0 e1 e2 e3
    refine ⟨known_fits e0 hn' ?_, known_fits e1 hc' ?_, known_fits e2 hh' ?_, known_fits e3 hw' ?_, trivial⟩
    · intro k hv
      simp only [Res.bind_eq_ok, int32_eq_ok] at hv
      obtain ⟨_, ⟨_, rfl⟩, _, rfl⟩ := hv
      rw [e0 k]
      simp only [toNat_ofNat xn]
      have : 0 ≤ n * bh * bw := by
        apply Int.mul_nonneg (Int.mul_nonneg xn _) <;> omega
      simp only [Int.ofNat_eq_natCast]
      rw [toNat_ofNat this]
    · intro k hv
      simp only [Res.ok.injEq] at hv
      rw [← hv, e1 k]
      simp only [Int.ofNat_eq_natCast, toNat_ofNat xc]
    · intro k hv
      simp only [Res.bind_eq_ok, int32_eq_ok, div32] at hv
      obtain ⟨_, ⟨_, rfl⟩, _, ⟨_, rfl⟩, hv⟩ := hv
      rw [if_neg (by omega), int32_eq_ok] at hv
      rw [hv.2, e2 k]
      simp only [Int.ofNat_eq_natCast]
      rw [toNat_ofNat (by omega)]
    · intro k hv
      simp only [Res.bind_eq_ok, int32_eq_ok, div32] at hv
      obtain ⟨_, ⟨_, rfl⟩, _, ⟨_, rfl⟩, hv⟩ := hv
      rw [if_neg (by omega), int32_eq_ok] at hv
      rw [hv.2, e3 k]
      simp only [Int.ofNat_eq_natCast]
      rw [toNat_ofNat (by omega)]
  · cases hop

theorem batchToSpace_agree {cr bl p x o O : List Int} (h : Fits p x) (hx : ∀ a ∈ x, 0 ≤ a) (hop : Exec.batchToSpace cr bl x = .ok O)
    (hr : ruleBatchToSpace cr bl p = .ok (some o)) : Fits o O := by
  unfold Exec.batchToSpace at hop
  split at hop
  · rename_i ct cb cl cc bh bw n c g w
    split at hop
    · cases hop
    rename_i hb
    split at hop
    · cases hop
    simp only [Res.bind_eq_ok, int32_eq_ok] at hop
    obtain ⟨_, ⟨_, rfl⟩, hop⟩ := hop
    split at hop
    · cases hop
    simp only [Res.bind_eq_ok, Res.ok.injEq] at hop
    obtain ⟨l, hl, rfl⟩ := hop
    have xn := hx n (by simp)
    have xc := hx c (by simp)
    have xg := hx g (by simp)
    have xw := hx w (by simp)
    simp only [b2sShape, spanB, Res.bind_eq_ok, int32_eq_ok, toNat_ofNat xg, toNat_ofNat xw, toNat_ofNat xn] at hl
    obtain ⟨_, ⟨_, ⟨_, rfl⟩, _, ⟨_, rfl⟩, _, rfl⟩, _, ⟨_, ⟨_, rfl⟩, _, ⟨_, rfl⟩, _, rfl⟩, hl⟩ := hl
    split at hl
    · cases hl
    rename_i hn
    simp only [Res.ok.injEq] at hl
    subst hl
    simp only [ruleBatchToSpace, Res.bind_eq_ok, Res.ok.injEq, Option.some.injEq] at hr
    obtain ⟨a0, ha0, n', hn', a2, ha2, h', hh', a3, ha3, w', hw', a1, ha1, c', hc', rfl⟩ := hr
    have e0 := sizeAt_fits h ha0
    have e1 := sizeAt_fits h ha1
    have e2 := sizeAt_fits h ha2
    have e3 := sizeAt_fits h ha3
    simp at e0 e1 e2 e3
    refine ⟨known_fits e0 hn' ?_, known_fits e1 hc' ?_, known_fits e2 hh' ?_, known_fits e3 hw' ?_, trivial⟩
    · intro k hv
      simp only [Res.bind_eq_ok, int32_eq_ok, div32] at hv
      obtain ⟨_, ⟨_, rfl⟩, hv⟩ := hv
      have hbb : 0 < bh * bw := Int.mul_pos (by omega) (by omega)
      rw [if_neg (by omega), int32_eq_ok] at hv
      rw [hv.2, e0 k]
      simp only [Int.ofNat_eq_natCast]
      rw [toNat_ofNat]
      exact Int.tdiv_nonneg xn (by omega)
    · intro k hv
      simp only [Res.ok.injEq] at hv
      rw [← hv, e1 k]
      simp only [Int.ofNat_eq_natCast, toNat_ofNat xc]
    · intro k hv
      simp only [Res.bind_eq_ok, int32_eq_ok] at hv
      obtain ⟨_, ⟨_, rfl⟩, _, ⟨_, rfl⟩, _, rfl⟩ := hv
      rw [e2 k]
      simp only [Int.ofNat_eq_natCast]
      rw [toNat_ofNat (by omega)]
    · intro k hv
      simp only [Res.bind_eq_ok, int32_eq_ok] at hv
      obtain ⟨_, ⟨_, rfl⟩, _, ⟨_, rfl⟩, _, rfl⟩ := hv
      rw [e3 k]
      simp only [Int.ofNat_eq_natCast]
      rw [toNat_ofNat (by omega)]
  · cases hop

theorem gatherV2_agree {p q x i o O : List Int} (hx : Fits p x) (hi : Fits q i) (hop : Exec.gatherV2 x i = .ok O)
    (hr : ruleGatherV2 p q = .ok (some o)) : Fits o O := by
  unfold ruleGatherV2 at hr
  split at hr
  · cases hr
  rename_i k hk
  split at hr
  · cases hr
  split at hr
  · cases hr
  rename_i hk0
  simp only [Res.bind_eq_ok, Res.ok.injEq, Option.some.injEq] at hr
  obtain ⟨y, hy, rfl⟩ := hr
  unfold Exec.gatherV2 at hop
  split at hop
  · cases hop
  rename_i k' hk'
  split at hop
  · cases hop
  split at hop
  · cases hop
  have hkk : k = k' := by
    rw [List.getLast?_eq_getElem?] at hk hk'
    obtain ⟨b, hb, hab⟩ := hi.get _ _ hk
    rw [← hi.length, hb, Option.some.injEq] at hk'
    rw [hab (by omega), hk']
  subst hkk
  have hd : Fits q.dropLast i.dropLast := by
    rw [List.dropLast_eq_take, List.dropLast_eq_take, hi.length]
    exact hi.take _
  unfold insertRow at hy hop
  split at hy
  · cases hy
  rename_i hy7
  split at hop
  · cases hop
  rename_i hop7
  simp only [Res.ok.injEq] at hy hop
  subst hy hop
  rw [List.take_length, List.drop_length, List.take_length, List.drop_length, List.append_nil, List.append_nil]
  exact hd.append (hx.drop _)

theorem set_eq_insert {x : List Int} {d : Nat} (h : d < x.length) (v : Int) :
    x.set d v = (x.eraseIdx d).take d ++ [v] ++ (x.eraseIdx d).drop d := by
  induction x generalizing d with
  | nil => simp at h
  | cons a x ih =>
    cases d with
    | zero => simp
    | succ d => simpa using ih (d := d) (by simpa using h)

theorem reduce_agree {axis : Int} {k : Bool} {p x o O : List Int} (h : Fits p x) (hop : Exec.reduceAxis [axis] k x = .ok O)
    (hr : ruleReduce [axis] k p = .ok (some o)) : Fits o O := by
  simp only [Exec.reduceAxis] at hop
  simp only [ruleReduce, fixAxes, h.length] at hr
  generalize (if axis < 0 then axis + (x.length : Int) else axis) = d at hop hr
  split at hop
  · cases hop
  rename_i hd
  simp only [Decidable.not_not] at hd
  rw [if_neg (by omega)] at hr
  simp only [Option.map_some, sortDesc, List.foldr_cons, List.foldr_nil, insertDesc, reduceLoop, Res.bind_eq_ok, Res.ok.injEq, Option.some.injEq] at hr
  obtain ⟨y, hy, rfl⟩ := hr
  split at hy
  · cases hy
  have hlt : d.toNat < p.length := by rw [h.length]; omega
  cases k with
  | false =>
    simp at hop hy
    subst hop hy
    exact h.eraseIdx _
  | true =>
    simp only [if_true, Res.ok.injEq] at hop
    subst hop
    simp only [if_true, Res.bind_eq_ok, Res.ok.injEq] at hy
    obtain ⟨z, hz, rfl⟩ := hy
    split at hz
    · cases hz
    unfold insertRow at hz
    split at hz
    · cases hz
    split at hz
    · cases hz
    simp only [Res.ok.injEq] at hz
    subst hz
    rw [← set_eq_insert hlt]
    exact h.set _ _ _ fun _ => rfl

theorem nms_agree {m : Int} {q x s o O : List Int} (h : Fits q s) (hm : ∀ a, q[0]? = some a → 0 ≤ a → m ≤ a) (hop : Exec.nms m x s = .ok O)
    (hr : ruleNms m q = .ok (some o)) : Fits o O := by
  unfold Exec.nms at hop
  split at hop
  · split at hop
    · cases hop
    rename_i hc
    simp only [Res.ok.injEq] at hop
    subst hop
    cases q with
    | nil => simp [Fits] at h
    | cons a q =>
      simp only [ruleNms, Res.ok.injEq, Option.some.injEq] at hr
      subst hr
      refine ⟨fun h0 => ?_, trivial⟩
      have := hm a rfl (by omega)
      omega
  · cases hop

theorem transposeDim_agree {a : ConvAttrs} {i : Nat} {x X k h H : Int} (hx : 0 ≤ x → x = X)
    (hop : convBackward X (a.pad (2 * i)) (a.pad (2 * i + 1)) k (a.stride i) (a.dilation i) = .ok H)
    (hr : ruleTransposeDim a i x k = .ok h) : 0 ≤ h → h = H := by
  intro h0
  unfold ruleTransposeDim at hr
  split at hr
  · simp only [Res.ok.injEq] at hr; omega
  rename_i hx0
  have e := hx (by omega)
  subst e
  unfold convBackward at hop
  simp only [ruleBackward, Res.bind_eq_ok, int32_eq_ok] at hr hop
  obtain ⟨_, ⟨_, rfl⟩, _, ⟨_, rfl⟩, _, ⟨_, rfl⟩, e1, he1, _, ⟨_, rfl⟩, _, rfl⟩ := hr
  obtain ⟨_, ⟨_, rfl⟩, _, ⟨_, rfl⟩, e2, he2, _, ⟨_, rfl⟩, _, ⟨_, rfl⟩, _, rfl⟩ := hop
  rw [he1, Res.ok.injEq] at he2
  omega

theorem transposeConv_agree {a : ConvAttrs} {p q x w o O : List Int} (hx : Fits p x) (hw : Fits q w) (hq : ∀ a ∈ q, 0 ≤ a)
    (hop : Exec.transposeConv .nchw a x w = .ok O) (hr : ruleTransposeConv .nchw a p q = .ok (some o)) : Fits o O := by
  have := hw.eq hq
  subst this
  unfold Exec.transposeConv at hop
  split at hop
  · split at hop
    · cases hop
    simp only [Res.bind_eq_ok, Res.ok.injEq] at hop
    obtain ⟨h, hh, v, hv, rfl⟩ := hop
    simp only [ruleTransposeConv, Res.bind_eq_ok, Res.ok.injEq, Option.some.injEq] at hr
    obtain ⟨a0, ha0, b1, hb1, b2, hb2, b3, hb3, a2, ha2, h', hh', a3, ha3, v', hv', rfl⟩ := hr
    have e0 := sizeAt_fits hx ha0
    have e2 := sizeAt_fits hx ha2
    have e3 := sizeAt_fits hx ha3
    have f1 := sizeAt_ok hb1
    have f2 := sizeAt_ok hb2
    have f3 := sizeAt_ok hb3
    simp at e0 e2 e3 f1 f2 f3
    subst f1 f2 f3
    exact ⟨e0, fun _ => rfl, transposeDim_agree (i := 2) e2 hh hh', transposeDim_agree (i := 3) e3 hv hv', trivial⟩
  · cases hop

theorem sliceLoop_agree {b s p x o O : List Int} (h : Fits p x) (hb : b.length = x.length) (hs : s.length = x.length)
    (hop : Exec.sliceLoop x b s = .ok O) (hr : ruleSliceLoop p b s = .ok o) : Fits o O := by
  induction p generalizing x b s o O with
  | nil =>
    cases x with
    | cons _ _ => simp [Fits] at h
    | nil =>
      simp only [Exec.sliceLoop, ruleSliceLoop, Res.ok.injEq] at hop hr
      subst hop hr
      trivial
  | cons a p ih =>
    cases x with
    | nil => simp [Fits] at h
    | cons c x =>
      cases b with
      | nil => simp at hb
      | cons d b =>
        cases s with
        | nil => simp at hs
        | cons e s =>
          simp only [Exec.sliceLoop, Res.bind_eq_ok, Res.ok.injEq] at hop
          obtain ⟨v, hv, r, hr1, rfl⟩ := hop
          simp only [ruleSliceLoop, Res.bind_eq_ok, Res.ok.injEq] at hr
          obtain ⟨y, hy, l, hl, rfl⟩ := hr
          refine ⟨fun h0 => ?_, ih h.2 (by simpa using hb) (by simpa using hs) hr1 hl⟩
          have h1 := h.1
          clear hr1 hl ih h
          unfold Exec.sliceOne at hv
          unfold ruleSliceOne at hy
          split at hv
          · cases hv
          rename_i hd
          simp only [Decidable.not_not] at hd
          split at hy
          · simp only [Res.ok.injEq] at hy
            subst hy
            rw [if_neg (by omega)] at hv
            simp only [Res.bind_eq_ok] at hv
            obtain ⟨_, _, hv⟩ := hv
            split at hv
            · cases hv
            · simpa using hv
          · have e1 := h1 (by omega)
            subst e1
            rw [if_neg (by omega)] at hy
            simp only [Res.bind_eq_ok, int32_eq_ok] at hy
            obtain ⟨_, ⟨_, rfl⟩, _, rfl⟩ := hy
            split at hv
            · omega
            · simp only [Res.bind_eq_ok, int32_eq_ok] at hv
              obtain ⟨_, ⟨_, rfl⟩, hv⟩ := hv
              split at hv
              · cases hv
              · simp only [Res.ok.injEq] at hv
                omega

theorem slice_agree {b s p x o O : List Int} (h : Fits p x) (hop : Exec.slice b s x = .ok O) (hr : ruleSlice b s p = .ok (some o)) : Fits o O := by
  unfold Exec.slice at hop
  split at hop
  · cases hop
  rename_i hl
  unfold ruleSlice at hr
  split at hr
  · cases hr
  split at hr
  · cases hr
  simp only [Res.bind_eq_ok, Res.ok.injEq, Option.some.injEq] at hr
  obtain ⟨y, hy, rfl⟩ := hr
  exact sliceLoop_agree h (by omega) (by omega) hop hy

theorem whereLoop_agree {c l r o : List Int} {O : List Nat × Bool} (hc : ∀ a ∈ c, 0 ≤ a) (hl : ∀ a ∈ l, 0 ≤ a) (hr : ∀ a ∈ r, 0 ≤ a)
    (hop : whereExtents (c.map Int.toNat) (l.map Int.toNat) (r.map Int.toNat) = .ok O) (hru : ruleWhereLoop c l r = some o) :
    o = O.1.map Int.ofNat := by
  induction c generalizing l r o O with
  | nil =>
    simp only [ruleWhereLoop, Option.some.injEq, List.map_nil, whereExtents, Res.ok.injEq] at hru hop
    subst hru hop
    rfl
  | cons a c ih =>
    cases l with
    | nil =>
      simp only [ruleWhereLoop, Option.some.injEq, List.map_nil, List.map_cons, whereExtents, Res.ok.injEq] at hru hop
      subst hru hop
      rfl
    | cons b l =>
      cases r with
      | nil =>
        simp only [ruleWhereLoop, Option.some.injEq, List.map_nil, List.map_cons, whereExtents, Res.ok.injEq] at hru hop
        subst hru hop
        rfl
      | cons d r =>
        have ha := hc a (by simp)
        have hb := hl b (by simp)
        have hd := hr d (by simp)
        simp only [List.map_cons, whereExtents] at hop
        split at hop
        · cases hop
        simp only [Res.bind_eq_ok, Res.ok.injEq] at hop
        obtain ⟨O', hO', rfl⟩ := hop
        simp only [ruleWhereLoop] at hru
        split at hru
        · cases hru
        rw [Option.map_eq_some_iff] at hru
        obtain ⟨o', ho', rfl⟩ := hru
        have := ih (fun x hx => hc x (by simp [hx])) (fun x hx => hl x (by simp [hx])) (fun x hx => hr x (by simp [hx])) hO' ho'
        simp only [List.map_cons, List.cons.injEq]
        refine ⟨?_, this⟩
        simp only [Int.ofNat_eq_natCast]
        by_cases he : a = b ∧ a = d
        · rw [if_pos he, if_pos (by omega)]; omega
        · rw [if_neg he, if_neg (by omega)]; omega

theorem eltPad_ok {l y : List Int} {n : Nat} (hn : l.length ≤ n) (h : eltPad l n = .ok y) : y = List.replicate (n - l.length) 1 ++ l := by
  unfold eltPad at h
  split at h
  · unfold insertOnes at h
    repeat (split at h; · cases h)
    simp only [Res.ok.injEq] at h
    subst h
    simp
  · rename_i hle
    simp only [Res.ok.injEq] at h
    subst h
    simp [show n - l.length = 0 by omega]

theorem where_agree {c l r o O : List Int} (hc : ∀ a ∈ c, 0 ≤ a) (hl : ∀ a ∈ l, 0 ≤ a) (hr : ∀ a ∈ r, 0 ≤ a) (hop : Exec.whereOp c l r = .ok O)
    (hru : ruleWhere c l r = .ok (some o)) : o = O := by
  simp only [ruleWhere, Res.bind_eq_ok, Res.ok.injEq] at hru
  obtain ⟨c', h1, l', h2, r', h3, hru⟩ := hru
  have e1 := eltPad_ok (by omega) h1
  have e2 := eltPad_ok (by omega) h2
  have e3 := eltPad_ok (by omega) h3
  have pos : ∀ (x : List Int) (n : Nat), (∀ a ∈ x, 0 ≤ a) → ∀ a ∈ List.replicate n 1 ++ x, 0 ≤ a := by
    intro x n hx a ha
    simp only [List.mem_append, List.mem_replicate] at ha
    rcases ha with ⟨-, rfl⟩ | ha
    · decide
    · exact hx a ha
  have fo : ∀ (x : List Int) (n : Nat), frontOnes (x.map Int.toNat) n = (List.replicate (n - x.length) 1 ++ x).map Int.toNat := by
    intro x n
    simp [frontOnes]
  unfold Exec.whereOp at hop
  simp only [Res.bind_eq_ok, Res.ok.injEq] at hop
  obtain ⟨⟨a1, a2, a3, a4, a5⟩, hw, rfl⟩ := hop
  unfold whereShapes at hw
  split at hw
  · rename_i he
    simp only [Res.ok.injEq, Prod.mk.injEq] at hw
    obtain ⟨-, -, -, rfl, -⟩ := hw
    have hcl : c = l := by rw [← toNat_id hc, ← toNat_id hl, he.1]
    have hcr : c = r := by rw [← toNat_id hc, ← toNat_id hr, he.2]
    subst hcl hcr
    simp only [max_self, Nat.sub_self, List.replicate_zero, List.nil_append] at e1 e2 e3
    subst e1 e2 e3
    rw [toNat_id hc]
    have : ∀ (y z : List Int), ruleWhereLoop y y y = some z → z = y := by
      intro y
      induction y with
      | nil => intro z hz; simp [ruleWhereLoop] at hz; exact hz
      | cons a y ih =>
        intro z hz
        simp only [ruleWhereLoop] at hz
        simp only [and_self, not_true_eq_false, false_and, if_false, if_true, Option.map_eq_some_iff] at hz
        obtain ⟨w, hw, rfl⟩ := hz
        rw [ih w hw]
    exact this _ _ hru
  · simp only [Res.bind_eq_ok, Res.ok.injEq, Prod.mk.injEq] at hw
    obtain ⟨O', hO', -, -, -, rfl, -⟩ := hw
    simp only [List.length_map, fo] at hO'
    rw [e1, e2, e3] at hru
    exact whereLoop_agree (O := O') (pos _ _ hc) (pos _ _ hl) (pos _ _ hr) hO' hru

end Verif.Runtime.Infer2
