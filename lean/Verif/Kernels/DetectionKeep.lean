import Verif.Kernels.DetectionLemmas
import Verif.Props.Select
/-!
# Lemmas on detection_output: the best of an image, the rows
-/
namespace Verif.Kernels
open Verif.Core Verif.Props

theorem detNms_ok {A : DetArith} {q : DetParams} {boxes : List NBox} {scores : List Rat} {B : Nat → NBox} {s : Nat → Rat} {n : Nat}
    (hb : boxes.length = n) (hs : scores.length = n) (hB : ∀ p, p < n → boxes[p]? = some (B p)) (hS : ∀ p, p < n → scores[p]? = some (s p)) :
    ∃ kept, detNms A q boxes scores = .ok kept ∧ Survivors A q n s B kept := by
  obtain ⟨h1, h2⟩ := detRanked_spec scores q.conf q.topK
  have hsd : ∀ p, p < n → scores.getD p 0 = s p := fun p hp => by rw [List.getD_eq_getElem?_getD, hS p hp]; rfl
  have ha : ∀ a b, a < n → b < n → (Ahead (fun p => scores.getD p 0) a b ↔ Ahead s a b) := by
    intro a b ha hb
    unfold Ahead
    simp only [hsd a ha, hsd b hb]
  have hr : ∀ p, Ranked scores.length (fun p => scores.getD p 0) q.conf q.topK p ↔ Ranked n s q.conf q.topK p := by
    intro p
    unfold Ranked
    rw [hs]
    by_cases hp : p < n
    · simp only [hsd p hp]
      have : (List.range n).filter (fun r => decide (q.conf < scores.getD r 0 ∧ Ahead (fun p => scores.getD p 0) r p)) =
          (List.range n).filter (fun r => decide (q.conf < s r ∧ Ahead s r p)) := by
        apply List.filter_congr
        intro r hr
        have hr' := List.mem_range.1 hr
        simp only [hsd r hr', ha r p hr' hp]
      rw [this]
    · simp [hp]
  have hlt : ∀ p ∈ detRanked scores q.conf q.topK, p < n := fun p hp => ((hr p).1 ((h2 p).1 hp)).1
  have hpw : (detRanked scores q.conf q.topK).Pairwise (Ahead s) :=
    h1.imp_of_mem fun {a b} ha' hb' h => (ha a b (hlt a ha') (hlt b hb')).1 h
  obtain ⟨new, e, hsub, hn⟩ := detGreedy_ok (A := A) (boxes := boxes) (B := B) (by rw [hb]; exact hB) (s := s) q.eta q.nms
    (xs := detRanked scores q.conf q.topK) (kept := []) (by rw [hb]; simpa using hlt) (by simpa using hpw)
  refine ⟨new, ?_, hpw.sublist hsub, ?_⟩
  · unfold detNms
    rw [if_pos (by omega)]
    exact e
  · intro p
    simp only [List.nil_append] at hn
    constructor
    · intro hp
      have hm := hsub.subset hp
      exact ⟨(hr p).1 ((h2 p).1 hm), (hn p hm).1 hp⟩
    · rintro ⟨hk, hw⟩
      exact (hn p ((h2 p).2 ((hr p).2 hk))).2 hw

/-! ## the best of an image -/

theorem sum_filter_lt {β : Type} (f : β → Nat) {K : Nat} {l : List β} (h : ∀ b ∈ l, f b < K) :
    ((List.range K).map fun c => (l.filter fun u => f u = c).length).sum = l.length := by
  induction l with
  | nil => simp
  | cons b l ih =>
    have hb := h b List.mem_cons_self
    have ih' := ih fun x hx => h x (List.mem_cons_of_mem _ hx)
    have : ∀ c, ((b :: l).filter fun u => f u = c).length = (if c = f b then 1 else 0) + (l.filter fun u => f u = c).length := by
      intro c
      by_cases hc : f b = c
      · rw [List.filter_cons_of_pos (by simpa using hc), List.length_cons, if_pos hc.symm]; omega
      · rw [List.filter_cons_of_neg (by simpa using hc), if_neg (fun h => hc h.symm)]; omega
    simp only [this, List.sum_map_add, ih', List.length_cons]
    have h1 : ((List.range K).map fun c => if c = f b then 1 else 0).sum = 1 := by
      clear this ih ih' h
      induction K with
      | zero => omega
      | succ K ihK =>
        rw [List.range_succ, List.map_append, List.sum_append]
        by_cases hK : f b = K
        · have hz : ((List.range K).map fun c => if c = f b then 1 else 0) = (List.range K).map fun _ => 0 := by
            apply List.map_congr_left
            intro c hc
            rw [List.mem_range] at hc
            rw [if_neg (by omega)]
          rw [hz]
          simp [hK]
        · rw [ihK (by omega)]
          simp [Ne.symm hK]
    omega

theorem detPairs_mem {found : List (List Nat)} {c p : Nat} :
    (c, p) ∈ detPairs found ↔ c < found.length ∧ p ∈ found.getD c [] := by
  unfold detPairs
  simp only [List.mem_flatMap, List.mem_range, List.mem_map, Prod.mk.injEq]
  constructor
  · rintro ⟨c', h, p', hp, rfl, rfl⟩; exact ⟨h, hp⟩
  · rintro ⟨h, hp⟩; exact ⟨c, h, p, hp, rfl, rfl⟩

theorem detPairs_length (found : List (List Nat)) : (detPairs found).length = totalOf found.length fun c => found.getD c [] := by
  unfold detPairs totalOf
  rw [List.length_flatMap]
  simp

theorem detPairs_nodup {found : List (List Nat)} (h : ∀ c, c < found.length → (found.getD c []).Nodup) : (detPairs found).Nodup := by
  unfold detPairs
  rw [List.nodup_flatMap]
  constructor
  · intro c hc
    exact (h c (List.mem_range.1 hc)).map (fun a b hab => by simpa using hab)
  · apply List.nodup_range.imp
    intro a b hab
    simp only [Function.onFun, List.disjoint_left, List.mem_map]
    rintro x ⟨p, _, rfl⟩ ⟨p', _, h⟩
    simp only [Prod.mk.injEq] at h
    exact hab h.1.symm

theorem detKeep_ok {psort : (Nat → Nat → Bool) → Nat → List Nat → List Nat} (hps : SortContract psort) {s : Nat → Nat → Rat} {keep : Int}
    {found : List (List Nat)} (hn : ∀ c, c < found.length → (found.getD c []).Nodup)
    (hd : ∀ c, c < found.length → (found.getD c []).Pairwise fun a b => s c b ≤ s c a) :
    (detKeep psort s keep found).length = found.length ∧
    Best keep found.length s (fun c => found.getD c []) (fun c => (detKeep psort s keep found).getD c []) := by
  have hlen := detPairs_length found
  unfold detKeep
  simp only
  by_cases hc : -1 < keep ∧ keep < (detPairs found).length
  · rw [if_pos hc]
    set pairs := detPairs found with hpairs
    set val := fun j => s (pairs.getD j (0, 0)).1 (pairs.getD j (0, 0)).2 with hval
    have hw : WeakOrderOn (fun a b => decide (val b < val a)) (· ∈ List.range pairs.length) := by
      intro a b c _ _ _
      simp only [decide_eq_true_eq, decide_eq_false_iff_not, not_lt]
      exact ⟨le_refl _, fun h1 h2 => lt_trans h2 h1, fun h1 h2 => le_trans h1 h2⟩
    obtain ⟨hp, hs, _⟩ := hps _ pairs.length (List.range pairs.length) (by simp) hw
    generalize psort (fun a b => decide (val b < val a)) pairs.length (List.range pairs.length) = order at hp hs
    have hol : order.length = pairs.length := by simpa using hp.length_eq
    rw [List.take_of_length_le (by omega)] at hs
    simp only [decide_eq_false_iff_not, not_lt] at hs
    set best := (order.take keep.toNat).map fun j => pairs.getD j (0, 0) with hbest
    have hget : ∀ j, j < pairs.length → pairs.getD j (0, 0) ∈ pairs := by
      intro j hj
      rw [List.getD_eq_getElem?_getD, List.getElem?_eq_getElem hj]
      exact List.getElem_mem hj
    have hom : ∀ j ∈ order, j < pairs.length := fun j hj => by simpa using hp.mem_iff.1 hj
    have hbm : ∀ u ∈ best, u ∈ pairs := by
      intro u hu
      obtain ⟨j, hj, rfl⟩ := List.mem_map.1 hu
      exact hget j (hom j (List.mem_of_mem_take hj))
    have hpn : pairs.Nodup := detPairs_nodup hn
    have honb : order.Nodup := hp.nodup_iff.2 List.nodup_range
    have hbn : best.Nodup := by
      apply List.Nodup.map_on _ (honb.sublist (List.take_sublist _ _))
      intro a ha b hb hab
      have ha' := hom a (List.mem_of_mem_take ha)
      have hb' := hom b (List.mem_of_mem_take hb)
      rw [List.getD_eq_getElem?_getD, List.getD_eq_getElem?_getD, List.getElem?_eq_getElem ha', List.getElem?_eq_getElem hb'] at hab
      exact (List.Nodup.getElem_inj_iff hpn).1 hab
    have hbl : (best.length : Int) = keep := by
      rw [hbest, List.length_map, List.length_take]; omega
    have hbp : best.Pairwise fun u v => s v.1 v.2 ≤ s u.1 u.2 := by
      rw [hbest, List.pairwise_map]
      exact hs.sublist (List.take_sublist _ _)
    have hlab : ∀ u ∈ best, u.1 < found.length := fun u hu => (detPairs_mem.1 (hbm u hu)).1
    have hD : ∀ c, c < found.length → ((List.range found.length).map fun c => (best.filter fun u => u.1 = c).map Prod.snd).getD c [] =
        (best.filter fun u => u.1 = c).map Prod.snd := by
      intro c hc
      rw [List.getD_eq_getElem?_getD, List.getElem?_map, List.getElem?_range hc]
      rfl
    have hsm : ∀ c p, c < found.length → (p ∈ ((List.range found.length).map fun c => (best.filter fun u => u.1 = c).map Prod.snd).getD c [] ↔ (c, p) ∈ best) := by
      intro c p hc
      rw [hD c hc, List.mem_map]
      constructor
      · rintro ⟨⟨c', p'⟩, hu, rfl⟩
        rw [List.mem_filter] at hu
        have : c' = c := by simpa using hu.2
        subst this
        exact hu.1
      · intro h
        exact ⟨(c, p), List.mem_filter.2 ⟨h, by simp⟩, rfl⟩
    refine ⟨by simp, ?_, ?_, ?_, ?_, ?_⟩
    · rintro (h | h)
      · omega
      · rw [← hlen] at h; omega
    · intro _ _
      unfold totalOf
      rw [← hbl, ← sum_filter_lt Prod.fst hlab]
      congr 2
      apply List.map_congr_left
      intro c hc
      beta_reduce; rw [hD c (List.mem_range.1 hc), List.length_map]
    · intro c hc
      constructor
      · rw [hD c hc]
        apply List.Nodup.map_on _ (hbn.filter _)
        rintro ⟨a1, a2⟩ ha ⟨b1, b2⟩ hb hab
        rw [List.mem_filter] at ha hb
        have := ha.2; have := hb.2
        simp_all
      · intro p hp'
        exact (detPairs_mem.1 (hbm _ ((hsm c p hc).1 hp'))).2
    · intro c hc
      rw [hD c hc, List.pairwise_map]
      apply (hbp.filter _).imp_of_mem
      rintro ⟨a1, a2⟩ ⟨b1, b2⟩ ha hb h
      rw [List.mem_filter] at ha hb
      have h1 : a1 = c := by simpa using ha.2
      have h2 : b1 = c := by simpa using hb.2
      subst h1; subst h2
      exact h
    · intro c p hc hp' c' p' hc' hf hns
      have h1 := (hsm c p hc).1 hp'
      have h2 : (c', p') ∉ best := fun h => hns ((hsm c' p' hc').2 h)
      have h3 : (c', p') ∈ pairs := detPairs_mem.2 ⟨hc', hf⟩
      obtain ⟨j, hj, ej⟩ := List.mem_map.1 h1
      obtain ⟨j', hj', ej'⟩ := List.getElem_of_mem h3
      have hg : pairs.getD j' (0, 0) = (c', p') := by
        rw [List.getD_eq_getElem?_getD, List.getElem?_eq_getElem hj', ej']; rfl
      have hjo : j' ∈ order := hp.mem_iff.2 (List.mem_range.2 hj')
      have hjd : j' ∈ order.drop keep.toNat := by
        rw [← List.take_append_drop keep.toNat order, List.mem_append] at hjo
        rcases hjo with h | h
        · exact absurd (List.mem_map.2 ⟨j', h, hg⟩) h2
        · exact h
      rw [← List.take_append_drop keep.toNat order, List.pairwise_append] at hs
      have := hs.2.2 j hj j' hjd
      simp only [hval, ej, hg] at this
      exact this
  · rw [if_neg hc]
    refine ⟨rfl, ?_, ?_, ?_, ?_, ?_⟩
    · intro _ c _; rfl
    · intro h1 h2
      rw [← hlen] at h2; omega
    · intro c hc; exact ⟨hn c hc, fun p hp => hp⟩
    · exact hd
    · intro c p _ _ c' p' _ h1 h2
      exact absurd h1 h2

/-! ## the rows -/

theorem detRow_emits (A : DetArith) (i c : Nat) (score : Rat) (b : NBox) : Emits (detRow A i c score b) (detRowOf A.fl i c score b) :=
  Emits.seq (Emits.put (A.fl i)) (Emits.seq (Emits.put (A.fl c)) (Emits.seq (Emits.put score) (Emits.seq (Emits.put b.xmin)
    (Emits.seq (Emits.put b.ymin) (Emits.seq (Emits.put b.xmax) (Emits.put b.ymax))))))

theorem detRows_emits (A : DetArith) {scores : List Rat} {boxes : List NBox} {s : Nat → Rat} {B : Nat → NBox} (i c : Nat) {ps : List Nat}
    (hS : ∀ p ∈ ps, scores[p]? = some (s p)) (hB : ∀ p ∈ ps, boxes[p]? = some (B p)) :
    Emits (detRows A scores boxes i c ps) (ps.flatMap fun p => detRowOf A.fl i c (s p) (B p)) := by
  induction ps with
  | nil => exact Emits.nil
  | cons p ps ih =>
    have := Emits.seq (detRow_emits A i c (s p) (B p)) (ih (fun x hx => hS x (List.mem_cons_of_mem _ hx)) (fun x hx => hB x (List.mem_cons_of_mem _ hx)))
    intro done rest hl
    rw [List.flatMap_cons] at hl ⊢
    rw [← this done rest hl]
    unfold detRows
    rw [rd, hS p List.mem_cons_self, rd, hB p List.mem_cons_self]
    simp only [Res.bind_ok]

end Verif.Kernels
