import Verif.Kernels.DetectionOutput
import Verif.Props.DetectionSpec
import Verif.Kernels.PriorBoxLemmas
import Mathlib.Data.List.NodupEquivFin
/-!
# Lemmas on detection_output: ranking, suppression, the best of an image
-/
namespace Verif.Kernels
open Verif.Core Verif.Props

theorem _root_.Verif.Props.Ahead.irrefl {s : Nat → Rat} {a : Nat} : ¬ Ahead s a a := by
  rintro (h | ⟨_, h⟩)
  · exact lt_irrefl _ h
  · omega

theorem _root_.Verif.Props.Ahead.asymm {s : Nat → Rat} {a b : Nat} (h : Ahead s a b) : ¬ Ahead s b a := by
  rintro (h' | ⟨e, h'⟩) <;> rcases h with h | ⟨e2, h⟩
  · exact lt_asymm h h'
  · rw [e2] at h'; exact lt_irrefl _ h'
  · rw [e] at h; exact lt_irrefl _ h
  · omega

/-- splitting at an element of a list in the order -/
theorem ahead_split {s : Nat → Rat} {u v : List Nat} {x : Nat} (h : (u ++ x :: v).Pairwise (Ahead s)) :
    (u ++ x :: v).filter (fun q => decide (Ahead s q x)) = u := by
  rw [List.pairwise_append, List.pairwise_cons] at h
  obtain ⟨_, ⟨hv, _⟩, hu⟩ := h
  rw [List.filter_append, List.filter_eq_self.2 (fun q hq => by simpa using hu q hq x List.mem_cons_self),
    List.filter_cons_of_neg (by simpa using Ahead.irrefl)]
  rw [List.filter_eq_nil_iff.2 (fun q hq => by simpa using (hv q hq).asymm), List.append_nil]

/-- the candidates -/
def detCands (scores : List Rat) (thr : Rat) : List Nat := (List.range scores.length).filter fun p => decide (thr < scores.getD p 0)

theorem sorted_ahead (scores : List Rat) (thr : Rat) :
    ((detCands scores thr).insertionSort fun a b => scores.getD b 0 ≤ scores.getD a 0).Pairwise (Ahead fun p => scores.getD p 0) := by
  set le : Nat → Nat → Prop := fun a b => scores.getD b 0 ≤ scores.getD a 0
  haveI : IsTrans Nat le := ⟨fun a b c h1 h2 => le_trans h2 h1⟩
  haveI : Std.Total le := ⟨fun a b => le_total _ _⟩
  have hs := List.pairwise_insertionSort le (detCands scores thr)
  have hnd : ((detCands scores thr).insertionSort le).Nodup :=
    (List.perm_insertionSort _ _).nodup_iff.2 (List.nodup_range.filter _)
  have hcs : (detCands scores thr).Pairwise (· < ·) := List.pairwise_lt_range.filter _
  -- by positions
  rw [List.pairwise_iff_getElem] at hs ⊢
  intro i j hi hj hij
  have h1 := hs i j hi hj hij
  simp only [le] at h1
  rcases lt_or_eq_of_le h1 with h | h
  · exact Or.inl h
  · refine Or.inr ⟨h.symm, ?_⟩
    by_contra hc
    have hne : ((detCands scores thr).insertionSort le)[i] ≠ ((detCands scores thr).insertionSort le)[j] := by
      intro hE
      have := (List.Nodup.getElem_inj_iff hnd).1 hE
      omega
    set a := ((detCands scores thr).insertionSort le)[i] with ha
    set b := ((detCands scores thr).insertionSort le)[j] with hb
    have hba : b < a := by omega
    have hma : a ∈ detCands scores thr := (List.perm_insertionSort le _).mem_iff.1 (List.getElem_mem hi)
    have hmb : b ∈ detCands scores thr := (List.perm_insertionSort le _).mem_iff.1 (List.getElem_mem hj)
    have hsub : [b, a].Sublist (detCands scores thr) := by
      obtain ⟨u, v, e⟩ := List.append_of_mem hma
      rw [e] at hmb hcs ⊢
      rw [List.pairwise_append, List.pairwise_cons] at hcs
      have : b ∈ u := by
        rcases List.mem_append.1 hmb with h | h
        · exact h
        · rcases List.mem_cons.1 h with h | h
          · omega
          · have := hcs.2.1.1 b h; omega
      exact (List.singleton_sublist.2 this).append (List.cons_sublist_cons.2 (List.nil_sublist v))
    have hle : le b a := le_of_eq h.symm
    have := List.pair_sublist_insertionSort hle hsub
    -- b before a in the sorted list as well
    rw [List.sublist_iff_exists_orderEmbedding_getElem?_eq] at this
    obtain ⟨f, hf⟩ := this
    have e0 := hf 0
    have e1 := hf 1
    simp only [List.getElem?_cons_zero, List.getElem?_cons_succ] at e0 e1
    have hlt : f 0 < f 1 := f.lt_iff_lt.2 (by decide)
    have i0 : f 0 = j := by
      have h0 : f 0 < _ := (List.getElem?_eq_some_iff.1 e0.symm).1
      exact (List.Nodup.getElem_inj_iff hnd).1 ((List.getElem?_eq_some_iff.1 e0.symm).2.trans hb)
    have i1 : f 1 = i := by
      have h0 : f 1 < _ := (List.getElem?_eq_some_iff.1 e1.symm).1
      exact (List.Nodup.getElem_inj_iff hnd).1 ((List.getElem?_eq_some_iff.1 e1.symm).2.trans ha)
    omega

theorem detRanked_spec (scores : List Rat) (thr : Rat) (topK : Int) :
    (detRanked scores thr topK).Pairwise (Ahead fun p => scores.getD p 0) ∧
    ∀ p, p ∈ detRanked scores thr topK ↔ Ranked scores.length (fun p => scores.getD p 0) thr topK p := by
  set s := fun p => scores.getD p 0
  have hsort := sorted_ahead scores thr
  unfold detRanked
  simp only
  change List.Pairwise _ (if -1 < topK ∧ topK < (((detCands scores thr).insertionSort fun a b => scores.getD b 0 ≤ scores.getD a 0).length : Int) then _ else _) ∧ _
  have hperm := List.perm_insertionSort (fun a b => scores.getD b 0 ≤ scores.getD a 0) (detCands scores thr)
  change _ ∧ ∀ p, p ∈ (if -1 < topK ∧ topK < (((detCands scores thr).insertionSort fun a b => scores.getD b 0 ≤ scores.getD a 0).length : Int) then
    ((detCands scores thr).insertionSort fun a b => scores.getD b 0 ≤ scores.getD a 0).take topK.toNat else
    ((detCands scores thr).insertionSort fun a b => scores.getD b 0 ≤ scores.getD a 0)) ↔ _
  change List.Pairwise _ (if -1 < topK ∧ topK < (((detCands scores thr).insertionSort fun a b => scores.getD b 0 ≤ scores.getD a 0).length : Int) then
    ((detCands scores thr).insertionSort fun a b => scores.getD b 0 ≤ scores.getD a 0).take topK.toNat else
    ((detCands scores thr).insertionSort fun a b => scores.getD b 0 ≤ scores.getD a 0)) ∧ _
  generalize ((detCands scores thr).insertionSort fun a b => scores.getD b 0 ≤ scores.getD a 0) = S at *
  have hmem : ∀ p, p ∈ S ↔ p < scores.length ∧ thr < s p := by
    intro p
    rw [hperm.mem_iff, detCands, List.mem_filter, List.mem_range]
    simp [s]
  have hcount : ∀ p u v, S = u ++ p :: v → ((List.range scores.length).filter fun q => decide (thr < s q ∧ Ahead s q p)).length = u.length := by
    intro p u v e
    have h1 : (S.filter fun q => decide (Ahead s q p)) = u := by rw [e]; exact ahead_split (e ▸ hsort)
    have h2 := (hperm.filter fun q => decide (Ahead s q p)).length_eq
    rw [h1, detCands, List.filter_filter] at h2
    rw [h2]
    congr 1
    apply List.filter_congr
    intro q _
    simp [s, Bool.and_comm]
  constructor
  · split
    · exact hsort.sublist (List.take_sublist _ _)
    · exact hsort
  · intro p
    constructor
    · intro hp
      have hpS : p ∈ S := by
        split at hp
        · exact List.mem_of_mem_take hp
        · exact hp
      refine ⟨((hmem p).1 hpS).1, ((hmem p).1 hpS).2, ?_⟩
      intro h0
      split at hp
      next hc =>
        obtain ⟨u, v, e⟩ := List.append_of_mem hp
        have : S = u ++ p :: (v ++ S.drop topK.toNat) := by
          conv => lhs; rw [← List.take_append_drop topK.toNat S, e]
          simp
        rw [hcount p _ _ this]
        have hl := congrArg List.length e
        rw [List.length_take, List.length_append, List.length_cons] at hl
        have : u.length < topK.toNat := by have := Nat.min_le_left topK.toNat S.length; omega
        omega
      next hc =>
        obtain ⟨u, v, e⟩ := List.append_of_mem hpS
        rw [hcount p u v e]
        have hl := congrArg List.length e
        rw [List.length_append, List.length_cons] at hl
        omega
    · rintro ⟨h1, h2, h3⟩
      have hpS := (hmem p).2 ⟨h1, h2⟩
      split
      next hc =>
        obtain ⟨u, v, e⟩ := List.append_of_mem hpS
        have h4 := h3 (by omega)
        rw [hcount p u v e] at h4
        rw [e, List.take_append, List.mem_append]
        right
        have : topK.toNat - u.length = (topK.toNat - u.length - 1) + 1 := by omega
        rw [this, List.take_succ_cons]
        exact List.mem_cons_self
      next => exact hpS

theorem detStays_ok {A : DetArith} {boxes : List NBox} {B : Nat → NBox} (hB : ∀ p, p < boxes.length → boxes[p]? = some (B p)) (t : Rat) {x : Nat}
    (hx : x < boxes.length) {kept : List Nat} (hk : ∀ k ∈ kept, k < boxes.length) :
    detStays A boxes t x kept = .ok (kept.all fun k => detWithin A t (B x) (B k)) := by
  induction kept with
  | nil => rfl
  | cons k ks ih =>
    unfold detStays
    rw [rd, hB x hx, rd, hB k (hk k List.mem_cons_self)]
    simp only [Res.bind_ok, List.all_cons]
    cases h : detWithin A t (B x) (B k)
    · simp
    · simp only [if_true, Bool.true_and]
      exact ih fun k' h' => hk k' (List.mem_cons_of_mem _ h')

theorem detGreedy_ok {A : DetArith} {boxes : List NBox} {B : Nat → NBox} (hB : ∀ p, p < boxes.length → boxes[p]? = some (B p)) {s : Nat → Rat}
    (eta nms : Rat) : ∀ {xs kept : List Nat}, (∀ x ∈ kept ++ xs, x < boxes.length) → (kept ++ xs).Pairwise (Ahead s) →
    ∃ new, detGreedy A boxes eta xs (lowered A.fl eta nms kept.length) kept = .ok (kept ++ new) ∧ new.Sublist xs ∧
      ∀ x ∈ xs, x ∈ new ↔ ∀ k ∈ kept ++ new, Ahead s k x →
        detWithin A (lowered A.fl eta nms ((kept ++ new).filter fun q => decide (Ahead s q x)).length) (B x) (B k) = true
  | [], kept, _, _ => ⟨[], by simp [detGreedy], List.nil_sublist _, by simp⟩
  | x :: xs, kept, hl, hp => by
    have hx : x < boxes.length := hl x (by simp)
    have hk : ∀ k ∈ kept, k < boxes.length := fun k h => hl k (by simp [h])
    have hp' := List.pairwise_append.1 hp
    have hkx : ∀ k ∈ kept, Ahead s k x := fun k h => hp'.2.2 k h x List.mem_cons_self
    have hxy : ∀ y ∈ xs, Ahead s x y := fun y h => (List.pairwise_cons.1 hp'.2.1).1 y h
    unfold detGreedy
    rw [detStays_ok hB _ hx hk, Res.bind_ok]
    cases hb : kept.all fun k => detWithin A (lowered A.fl eta nms kept.length) (B x) (B k)
    · rw [if_neg (by simp)]
      obtain ⟨new, e, hs, hn⟩ := detGreedy_ok (A := A) hB (s := s) eta nms (xs := xs) (kept := kept)
        (fun y hy => hl y (by simp only [List.mem_append, List.mem_cons] at hy ⊢; tauto))
        (List.Pairwise.sublist ((List.Sublist.refl kept).append (List.sublist_cons_self _ _)) hp)
      refine ⟨new, e, hs.cons _, ?_⟩
      intro y hy
      rcases List.mem_cons.1 hy with rfl | hy
      · constructor
        · intro hm
          exact absurd (hxy y (hs.subset hm)) Ahead.irrefl
        · intro h
          exfalso
          have hf : (kept ++ new).filter (fun q => decide (Ahead s q y)) = kept := by
            rw [List.filter_append, List.filter_eq_self.2 (fun q hq => by simpa using hkx q hq),
              List.filter_eq_nil_iff.2 (fun q hq => by simpa using (hxy q (hs.subset hq)).asymm), List.append_nil]
          rw [hf] at h
          have : (kept.all fun k => detWithin A (lowered A.fl eta nms kept.length) (B y) (B k)) = true := by
            rw [List.all_eq_true]
            exact fun k hkk => h k (by simp [hkk]) (hkx k hkk)
          rw [hb] at this; cases this
      · exact hn y hy
    · rw [if_pos rfl]
      have e1 : detLower A eta (lowered A.fl eta nms kept.length) = lowered A.fl eta nms (kept ++ [x]).length := by
        rw [List.length_append]; rfl
      obtain ⟨new, e, hs, hn⟩ := detGreedy_ok (A := A) hB (s := s) eta nms (xs := xs) (kept := kept ++ [x])
        (fun y hy => hl y (by simpa using hy)) (by simpa using hp)
      rw [e1]
      refine ⟨x :: new, by rw [e]; simp, hs.cons_cons x, ?_⟩
      intro y hy
      rw [show kept ++ x :: new = kept ++ [x] ++ new by simp]
      rcases List.mem_cons.1 hy with rfl | hy
      · refine ⟨fun _ => ?_, fun _ => List.mem_cons_self⟩
        have hf : (kept ++ [y] ++ new).filter (fun q => decide (Ahead s q y)) = kept := by
          rw [List.append_assoc, List.filter_append, List.filter_eq_self.2 (fun q hq => by simpa using hkx q hq),
            List.singleton_append, List.filter_cons_of_neg (by simpa using Ahead.irrefl),
            List.filter_eq_nil_iff.2 (fun q hq => by simpa using (hxy q (hs.subset hq)).asymm), List.append_nil]
        rw [hf]
        intro k hkk ha
        have hkm : k ∈ kept := by rw [← hf, List.mem_filter]; exact ⟨hkk, by simpa using ha⟩
        exact List.all_eq_true.1 hb k hkm
      · rw [← hn y hy, List.mem_cons]
        exact ⟨fun h => h.resolve_left (fun h => Ahead.irrefl (h ▸ hxy y hy)), Or.inr⟩

end Verif.Kernels
