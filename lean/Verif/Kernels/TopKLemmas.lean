import Verif.Kernels.TopK
import Verif.Kernels.Eff
import Mathlib.Data.List.Nodup
import Mathlib.Data.List.Perm.Basic
/-!
# Lemmas about topkv2 and non_max_suppression_v3
-/
namespace Verif.Kernels
open Verif.Core

variable {α : Type}

theorem strictWeak_iff {lt : Nat → Nat → Bool} {l : List Nat} : strictWeak lt l = true ↔
    ∀ a ∈ l, lt a a = false ∧ ∀ b ∈ l, ∀ c ∈ l, (lt a b = true → lt b c = true → lt a c = true) ∧
      (lt a b = false → lt b c = false → lt a c = false) := by
  unfold strictWeak
  simp only [List.all_eq_true, Bool.and_eq_true, Bool.or_eq_true, Bool.not_eq_true', Bool.and_eq_false_iff]
  constructor
  · intro h a ha
    refine ⟨(h a ha).1, fun b hb c hc => ?_⟩
    have := (h a ha).2 b hb c hc
    revert this; cases lt a b <;> cases lt b c <;> cases lt a c <;> simp
  · intro h a ha
    refine ⟨(h a ha).1, fun b hb c hc => ?_⟩
    have := (h a ha).2 b hb c hc
    revert this; cases lt a b <;> cases lt b c <;> cases lt a c <;> simp

/-! ## topk -/

/-- one row writes its values and indices -/
theorem topkRow_ok {psort : (Nat → Nat → Bool) → Nat → List Nat → List Nat} {lt : α → α → Bool} {x : List α} {W K n : Nat}
    {vs : List α} {is : List Int} {row : Nat → α} (hsw : strictWeak (fun a b => cellLt lt x (n * W) b a) (List.range W) = true)
    (hK : K ≤ W) (hx : ∀ i, i < W → x[n * W + i]? = some (row i))
    (hlen : (psort (fun a b => cellLt lt x (n * W) b a) K (List.range W)).Perm (List.range W))
    (hv : n * K + K ≤ vs.length) (hi : n * K + K ≤ is.length) :
    ∃ vs' is', topkRow psort lt x W K n (vs, is) = .ok (vs', is') ∧ vs'.length = vs.length ∧ is'.length = is.length ∧
      (∀ (k : Nat), k < K → ∃ i, (psort (fun a b => cellLt lt x (n * W) b a) K (List.range W))[k]? = some i ∧ i < W ∧
        vs'[n * K + k]? = some (row i) ∧ is'[n * K + k]? = some (i : Int)) ∧
      (∀ p, (p < n * K ∨ n * K + K ≤ p) → vs'[p]? = vs[p]? ∧ is'[p]? = is[p]?) := by
  generalize hs : psort (fun a b => cellLt lt x (n * W) b a) K (List.range W) = sorted at hlen
  have hl : sorted.length = W := by simpa using hlen.length_eq
  have hget : ∀ (k : Nat), k < K → ∃ i, sorted[k]? = some i ∧ i < W := by
    intro k hk
    refine ⟨sorted[k]'(by omega), List.getElem?_eq_getElem _, ?_⟩
    have := (hlen.mem_iff (a := sorted[k]'(by omega))).1 (List.getElem_mem _)
    simpa using this
  unfold topkRow partialSort
  rw [if_pos ⟨by simpa using hK, hsw⟩, Res.bind_ok, hs]
  obtain ⟨st, e, h1, h2, h3, h4⟩ := loop_inv (n := K) (s := (vs, is))
    (f := fun (st : List α × List Int) k => do
      let i ← rd sorted k
      let v ← rd x (n * W + i)
      let vs ← wr st.1 (n * K + k) v
      let is ← wr st.2 (n * K + k) (i : Int)
      .ok (vs, is))
    (fun m st => st.1.length = vs.length ∧ st.2.length = is.length ∧
      (∀ (k : Nat), k < m → ∃ i, sorted[k]? = some i ∧ i < W ∧ st.1[n * K + k]? = some (row i) ∧ st.2[n * K + k]? = some (i : Int)) ∧
      (∀ p, (p < n * K ∨ n * K + m ≤ p) → st.1[p]? = vs[p]? ∧ st.2[p]? = is[p]?))
    ⟨rfl, rfl, by intro k hk; omega, fun _ _ => ⟨rfl, rfl⟩⟩
    (by
      rintro k ⟨a, b⟩ hk ⟨a1, a2, a3, a4⟩
      simp only at a1 a2 a3 a4
      obtain ⟨i, hi1, hi2⟩ := hget k hk
      refine ⟨(a.set (n * K + k) (row i), b.set (n * K + k) (i : Int)), ?_, by simpa using a1, by simpa using a2, ?_, ?_⟩
      · simp only
        rw [rd_ok hi1, Res.bind_ok, rd_ok (hx i hi2), Res.bind_ok, wr_ok _ (by omega), Res.bind_ok, wr_ok _ (by omega), Res.bind_ok]
      · intro j hj
        by_cases hjk : j = k
        · subst hjk
          exact ⟨i, hi1, hi2, set_eq (by omega), set_eq (by omega)⟩
        · obtain ⟨i', b1, b2, b3, b4⟩ := a3 j (by omega)
          refine ⟨i', b1, b2, ?_, ?_⟩ <;> simp only
          · rw [set_ne (by omega)]; exact b3
          · rw [set_ne (by omega)]; exact b4
      · intro p hp
        simp only
        rw [set_ne (by omega), set_ne (by omega)]
        exact a4 p (by omega))
  exact ⟨st.1, st.2, e, h1, h2, h3, fun p hp => h4 p hp⟩

/-! ## nms -/

/-- comparison of candidates by score -/
def scoreLt {σ : Type} (lt : σ → σ → Bool) (scores : List σ) (i j : Nat) : Bool :=
  match scores[i]?, scores[j]? with
  | some a, some b => lt a b
  | _, _ => false

theorem suppressedBy_ok {sup : Nat → Nat → Res Bool} {S : Nat → Nat → Bool} {i : Nat} {selected : List Nat}
    (h : ∀ j ∈ selected, sup i j = .ok (S i j)) : suppressedBy sup i selected = .ok (selected.any (S i)) := by
  induction selected with
  | nil => rfl
  | cons j l ih =>
    simp only [suppressedBy]
    rw [h j List.mem_cons_self, Res.bind_ok, List.any_cons]
    cases hS : S i j
    · simp only [Bool.false_eq_true, if_false, Bool.false_or]
      exact ih fun j hj => h j (List.mem_cons_of_mem _ hj)
    · simp

/-- the greedy loop -/
theorem nmsLoop_ok {sup : Nat → Nat → Res Bool} {S before : Nat → Nat → Bool} {pick : Nat → List Nat → Nat} {M : Nat} (C : List Nat)
    (hsup : ∀ i ∈ C, ∀ j ∈ C, sup i j = .ok (S i j))
    (hpick : ∀ k q, q ≠ [] → (∀ i ∈ q, i ∈ C) → ∃ i, q[pick k q]? = some i ∧ ∀ c ∈ q, before i c = false)
    (fuel k : Nat) (q sel : List Nat) (hfuel : q.length = fuel) (hqC : ∀ i ∈ q, i ∈ C) (hqn : q.Nodup)
    (hsC : ∀ i ∈ sel, i ∈ C) (hdis : ∀ i ∈ sel, i ∉ q) (hlen : sel.length ≤ M)
    (hpw : sel.Pairwise fun a b => a ≠ b ∧ before b a = false ∧ S a b = false)
    (htop : ∀ s ∈ sel, ∀ c ∈ q, before s c = false)
    (hout : ∀ i ∈ C, i ∉ q → i ∉ sel → ∃ j ∈ sel, S i j = true ∧ before j i = false) :
    ∃ res, nmsLoop sup pick M fuel k q sel = .ok res ∧ res.length ≤ M ∧ (∀ i ∈ res, i ∈ C) ∧
      res.Pairwise (fun a b => a ≠ b ∧ before b a = false ∧ S a b = false) ∧
      ∀ i ∈ C, i ∉ res → (∃ j ∈ res, S i j = true ∧ before j i = false) ∨ (res.length = M ∧ ∀ j ∈ res, before j i = false) := by
  induction fuel generalizing k q sel with
  | zero =>
    have hq : q = [] := List.length_eq_zero_iff.1 hfuel
    subst hq
    exact ⟨sel, rfl, hlen, hsC, hpw, fun i hi hn => Or.inl (hout i hi (by simp) hn)⟩
  | succ fuel ih =>
    simp only [nmsLoop]
    by_cases hM : sel.length < M
    · rw [if_pos hM]
      obtain ⟨i, hi, hmax⟩ := hpick k q (by rintro rfl; simp at hfuel) hqC
      rw [hi]
      simp only
      have hiq : i ∈ q := List.mem_of_getElem? hi
      have hiC := hqC i hiq
      rw [suppressedBy_ok (S := S) fun j hj => hsup i hiC j (hsC j hj), Res.bind_ok]
      have hlt : pick k q < q.length := by
        by_contra hc
        rw [List.getElem?_eq_none (by omega)] at hi; cases hi
      have hgi : q[pick k q] = i := by rw [List.getElem?_eq_getElem hlt] at hi; exact Option.some.inj hi
      have hmem : ∀ c, c ∈ q.eraseIdx (pick k q) ↔ c ∈ q ∧ c ≠ i := by
        intro c
        have he := List.Nodup.erase_getElem hqn (pick k q) hlt
        rw [hgi] at he
        rw [← he, hqn.mem_erase_iff, and_comm]
      have hn' : (q.eraseIdx (pick k q)).Nodup := hqn.sublist (List.eraseIdx_sublist _ _)
      have hl' : (q.eraseIdx (pick k q)).length = fuel := by rw [List.length_eraseIdx_of_lt hlt]; omega
      cases hs : sel.any (S i)
      · -- selected
        simp only [Bool.false_eq_true, if_false]
        have hno : ∀ j ∈ sel, S i j = false := by simpa using hs
        refine ih (k + 1) _ (i :: sel) hl' (fun c hc => hqC c ((hmem c).1 hc).1) hn' ?_ ?_ (by simp only [List.length_cons]; omega) ?_ ?_ ?_
        · intro c hc
          rcases List.mem_cons.1 hc with rfl | hc
          · exact hiC
          · exact hsC c hc
        · intro c hc hc2
          have := (hmem c).1 hc2
          rcases List.mem_cons.1 hc with rfl | hc
          · exact this.2 rfl
          · exact hdis c hc this.1
        · rw [List.pairwise_cons]
          refine ⟨fun j hj => ⟨?_, htop j hj i hiq, hno j hj⟩, hpw⟩
          rintro rfl
          exact hdis _ hj hiq
        · intro s hs' c hc
          have hc' := (hmem c).1 hc
          rcases List.mem_cons.1 hs' with rfl | hs'
          · exact hmax c hc'.1
          · exact htop s hs' c hc'.1
        · intro c hc hcq hcs
          have hci : c ≠ i := fun h => hcs (h ▸ List.mem_cons_self)
          have hcq' : c ∉ q := fun h => hcq ((hmem c).2 ⟨h, hci⟩)
          obtain ⟨j, hj, h1, h2⟩ := hout c hc hcq' fun h => hcs (List.mem_cons_of_mem _ h)
          exact ⟨j, List.mem_cons_of_mem _ hj, h1, h2⟩
      · -- suppressed
        simp only [if_true]
        obtain ⟨j, hj, hSj⟩ := List.any_eq_true.1 hs
        refine ih (k + 1) _ sel hl' (fun c hc => hqC c ((hmem c).1 hc).1) hn' hsC (fun c hc hc2 => hdis c hc ((hmem c).1 hc2).1) hlen hpw
          (fun s hs' c hc => htop s hs' c ((hmem c).1 hc).1) ?_
        intro c hc hcq hcs
        by_cases hci : c = i
        · subst hci
          exact ⟨j, hj, hSj, htop j hj c hiq⟩
        · exact hout c hc (fun h => hcq ((hmem c).2 ⟨h, hci⟩)) hcs
    · rw [if_neg hM]
      refine ⟨sel, rfl, hlen, hsC, hpw, fun i hi hn => ?_⟩
      by_cases hq : i ∈ q
      · exact Or.inr ⟨by omega, fun j hj => htop j hj i hq⟩
      · exact Or.inl (hout i hi hq hn)

theorem corners_ok {A : BoxArith α} {boxes : List α} {xywh : Bool} {n i : Nat} (hl : boxes.length = n * 4) (hi : i < n) :
    ∃ b0 b1 b2 b3, boxes[i * 4]? = some b0 ∧ boxes[i * 4 + 1]? = some b1 ∧ boxes[i * 4 + 2]? = some b2 ∧ boxes[i * 4 + 3]? = some b3 ∧
      corners A boxes xywh i = .ok (A.min b0 (if xywh then A.add b0 b2 else b2), A.min b1 (if xywh then A.add b1 b3 else b3),
        A.max b0 (if xywh then A.add b0 b2 else b2), A.max b1 (if xywh then A.add b1 b3 else b3)) := by
  have g : ∀ k, k < 4 → ∃ v, boxes[i * 4 + k]? = some v := fun k hk => ⟨boxes[i * 4 + k]'(by omega), List.getElem?_eq_getElem _⟩
  obtain ⟨b0, h0⟩ := g 0 (by omega)
  obtain ⟨b1, h1⟩ := g 1 (by omega)
  obtain ⟨b2, h2⟩ := g 2 (by omega)
  obtain ⟨b3, h3⟩ := g 3 (by omega)
  refine ⟨b0, b1, b2, b3, h0, h1, h2, h3, ?_⟩
  unfold corners
  rw [rd_ok h0, Res.bind_ok, rd_ok h1, Res.bind_ok, rd_ok h2, Res.bind_ok, rd_ok h3, Res.bind_ok]

/-- the final writes -/
theorem nms_write {M : Nat} {sel : List Nat} {out : List Int} (hl : out.length = M) (hs : sel.length ≤ M) :
    (do
      let out ← loop (fun out i => wr out i (-1)) M out
      loop (fun out i => do
        let s ← rd sel i
        wr out i (s : Int)) sel.length out) = Res.ok (sel.map Int.ofNat ++ List.replicate (M - sel.length) (-1)) := by
  have e1 : loop (fun out i => wr out i (-1)) M out = Res.ok (List.replicate M (-1)) := by
    obtain ⟨o, e, h1, h2⟩ := loop_inv (n := M) (s := out) (f := fun out i => wr out i (-1))
      (fun k o => o.length = M ∧ ∀ i, i < k → o[i]? = some (-1)) ⟨hl, by intro i hi; omega⟩
      (by
        intro k o hk ⟨a1, a2⟩
        refine ⟨_, wr_ok _ (by omega), by simpa using a1, fun i hi => ?_⟩
        by_cases hik : k = i
        · subst hik; exact set_eq (by omega)
        · rw [set_ne hik]; exact a2 i (by omega))
    rw [e]
    congr 1
    apply List.ext_getElem?
    intro i
    by_cases hi : i < M
    · rw [h2 i hi, List.getElem?_replicate, if_pos hi]
    · rw [List.getElem?_eq_none (by omega), List.getElem?_eq_none (by simp; omega)]
  rw [e1, Res.bind_ok]
  obtain ⟨o, e, h1, h2, h3⟩ := loop_inv (n := sel.length) (s := List.replicate M (-1 : Int))
    (f := fun out i => do
        let s ← rd sel i
        wr out i (s : Int))
    (fun k o => o.length = M ∧ (∀ i, i < k → o[i]? = (sel.map Int.ofNat)[i]?) ∧ ∀ i, k ≤ i → o[i]? = (List.replicate M (-1 : Int))[i]?)
    ⟨by simp, by intro i hi; omega, fun _ _ => rfl⟩
    (by
      intro k o hk ⟨a1, a2, a3⟩
      refine ⟨o.set k (sel[k] : Int), ?_, by simpa using a1, fun i hi => ?_, fun i hi => ?_⟩
      · rw [rd_ok (List.getElem?_eq_getElem hk), Res.bind_ok, wr_ok _ (by omega)]
      · by_cases hik : k = i
        · subst hik; rw [set_eq (by omega)]; simp [hk]
        · rw [set_ne hik]; exact a2 i (by omega)
      · rw [set_ne (by omega)]; exact a3 i (by omega))
  rw [e]
  congr 1
  apply List.ext_getElem?
  intro i
  by_cases hi : i < sel.length
  · rw [h2 i hi, List.getElem?_append_left (by simpa using hi)]
  · rw [h3 i (by omega), List.getElem?_append_right (by simp; omega)]
    simp only [List.getElem?_replicate, List.length_map]
    by_cases hM : i < M
    · rw [if_pos hM, if_pos (by omega)]
    · rw [if_neg hM, if_neg (by omega)]

end Verif.Kernels
