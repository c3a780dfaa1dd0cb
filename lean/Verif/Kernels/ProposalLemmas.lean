import Verif.Kernels.Proposal
import Mathlib.Data.List.Perm.Basic
import Mathlib.Tactic.Linarith
/-!
# Lemmas on proposal: sorting and suppression
-/
namespace Verif.Kernels
open Verif.Core

theorem rd_get {α : Type} {b : List α} {i : Nat} (h : i < b.length) : rd b i = .ok b[i] := rd_ok (List.getElem?_eq_getElem h)

/-! ## sorting -/

theorem scanUp_ok {rows : List PRow} {pivot : Rat} {k left : Nat} (h : left + k ≤ rows.length) :
    ∃ l, scanUp rows pivot k left = .ok l ∧ left ≤ l ∧ l ≤ left + k ∧ (∀ j v, left ≤ j → j < l → rows[j]? = some v → pivot ≤ v.score) ∧
      (l < left + k → ∃ v, rows[l]? = some v ∧ v.score < pivot) := by
  induction k generalizing left with
  | zero => exact ⟨left, rfl, Nat.le_refl _, by omega, by intros; omega, by omega⟩
  | succ k ih =>
    unfold scanUp
    rw [rd_get (by omega), Res.bind_ok]
    by_cases hc : pivot ≤ rows[left].score
    · rw [if_pos hc]
      obtain ⟨l, e, h1, h2, h3, h4⟩ := ih (left := left + 1) (by omega)
      refine ⟨l, e, by omega, by omega, ?_, fun hl => h4 (by omega)⟩
      intro j v hj hl hv
      by_cases hjl : j = left
      · subst hjl
        rw [List.getElem?_eq_getElem (by omega)] at hv
        cases hv
        exact hc
      · exact h3 j v (by omega) hl hv
    · rw [if_neg hc]
      exact ⟨left, rfl, Nat.le_refl _, by omega, by intros; omega, fun _ => ⟨_, List.getElem?_eq_getElem (by omega), by linarith⟩⟩

theorem scanDown_ok {rows : List PRow} {pivot : Rat} {k right : Nat} (h : right < rows.length) (hk : k ≤ right) :
    ∃ r, scanDown rows pivot k right = .ok r ∧ r ≤ right ∧ right ≤ r + k ∧ (∀ j v, r < j → j ≤ right → rows[j]? = some v → v.score ≤ pivot) ∧
      (right < r + k → ∃ v, rows[r]? = some v ∧ pivot < v.score) := by
  induction k generalizing right with
  | zero => exact ⟨right, rfl, Nat.le_refl _, by omega, by intros; omega, by omega⟩
  | succ k ih =>
    unfold scanDown
    rw [rd_get h, Res.bind_ok]
    by_cases hc : rows[right].score ≤ pivot
    · rw [if_pos hc]
      obtain ⟨r, e, h1, h2, h3, h4⟩ := ih (right := right - 1) (by omega) (by omega)
      refine ⟨r, e, by omega, by omega, ?_, fun hl => h4 (by omega)⟩
      intro j v hj hl hv
      by_cases hjl : j = right
      · subst hjl
        rw [List.getElem?_eq_getElem h] at hv
        cases hv
        exact hc
      · exact h3 j v hj (by omega) hv
    · rw [if_neg hc]
      exact ⟨right, rfl, Nat.le_refl _, by omega, by intros; omega, fun _ => ⟨_, List.getElem?_eq_getElem h, by linarith⟩⟩

/-- the rows from `s` to `e` are rearranged -/
structure Rearranged (s e : Nat) (rows rows' : List PRow) : Prop where
  len : rows'.length = rows.length
  perm : rows'.Perm rows
  out : ∀ k, k < s ∨ e < k → rows'[k]? = rows[k]?
  inn : ∀ Q : PRow → Prop, (∀ k v, s ≤ k → k ≤ e → rows[k]? = some v → Q v) → ∀ k v, s ≤ k → k ≤ e → rows'[k]? = some v → Q v

theorem Rearranged.refl (s e : Nat) (rows : List PRow) : Rearranged s e rows rows := ⟨rfl, .refl _, fun _ _ => rfl, fun _ h => h⟩

theorem Rearranged.trans {s e : Nat} {a b c : List PRow} (h1 : Rearranged s e a b) (h2 : Rearranged s e b c) : Rearranged s e a c :=
  ⟨h2.len.trans h1.len, h2.perm.trans h1.perm, fun k hk => (h2.out k hk).trans (h1.out k hk), fun Q h => h2.inn Q (h1.inn Q h)⟩

theorem Rearranged.mono {s e s' e' : Nat} {a b : List PRow} (h : Rearranged s e a b) (hs : s' ≤ s) (he : e ≤ e') : Rearranged s' e' a b := by
  refine ⟨h.len, h.perm, fun k hk => h.out k (by omega), ?_⟩
  intro Q hQ k v h1 h2 hv
  by_cases hk : s ≤ k ∧ k ≤ e
  · exact h.inn Q (fun k v a1 a2 => hQ k v (by omega) (by omega)) k v hk.1 hk.2 hv
  · rw [h.out k (by omega)] at hv
    exact hQ k v h1 h2 hv

theorem swapRows_ok {rows : List PRow} {i j s e : Nat} (hi : s ≤ i ∧ i ≤ e) (hj : s ≤ j ∧ j ≤ e) (he : e < rows.length) :
    ∃ rows', swapRows rows i j = .ok rows' ∧ Rearranged s e rows rows' ∧ rows'[i]? = rows[j]? ∧ rows'[j]? = rows[i]? ∧
      ∀ k, k ≠ i → k ≠ j → rows'[k]? = rows[k]? := by
  have hil : i < rows.length := by omega
  have hjl : j < rows.length := by omega
  have ei : ((rows.set i rows[j]).set j rows[i])[i]? = rows[j]? := by
    by_cases hij : j = i
    · subst hij; rw [set_eq (by simpa using hjl), List.getElem?_eq_getElem hjl]
    · rw [set_ne hij, set_eq hil, List.getElem?_eq_getElem hjl]
  have ej : ((rows.set i rows[j]).set j rows[i])[j]? = rows[i]? := by
    rw [set_eq (by simpa using hjl), List.getElem?_eq_getElem hil]
  have ek : ∀ k, k ≠ i → k ≠ j → ((rows.set i rows[j]).set j rows[i])[k]? = rows[k]? := by
    intro k h1 h2
    rw [set_ne (Ne.symm h2), set_ne (Ne.symm h1)]
  refine ⟨(rows.set i rows[j]).set j rows[i], ?_, ⟨by simp, List.set_set_perm hil hjl, ?_, ?_⟩, ei, ej, ek⟩
  · unfold swapRows
    rw [rd_get hil, Res.bind_ok, rd_get hjl, Res.bind_ok, wr_ok _ hil, Res.bind_ok, wr_ok _ (by simpa using hjl)]
  · intro k hk
    exact ek k (by omega) (by omega)
  · intro Q hQ k v h1 h2 hv
    by_cases hki : k = i
    · subst hki; rw [ei] at hv; exact hQ j v hj.1 hj.2 hv
    · by_cases hkj : k = j
      · subst hkj; rw [ej] at hv; exact hQ i v hi.1 hi.2 hv
      · rw [ek k hki hkj] at hv; exact hQ k v h1 h2 hv

theorem partLoop_ok {pivot : Rat} {start end_ f : Nat} {rows : List PRow} {left right : Nat} (he : end_ < rows.length) (hl : start < left ∧ left ≤ end_ + 1)
    (hr : start ≤ right ∧ right ≤ end_) (hf : right + 2 ≤ f + left) (hf1 : 1 ≤ f)
    (hge : ∀ k v, start < k → k < left → rows[k]? = some v → pivot ≤ v.score) (hle : ∀ k v, right < k → k ≤ end_ → rows[k]? = some v → v.score ≤ pivot) :
    ∃ rows' r, partLoop pivot start end_ f rows left right = .ok (rows', r) ∧ Rearranged (start + 1) end_ rows rows' ∧ start ≤ r ∧ r ≤ end_ ∧
      (∀ k v, start < k → k ≤ r → rows'[k]? = some v → pivot ≤ v.score) ∧ ∀ k v, r < k → k ≤ end_ → rows'[k]? = some v → v.score ≤ pivot := by
  induction f generalizing rows left right with
  | zero => omega
  | succ f ih =>
    unfold partLoop
    by_cases hlr : left ≤ right
    · rw [if_pos hlr]
      obtain ⟨l, e1, l1, l2, l3, l4⟩ := scanUp_ok (rows := rows) (pivot := pivot) (k := end_ + 1 - left) (left := left) (by omega)
      obtain ⟨r, e2, r1, r2, r3, r4⟩ := scanDown_ok (rows := rows) (pivot := pivot) (k := right - start) (right := right) (by omega) (by omega)
      rw [e1, Res.bind_ok, e2, Res.bind_ok]
      have hge' : ∀ k v, start < k → k < l → rows[k]? = some v → pivot ≤ v.score := by
        intro k v h1 h2 hv
        by_cases hk : k < left
        · exact hge k v h1 hk hv
        · exact l3 k v (by omega) h2 hv
      have hle' : ∀ k v, r < k → k ≤ end_ → rows[k]? = some v → v.score ≤ pivot := by
        intro k v h1 h2 hv
        by_cases hk : k ≤ right
        · exact r3 k v h1 hk hv
        · exact hle k v (by omega) h2 hv
      by_cases hc : l ≤ r
      · rw [if_pos hc]
        obtain ⟨rows', e, hre, h1, h2, h3⟩ := swapRows_ok (rows := rows) (i := l) (j := r) (s := start + 1) (e := end_) ⟨by omega, by omega⟩ ⟨by omega, by omega⟩ he
        rw [e, Res.bind_ok]
        obtain ⟨vl, gl, hvl⟩ := l4 (by omega)
        obtain ⟨vr, gr, hvr⟩ := r4 (by omega)
        obtain ⟨rows'', r', e', hre', b1, b2, b3, b4⟩ := ih (rows := rows') (left := l + 1) (right := r - 1) (by rw [hre.len]; exact he) (by omega) (by omega) (by omega) (by
            by_cases hx : l + 1 ≤ r - 1 <;> omega)
          (by
            intro k v k1 k2 hv
            by_cases hk : k = l
            · subst hk; rw [h1, gr] at hv; cases hv; linarith
            · rw [h3 k hk (by omega)] at hv
              exact hge' k v k1 (by omega) hv)
          (by
            intro k v k1 k2 hv
            by_cases hk : k = r
            · subst hk; rw [h2, gl] at hv; cases hv; linarith
            · rw [h3 k (by omega) hk] at hv
              exact hle' k v (by omega) k2 hv)
        exact ⟨rows'', r', e', hre.trans hre', b1, b2, b3, b4⟩
      · rw [if_neg hc]
        exact ih (rows := rows) (left := l) (right := r) he (by omega) (by omega) (by omega) (by omega) hge' hle'
    · rw [if_neg hlr]
      exact ⟨rows, right, rfl, .refl _ _ _, hr.1, hr.2, fun k v h1 h2 hv => hge k v h1 (by omega) hv, hle⟩

theorem sortProposals_ok {top f start end_ : Nat} {rows : List PRow} (he : end_ < rows.length) (hs : start ≤ end_) (hf : end_ + 1 ≤ f + start) :
    ∃ rows', sortProposals top f start end_ rows = .ok rows' ∧ Rearranged start end_ rows rows' ∧
      ∀ i j v w, start ≤ i → i < j → j ≤ end_ → i < top → rows'[i]? = some v → rows'[j]? = some w → w.score ≤ v.score := by
  induction f generalizing start end_ rows with
  | zero => omega
  | succ f ih =>
    unfold sortProposals
    rw [rd_get (by omega), Res.bind_ok]
    generalize hp : rows[start] = p
    obtain ⟨q, r, e, hq, r1, r2, q1, q2⟩ := partLoop_ok (pivot := p.score) (start := start) (end_ := end_) (f := end_ + 2) (rows := rows) (left := start + 1)
      (right := end_) he (by omega) (by omega) (by omega) (by omega) (by intros; omega) (by intros; omega)
    rw [e, Res.bind_ok]
    simp only
    have qs : q[start]? = some p := by
      rw [hq.out start (by omega), List.getElem?_eq_getElem (by omega), hp]
    -- the pivot between the two parts
    obtain ⟨s, es, hs1, sp, s1, s2⟩ : ∃ s, placePivot q start r = .ok s ∧ Rearranged start end_ rows s ∧ s[r]? = some p ∧
        (∀ k v, start ≤ k → k < r → s[k]? = some v → p.score ≤ v.score) ∧ ∀ k v, r < k → k ≤ end_ → s[k]? = some v → v.score ≤ p.score := by
      unfold placePivot
      by_cases hr : r > start
      · rw [if_pos hr]
        obtain ⟨s, e1, h1, h2, h3, h4⟩ := swapRows_ok (rows := q) (i := start) (j := r) (s := start) (e := end_) (by omega) (by omega) (by rw [hq.len]; exact he)
        refine ⟨s, e1, (hq.mono (by omega) (by omega)).trans h1, by rw [h3, qs], ?_, ?_⟩
        · intro k v k1 k2 hv
          by_cases hk : k = start
          · subst hk; rw [h2] at hv; exact q1 r v hr (Nat.le_refl _) hv
          · rw [h4 k hk (by omega)] at hv; exact q1 k v (by omega) (by omega) hv
        · intro k v k1 k2 hv
          rw [h4 k (by omega) (by omega)] at hv
          exact q2 k v k1 k2 hv
      · rw [if_neg hr]
        have : r = start := by omega
        subst this
        exact ⟨q, rfl, hq.mono (by omega) (by omega), qs, by intros; omega, q2⟩
    rw [es, Res.bind_ok]
    -- the upper part
    obtain ⟨t, et, ht, t1⟩ : ∃ t, (if start + 1 < r then sortProposals top f start (r - 1) s else .ok s) = .ok t ∧ Rearranged start (r - 1) s t ∧
        ∀ i j v w, start ≤ i → i < j → j < r → i < top → t[i]? = some v → t[j]? = some w → w.score ≤ v.score := by
      by_cases hr : start + 1 < r
      · rw [if_pos hr]
        obtain ⟨t, e1, h1, h2⟩ := ih (start := start) (end_ := r - 1) (rows := s) (by rw [hs1.len]; omega) (by omega) (by omega)
        exact ⟨t, e1, h1, fun i j v w a b c d => h2 i j v w a b (by omega) d⟩
      · rw [if_neg hr]
        exact ⟨s, rfl, .refl _ _ _, by intros; omega⟩
    rw [et, Res.bind_ok]
    have tp : t[r]? = some p := by
      by_cases hr0 : r = 0
      · have : t = s ∨ True := Or.inr trivial
        have hst : start = 0 := by omega
        by_cases hr : start + 1 < r
        · omega
        · rw [if_neg hr] at et
          cases et
          exact sp
      · rw [ht.out r (by omega), sp]
    have tu : ∀ k v, start ≤ k → k < r → t[k]? = some v → p.score ≤ v.score := fun k v a b hv =>
      ht.inn (fun v => p.score ≤ v.score) (fun k v a b hv => s1 k v a (by omega) hv) k v a (by omega) hv
    have tl : ∀ k v, r < k → k ≤ end_ → t[k]? = some v → v.score ≤ p.score := by
      intro k v a b hv
      rw [ht.out k (by omega)] at hv
      exact s2 k v a b hv
    have ht' : Rearranged start end_ rows t := hs1.trans (ht.mono (by omega) (by omega))
    -- the lower part
    by_cases hc : r + 1 < top ∧ r + 1 < end_
    · rw [if_pos hc]
      obtain ⟨u, e1, h1, h2⟩ := ih (start := r + 1) (end_ := end_) (rows := t) (by rw [ht'.len]; omega) (by omega) (by omega)
      have ul : ∀ k v, r < k → k ≤ end_ → u[k]? = some v → v.score ≤ p.score := fun k v a b hv =>
        h1.inn (fun v => v.score ≤ p.score) (fun k v a b hv => tl k v (by omega) b hv) k v (by omega) b hv
      refine ⟨u, e1, ht'.trans (h1.mono (by omega) (by omega)), ?_⟩
      intro i j v w a b c d hv hw
      by_cases hi : r < i
      · exact h2 i j v w (by omega) b c d hv hw
      · rw [h1.out i (by omega)] at hv
        have hv' : p.score ≤ v.score := by
          by_cases hir : i = r
          · subst hir; rw [tp] at hv; cases hv; exact le_refl _
          · exact tu i v a (by omega) hv
        by_cases hj : r < j
        · exact le_trans (ul j w hj c hw) hv'
        · rw [h1.out j (by omega)] at hw
          by_cases hjr : j = r
          · subst hjr; rw [tp] at hw; cases hw; exact hv'
          · exact t1 i j v w a b (by omega) d hv hw
    · rw [if_neg hc]
      refine ⟨t, rfl, ht', ?_⟩
      intro i j v w a b c d hv hw
      have hi : i ≤ r := by omega
      have hv' : p.score ≤ v.score := by
        by_cases hir : i = r
        · subst hir; rw [tp] at hv; cases hv; exact le_refl _
        · exact tu i v a (by omega) hv
      by_cases hj : r < j
      · exact le_trans (tl j w hj c hw) hv'
      · by_cases hjr : j = r
        · subst hjr; rw [tp] at hw; cases hw; exact hv'
        · exact t1 i j v w a b (by omega) d hv hw

end Verif.Kernels
