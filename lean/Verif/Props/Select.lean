import Verif.Kernels.TopKLemmas
import Verif.Core.Holds
import Mathlib.MeasureTheory.Measure.Lebesgue.Basic
import Mathlib.MeasureTheory.Measure.Real
/-!
# C57: topkv2; C58: non_max_suppression_v3

`lt` compares elements (scores); it is a strict weak order on the elements that are not NaN, for every type. The order of equivalent
elements is not specified: the statements hold for every `psort` and `pick` the C++ standard allows.
-/
namespace Verif.Props
open Verif.Core Verif.Spec Verif.Kernels

variable {α : Type}

/-- irreflexive, transitive, and incomparability is transitive, on the elements that satisfy `P` -/
def WeakOrderOn {β : Type} (lt : β → β → Bool) (P : β → Prop) : Prop :=
  ∀ a b c, P a → P b → P c → lt a a = false ∧ (lt a b = true → lt b c = true → lt a c = true) ∧
    (lt a b = false → lt b c = false → lt a c = false)

/-- what the standard says about `std::partial_sort`: a permutation, whose first `k` elements are in order and not after the others -/
def SortContract (psort : (Nat → Nat → Bool) → Nat → List Nat → List Nat) : Prop :=
  ∀ lt k l, k ≤ l.length → WeakOrderOn lt (· ∈ l) → (psort lt k l).Perm l ∧
    ((psort lt k l).take k).Pairwise (fun a b => lt b a = false) ∧
    ∀ a ∈ (psort lt k l).take k, ∀ b ∈ (psort lt k l).drop k, lt b a = false

theorem weakOrderOn_iff {lt : Nat → Nat → Bool} {l : List Nat} : strictWeak lt l = true ↔ WeakOrderOn lt (· ∈ l) := by
  rw [strictWeak_iff]
  exact ⟨fun h a b c ha hb hc => ⟨(h a ha).1, (h a ha).2 b hb c hc⟩,
    fun h a ha => ⟨(h a a a ha ha ha).1, fun b hb c hc => (h a b c ha hb hc).2⟩⟩

/-- the contract can be met -/
theorem sort_exists : ∃ psort, SortContract psort := by
  have h : ∀ lt (l : List Nat), WeakOrderOn lt (· ∈ l) → ∃ r : List Nat, r.Perm l ∧ r.Pairwise (fun a b => lt b a = false) := by
    intro lt l
    induction l with
    | nil => intro _; exact ⟨[], List.Perm.refl _, List.Pairwise.nil⟩
    | cons a l ih =>
      intro hw
      obtain ⟨r, hp, hs⟩ := ih fun x y z hx hy hz => hw x y z (List.mem_cons_of_mem _ hx) (List.mem_cons_of_mem _ hy) (List.mem_cons_of_mem _ hz)
      have ins : ∀ r : List Nat, (∀ x ∈ r, x ∈ l) → r.Pairwise (fun a b => lt b a = false) →
          ∃ r' : List Nat, r'.Perm (a :: r) ∧ r'.Pairwise (fun a b => lt b a = false) := by
        intro r
        induction r with
        | nil => intro _ _; exact ⟨[a], List.Perm.refl _, List.pairwise_singleton _ _⟩
        | cons b r ihr =>
          intro hm hpw
          rw [List.pairwise_cons] at hpw
          have hb : b ∈ a :: l := List.mem_cons_of_mem _ (hm b List.mem_cons_self)
          have ha : a ∈ a :: l := List.mem_cons_self
          cases hba : lt b a
          · refine ⟨a :: b :: r, List.Perm.refl _, List.pairwise_cons.2 ⟨?_, List.pairwise_cons.2 hpw⟩⟩
            intro c hc
            rcases List.mem_cons.1 hc with rfl | hc'
            · exact hba
            · exact (hw c b a (List.mem_cons_of_mem _ (hm c hc)) hb ha).2.2 (hpw.1 c hc') hba
          · obtain ⟨r', hp', hs'⟩ := ihr (fun x hx => hm x (List.mem_cons_of_mem _ hx)) hpw.2
            refine ⟨b :: r', (hp'.cons b).trans (List.Perm.swap _ _ _), List.pairwise_cons.2 ⟨?_, hs'⟩⟩
            intro c hc
            rcases List.mem_cons.1 (hp'.mem_iff.1 hc) with rfl | hc
            · cases hab : lt c b
              · rfl
              · have h1 := (hw b c b hb ha hb).2.1 hba hab
                rw [(hw b b b hb hb hb).1] at h1; cases h1
            · exact hpw.1 c hc
      obtain ⟨r', h1, h2⟩ := ins r (fun x hx => hp.mem_iff.1 hx) hs
      exact ⟨r', h1.trans (hp.cons a), h2⟩
  classical
  refine ⟨fun lt _ l => if hw : WeakOrderOn lt (· ∈ l) then (h lt l hw).choose else l, ?_⟩
  intro lt k l _ hw
  simp only [dif_pos hw]
  obtain ⟨hp, hs⟩ := (h lt l hw).choose_spec
  generalize (h lt l hw).choose = r at hp hs
  refine ⟨hp, hs.sublist (List.take_sublist _ _), ?_⟩
  rw [← List.take_append_drop k r, List.pairwise_append] at hs
  intro a ha b hb
  exact hs.2.2 a ha b hb

/-! ## C57 -/

/-- **C57, topkv2.** In every row along the last dimension, the values are those at the indices, the indices are distinct and in range, the
values descend, and no element that is left out is greater than one that is returned. `number` beyond the extent returns the whole row, in
order. -/
theorem C57_topk_partial (psort : (Nat → Nat → Bool) → Nat → List Nat → List Nat) (lt : α → α → Bool) (dt W : Nat) (pre : List Nat)
    (data : List α) (X : List Nat → α) (number : Int) (freshV : Nat → List α) (freshI : Nat → List Int)
    (hps : SortContract psort) (hlt : WeakOrderOn lt (· ∈ data)) (hX : Holds (pre ++ [W]) data X) (h0 : 0 ≤ number)
    (ht : plainType dt) (hv : ∀ n, (freshV n).length = n) (hi : ∀ n, (freshI n).length = n) :
    ∃ (K : Nat) (values : List α) (indices : List Int) (V : List Nat → α) (I : List Nat → Nat), (K : Int) = min (W : Int) number ∧
      topkRun psort lt ⟨dt, pre ++ [W], data⟩ number freshV freshI = .ok (pre ++ [K], values, indices) ∧
      Holds (pre ++ [K]) values V ∧ Holds (pre ++ [K]) indices (fun c => (I c : Int)) ∧
      ∀ u, InBounds pre u →
        (∀ k, k < K → I (u ++ [k]) < W ∧ V (u ++ [k]) = X (u ++ [I (u ++ [k])])) ∧
        (∀ j k, j < k → k < K → I (u ++ [j]) ≠ I (u ++ [k]) ∧ lt (V (u ++ [j])) (V (u ++ [k])) = false) ∧
        (∀ i, i < W → (∀ k, k < K → I (u ++ [k]) ≠ i) → ∀ k, k < K → lt (V (u ++ [k])) (X (u ++ [i])) = false) := by
  obtain ⟨K, hK⟩ : ∃ K : Nat, (K : Int) = min (W : Int) number := ⟨(min (W : Int) number).toNat, by omega⟩
  have hKW : K ≤ W := by omega
  -- rows
  have hrow : ∀ n, n < prod pre → ∀ i, i < W → data[n * W + i]? = some (X (unlin pre n ++ [i])) := by
    intro n hn i hi
    have hb := unlin_inBounds hn
    have := hX.2 (unlin pre n ++ [i]) ((inBounds_append hb.length).2 ⟨hb, hi, trivial⟩)
    rw [lin_append hb.length, lin_unlin hn] at this
    simpa [lin, prod] using this
  have hcell : ∀ n, n < prod pre → ∀ a b, a < W → b < W →
      cellLt lt data (n * W) a b = lt (X (unlin pre n ++ [a])) (X (unlin pre n ++ [b])) := by
    intro n hn a b ha hb
    unfold cellLt
    rw [hrow n hn a ha, hrow n hn b hb]
  have hmem : ∀ n, n < prod pre → ∀ i, i < W → X (unlin pre n ++ [i]) ∈ data :=
    fun n hn i hi => List.mem_of_getElem? (hrow n hn i hi)
  have hsw : ∀ n, n < prod pre → WeakOrderOn (fun a b => cellLt lt data (n * W) b a) (· ∈ List.range W) := by
    intro n hn a b c ha hb hc
    simp only [List.mem_range] at ha hb hc
    simp only [hcell n hn _ _ ha ha, hcell n hn _ _ hb ha, hcell n hn _ _ hc hb, hcell n hn _ _ hc ha]
    have := hlt (X (unlin pre n ++ [c])) (X (unlin pre n ++ [b])) (X (unlin pre n ++ [a])) (hmem n hn c hc) (hmem n hn b hb) (hmem n hn a ha)
    refine ⟨(hlt _ _ _ (hmem n hn a ha) (hmem n hn a ha) (hmem n hn a ha)).1, fun h1 h2 => this.2.1 h2 h1, fun h1 h2 => this.2.2 h2 h1⟩
  let srt := fun n => psort (fun a b => cellLt lt data (n * W) b a) K (List.range W)
  have hc : ∀ n, n < prod pre → (srt n).Perm (List.range W) ∧
      ((srt n).take K).Pairwise (fun a b => cellLt lt data (n * W) a b = false) ∧
      ∀ a ∈ (srt n).take K, ∀ b ∈ (srt n).drop K, cellLt lt data (n * W) a b = false :=
    fun n hn => hps _ K (List.range W) (by simpa using hKW) (hsw n hn)
  -- the loop
  obtain ⟨st, e, h1, h2, h3⟩ := loop_inv (n := prod pre) (s := (freshV (prod pre * K), freshI (prod pre * K)))
    (f := fun st n => topkRow psort lt data W K n st)
    (fun m st => st.1.length = prod pre * K ∧ st.2.length = prod pre * K ∧
      ∀ n, n < m → ∀ (k : Nat), k < K → ∃ i, (srt n)[k]? = some i ∧ i < W ∧ st.1[n * K + k]? = some (X (unlin pre n ++ [i])) ∧
        st.2[n * K + k]? = some (i : Int))
    ⟨hv _, hi _, by intro n hn; omega⟩
    (by
      rintro n ⟨vs, is⟩ hn ⟨a1, a2, a3⟩
      simp only at a1 a2 a3
      have hfit : n * K + K ≤ prod pre * K := by
        have := Nat.mul_le_mul_right K (show n + 1 ≤ prod pre by omega)
        rw [Nat.add_mul] at this; omega
      obtain ⟨vs', is', e, b1, b2, b3, b4⟩ := topkRow_ok (psort := psort) (lt := lt) (vs := vs) (is := is) (row := fun i => X (unlin pre n ++ [i]))
        (weakOrderOn_iff.2 (hsw n hn)) hKW (hrow n hn) (hc n hn).1 (by omega) (by omega)
      refine ⟨(vs', is'), e, by simp only; omega, by simp only; omega, ?_⟩
      intro n' hn' k hk
      by_cases hnn : n' = n
      · subst hnn; exact b3 k hk
      · obtain ⟨i, c1, c2, c3, c4⟩ := a3 n' (by omega) k hk
        have hlt' : n' * K + k < n * K := by
          have := Nat.mul_le_mul_right K (show n' + 1 ≤ n by omega)
          rw [Nat.add_mul] at this; omega
        have := b4 (n' * K + k) (Or.inl hlt')
        exact ⟨i, c1, c2, by simp only; rw [this.1]; exact c3, by simp only; rw [this.2]; exact c4⟩)
  have hrun : topkRun psort lt ⟨dt, pre ++ [W], data⟩ number freshV freshI = .ok (pre ++ [K], st.1, st.2) := by
    unfold topkRun
    simp only [List.reverse_append, List.reverse_cons, List.reverse_nil, List.nil_append, List.singleton_append, List.reverse_reverse]
    rw [if_neg (by omega), if_pos ht, ← hK]
    simp only [Int.toNat_natCast]
    rw [e]; rfl
  let I := fun c : List Nat => ((srt (lin pre (c.take pre.length)))[c.getD pre.length 0]?).getD 0
  have hI : ∀ u k, InBounds pre u → k < K → I (u ++ [k]) < W ∧ (srt (lin pre u))[k]? = some (I (u ++ [k])) ∧
      st.1[lin pre u * K + k]? = some (X (u ++ [I (u ++ [k])])) ∧ st.2[lin pre u * K + k]? = some (I (u ++ [k]) : Int) := by
    intro u k hu hk
    obtain ⟨i, c1, c2, c3, c4⟩ := h3 (lin pre u) (lin_lt hu) k hk
    have hIe : I (u ++ [k]) = i := by
      simp only [I]
      have t1 : (u ++ [k]).take pre.length = u := by rw [← hu.length]; simp
      have t2 : (u ++ [k]).getD pre.length 0 = k := by rw [← hu.length]; simp
      rw [t1, t2, c1]; rfl
    rw [unlin_lin hu] at c3
    rw [hIe]
    exact ⟨c2, c1, c3, c4⟩
  have hlin : ∀ u k, InBounds pre u → lin (pre ++ [K]) (u ++ [k]) = lin pre u * K + k := by
    intro u k hu
    rw [lin_append hu.length]; simp [lin, prod]
  have hpr : prod (pre ++ [K]) = prod pre * K := by rw [prod_append]; simp [prod]
  have hsplit : ∀ c, InBounds (pre ++ [K]) c → ∃ u k, c = u ++ [k] ∧ InBounds pre u ∧ k < K := by
    intro c hc
    have hl := hc.length
    refine ⟨c.take pre.length, c.getD pre.length 0, ?_, ?_⟩
    · conv_lhs => rw [← List.take_append_drop pre.length c]
      congr 1
      have h1 : (c.drop pre.length).length = 1 := by simp at hl ⊢; omega
      obtain ⟨z, hz⟩ := List.length_eq_one_iff.1 h1
      rw [hz]
      have : c[pre.length]? = some z := by
        have := List.getElem?_drop (xs := c) (i := pre.length) (j := 0)
        rw [hz] at this; simpa using this.symm
      simp [List.getD, this]
    · have hz : c = c.take pre.length ++ c.drop pre.length := (List.take_append_drop _ _).symm
      have hl1 : (c.take pre.length).length = pre.length := by simp at hl ⊢; omega
      rw [hz] at hc
      have h12 := (inBounds_append hl1).1 hc
      refine ⟨h12.1, ?_⟩
      have h1 : (c.drop pre.length).length = 1 := by simp at hl ⊢; omega
      obtain ⟨z, hzz⟩ := List.length_eq_one_iff.1 h1
      have : c[pre.length]? = some z := by
        have := List.getElem?_drop (xs := c) (i := pre.length) (j := 0)
        rw [hzz] at this; simpa using this.symm
      rw [hzz] at h12
      simpa [List.getD, this] using h12.2.1
  refine ⟨K, st.1, st.2, fun c => X (c.take pre.length ++ [I c]), I, hK, hrun, ⟨by rw [hpr]; exact h1, ?_⟩, ⟨by rw [hpr]; exact h2, ?_⟩, ?_⟩
  · intro c hc'
    obtain ⟨u, k, rfl, hu, hk⟩ := hsplit c hc'
    rw [hlin u k hu, (hI u k hu hk).2.2.1]
    have t1 : (u ++ [k]).take pre.length = u := by rw [← hu.length]; simp
    simp only [t1]
  · intro c hc'
    obtain ⟨u, k, rfl, hu, hk⟩ := hsplit c hc'
    rw [hlin u k hu, (hI u k hu hk).2.2.2]
  · intro u hu
    have t1 : ∀ k, (u ++ [k]).take pre.length = u := by intro k; rw [← hu.length]; simp
    have hn := lin_lt hu
    have hcu := hc _ hn
    have hcl : ∀ a b, a < W → b < W → cellLt lt data (lin pre u * W) a b = lt (X (u ++ [a])) (X (u ++ [b])) := by
      intro a b ha hb
      have := hcell (lin pre u) hn a b ha hb
      rwa [unlin_lin hu] at this
    have hslen : (srt (lin pre u)).length = W := by simpa using hcu.1.length_eq
    refine ⟨fun k hk => ⟨(hI u k hu hk).1, by simp only [t1]⟩, ?_, ?_⟩
    · intro j k hjk hk
      have gj := hI u j hu (by omega)
      have gk := hI u k hu hk
      simp only [t1]
      constructor
      · intro heq
        have hnd : (srt (lin pre u)).Nodup := hcu.1.nodup_iff.2 List.nodup_range
        have h1 := gj.2.1
        rw [heq, ← gk.2.1] at h1
        have := (List.getElem?_inj (i := j) (j := k) (by omega) hnd).1 h1
        omega
      · have := List.pairwise_iff_getElem.1 hcu.2.1 j k (by simp; omega) (by simp; omega) hjk
        simp only [List.getElem_take] at this
        have ej : (srt (lin pre u))[j] = I (u ++ [j]) := by
          have := gj.2.1; rw [List.getElem?_eq_getElem (by omega)] at this; exact Option.some.inj this
        have ek : (srt (lin pre u))[k] = I (u ++ [k]) := by
          have := gk.2.1; rw [List.getElem?_eq_getElem (by omega)] at this; exact Option.some.inj this
        rw [ej, ek, hcl _ _ gj.1 gk.1] at this
        exact this
    · intro i hi hno k hk
      have gk := hI u k hu hk
      simp only [t1]
      have hin : i ∈ srt (lin pre u) := hcu.1.mem_iff.2 (by simpa using hi)
      rw [← List.take_append_drop K (srt (lin pre u)), List.mem_append] at hin
      have hnt : i ∉ (srt (lin pre u)).take K := by
        intro hin
        obtain ⟨k', hk', he⟩ := List.getElem_of_mem hin
        simp at hk'
        rw [List.getElem_take] at he
        apply hno k' hk'.1
        have := (hI u k' hu hk'.1).2.1
        rw [List.getElem?_eq_getElem (by omega), he] at this
        exact (Option.some.inj this).symm
      have hd := hin.resolve_left hnt
      have hkt : I (u ++ [k]) ∈ (srt (lin pre u)).take K := by
        have := gk.2.1
        exact List.mem_of_getElem? (i := k) (by rw [List.getElem?_take_of_lt hk]; exact this)
      have := hcu.2.2 _ hkt _ hd
      rwa [hcl _ _ gk.1 hi] at this

/-- a comparison and rows that meet the hypotheses, on a sorting function that meets the contract for them -/
example : topkRun (fun _ _ _ => [2, 0, 1]) (fun a b : Int => decide (a < b)) ⟨5, [1, 3], [5, -1, 7]⟩ 2 (fun n => List.replicate n 0)
    (fun n => List.replicate n 0) = .ok ([1, 2], [7, 5], [2, 0]) := by decide
example : WeakOrderOn (fun a b : Int => decide (a < b)) (· ∈ [5, -1, 7]) := by
  intro a b c _ _ _
  simp only [decide_eq_true_eq, decide_eq_false_iff_not]
  omega

/-- **C57, NaN.** A row with a NaN beside ordered elements breaks the requirements of the sort: undefined. `none` stands for NaN. -/
theorem C57_nan_false (psort : (Nat → Nat → Bool) → Nat → List Nat → List Nat) :
    topkRun psort (fun a b : Option Int => match a, b with | some a, some b => decide (a < b) | _, _ => false)
      ⟨10, [3], [some 1, none, some 2]⟩ 1 (fun n => List.replicate n none) (fun n => List.replicate n 0) = .ub := by
  have : strictWeak (fun a b => cellLt (fun a b : Option Int => match a, b with | some a, some b => decide (a < b) | _, _ => false)
      [some 1, none, some 2] (0 * 3) b a) (List.range 3) = false := by decide
  simp only [topkRun, List.reverse_cons, List.reverse_nil, List.nil_append, prod, loop, Res.bind_ok, topkRow, partialSort, this]
  rfl

/-- **C57, parameters.** A negative number is not refused (the extent of the result would be negative: undefined); a tensor without
dimensions is returned with index 0; types without arithmetic are refused. -/
theorem C57_parameters (psort : (Nat → Nat → Bool) → Nat → List Nat → List Nat) (lt : α → α → Bool) (dt W : Nat) (pre : List Nat)
    (data : List α) (v : α) (number : Int) (freshV : Nat → List α) (freshI : Nat → List Int) :
    (number < 0 → topkRun psort lt ⟨dt, pre ++ [W], data⟩ number freshV freshI = .ub) ∧
    topkRun psort lt ⟨dt, [], [v]⟩ number freshV freshI = .ok ([], [v], [0]) ∧
    (0 ≤ number → plainType dt = false → topkRun psort lt ⟨dt, pre ++ [W], data⟩ number freshV freshI = .err) := by
  refine ⟨fun h => ?_, rfl, fun h ht => ?_⟩
  · unfold topkRun
    simp only [List.reverse_append, List.reverse_cons, List.reverse_nil, List.nil_append, List.singleton_append]
    rw [if_pos (by omega)]
  · unfold topkRun
    simp only [List.reverse_append, List.reverse_cons, List.reverse_nil, List.nil_append, List.singleton_append]
    rw [if_neg (by omega), if_neg (by simp [ht])]

example : topkRun (fun _ _ _ => [2, 0, 1]) (fun a b : Int => decide (a < b)) ⟨9, [1, 3], [5, -1, 7]⟩ 2 (fun n => List.replicate n 0)
    (fun n => List.replicate n 0) = .err := by decide

/-! ## C58 -/

/-- what the standard says about the top of a priority queue: an element before no other -/
def TopContract (before : Nat → Nat → Bool) (pick : Nat → List Nat → Nat) : Prop :=
  ∀ k q, q ≠ [] → WeakOrderOn before (· ∈ q) → ∃ i, q[pick k q]? = some i ∧ ∀ c ∈ q, before i c = false

/-- box `i` of a list of boxes: four numbers -/
def boxAt (boxes : List α) (i : Nat) : List α := (boxes.drop (i * 4)).take 4

/-- the corners (ymin, xmin, ymax, xmax) of a box given by two opposite corners, or by a corner and its extents -/
def cornersOf (A : BoxArith α) (xywh : Bool) : List α → α × α × α × α
  | [b0, b1, b2, b3] =>
    let c2 := if xywh then A.add b0 b2 else b2
    let c3 := if xywh then A.add b1 b3 else b3
    (A.min b0 c2, A.min b1 c3, A.max b0 c2, A.max b1 c3)
  | _ => (A.zero, A.zero, A.zero, A.zero)

/-- the overlap test of boxes `i` and `j`; `C58_iou` says what it means -/
def overlaps (A : BoxArith α) (boxes : List α) (xywh : Bool) (iou : α) (i j : Nat) : Bool :=
  suppressCorners A iou (cornersOf A xywh (boxAt boxes i)) (cornersOf A xywh (boxAt boxes j))

theorem corners_boxAt {A : BoxArith α} {boxes : List α} {xywh : Bool} {n i : Nat} (hl : boxes.length = n * 4) (hi : i < n) :
    corners A boxes xywh i = .ok (cornersOf A xywh (boxAt boxes i)) := by
  obtain ⟨b0, b1, b2, b3, h0, h1, h2, h3, e⟩ := corners_ok (A := A) (xywh := xywh) hl hi
  have hb : boxAt boxes i = [b0, b1, b2, b3] := by
    unfold boxAt
    apply List.ext_getElem?
    intro k
    rcases Nat.lt_or_ge k 4 with hk | hk
    · rw [List.getElem?_take_of_lt hk, List.getElem?_drop]
      match k, hk with
      | 0, _ => simpa using h0
      | 1, _ => simpa using h1
      | 2, _ => simpa using h2
      | 3, _ => simpa using h3
    · rw [List.getElem?_eq_none (by simp; omega), List.getElem?_eq_none (by simp; omega)]
  rw [e, hb]; rfl

/-- **C58, non_max_suppression_v3.** With one score per box, the output lists the selected boxes and then -1. The selected boxes have scores
above the threshold, in descending order, and no two of them overlap; every other box above the threshold overlaps a selected box whose
score is not less, or the output is full of boxes whose scores are not less. Scores that are NaN are not above any threshold. -/
theorem C58_nms_partial (A : BoxArith α) {σ : Type} (lt : σ → σ → Bool) (pick : Nat → List Nat → Nat) (dtb dts n : Nat) (boxes : List α)
    (scores : List σ) (maxOutput : Nat) (iou : α) (threshold : σ) (xywh : Bool) (fresh : Nat → List Int)
    (hb : boxes.length = n * 4) (hs : scores.length = n) (hm : 0 < maxOutput) (ht : dtb ∈ [3, 4, 5, 6, 7, 8, 10, 11])
    (hf : ∀ n, (fresh n).length = n) (hlt : WeakOrderOn lt fun s => lt threshold s = true)
    (hpick : TopContract (fun i j => scoreLt lt scores i j) pick) :
    ∃ S : List Nat, nmsRun A lt pick ⟨dtb, [n, 4], boxes⟩ ⟨dts, [n], scores⟩ maxOutput iou threshold xywh fresh =
        .ok ([maxOutput], S.map Int.ofNat ++ List.replicate (maxOutput - S.length) (-1)) ∧
      S.length ≤ maxOutput ∧
      (∀ i ∈ S, ∃ s, scores[i]? = some s ∧ lt threshold s = true) ∧
      S.Pairwise (fun i j => i ≠ j ∧ overlaps A boxes xywh iou j i = false ∧
        ∀ s t, scores[i]? = some s → scores[j]? = some t → lt s t = false) ∧
      ∀ (i : Nat) (s : σ), scores[i]? = some s → lt threshold s = true → i ∉ S →
        (∃ j ∈ S, overlaps A boxes xywh iou i j = true ∧ ∀ t, scores[j]? = some t → lt t s = false) ∨
        (S.length = maxOutput ∧ ∀ j ∈ S, ∀ t, scores[j]? = some t → lt t s = false) := by
  obtain ⟨q, hqd⟩ : ∃ q, q = nmsCandidates lt scores threshold := ⟨_, rfl⟩
  have hq : ∀ i, i ∈ q ↔ ∃ s, scores[i]? = some s ∧ lt threshold s = true := by
    intro i
    simp only [hqd, nmsCandidates, List.mem_filter, List.mem_range]
    constructor
    · rintro ⟨h1, h2⟩
      refine ⟨scores[i], List.getElem?_eq_getElem h1, ?_⟩
      rw [List.getElem?_eq_getElem h1] at h2; exact h2
    · rintro ⟨s, h1, h2⟩
      refine ⟨?_, by rw [h1]; exact h2⟩
      by_contra hc
      rw [List.getElem?_eq_none (by omega)] at h1; cases h1
  have hqn : ∀ i ∈ q, i < n := by
    intro i hi
    simp only [hqd, nmsCandidates, List.mem_filter, List.mem_range] at hi
    omega
  have hlt' : ∀ i j s t, scores[i]? = some s → scores[j]? = some t → scoreLt lt scores i j = lt s t := by
    intro i j s t h1 h2
    unfold scoreLt; rw [h1, h2]
  have hw : ∀ l : List Nat, (∀ i ∈ l, i ∈ q) → WeakOrderOn (fun i j => scoreLt lt scores i j) (· ∈ l) := by
    intro l hl a b c ha hb hc
    obtain ⟨sa, ea, ga⟩ := (hq a).1 (hl a ha)
    obtain ⟨sb, eb, gb⟩ := (hq b).1 (hl b hb)
    obtain ⟨sc, ec, gc⟩ := (hq c).1 (hl c hc)
    show scoreLt lt scores a a = false ∧ (scoreLt lt scores a b = true → scoreLt lt scores b c = true → scoreLt lt scores a c = true) ∧
      (scoreLt lt scores a b = false → scoreLt lt scores b c = false → scoreLt lt scores a c = false)
    rw [hlt' a a _ _ ea ea, hlt' a b _ _ ea eb, hlt' b c _ _ eb ec, hlt' a c _ _ ea ec]
    exact hlt sa sb sc ga gb gc
  obtain ⟨res, e, r1, r2, r3, r4⟩ := nmsLoop_ok (sup := checkSuppress A boxes xywh iou) (S := overlaps A boxes xywh iou)
    (before := fun i j => scoreLt lt scores i j) (pick := pick) (M := maxOutput) q
    (by
      intro i hi j hj
      unfold checkSuppress
      rw [corners_boxAt hb (hqn i hi), Res.bind_ok, corners_boxAt hb (hqn j hj), Res.bind_ok]; rfl)
    (fun k l hl hm => hpick k l hl (hw l hm))
    q.length 0 q [] rfl (fun _ h => h) (by rw [hqd]; exact List.nodup_range.filter _) (by simp) (by simp) (by simp) List.Pairwise.nil (by simp)
    (fun i hi hn => absurd hi hn)
  refine ⟨res.reverse, ?_, by simpa using r1, ?_, ?_, ?_⟩
  · unfold nmsRun
    simp only
    rw [if_pos (by omega), if_pos (by simpa using ht)]
    unfold nmsKernel
    simp only [Int.toNat_natCast]
    rw [← hqd, e, Res.bind_ok]
    have := nms_write (M := maxOutput) (sel := res.reverse) (out := fresh maxOutput) (hf _) (by simpa using r1)
    rw [List.length_reverse] at this ⊢
    rw [this]; rfl
  · intro i hi
    exact (hq i).1 (r2 i (by simpa using hi))
  · rw [List.pairwise_reverse]
    refine r3.imp ?_
    intro a b ⟨h1, h2, h3⟩
    exact ⟨fun h => h1 h.symm, h3, fun s t hs ht => by rw [← hlt' b a s t hs ht]; exact h2⟩
  · intro i s hi hgt hn
    have hiq := (hq i).2 ⟨s, hi, hgt⟩
    rcases r4 i hiq (by simpa using hn) with ⟨j, hj, h1, h2⟩ | ⟨h1, h2⟩
    · exact Or.inl ⟨j, by simpa using hj, h1, fun t ht => by rw [← hlt' j i t s ht hi]; exact h2⟩
    · exact Or.inr ⟨by simpa using h1, fun j hj t ht => by rw [← hlt' j i t s ht hi]; exact h2 j (by simpa using hj)⟩

/-- arithmetic of the integers, for examples -/
def intBox : BoxArith Int := ⟨0, (· + ·), (· - ·), (· * ·), fun a b => 100 * a / b, fun a b => decide (a < b), fun a b => decide (a ≤ b)⟩

/-- the position of the first greatest score -/
def firstMax (scores : List Int) (_ : Nat) (q : List Nat) : Nat :=
  q.findIdx fun i => q.all fun j => decide (scores.getD j 0 ≤ scores.getD i 0)

/-- three boxes, the second overlapping the first (in hundredths), a fourth below the threshold -/
example : nmsRun intBox (fun a b : Int => decide (a < b)) (firstMax [7, 5, 6, 1]) ⟨10, [4, 4], [0, 0, 10, 10, 0, 1, 10, 11, 20, 20, 30, 30, 0, 0, 5, 5]⟩
    ⟨10, [4], [7, 5, 6, 1]⟩ 3 50 2 false (fun n => List.replicate n 0) = .ok ([3], [0, 2, -1]) := by decide
example : WeakOrderOn (fun a b : Int => decide (a < b)) (fun s => decide (2 < s) = true) := by
  intro a b c _ _ _
  simp only [decide_eq_true_eq, decide_eq_false_iff_not]
  omega
/-- queues keep the contract -/
theorem firstMax_contract (scores : List Int) :
    TopContract (fun i j => scoreLt (fun a b : Int => decide (a < b)) scores i j) (firstMax scores) := by
  intro k q hq _
  have hex : ∃ i ∈ q, q.all (fun j => decide (scores.getD j 0 ≤ scores.getD i 0)) = true := by
    obtain ⟨m, hm, hmax⟩ : ∃ m ∈ q, ∀ j ∈ q, scores.getD j 0 ≤ scores.getD m 0 := by
      clear k
      induction q with
      | nil => exact absurd rfl hq
      | cons a q ih =>
        by_cases hq0 : q = []
        · subst hq0; exact ⟨a, by simp, by simp⟩
        · obtain ⟨m, hm, h⟩ := ih hq0 (by
            intro x y z hx hy hz
            exact ‹WeakOrderOn _ _› x y z (List.mem_cons_of_mem _ hx) (List.mem_cons_of_mem _ hy) (List.mem_cons_of_mem _ hz))
          by_cases hc : scores.getD a 0 ≤ scores.getD m 0
          · exact ⟨m, List.mem_cons_of_mem _ hm, fun j hj => by
              rcases List.mem_cons.1 hj with rfl | hj
              · exact hc
              · exact h j hj⟩
          · exact ⟨a, List.mem_cons_self, fun j hj => by
              rcases List.mem_cons.1 hj with rfl | hj
              · exact le_refl _
              · have := h j hj; omega⟩
    exact ⟨m, hm, by simpa using hmax⟩
  have hlt : firstMax scores k q < q.length := by
    unfold firstMax
    rw [List.findIdx_lt_length]; exact hex
  refine ⟨q[firstMax scores k q], List.getElem?_eq_getElem hlt, ?_⟩
  intro c hc
  have hp := List.findIdx_getElem (w := hlt)
  have hp' : scores.getD c 0 ≤ scores.getD q[firstMax scores k q] 0 := by
    rw [List.all_eq_true] at hp
    exact of_decide_eq_true (hp c hc)
  show scoreLt _ scores _ c = false
  unfold scoreLt
  split
  · rename_i a b h1 h2
    simp [List.getD, h1, h2] at hp'
    simpa using hp'
  · rfl

/-! ### the overlap test -/

open MeasureTheory Set in
/-- the points of a box given by two opposite corners (y0, x0), (y1, x1) in any order -/
def boxSet (y0 x0 y1 x1 : ℝ) : Set (ℝ × ℝ) := uIcc y0 y1 ×ˢ uIcc x0 x1

/-- real arithmetic -/
noncomputable def realBox : BoxArith ℝ :=
  ⟨0, (· + ·), (· - ·), (· * ·), (· / ·), fun a b => decide (a < b), fun a b => decide (a ≤ b)⟩

theorem realBox_min (a b : ℝ) : realBox.min a b = min a b := by
  unfold BoxArith.min
  simp only [realBox, decide_eq_true_eq]
  split
  · rw [min_eq_right (le_of_lt ‹_›)]
  · rw [min_eq_left (not_lt.1 ‹_›)]

theorem realBox_max (a b : ℝ) : realBox.max a b = max a b := by
  unfold BoxArith.max
  simp only [realBox, decide_eq_true_eq]
  split
  · rw [max_eq_right (le_of_lt ‹_›)]
  · rw [max_eq_left (not_lt.1 ‹_›)]

open MeasureTheory Set in
theorem volume_rect (a b c d : ℝ) : volume.real (Icc a b ×ˢ Icc c d : Set (ℝ × ℝ)) = max (b - a) 0 * max (d - c) 0 := by
  rw [Measure.volume_eq_prod, measureReal_def, Measure.prod_prod, Real.volume_Icc, Real.volume_Icc, ENNReal.toReal_mul,
    ENNReal.toReal_ofReal', ENNReal.toReal_ofReal']

open MeasureTheory Set in
/-- **C58, overlap.** Over the reals, two boxes with corners in any order overlap when both have an area and the area of their intersection
divided by the area of their union is above the threshold. In the other mode the second pair are extents. -/
theorem C58_iou (iou : ℝ) (y0 x0 y1 x1 y0' x0' y1' x1' : ℝ) :
    (overlaps realBox [y0, x0, y1, x1, y0', x0', y1', x1'] false iou 0 1 = true ↔
      0 < volume.real (boxSet y0 x0 y1 x1) ∧ 0 < volume.real (boxSet y0' x0' y1' x1') ∧
      iou < volume.real (boxSet y0 x0 y1 x1 ∩ boxSet y0' x0' y1' x1') / volume.real (boxSet y0 x0 y1 x1 ∪ boxSet y0' x0' y1' x1')) ∧
    (overlaps realBox [y0, x0, y1, x1, y0', x0', y1', x1'] true iou 0 1 =
      overlaps realBox [y0, x0, y0 + y1, x0 + x1, y0', x0', y0' + y1', x0' + x1'] false iou 0 1) := by
  refine ⟨?_, rfl⟩
  have hA : volume.real (boxSet y0 x0 y1 x1) = (max y0 y1 - min y0 y1) * (max x0 x1 - min x0 x1) := by
    unfold boxSet uIcc
    rw [volume_rect, max_eq_left (sub_nonneg.2 min_le_max), max_eq_left (sub_nonneg.2 min_le_max)]
  have hB : volume.real (boxSet y0' x0' y1' x1') = (max y0' y1' - min y0' y1') * (max x0' x1' - min x0' x1') := by
    unfold boxSet uIcc
    rw [volume_rect, max_eq_left (sub_nonneg.2 min_le_max), max_eq_left (sub_nonneg.2 min_le_max)]
  have hI : volume.real (boxSet y0 x0 y1 x1 ∩ boxSet y0' x0' y1' x1') =
      max (min (max y0 y1) (max y0' y1') - max (min y0 y1) (min y0' y1')) 0 *
        max (min (max x0 x1) (max x0' x1') - max (min x0 x1) (min x0' x1')) 0 := by
    unfold boxSet uIcc
    rw [prod_inter_prod, Icc_inter_Icc, Icc_inter_Icc, volume_rect]
  have fin : ∀ a b c d : ℝ, volume (boxSet a b c d) ≠ ⊤ := by
    intro a b c d
    unfold boxSet uIcc
    rw [Measure.volume_eq_prod, Measure.prod_prod, Real.volume_Icc, Real.volume_Icc]
    exact ENNReal.mul_ne_top ENNReal.ofReal_ne_top ENNReal.ofReal_ne_top
  have hms : MeasurableSet (boxSet y0' x0' y1' x1') := (measurableSet_uIcc).prod measurableSet_uIcc
  have hU : volume.real (boxSet y0 x0 y1 x1 ∪ boxSet y0' x0' y1' x1') = volume.real (boxSet y0 x0 y1 x1) +
      volume.real (boxSet y0' x0' y1' x1') - volume.real (boxSet y0 x0 y1 x1 ∩ boxSet y0' x0' y1' x1') := by
    have := measureReal_union_add_inter₀ (μ := volume) (s := boxSet y0 x0 y1 x1) hms.nullMeasurableSet (fin _ _ _ _) (fin _ _ _ _)
    linarith
  have h0 : boxAt [y0, x0, y1, x1, y0', x0', y1', x1'] 0 = [y0, x0, y1, x1] := rfl
  have h1 : boxAt [y0, x0, y1, x1, y0', x0', y1', x1'] 1 = [y0', x0', y1', x1'] := rfl
  unfold overlaps
  rw [h0, h1]
  simp only [cornersOf, Bool.false_eq_true, if_false]
  unfold suppressCorners boxArea
  simp only [realBox_min, realBox_max]
  rw [hU, hI, hA, hB]
  simp only [realBox, Bool.or_eq_true, decide_eq_true_eq]
  by_cases ha : (max y0 y1 - min y0 y1) * (max x0 x1 - min x0 x1) ≤ 0
  · rw [if_pos (Or.inl ha)]
    simp only [Bool.false_eq_true, false_iff]
    rintro ⟨h, -⟩
    exact absurd h (not_lt.2 ha)
  · by_cases hb : (max y0' y1' - min y0' y1') * (max x0' x1' - min x0' x1') ≤ 0
    · rw [if_pos (Or.inr hb)]
      simp only [Bool.false_eq_true, false_iff]
      rintro ⟨-, h, -⟩
      exact absurd h (not_lt.2 hb)
    · rw [if_neg (by rintro (h | h) <;> contradiction)]
      simp only [decide_eq_true_eq]
      exact ⟨fun h => ⟨not_le.1 ha, not_le.1 hb, h⟩, fun h => h.2.2⟩

/-- boxes that overlap by half -/
example : overlaps intBox [0, 0, 2, 2, 2, 3, 0, 1] false 30 0 1 = true := by decide

/-- **C58, unchecked operands.** `run` never checks that there is a score for every box (`infer` would refuse): with more scores than
boxes it reads past the boxes. -/
theorem C58_unchecked_false (A : BoxArith α) (b0 b1 b2 b3 iou : α) (fresh : Nat → List Int) :
    nmsRun A (fun a b : Int => decide (a < b)) (fun _ _ => 0) ⟨10, [1, 4], [b0, b1, b2, b3]⟩ ⟨10, [2], [1, 1]⟩ 2 iou 0 false fresh = .ub ∧
      nmsInfer ([1, 4], 10) ([2], 10) 2 = .err := ⟨rfl, rfl⟩

/-- **C58, refusals.** -/
theorem C58_rejects (A : BoxArith α) {σ : Type} (lt : σ → σ → Bool) (pick : Nat → List Nat → Nat) (boxes : Operand α) (scores : Operand σ)
    (maxOutput : Int) (iou : α) (threshold : σ) (xywh : Bool) (fresh : Nat → List Int)
    (h : maxOutput ≤ 0 ∨ boxes.dtype ∉ [3, 4, 5, 6, 7, 8, 10, 11]) :
    nmsRun A lt pick boxes scores maxOutput iou threshold xywh fresh = .err := by
  unfold nmsRun
  by_cases h0 : 0 < maxOutput
  · rw [if_pos h0, if_neg]
    simpa using h.resolve_left (by omega)
  · rw [if_neg h0]

/-- The shape inference accepts `n` boxes of four `float` coordinates with `n` scores, and nothing else. -/
theorem C58_infer (b s : List Nat × Nat) (m : Int) (r : List Nat) :
    nmsInfer b s m = .ok r ↔ ∃ n, b = ([n, 4], 10) ∧ s.1 = [n] ∧ r = [m.toNat] := by
  obtain ⟨bs, bt⟩ := b
  obtain ⟨ss, st⟩ := s
  constructor
  · intro h
    unfold nmsInfer at h
    split at h
    · rename_i n four k h1 h2
      simp only at h1 h2 h
      split at h
      · rename_i hc
        obtain ⟨rfl, rfl, rfl⟩ := hc
        exact ⟨k, by rw [h1], h2, by injection h with h; exact h.symm⟩
      · exact absurd h (by simp)
    · exact absurd h (by simp)
  · rintro ⟨n, h1, h2, rfl⟩
    injection h1 with h1 h3
    simp only at h2
    subst h1 h2 h3
    simp [nmsInfer]

example : nmsInfer ([6, 4], 10) ([6], 11) 3 = .ok [3] := (C58_infer _ _ _ _).2 ⟨6, rfl, rfl, rfl⟩

example : nmsRun intBox (fun a b : Int => decide (a < b)) (firstMax []) ⟨9, [0, 4], []⟩ ⟨10, [0], []⟩ 3 50 2 false (fun n => List.replicate n 0) = .err := by
  decide

end Verif.Props
