import Verif.Core.ShapeOpsLemmas
import Verif.Props.Shape
/-!
# C42: shape-only operators

`keeps t r` is the tensor with the element type, bytes and packed members of `t` under shape `r`; `Spec.dropAt p l` is
`l` without the positions where `p` holds.
-/
namespace Verif.Props
open Verif.Core Verif.Spec

/-- the axis a parameter names on a tensor of the given rank: negative axes count from the end -/
def axisOf (rank : Nat) (a : Int) : Int := if a < 0 then a + rank else a

/-- C42 (all these operators, every parameter): whenever one succeeds, the result has the same element type, bytes and
packed members, and the same number of elements. -/
theorem C42_elements_kept (ns : List Int → Res (List Int)) (t t' : Tensor) (h : newShapeRun ns t = .ok t') :
    t'.own.dtype = t.own.dtype ∧ t'.own.mem = t.own.mem ∧ t'.fields = t.fields ∧
      ∃ n, prod32 1 t.own.shape = .ok n ∧ prod32 1 t'.own.shape = .ok n := by
  unfold newShapeRun at h
  simp only [Res.bind_eq_ok] at h
  obtain ⟨s, _, a, ha, b, hb, h⟩ := h
  split at h
  · cases h
  · unfold reshape at h
    simp only [Res.bind_eq_ok] at h
    obtain ⟨r, hr, h⟩ := h
    simp only [Res.ok.injEq] at h
    subst h
    refine ⟨rfl, rfl, rfl, ?_⟩
    unfold reshapeShape at hr
    simp only [Res.bind_eq_ok] at hr
    obtain ⟨x, _, hr⟩ := hr
    have fin : ∀ f : List Int, (prod32 1 f >>= fun n => prod32 1 t.own.shape >>= fun c =>
        if n ≠ c then .err else .ok f) = .ok r →
        ∃ n, prod32 1 t.own.shape = .ok n ∧ prod32 1 r = .ok n := by
      intro f hf
      simp only [Res.bind_eq_ok] at hf
      obtain ⟨n, hn, c, hc, hf⟩ := hf
      split at hf
      · cases hf
      · rename_i hne
        cases hf
        exact ⟨c, hc, (by simpa using hne : n = c) ▸ hn⟩
    cases hx : x.2 with
    | none => rw [hx] at hr; exact fin _ hr
    | some i =>
      rw [hx] at hr
      simp only [Res.bind_eq_ok] at hr
      obtain ⟨_, _, _, _, _, _, f, _, l, hl, hr⟩ := hr
      refine fin l ?_
      simpa only [Res.bind_eq_ok] using hr

/-- C42 (squeeze without axes): all extents 1 are removed, for every shape. -/
theorem C42_squeeze_all (t : Tensor) (sizes : List Nat) (ht : t.own.shape = ints sizes) (hs : NoOverflow sizes) :
    squeeze [] t = .ok (keeps t (sizes.filter (· ≠ 1))) := by
  have e : (sizes.filter (· ≠ 1)).filter (· ≠ 1) = sizes.filter (· ≠ 1) := by simp [List.filter_filter]
  have h := sameOnes e hs
  exact newShapeRun_ok ht hs (by simp [squeezeShape, squeezeOnes_eq]) h.1 h.2

example : squeeze [] (.mk ⟨5, [1, 3, 1, 0], []⟩ []) = .ok (.mk ⟨5, [3, 0], []⟩ []) :=
  C42_squeeze_all (.mk ⟨5, [1, 3, 1, 0], []⟩ []) [1, 3, 1, 0] rfl
    (noOverflow_of_pfits (by simp [PFits]))

/-- C42 (squeeze with axes): for axes named in increasing order, of which only the last may be given as negative, the
operator succeeds exactly when every named axis exists and has extent 1, and removes exactly these axes. -/
theorem C42_squeeze_axes_partial (t : Tensor) (sizes : List Nat) (ht : t.own.shape = ints sizes)
    (hs : NoOverflow sizes) (as : List Nat) (a : Int)
    (hp : (ints as ++ [axisOf sizes.length a]).Pairwise (· < ·)) :
    squeeze (ints as ++ [a]) t ≠ .ub ∧
    ∀ t', squeeze (ints as ++ [a]) t = .ok t' ↔
      (∀ x ∈ ints as ++ [axisOf sizes.length a], 0 ≤ x ∧ sizes[x.toNat]? = some 1) ∧
        t' = keeps t (dropAt (fun i => decide ((i : Int) ∈ ints as ++ [axisOf sizes.length a])) sizes) := by
  have hmem : ∀ i : Nat, (i : Int) ∈ ints as ↔ i ∈ as := by
    intro i; simp only [ints, List.mem_map]; constructor
    · rintro ⟨n, hn, e⟩; rw [show i = n by simp only [Int.ofNat_eq_natCast] at e; omega]; exact hn
    · exact fun h => ⟨i, h, rfl⟩
  -- the first step, with the axis resolved against the full rank
  have hstep : squeezeStep (ints sizes) a =
      if 0 ≤ axisOf sizes.length a then squeezeStep (ints sizes) ((axisOf sizes.length a).toNat : Int) else .err := by
    by_cases h0 : 0 ≤ axisOf sizes.length a
    · rw [if_pos h0, Int.toNat_of_nonneg h0]
      unfold squeezeStep
      simp only [ints_length]
      have : (if a ≥ 0 then a else (sizes.length : Int) + a) =
          (if axisOf sizes.length a ≥ 0 then axisOf sizes.length a
            else (sizes.length : Int) + axisOf sizes.length a) := by
        rw [if_pos (show axisOf sizes.length a ≥ 0 from h0)]
        unfold axisOf at h0 ⊢; split at h0 <;> split <;> omega
      rw [this]
    · rw [if_neg h0]
      unfold squeezeStep
      simp only [ints_length]
      unfold axisOf at h0
      rw [if_pos]
      split at h0 <;> split <;> omega
  have hsq : squeezeShape (ints as ++ [a]) (ints sizes) =
      if 0 ≤ axisOf sizes.length a then
        overAxes squeezeStep (ints ((axisOf sizes.length a).toNat :: as.reverse)) (ints sizes)
      else .err := by
    unfold squeezeShape
    rw [if_neg (by simp), List.reverse_append]
    simp only [List.reverse_cons, List.reverse_nil, List.nil_append, List.singleton_append, overAxes, hstep, ints_cons]
    split
    · rw [show (ints as).reverse = ints as.reverse by simp [ints]]
    · rfl
  by_cases h0 : 0 ≤ axisOf sizes.length a
  · obtain ⟨b, hb⟩ : ∃ b : Nat, axisOf sizes.length a = b := ⟨_, (Int.toNat_of_nonneg h0).symm⟩
    rw [if_pos h0, hb, Int.toNat_natCast] at hsq
    rw [hb] at hp ⊢
    have hp' : (b :: as.reverse).Pairwise (· > ·) := by
      rw [List.pairwise_append] at hp
      rw [List.pairwise_cons]
      refine ⟨fun x hx => ?_, ?_⟩
      · have := hp.2.2 x (by rw [hmem]; simpa using hx) b (by simp)
        omega
      · rw [List.pairwise_reverse]
        have := hp.1
        unfold ints at this
        rw [List.pairwise_map] at this
        exact this.imp (fun h => by simpa using h)
    rw [squeeze_down _ hp'] at hsq
    have ecov : (∀ x ∈ ints as ++ [(b : Int)], 0 ≤ x ∧ sizes[x.toNat]? = some 1) ↔
        ∀ x ∈ b :: as.reverse, sizes[x]? = some 1 := by
      constructor
      · intro h x hx
        have := (h (x : Int) (by
          simp only [List.mem_cons, List.mem_reverse] at hx
          simp only [List.mem_append, hmem, List.mem_singleton, Int.natCast_inj]; exact hx.symm)).2
        simpa using this
      · intro h x hx
        simp only [List.mem_append, List.mem_singleton] at hx
        rcases hx with hx | rfl
        · obtain ⟨n, rfl⟩ : ∃ n : Nat, x = n := by simp [ints] at hx; obtain ⟨n, _, rfl⟩ := hx; exact ⟨n, rfl⟩
          exact ⟨by omega, by simpa using h n (by rw [hmem] at hx; simp [hx])⟩
        · exact ⟨by omega, by simpa using h b (by simp)⟩
    have edrop : dropAt (fun i => decide ((i : Int) ∈ ints as ++ [(b : Int)])) sizes =
        dropAt (fun i => decide (i ∈ b :: as.reverse)) sizes := by
      apply dropAt_congr
      intro i _
      apply decide_eq_decide.2
      rw [List.mem_append, hmem, List.mem_singleton, Int.natCast_inj, List.mem_cons, List.mem_reverse]
      exact or_comm
    rw [ecov, edrop]
    by_cases hc : ∀ x ∈ b :: as.reverse, sizes[x]? = some 1
    · rw [if_pos hc] at hsq
      have h := sameOnes (dropAt_filter (p := fun i => decide (i ∈ b :: as.reverse)) sizes
        (fun i hi _ => hc i (by simpa using hi))) hs
      have e := newShapeRun_ok ht hs hsq h.1 h.2
      unfold squeeze
      rw [e]
      refine ⟨by simp, fun t' => ?_⟩
      simp only [Res.ok.injEq]
      constructor
      · rintro rfl; exact ⟨hc, rfl⟩
      · rintro ⟨_, rfl⟩; rfl
    · rw [if_neg hc] at hsq
      have e := newShapeRun_err ht hsq
      unfold squeeze
      rw [e]
      refine ⟨by simp, fun t' => ?_⟩
      simp only [reduceCtorEq, false_iff]
      exact fun h => hc h.1
  · rw [if_neg h0] at hsq
    have e := newShapeRun_err ht hsq
    unfold squeeze
    rw [e]
    refine ⟨by simp, fun t' => ?_⟩
    simp only [reduceCtorEq, false_iff]
    exact fun h => h0 (h.1 _ (by simp)).1

example : squeeze [0, -1] (.mk ⟨5, [1, 1, 3, 1], []⟩ []) = .ok (.mk ⟨5, [1, 3], []⟩ []) :=
  ((C42_squeeze_axes_partial (.mk ⟨5, [1, 1, 3, 1], []⟩ []) [1, 1, 3, 1] rfl
    (noOverflow_of_pfits (by simp [PFits])) [0] (-1) (by decide)).2 _).2 ⟨by decide, rfl⟩

/-- Negative axes before the last are resolved against the rank left after the later axes have been removed: a list
whose meaning is clear can remove the wrong axes … -/
theorem C42_squeeze_negative_false :
    squeezeShape [-5, -2, -1] [1, 3, 1, 4, 1, 1, 1] = .ok [3, 1, 4, 1] ∧
    dropAt (fun i => decide (i ∈ [2, 5, 6])) [1, 3, 1, 4, 1, 1, 1] = [1, 3, 4, 1] := by decide

/-- … or is refused; and so is a list of valid axes that is not increasing. -/
theorem C42_squeeze_order_false :
    squeezeShape [-3, -1] [1, 3, 1] = .err ∧ squeezeShape [2, 0] [1, 3, 1] = .err := by decide

/-- C42 (unsqueeze, increasing non-negative axes, result of rank at most 7): the operator succeeds exactly when there
is a shape of the resulting rank that has extent 1 at every named axis and the input's extents, in order, elsewhere,
and that shape is the result. -/
theorem C42_unsqueeze_partial (t : Tensor) (sizes : List Nat) (ht : t.own.shape = ints sizes)
    (hs : NoOverflow sizes) (as : List Nat) (hp : as.Pairwise (· < ·)) (hl : sizes.length + as.length ≤ 7) :
    unsqueeze (ints as) t ≠ .ub ∧
    ∀ t', unsqueeze (ints as) t = .ok t' ↔
      ∃ r : List Nat, t' = keeps t r ∧ r.length = sizes.length + as.length ∧ (∀ a ∈ as, r[a]? = some 1) ∧
        dropAt (fun i => decide (i ∈ as)) r = sizes := by
  have h := unsqueeze_up as hp sizes hl
  have good : ∀ r : List Nat, (∀ a ∈ as, r[a]? = some 1) → dropAt (fun i => decide (i ∈ as)) r = sizes →
      NoOverflow r ∧ prod r = prod sizes := by
    intro r h1 h2
    refine sameOnes ?_ hs
    rw [← h2, dropAt_filter]
    intro i hi _
    exact h1 i (by simpa using hi)
  unfold unsqueeze
  cases e : overAxes unsqueezeStep (ints as) (ints sizes) with
  | ub => exact absurd e h.1
  | err =>
    rw [newShapeRun_err ht (by simpa [unsqueezeShape] using e)]
    refine ⟨by simp, fun t' => ?_⟩
    simp only [reduceCtorEq, false_iff]
    rintro ⟨r, _, h2, h3, h4⟩
    have := (h.2 (ints r)).2 ⟨r, rfl, h2, h3, h4⟩
    rw [e] at this; cases this
  | ok l =>
    obtain ⟨r, rfl, h2, h3, h4⟩ := (h.2 l).1 e
    have g := good r h3 h4
    rw [newShapeRun_ok ht hs (by simpa [unsqueezeShape] using e) g.1 g.2]
    refine ⟨by simp, fun t' => ?_⟩
    simp only [Res.ok.injEq]
    constructor
    · rintro rfl; exact ⟨r, rfl, h2, h3, h4⟩
    · rintro ⟨r', rfl, h2', h3', h4'⟩
      have := (h.2 (ints r')).2 ⟨r', rfl, h2', h3', h4'⟩
      rw [e] at this
      simp only [Res.ok.injEq] at this
      unfold keeps
      rw [this]

example : unsqueeze [0, 2] (.mk ⟨5, [3, 4], []⟩ []) = .ok (.mk ⟨5, [1, 3, 1, 4], []⟩ []) :=
  ((C42_unsqueeze_partial (.mk ⟨5, [3, 4], []⟩ []) [3, 4] rfl (noOverflow_of_pfits (by simp [PFits])) [0, 2]
    (by decide) (by decide)).2 _).2 ⟨[1, 3, 1, 4], rfl, by decide, by decide, by decide⟩

/-- C42 (unsqueeze, one negative axis down to minus the rank): counted from the end of the *result*. -/
theorem C42_unsqueeze_negative_partial (t : Tensor) (sizes : List Nat) (ht : t.own.shape = ints sizes)
    (hs : NoOverflow sizes) (k : Nat) (hk : 1 ≤ k) (hk2 : k ≤ sizes.length) (hl : sizes.length < 7) :
    ∃ r : List Nat, unsqueeze [-(k : Int)] t = .ok (keeps t r) ∧ r.length = sizes.length + 1 ∧
      r[r.length - k]? = some 1 ∧ r.eraseIdx (r.length - k) = sizes := by
  have e : unsqueezeShape [-(k : Int)] (ints sizes) =
      .ok (ints (sizes.take (sizes.length + 1 - k) ++ 1 :: sizes.drop (sizes.length + 1 - k))) := by
    simp only [unsqueezeShape, overAxes, unsqueezeStep, ints_length]
    rw [if_neg (by omega), if_neg (by omega),
      show ((sizes.length : Int) + -(k : Int) + 1).toNat = sizes.length + 1 - k by omega,
      insertOne_nat (by omega) hl]
    rfl
  have hlen : (sizes.take (sizes.length + 1 - k) ++ 1 :: sizes.drop (sizes.length + 1 - k)).length
      = sizes.length + 1 := by simp; omega
  refine ⟨_, newShapeRun_ok ht hs e ?_ ?_, hlen, ?_, ?_⟩
  · refine (sameOnes ?_ hs).1
    simp [List.filter_append]
    rw [← List.filter_append, List.take_append_drop]
  · refine (sameOnes ?_ hs).2
    simp [List.filter_append]
    rw [← List.filter_append, List.take_append_drop]
  · rw [hlen, List.getElem?_append_right (by simp; omega),
      show sizes.length + 1 - k - (sizes.take (sizes.length + 1 - k)).length = 0 by simp; omega]
    rfl
  · rw [hlen, List.eraseIdx_append_of_length_le (by simp; omega)]
    rw [show sizes.length + 1 - k - (sizes.take (sizes.length + 1 - k)).length = 0 by simp; omega]
    simp

example : ∃ r : List Nat, unsqueeze [-2] (.mk ⟨5, [3, 4], []⟩ []) = .ok (keeps (.mk ⟨5, [3, 4], []⟩ []) r) ∧
    r.length = 3 ∧ r[r.length - 2]? = some 1 ∧ r.eraseIdx (r.length - 2) = [3, 4] :=
  C42_unsqueeze_negative_partial (.mk ⟨5, [3, 4], []⟩ []) [3, 4] rfl (noOverflow_of_pfits (by simp [PFits])) 2
    (by decide) (by decide) (by decide)

/-- The leading axis named from the end is refused, axes out of order land elsewhere, and an eighth extent is written
outside the shape. -/
theorem C42_unsqueeze_false :
    unsqueezeShape [-3] [3, 4] = .err ∧
    unsqueezeShape [2, 0] [3, 4] = .ok [1, 3, 4, 1] ∧
    unsqueezeShape [0] [1, 1, 1, 1, 1, 1, 1] = .ub := by decide

/-- C42: squeezing the axes that unsqueeze inserted gives the original tensor back. -/
theorem C42_squeeze_unsqueeze (t t' : Tensor) (sizes : List Nat) (ht : t.own.shape = ints sizes)
    (hs : NoOverflow sizes) (as : List Nat) (hne : as ≠ []) (hp : as.Pairwise (· < ·))
    (hl : sizes.length + as.length ≤ 7) (h : unsqueeze (ints as) t = .ok t') : squeeze (ints as) t' = .ok t := by
  obtain ⟨r, rfl, h2, h3, h4⟩ := ((C42_unsqueeze_partial t sizes ht hs as hp hl).2 t').1 h
  have hr : NoOverflow r := by
    refine (sameOnes ?_ hs).1
    rw [← h4, dropAt_filter]
    intro i hi _
    exact h3 i (by simpa using hi)
  have hsq : squeezeShape (ints as) (ints r) = .ok (ints sizes) := by
    unfold squeezeShape
    rw [if_neg (by cases as <;> simp_all [ints]), show (ints as).reverse = ints as.reverse by simp [ints],
      squeeze_down _ (by rw [List.pairwise_reverse]; exact hp), if_pos (by simpa using h3)]
    simp only [List.mem_reverse, h4]
  unfold squeeze
  rw [newShapeRun_ok (sizes := r) rfl hr hsq hs
    (by rw [← prod_ones r, ← prod_ones sizes, ← h4, dropAt_filter]; intro i hi _; exact h3 i (by simpa using hi))]
  cases t with
  | mk o f =>
    simp only [Tensor.own] at ht
    simp [keeps, Tensor.own, Tensor.fields, ← ht]

example : ∃ t', unsqueeze (ints [0, 2]) (.mk ⟨5, [3, 4], []⟩ []) = .ok t' ∧
    squeeze (ints [0, 2]) t' = .ok (.mk ⟨5, [3, 4], []⟩ []) := by
  refine ⟨_, ((C42_unsqueeze_partial (.mk ⟨5, [3, 4], []⟩ []) [3, 4] rfl (noOverflow_of_pfits (by simp [PFits]))
    [0, 2] (by decide) (by decide)).2 _).2 ⟨[1, 3, 1, 4], rfl, by decide, by decide, by decide⟩, ?_⟩
  exact C42_squeeze_unsqueeze _ _ [3, 4] rfl (noOverflow_of_pfits (by simp [PFits])) [0, 2] (by simp) (by decide)
    (by decide) (((C42_unsqueeze_partial (.mk ⟨5, [3, 4], []⟩ []) [3, 4] rfl
      (noOverflow_of_pfits (by simp [PFits])) [0, 2] (by decide) (by decide)).2 _).2
        ⟨[1, 3, 1, 4], rfl, by decide, by decide, by decide⟩)

theorem suffix_pfits {l : List Nat} (hp : ∀ x ∈ l, 0 < x) (hb : prod l ≤ 2147483647) (n : Nat) :
    PFits 1 (l.drop n) := by
  refine (noOverflow_of_pos (fun x hx => hp x (List.mem_of_mem_drop hx)) ?_).pfits
  rw [← List.take_append_drop n l, prod_append] at hb
  exact Nat.le_trans (Nat.le_mul_of_pos_left _ (prod_pos fun x hx => hp x (List.mem_of_mem_take hx))) hb

/-- what flatten promises for axis `d`: the extents from `d` on are merged into one; missing extents are 1 -/
def flattened (d : Nat) (sizes : List Nat) : List Nat :=
  if d < sizes.length then sizes.take d ++ [prod (sizes.drop d)]
  else sizes ++ List.replicate (d + 1 - sizes.length) 1

/-- C42 (flatten): for a non-empty tensor and an axis that, counted from the end if negative, is between 0 and 6, the
result has that rank plus one, keeps the extents before the axis and merges the rest; axes more than one before the
first are an error. -/
theorem C42_flatten_partial (t : Tensor) (sizes : List Nat) (ht : t.own.shape = ints sizes)
    (hpos : ∀ x ∈ sizes, 0 < x) (hb : prod sizes ≤ 2147483647) (hl : sizes.length ≤ 7) (dim : Int) :
    (∀ d : Nat, axisOf sizes.length dim = d → d ≤ 6 → flatten dim t = .ok (keeps t (flattened d sizes)) ∧
      (flattened d sizes).length = d + 1) ∧
    (axisOf sizes.length dim < -1 → flatten dim t = .err) := by
  have hs := noOverflow_of_pos hpos hb
  have hfix : (if dim < 0 then dim + (sizes.length : Int) else dim) = axisOf sizes.length dim := rfl
  constructor
  · intro d hd hd6
    have hlen : (flattened d sizes).length = d + 1 := by
      unfold flattened; split <;> simp <;> omega
    refine ⟨?_, hlen⟩
    have hprod : prod (flattened d sizes) = prod sizes := by
      unfold flattened
      split
      · rw [prod_append]
        conv => rhs; rw [← List.take_append_drop d sizes, prod_append]
        simp [prod]
      · rw [prod_append, show prod (List.replicate (d + 1 - sizes.length) 1) = 1 by
          rw [← prod_ones]; simp [prod]]
        omega
    have hno : NoOverflow (flattened d sizes) := by
      apply noOverflow_of_pos _ (by rw [hprod]; exact hb)
      intro x hx
      unfold flattened at hx
      split at hx
      · simp only [List.mem_append, List.mem_singleton] at hx
        rcases hx with hx | rfl
        · exact hpos x (List.mem_of_mem_take hx)
        · exact prod_pos fun y hy => hpos y (List.mem_of_mem_drop hy)
      · simp only [List.mem_append, List.mem_replicate] at hx
        rcases hx with hx | ⟨_, rfl⟩
        · exact hpos x hx
        · omega
    refine newShapeRun_ok ht hs ?_ hno hprod
    unfold flattenShape flattened
    simp only [ints_length, hfix, hd]
    rw [if_neg (by omega), show ((d : Int) + 1).toNat = d + 1 by omega]
    by_cases h1 : d + 1 < sizes.length
    · rw [if_pos h1, if_neg (by omega), if_pos (by omega)]
      have e := prod32_ok (suffix_pfits hpos hb d)
      simp only [Int.natCast_one, Nat.one_mul] at e
      rw [Int.toNat_natCast, ints_drop, e]
      simp only [Res.bind_ok, Nat.add_sub_cancel, ints_take, ints_append]
      rfl
    · rw [if_neg h1]
      by_cases h2 : d + 1 > sizes.length
      · rw [if_pos h2, if_neg (by omega), insertOnes_nat (Nat.le_refl _) (by omega)]
        simp
      · rw [if_neg h2, if_pos (by omega)]
        have h3 : d < sizes.length := by omega
        congr 2
        conv => lhs; rw [← List.take_append_drop d sizes]
        congr 1
        rw [List.drop_eq_getElem_cons h3, List.drop_eq_nil_of_le (by omega)]
        simp [prod]
  · intro h
    refine newShapeRun_err ht ?_
    unfold flattenShape
    simp only [ints_length, hfix]
    rw [if_pos (by omega)]

example : flatten (-2) (.mk ⟨5, [2, 3, 4], []⟩ []) = .ok (.mk ⟨5, [2, 12], []⟩ []) :=
  ((C42_flatten_partial (.mk ⟨5, [2, 3, 4], []⟩ []) [2, 3, 4] rfl (by decide) (by decide) (by decide) (-2)).1 1
    (by decide) (by decide)).1

/-- Naming the axis just before the first one takes the last element of an empty vector: undefined behaviour. -/
theorem C42_flatten_before_first_false (t : Tensor) (sizes : List Nat) (ht : t.own.shape = ints sizes)
    (hne : sizes ≠ []) : flatten (-(sizes.length : Int) - 1) t = .ub := by
  have : 0 < sizes.length := List.length_pos_iff.2 hne
  unfold flatten newShapeRun flattenShape
  rw [ht]
  simp only [ints_length]
  have e : (if -(sizes.length : Int) - 1 < 0 then -(sizes.length : Int) - 1 + sizes.length
      else -(sizes.length : Int) - 1) = -1 := by rw [if_pos (by omega)]; omega
  simp only [e]
  rw [if_neg (by omega), if_pos (by simpa using this), if_pos (by decide)]
  rfl

/-- C42 (flatten2d): for every non-empty tensor and every axis, the extents before the axis (counted from the end if
negative, clamped to the rank) are merged into one extent and the rest into another. -/
theorem C42_flatten2d (t : Tensor) (sizes : List Nat) (ht : t.own.shape = ints sizes)
    (hpos : ∀ x ∈ sizes, 0 < x) (hb : prod sizes ≤ 2147483647) (dim : Int) :
    flatten2d dim t = .ok (keeps t
      [prod (sizes.take (axisOf sizes.length dim).toNat), prod (sizes.drop (axisOf sizes.length dim).toNat)]) := by
  have hs := noOverflow_of_pos hpos hb
  have hfix : (if dim < 0 then dim + (sizes.length : Int) else dim) = axisOf sizes.length dim := rfl
  generalize hd : (axisOf sizes.length dim).toNat = d
  have hprod : prod [prod (sizes.take d), prod (sizes.drop d)] = prod sizes := by
    conv => rhs; rw [← List.take_append_drop d sizes, prod_append]
    simp [prod]
  refine newShapeRun_ok ht hs ?_ (noOverflow_of_pos ?_ (by rw [hprod]; exact hb)) hprod
  · unfold flatten2dShape
    simp only [ints_length, hfix]
    have e := prod32_ok hs.pfits
    simp only [Int.natCast_one, Nat.one_mul] at e
    by_cases h0 : axisOf sizes.length dim ≤ 0
    · have : d = 0 := by omega
      rw [if_pos h0, e, this]
      rfl
    · rw [if_neg h0]
      by_cases h1 : axisOf sizes.length dim ≥ sizes.length
      · rw [if_pos h1, e, List.take_of_length_le (by omega), List.drop_eq_nil_of_le (by omega)]
        rfl
      · rw [if_neg h1, hd]
        have hsp := hs.pfits
        rw [← List.take_append_drop d sizes] at hsp
        have e1 := prod32_ok (pfits_append hsp).1
        have e2 := prod32_ok (suffix_pfits hpos hb d)
        simp only [Int.natCast_one, Nat.one_mul] at e1 e2
        rw [ints_take, ints_drop, e1, e2]
        rfl
  · intro x hx
    simp only [List.mem_cons, List.not_mem_nil, or_false] at hx
    rcases hx with rfl | rfl
    · exact prod_pos fun y hy => hpos y (List.mem_of_mem_take hy)
    · exact prod_pos fun y hy => hpos y (List.mem_of_mem_drop hy)

example : flatten2d (-1) (.mk ⟨5, [2, 3, 4], []⟩ []) = .ok (.mk ⟨5, [6, 4], []⟩ []) :=
  C42_flatten2d (.mk ⟨5, [2, 3, 4], []⟩ []) [2, 3, 4] rfl (by decide) (by decide) (-1)

/-- what expand promises: `a` ones in front and `b` behind, within the limits (negative: no limit), filling the
preferred side first -/
def ExpandsBy (front last : Int) (inverse : Bool) (need a b : Nat) : Prop :=
  a + b = need ∧ (0 ≤ front → (a : Int) ≤ front) ∧ (0 ≤ last → (b : Int) ≤ last) ∧
  (inverse = false → b = 0 ∨ (a : Int) = front) ∧ (inverse = true → a = 0 ∨ (b : Int) = last)

/-- C42 (expand, target rank at most 7): the operator succeeds exactly when the rank is not above the target and the
missing ones can be placed within the limits; it puts as many as allowed on the preferred side and the rest on the
other. -/
theorem C42_expand_partial (t : Tensor) (sizes : List Nat) (ht : t.own.shape = ints sizes) (hs : NoOverflow sizes)
    (front last : Int) (inverse : Bool) (dims : Int) (hd : dims ≤ 7) :
    expand front last inverse dims t ≠ .ub ∧
    ∀ t', expand front last inverse dims t = .ok t' ↔
      (sizes.length : Int) ≤ dims ∧ ∃ a b, ExpandsBy front last inverse (dims.toNat - sizes.length) a b ∧
        t' = keeps t (List.replicate a 1 ++ sizes ++ List.replicate b 1) := by
  -- the placement is unique
  have uniq : ∀ need a b a' b', ExpandsBy front last inverse need a b → ExpandsBy front last inverse need a' b' →
      a = a' ∧ b = b' := by
    intro need a b a' b' h h'
    unfold ExpandsBy at h h'
    cases inverse <;> simp at h h' <;> omega
  -- it is enough to know the shape computation
  have fin : ∀ a b, (sizes.length : Int) ≤ dims → ExpandsBy front last inverse (dims.toNat - sizes.length) a b →
      expandShape front last inverse dims (ints sizes) = .ok (ints (List.replicate a 1 ++ sizes ++ List.replicate b 1)) →
      expand front last inverse dims t ≠ .ub ∧
      ∀ t', expand front last inverse dims t = .ok t' ↔
        (sizes.length : Int) ≤ dims ∧ ∃ a b, ExpandsBy front last inverse (dims.toNat - sizes.length) a b ∧
          t' = keeps t (List.replicate a 1 ++ sizes ++ List.replicate b 1) := by
    intro a b hle hab he
    have hg : NoOverflow (List.replicate a 1 ++ sizes ++ List.replicate b 1) ∧
        prod (List.replicate a 1 ++ sizes ++ List.replicate b 1) = prod sizes :=
      sameOnes (by simp [List.filter_append]) hs
    unfold expand
    rw [ht, he]
    simp only [Res.bind_ok]
    rw [reshape_ok ht hs hg.1 hg.2]
    refine ⟨by simp, fun t' => ?_⟩
    simp only [Res.ok.injEq]
    constructor
    · rintro rfl; exact ⟨hle, a, b, hab, rfl⟩
    · rintro ⟨_, a', b', hab', rfl⟩
      obtain ⟨rfl, rfl⟩ := uniq _ _ _ _ _ hab hab'
      rfl
  have bad : (¬ ((sizes.length : Int) ≤ dims ∧ ∃ a b, ExpandsBy front last inverse (dims.toNat - sizes.length) a b)) →
      expandShape front last inverse dims (ints sizes) = .err →
      expand front last inverse dims t ≠ .ub ∧
      ∀ t', expand front last inverse dims t = .ok t' ↔
        (sizes.length : Int) ≤ dims ∧ ∃ a b, ExpandsBy front last inverse (dims.toNat - sizes.length) a b ∧
          t' = keeps t (List.replicate a 1 ++ sizes ++ List.replicate b 1) := by
    intro hn he
    unfold expand
    rw [ht, he]
    refine ⟨by simp, fun t' => ?_⟩
    simp only [Res.bind_err, reduceCtorEq, false_iff]
    rintro ⟨h1, a, b, h2, _⟩
    exact hn ⟨h1, a, b, h2⟩
  by_cases h0 : dims < 0
  · exact bad (by rintro ⟨h, _⟩; omega) (by simp [expandShape, h0])
  by_cases h1 : sizes.length > dims.toNat
  · refine bad (by rintro ⟨h, _⟩; omega) ?_
    unfold expandShape
    simp only [ints_length]
    rw [if_neg h0, if_pos h1]
  by_cases h2 : sizes.length = dims.toNat
  · refine fin 0 0 (by omega) ?_ ?_
    · unfold ExpandsBy; simp; omega
    · unfold expandShape
      simp only [ints_length]
      rw [if_neg h0, if_neg h1, if_pos h2]
      simp
  by_cases h3 : front > 0 ∧ last > 0 ∧ sizes.length + front.toNat + last.toNat < dims.toNat
  · refine bad ?_ ?_
    · rintro ⟨_, a, b, h⟩
      unfold ExpandsBy at h
      omega
    · unfold expandShape
      simp only [ints_length]
      rw [if_neg h0, if_neg h1, if_neg h2, if_pos h3]
  -- the two insertions
  have eF : ∀ (s : List Nat) (lim : Int), s.length ≤ dims.toNat → expandFront (ints s) dims.toNat lim =
      .ok (ints (List.replicate (if lim < 0 then dims.toNat - s.length else min (dims.toNat - s.length) lim.toNat) 1 ++ s),
        decide (lim < 0 ∨ dims.toNat - s.length ≤ lim.toNat)) := by
    intro s lim hsl
    unfold expandFront
    simp only [ints_length]
    by_cases hlim : lim < 0
    · rw [if_pos hlim, if_pos hlim, insertOnes_nat (by omega) (by omega)]
      simp [hlim]
    · rw [if_neg hlim, if_neg hlim, insertOnes_nat (by omega) (by omega)]
      simp only [Res.bind_ok, List.take_zero, List.nil_append, List.drop_zero, Res.ok.injEq, Prod.mk.injEq, true_and,
        decide_eq_decide, ints_length, List.length_append, List.length_replicate, hlim, false_or]
      omega
  have eE : ∀ (s : List Nat) (lim : Int), s.length ≤ dims.toNat → expandEnd (ints s) dims.toNat lim =
      .ok (ints (s ++ List.replicate (if lim < 0 then dims.toNat - s.length else min (dims.toNat - s.length) lim.toNat) 1),
        decide (lim < 0 ∨ dims.toNat - s.length ≤ lim.toNat)) := by
    intro s lim hsl
    unfold expandEnd
    simp only [ints_length]
    by_cases hlim : lim < 0
    · rw [if_pos hlim, if_pos hlim, insertOnes_nat (Nat.le_refl _) (by omega)]
      simp [hlim]
    · rw [if_neg hlim, if_neg hlim, insertOnes_nat (Nat.le_refl _) (by omega)]
      simp only [Res.bind_ok, List.take_length, List.drop_length, List.append_nil, Res.ok.injEq, Prod.mk.injEq, true_and,
        decide_eq_decide, ints_length, List.length_append, List.length_replicate, hlim, false_or]
      omega
  have hex : expandShape front last inverse dims (ints sizes) =
      (if inverse then (expandEnd (ints sizes) dims.toNat last >>= fun p =>
          if p.2 then .ok p.1 else expandFront p.1 dims.toNat front >>= fun q => if q.2 then .ok q.1 else .err)
      else (expandFront (ints sizes) dims.toNat front >>= fun p =>
          if p.2 then .ok p.1 else expandEnd p.1 dims.toNat last >>= fun q => if q.2 then .ok q.1 else .err)) := by
    unfold expandShape
    simp only [ints_length]
    rw [if_neg h0, if_neg h1, if_neg h2, if_neg h3]
  cases inverse with
  | false =>
    rw [if_neg (by simp), eF _ _ (by omega)] at hex
    simp only [Res.bind_ok] at hex
    by_cases c1 : front < 0 ∨ dims.toNat - sizes.length ≤ front.toNat
    · rw [if_pos (by simpa using c1)] at hex
      refine fin (dims.toNat - sizes.length) 0 (by omega) (by unfold ExpandsBy; simp; omega) ?_
      rw [hex, List.replicate_zero, List.append_nil]
      congr 4
      split <;> omega
    · rw [if_neg (by simpa using c1), if_neg (by omega), show min (dims.toNat - sizes.length) front.toNat = front.toNat by omega,
        eE _ _ (by simp; omega)] at hex
      simp only [Res.bind_ok, List.length_append, List.length_replicate] at hex
      by_cases c2 : last < 0 ∨ dims.toNat - (front.toNat + sizes.length) ≤ last.toNat
      · rw [if_pos (by simpa using c2)] at hex
        refine fin front.toNat (dims.toNat - sizes.length - front.toNat) (by omega) (by unfold ExpandsBy; simp; omega) ?_
        rw [hex]
        congr 4
        split <;> omega
      · rw [if_neg (by simpa using c2)] at hex
        refine bad ?_ hex
        rintro ⟨_, a, b, h⟩
        unfold ExpandsBy at h
        simp at h
        omega
  | true =>
    rw [if_pos rfl, eE _ _ (by omega)] at hex
    simp only [Res.bind_ok] at hex
    by_cases c1 : last < 0 ∨ dims.toNat - sizes.length ≤ last.toNat
    · rw [if_pos (by simpa using c1)] at hex
      refine fin 0 (dims.toNat - sizes.length) (by omega) (by unfold ExpandsBy; simp; omega) ?_
      rw [hex, List.replicate_zero, List.nil_append]
      congr 4
      split <;> omega
    · rw [if_neg (by simpa using c1), if_neg (by omega), show min (dims.toNat - sizes.length) last.toNat = last.toNat by omega,
        eF _ _ (by simp; omega)] at hex
      simp only [Res.bind_ok, List.length_append, List.length_replicate] at hex
      by_cases c2 : front < 0 ∨ dims.toNat - (sizes.length + last.toNat) ≤ front.toNat
      · rw [if_pos (by simpa using c2)] at hex
        refine fin (dims.toNat - sizes.length - last.toNat) last.toNat (by omega) (by unfold ExpandsBy; simp; omega) ?_
        rw [hex, List.append_assoc]
        congr 4
        split <;> omega
      · rw [if_neg (by simpa using c2)] at hex
        refine bad ?_ hex
        rintro ⟨_, a, b, h⟩
        unfold ExpandsBy at h
        simp at h
        omega

example : expand 1 (-1) false 4 (.mk ⟨5, [2, 3], []⟩ []) = .ok (.mk ⟨5, [1, 2, 3, 1], []⟩ []) :=
  ((C42_expand_partial (.mk ⟨5, [2, 3], []⟩ []) [2, 3] rfl (noOverflow_of_pfits (by simp [PFits])) 1 (-1) false 4
    (by decide)).2 _).2 ⟨by decide, 1, 1, by simp [ExpandsBy], rfl⟩

/-- A target rank above 7 is neither reached nor refused: the new extents are written outside the shape. -/
theorem C42_expand_rank_false : expandShape (-1) (-1) false 8 [2, 3] = .ub := by decide

/-- extents given as positive numbers -/
def positives (req : List Int) : List Nat := (req.filter (0 < ·)).map Int.toNat

theorem positives_pos (req : List Int) : ∀ x ∈ positives req, 0 < x := by
  intro x hx
  simp only [positives, List.mem_map, List.mem_filter, decide_eq_true_eq] at hx
  obtain ⟨y, ⟨_, hy⟩, rfl⟩ := hx
  omega

theorem v1Init_eq (i : Nat) (k : Option Nat) (c : Nat) (l : List Int) (h : PFits c (positives l)) :
    v1Init i k c l =
      if 1 < (if k.isSome then 1 else 0) + (l.filter (· < 0)).length then .err
      else .ok (k.or ((l.findIdx? (· < 0)).map (· + i)), ((c * prod (positives l) : Nat) : Int)) := by
  induction l generalizing i k c with
  | nil =>
    simp only [v1Init, positives, List.filter_nil, List.map_nil, prod]
    rw [if_neg (by cases k <;> simp)]
    simp
  | cons x l ih =>
    unfold v1Init
    have hmm : ∀ o : Option Nat, Option.map (fun j => j + (i + 1)) o = Option.map (fun j => j + i) (Option.map (· + 1) o) := by
      intro o; cases o <;> simp; omega
    by_cases h0 : x = 0
    · subst h0
      rw [if_pos rfl, ih _ _ _ (by simpa [positives] using h)]
      simp only [List.filter_cons, Int.lt_irrefl, decide_false, Bool.false_eq_true, if_false, List.findIdx?_cons,
        positives, hmm]
    rw [if_neg h0]
    by_cases hpos : x > 0
    · have hn : ¬ x < 0 := by omega
      have hg : positives (x :: l) = x.toNat :: positives l := by simp [positives, hpos]
      rw [hg] at h
      rw [if_pos hpos, show (c : Int) * x = ((c * x.toNat : Nat) : Int) by
        rw [Int.natCast_mul]; congr 1; omega, int32_ok (i32_nat h.1)]
      simp only [Res.bind_ok]
      rw [ih _ _ _ h.2, hg]
      simp only [List.filter_cons, hn, decide_false, Bool.false_eq_true, if_false,
        List.findIdx?_cons, prod, Nat.mul_assoc, hmm]
    · have hn : x < 0 := by omega
      have hg : positives (x :: l) = positives l := by simp [positives, hpos]
      rw [hg] at h
      rw [if_neg hpos]
      cases k with
      | some j => simp [List.filter_cons, hn]
      | none =>
        simp only []
        rw [ih _ _ _ h, hg]
        simp only [List.filter_cons, hn, decide_true, if_true, Option.isSome_some,
          List.findIdx?_cons, Option.isSome_none, Bool.false_eq_true, if_false, List.length_cons, Option.some_or,
          Option.none_or, Option.map_some, Nat.zero_add]
        rw [Nat.add_comm 1]

/-- the extents copied from the tensor -/
def copiedExtents : List Nat → List Int → List Nat
  | _, [] => []
  | [], _ :: _ => []
  | s :: ss, x :: xs => if x = 0 then s :: copiedExtents ss xs else copiedExtents ss xs

theorem copied_cons (s : Nat) (ss : List Nat) (x : Int) (xs : List Int) :
    copied (s :: ss) (x :: xs) = (if x = 0 then (s : Int) else x) :: copied ss xs := by
  simp only [copied, List.mapIdx_cons, List.getElem?_cons_zero, List.getElem?_cons_succ]

theorem copied_nil (xs : List Int) : copied [] xs = xs := by
  induction xs with
  | nil => rfl
  | cons x xs ih =>
    simp only [copied, List.mapIdx_cons, List.getElem?_nil] at ih ⊢
    rw [ih]
    by_cases h : x = 0 <;> simp [h]

theorem copiedExtents_nil (xs : List Int) : copiedExtents [] xs = [] := by cases xs <;> rfl

theorem v1Copy_eq (sizes : List Nat) (req : List Int) (c : Nat) (hpos : ∀ x ∈ sizes, 0 < x)
    (h : PFits c (copiedExtents sizes req)) :
    v1Copy (ints sizes) req c =
      if 0 ∈ copied sizes req then .err
      else .ok (copied sizes req, ((c * prod (copiedExtents sizes req) : Nat) : Int)) := by
  induction req generalizing sizes c with
  | nil => simp [v1Copy, copied, copiedExtents, prod]
  | cons x xs ih =>
    unfold v1Copy
    cases sizes with
    | nil =>
      rw [copied_nil, copiedExtents_nil]
      by_cases hx : x = 0
      · simp [hx, ints]
      · have := ih [] c (by simp) (by rw [copiedExtents_nil]; trivial)
        simp only [ints_nil, List.tail_nil, hx, if_false] at this ⊢
        rw [this, copied_nil, copiedExtents_nil]
        by_cases h0 : (0 : Int) ∈ xs
        · simp [h0]
        · rw [if_neg h0, if_neg (by simp [h0]; omega)]; rfl
    | cons s ss =>
      rw [copied_cons]
      by_cases hx : x = 0
      · simp only [hx, copiedExtents, if_true] at h ⊢
        simp only [ints_cons]
        rw [show (c : Int) * (s : Int) = ((c * s : Nat) : Int) from (Int.natCast_mul _ _).symm,
          int32_ok (i32_nat h.1)]
        simp only [Res.bind_ok]
        rw [ih ss _ (fun y hy => hpos y (List.mem_cons_of_mem _ hy)) h.2]
        have hs : ¬ (0 : Int) = s := by have := hpos s (by simp); omega
        by_cases h0 : (0 : Int) ∈ copied ss xs
        · simp [h0]
        · rw [if_neg h0, if_neg (by simp only [List.mem_cons, not_or]; exact ⟨hs, h0⟩)]
          simp only [Res.bind_ok, prod, Nat.mul_assoc]
      · simp only [hx, copiedExtents, if_false] at h ⊢
        simp only [ints_cons, List.tail_cons]
        rw [ih ss _ (fun y hy => hpos y (List.mem_cons_of_mem _ hy)) h]
        by_cases h0 : (0 : Int) ∈ copied ss xs
        · simp [h0]
        · rw [if_neg h0, if_neg (by simp only [List.mem_cons, not_or]; exact ⟨fun h => hx h.symm, h0⟩)]
          simp only [Res.bind_ok]

theorem copiedExtents_le (sizes : List Nat) (req : List Int) (hpos : ∀ x ∈ sizes, 0 < x) :
    (∀ x ∈ copiedExtents sizes req, 0 < x) ∧ prod (copiedExtents sizes req) ≤ prod sizes := by
  induction req generalizing sizes with
  | nil => simp only [copiedExtents, List.not_mem_nil, false_imp_iff, implies_true, true_and, prod]; exact prod_pos hpos
  | cons x xs ih =>
    cases sizes with
    | nil => simp [copiedExtents]
    | cons s ss =>
      have := ih ss fun y hy => hpos y (List.mem_cons_of_mem _ hy)
      have hs := hpos s (by simp)
      simp only [copiedExtents]
      split
      · refine ⟨fun y hy => ?_, Nat.mul_le_mul_left _ this.2⟩
        rcases List.mem_cons.1 hy with rfl | hy
        · exact hs
        · exact this.1 y hy
      · exact ⟨this.1, Nat.le_trans this.2 (Nat.le_mul_of_pos_left _ hs)⟩

theorem given_copied_prod (sizes : List Nat) (req : List Int) (h : 0 ∉ copied sizes req) :
    prod (given (copied sizes req)) = prod (copiedExtents sizes req) * prod (positives req) := by
  induction req generalizing sizes with
  | nil => cases sizes <;> rfl
  | cons x xs ih =>
    have hpp : prod (positives (x :: xs)) = (if 0 < x then x.toNat else 1) * prod (positives xs) := by
      by_cases hx : 0 < x <;> simp [positives, hx, prod]
    cases sizes with
    | nil =>
      rw [copied_nil] at h ⊢
      have := ih [] (by rw [copied_nil]; exact fun h' => h (List.mem_cons_of_mem _ h'))
      rw [copied_nil, copiedExtents_nil] at this
      rw [copiedExtents_nil, hpp]
      simp only [given, List.map_cons, prod, Nat.one_mul] at this ⊢
      rw [this]
      congr 1
      simp only [List.mem_cons, not_or] at h
      split <;> split <;> omega
    | cons s ss =>
      rw [copied_cons] at h ⊢
      simp only [List.mem_cons, not_or] at h
      have := ih ss h.2
      rw [hpp]
      simp only [given, List.map_cons, prod, copiedExtents] at this ⊢
      rw [this]
      by_cases hx : x = 0
      · simp only [hx, if_true, Int.lt_irrefl, if_false, prod]
        rw [if_neg (by omega), Int.toNat_natCast, Nat.one_mul, Nat.mul_assoc]
      · simp only [hx, if_false]
        rw [show (if x < 0 then 1 else x.toNat) = (if 0 < x then x.toNat else 1) by split <;> split <;> omega,
          Nat.mul_left_comm]

theorem findIdx_copied (sizes : List Nat) (req : List Int) :
    (copied sizes req).findIdx? (· < 0) = req.findIdx? (· < 0) ∧
    ((copied sizes req).filter (· < 0)).length = (req.filter (· < 0)).length := by
  induction req generalizing sizes with
  | nil => cases sizes <;> exact ⟨rfl, rfl⟩
  | cons x xs ih =>
    cases sizes with
    | nil => rw [copied_nil]; exact ⟨rfl, rfl⟩
    | cons s ss =>
      rw [copied_cons]
      have hlt : decide ((if x = 0 then (s : Int) else x) < 0) = decide (x < 0) := by
        by_cases hx : x = 0
        · subst hx; simp
        · simp [hx]
      constructor
      · simp only [List.findIdx?_cons, hlt, (ih ss).1]
      · simp only [List.filter_cons, hlt]
        split <;> simp [(ih ss).2]

/-- on non-empty tensors and without overflow, both generations of reshape compute the same -/
theorem reshapeV1_eq_v2 (sizes : List Nat) (req : List Int) (hpos : ∀ x ∈ sizes, 0 < x)
    (hb : prod sizes ≤ 2147483647) (hr : NoOverflow (given (copied sizes req)))
    (hq : prod (positives req) ≤ 2147483647) :
    reshapeV1Shape req (ints sizes) = newshapeV2 (ints sizes) req := by
  unfold reshapeV1Shape newshapeV2
  split
  · rfl
  have hs := noOverflow_of_pos hpos hb
  have e2 := prod32_ok hs.pfits
  simp only [Int.natCast_one, Nat.one_mul] at e2
  have hcopy : copyZeros (ints sizes) req = copied sizes req := by
    clear hr hq hb hs e2
    induction req generalizing sizes with
    | nil => cases sizes <;> rfl
    | cons q rq ih =>
      cases sizes with
      | nil => rw [copied_nil]; rfl
      | cons s ss =>
        rw [copied_cons]
        simp only [ints_cons, copyZeros]
        rw [ih ss (fun y hy => hpos y (List.mem_cons_of_mem _ hy)) (by simp at *; omega)]
  have c1 := v1Init_eq 0 none 1 req (noOverflow_of_pos (positives_pos req) hq).pfits
  have hce := copiedExtents_le sizes req hpos
  have c2 := v1Copy_eq sizes req 1 hpos (noOverflow_of_pos hce.1 (Nat.le_trans hce.2 hb)).pfits
  have c3 := v2Loop_eq 0 none 1 (copied sizes req) hr.pfits
  simp only [Int.natCast_one, Option.isSome_none, Bool.false_eq_true, if_false, Nat.zero_add, Nat.one_mul,
    Option.none_or, Nat.add_zero] at c1 c2 c3
  have hfc := findIdx_copied sizes req
  rw [hfc.1, hfc.2] at c3
  simp only [hcopy]
  rw [c1, c3, c2, e2]
  by_cases hneg : 1 < (req.filter (· < 0)).length
  · rw [if_pos hneg, if_pos (c := _ ∨ _) (Or.inr hneg)]; rfl
  rw [if_neg hneg]
  by_cases hz : (0 : Int) ∈ copied sizes req
  · rw [if_pos (c := _ ∨ _) (Or.inl hz), if_pos hz]; rfl
  rw [if_neg (c := _ ∨ _) (by simp [hz, hneg]), if_neg hz]
  simp only [Res.bind_ok]
  have hpg := given_copied_prod sizes req hz
  cases (req.findIdx? (· < 0)).map (fun j => j) with
  | none => rfl
  | some i =>
    simp only []
    have hgb : prod (given (copied sizes req)) ≤ 2147483647 := by
      have := hr (given (copied sizes req)).length
      rwa [List.take_length] at this
    rw [← Int.natCast_mul, ← hpg, int32_ok (i32_nat hgb)]
    rfl

/-- C42 (first-generation reshape, non-empty tensors, up to seven extents): with `0` standing for the tensor's own
extent of that position, the operator is defined, and succeeds with `t'` exactly when every `0` has an extent to copy,
at most one extent is inferred, and `t'` is the same bytes under a shape with all given extents and the same element
count. -/
theorem C42_reshape_partial (t : Tensor) (sizes : List Nat) (req : List Int) (ht : t.own.shape = ints sizes)
    (hpos : ∀ x ∈ sizes, 0 < x) (hb : prod sizes ≤ 2147483647) (hr : NoOverflow (given (copied sizes req)))
    (hq : prod (positives req) ≤ 2147483647) (hrank : req.length ≤ 7) :
    reshapeV1 req t ≠ .ub ∧
    ∀ t', reshapeV1 req t = .ok t' ↔
      (∀ x ∈ copied sizes req, x ≠ 0) ∧ OneFree (copied sizes req) ∧
      ∃ r, Answers (copied sizes req) r ∧ prod r = prod sizes ∧ t' = keeps t r := by
  have e : reshapeV1 req t = reshapeV2 t req := by
    unfold reshapeV1 newShapeRun reshapeV2
    rw [ht, reshapeV1_eq_v2 sizes req hpos hb hr hq]
  rw [e]
  exact C15_reshape_v2_partial t sizes req ht (noOverflow_of_pos hpos hb) hr hrank

example : reshapeV1 [0, 3, -1] (.mk ⟨5, [2, 6], []⟩ []) = .ok (.mk ⟨5, [2, 3, 2], []⟩ []) := by
  have h := (C42_reshape_partial (.mk ⟨5, [2, 6], []⟩ []) [2, 6] [0, 3, -1] rfl (by decide) (by decide)
    (noOverflow_of_pos (by decide) (by decide)) (by decide) (by decide)).2
  exact (h _).2 ⟨by decide, by simp [OneFree, copied], [2, 3, 2], by simp [Answers, copied], by decide, rfl⟩

/-- On an empty tensor, copying the zero extent beside an inferred one divides by zero. -/
theorem C42_reshape_zero_false : reshapeV1 [0, -1] (.mk ⟨5, [0, 2], []⟩ []) = .ub := rfl

end Verif.Props
