import Verif.Kernels.ConcatLemmas
/-!
# C17: concat
-/
namespace Verif.Props
open Verif.Core Verif.Spec Verif.Kernels

/-- `d` is the dimension meant by `dim` for rank `n` (negative counts from the end) -/
def MeansDim (dim : Int) (n d : Nat) : Prop := d < n ∧ (dim = d ∨ dim = (d : Int) - n)

/-- the extents of the operands along dimension `d` before operand `k` -/
def offsetOf {α : Type} (d : Nat) (xs : List (Operand α)) (k : Nat) : Nat :=
  ((xs.take k).map fun x => x.shape.getD d 0).sum

/-- The operands can be concatenated: same type, and shapes `pre ++ [aₖ] ++ post`. -/
def Compatible {α : Type} (xs : List (Operand α)) (dtype : Nat) (pre post : List Nat) : Prop :=
  ∀ x ∈ xs, x.dtype = dtype ∧ ∃ a, x.shape = pre ++ a :: post ∧ x.data.length = prod x.shape

theorem fixDim_ok {dim : Int} {n d : Nat} (h : MeansDim dim n d) : fixDim dim n = .ok d := by
  obtain ⟨h1, h2⟩ := h
  unfold fixDim
  simp only
  rcases h2 with rfl | rfl
  · have e : (if (d : Int) ≥ 0 then (d : Int) else (n : Int) + d) = d := by rw [if_pos (by omega)]
    rw [e, if_neg (by omega)]; simp
  · have e : (if (d : Int) - n ≥ 0 then (d : Int) - n else (n : Int) + (d - n)) = d := by
      rw [if_neg (by omega)]; omega
    rw [e, if_neg (by omega)]; simp

theorem fixDim_eq_ok {dim : Int} {n d : Nat} (h : fixDim dim n = .ok d) : MeansDim dim n d := by
  unfold fixDim at h
  simp only at h
  unfold MeansDim
  split at h <;> split at h <;> simp only [Res.ok.injEq, reduceCtorEq] at h <;> omega

theorem getD_mid (pre post : List Nat) (a : Nat) : (pre ++ a :: post).getD pre.length 0 = a := by
  simp [List.getD]

theorem set_mid (pre post : List Nat) (a b : Nat) : (pre ++ a :: post).set pre.length b = pre ++ b :: post := by
  induction pre with
  | nil => rfl
  | cons x pre ih => simp [ih]

theorem concatLoop_ok (pre post : List Nat) (a0 : Nat) (ss : List (List Nat)) (acc : Nat)
    (h : ∀ s ∈ ss, ∃ a, s = pre ++ a :: post)
    (hb : acc + (ss.map fun s => s.getD pre.length 0).sum ≤ 2147483647) :
    concatLoop pre.length (pre ++ a0 :: post) ss acc = .ok (acc + (ss.map fun s => s.getD pre.length 0).sum) := by
  induction ss generalizing acc with
  | nil => simp [concatLoop]
  | cons s ss ih =>
    obtain ⟨a, rfl⟩ := h s (by simp)
    simp only [List.map_cons, List.sum_cons] at hb ⊢
    unfold concatLoop
    rw [if_neg (by simp), if_neg, if_pos (by omega), ih _ (fun s hs => h s (by simp [hs])) (by omega)]
    · congr 1; omega
    · simp only [List.any_eq_true, List.mem_range, Bool.and_eq_true, bne_iff_ne, ne_eq, not_exists, not_and,
        Decidable.not_not]
      intro j hj hne
      simp only [List.getD]
      rcases Nat.lt_or_ge j pre.length with h1 | h1
      · rw [List.getElem?_append_left h1, List.getElem?_append_left h1]
      · rw [List.getElem?_append_right h1, List.getElem?_append_right h1]
        rw [show j - pre.length = (j - pre.length - 1) + 1 by omega]
        simp

/-- C17: concatenating one or more compatible operands along dimension `pre.length` (given as itself or counted from the
end) yields shape `pre ++ [Σ aₖ] ++ post`; element `(u, i, v)` of operand `k` is at `(u, offsetₖ + i, v)`; every output
position is of that form for some operand, so every output element is determined whatever the buffer held before. -/
theorem C17_concat {α : Type} (dim : Int) (xs : List (Operand α)) (dtype : Nat) (pre post : List Nat) (dst : List α)
    (hne : xs ≠ []) (hc : Compatible xs dtype pre post)
    (hdim : MeansDim dim (pre ++ 0 :: post).length pre.length)
    (hty : typeBytes dtype ∈ [1, 2, 4, 8, 16])
    (hb : offsetOf pre.length xs xs.length ≤ 2147483647)
    (hd : dst.length = prod (pre ++ offsetOf pre.length xs xs.length :: post)) :
    ∃ out, concatRun dim xs dst = .ok (pre ++ offsetOf pre.length xs xs.length :: post, out) ∧
      out.length = prod (pre ++ offsetOf pre.length xs xs.length :: post) ∧
      (∀ k (hk : k < xs.length) u i v, u.length = pre.length → InBounds (xs[k]).shape (u ++ i :: v) →
        out[lin (pre ++ offsetOf pre.length xs xs.length :: post) (u ++ (offsetOf pre.length xs k + i) :: v)]? =
          (xs[k]).data[lin (xs[k]).shape (u ++ i :: v)]?) ∧
      (∀ c, InBounds (pre ++ offsetOf pre.length xs xs.length :: post) c →
        ∃ k, ∃ hk : k < xs.length, ∃ u i v, u.length = pre.length ∧ InBounds (xs[k]).shape (u ++ i :: v) ∧
          c = u ++ (offsetOf pre.length xs k + i) :: v) := by
  have htot : offsetOf pre.length xs xs.length = axisSum pre.length xs := by simp [offsetOf, axisSum]
  have hoffk : ∀ k, offsetOf pre.length xs k = axisSum pre.length (xs.take k) := fun k => rfl
  rw [htot] at hb hd ⊢
  have hlenout := prod_mid pre post (axisSum pre.length xs)
  obtain ⟨out, e, el, hv, -⟩ := concatCopy_ok pre.length (prod pre) (axisSum pre.length xs) (prod post) xs 0 dst
    (by omega) (by rw [hd, hlenout])
    (by
      intro x hx
      obtain ⟨_, a, hs, hl⟩ := hc x hx
      rw [hl, hs, getD_mid, prod_mid])
  refine ⟨out, ?_, by omega, ?_, ?_⟩
  · cases xs with
    | nil => exact absurd rfl hne
    | cons x xs =>
      obtain ⟨hdt, a0, hs0, hl0⟩ := hc x (by simp)
      have hrank : x.shape.length = (pre ++ 0 :: post).length := by rw [hs0]; simp
      have hinf : concatInfer dim (x :: xs) = .ok (pre ++ axisSum pre.length (x :: xs) :: post) := by
        cases xs with
        | nil => simp only [concatInfer, axisSum, List.map_cons, List.map_nil, List.sum_cons, List.sum_nil]
                 rw [hs0, getD_mid]; simp
        | cons y ys =>
          simp only [concatInfer]
          rw [if_neg]
          · rw [hrank, fixDim_ok hdim]
            simp only [Res.bind_ok]
            rw [hs0, concatLoop_ok pre post a0 _ _
              (by intro s hs
                  simp only [List.mem_map] at hs
                  obtain ⟨z, hz, rfl⟩ := hs
                  obtain ⟨_, a, h, _⟩ := hc z (by simp at hz ⊢; right; exact hz)
                  exact ⟨a, h⟩)
              (by rw [getD_mid, List.map_map]
                  simp only [axisSum, List.map_cons, List.sum_cons] at hb
                  rw [hs0, getD_mid] at hb
                  simp only [List.map_cons, List.sum_cons, Function.comp]
                  exact hb)]
            simp only [Res.bind_ok]
            rw [set_mid, getD_mid, List.map_map]
            simp only [axisSum, List.map_cons, List.sum_cons, Function.comp, hs0, getD_mid]
            rfl
          · simp only [List.any_eq_true, bne_iff_ne, ne_eq, not_exists, not_and, Decidable.not_not]
            intro z hz
            rw [(hc z (by simp at hz ⊢; right; exact hz)).1, hdt]
      unfold concatRun
      rw [hinf]
      simp only [Res.bind_ok]
      rw [hrank, fixDim_ok hdim]
      simp only [Res.bind_ok]
      rw [hdt, if_pos hty, getD_mid, hs0, List.take_left, List.drop_append]
      simp only [Nat.add_sub_cancel_left, List.drop_succ_cons, List.drop_zero]
      rw [List.drop_eq_nil_of_le (by omega), List.nil_append, e]
      rfl
  · intro k hk u i v hu hin
    obtain ⟨_, a, hs, hl⟩ := hc (xs[k]) (List.getElem_mem hk)
    rw [hs, inBounds_append hu] at hin
    have := hv k hk (lin pre u) i (lin post v) (lin_lt hin.1) (by rw [hs, getD_mid]; exact hin.2.1) (lin_lt hin.2.2)
    rw [lin_mid hu, hs, lin_mid hu, hoffk]
    rw [hs, getD_mid, Nat.zero_add] at this
    exact this
  · intro c hcb
    have hlen := hcb.length
    rw [List.length_append, List.length_cons] at hlen
    have hsplit : c = c.take pre.length ++ (c.drop pre.length) := (List.take_append_drop _ _).symm
    cases hdrop : c.drop pre.length with
    | nil => have := congrArg List.length hdrop; simp at this; omega
    | cons b v =>
      rw [hdrop] at hsplit
      have hu : (c.take pre.length).length = pre.length := by simp; omega
      rw [hsplit, inBounds_append hu] at hcb
      obtain ⟨k, hk, i, hi, hbe⟩ := seg_exists pre.length xs b hcb.2.1
      obtain ⟨_, a, hs, hl⟩ := hc (xs[k]) (List.getElem_mem hk)
      refine ⟨k, hk, c.take pre.length, i, v, hu, ?_, ?_⟩
      · rw [hs, getD_mid] at hi
        rw [hs, inBounds_append hu]
        exact ⟨hcb.1, hi, hcb.2.2⟩
      · rw [hoffk, ← hbe]; exact hsplit

example : concatRun (-1) [⟨2, [2, 1], [10, 20]⟩, ⟨2, [2, 2], [11, 12, 21, 22]⟩] [0, 0, 0, 0, 0, 0] =
    .ok ([2, 3], [10, 11, 12, 20, 21, 22]) := by decide
example : Compatible [⟨2, [2, 1], [10, 20]⟩, ⟨2, [2, 2], [11, 12, 21, 22]⟩] 2 [2] [] ∧
    MeansDim (-1) 2 1 := by
  refine ⟨?_, by unfold MeansDim; decide⟩
  intro x hx
  simp at hx
  rcases hx with rfl | rfl
  · exact ⟨rfl, 1, rfl, rfl⟩
  · exact ⟨rfl, 2, rfl, rfl⟩

theorem concatLoop_compat (d : Nat) (s0 : List Nat) (hd : d < s0.length) (ss : List (List Nat)) (acc n : Nat)
    (h : concatLoop d s0 ss acc = .ok n) :
    ∀ s ∈ ss, s.length = s0.length ∧ ∀ j, j ≠ d → s.getD j 0 = s0.getD j 0 := by
  induction ss generalizing acc with
  | nil => simp
  | cons s ss ih =>
    unfold concatLoop at h
    split at h
    · cases h
    rename_i hl
    split at h
    · cases h
    rename_i hj
    split at h
    · intro s' hs'
      simp only [List.mem_cons] at hs'
      rcases hs' with rfl | hs'
      · refine ⟨by omega, ?_⟩
        intro j hjd
        simp only [List.any_eq_true, List.mem_range, Bool.and_eq_true, bne_iff_ne, ne_eq, not_exists, not_and,
          Decidable.not_not] at hj
        by_cases hlt : j < s'.length
        · exact hj j hlt hjd
        · simp only [List.getD]
          rw [List.getElem?_eq_none (by omega), List.getElem?_eq_none (by omega)]
      · exact ih _ h s' hs'
    · cases h

/-- C17, rejection: whenever concat returns a result for two or more operands, they all have the same type, the
dimension is one of theirs, they have the same rank, and agree on every other dimension. Everything else is an error
(or, for sums beyond `int`, undefined), never a result. -/
theorem C17_rejects {α : Type} (dim : Int) (x y : Operand α) (ys : List (Operand α)) (dst : List α)
    (r : List Nat × List α) (h : concatRun dim (x :: y :: ys) dst = .ok r) :
    ∃ d, MeansDim dim x.shape.length d ∧
      ∀ z ∈ y :: ys, z.dtype = x.dtype ∧ z.shape.length = x.shape.length ∧
        ∀ j, j ≠ d → z.shape.getD j 0 = x.shape.getD j 0 := by
  unfold concatRun at h
  rw [Res.bind_eq_ok] at h
  obtain ⟨out, h1, _⟩ := h
  simp only [concatInfer] at h1
  split at h1
  · cases h1
  rename_i ht
  rw [Res.bind_eq_ok] at h1
  obtain ⟨d, hd, h2⟩ := h1
  rw [Res.bind_eq_ok] at h2
  obtain ⟨n, hn, _⟩ := h2
  have hm := fixDim_eq_ok hd
  refine ⟨d, hm, ?_⟩
  intro z hz
  have := concatLoop_compat d x.shape hm.1 _ _ _ hn z.shape (List.mem_map_of_mem hz)
  refine ⟨?_, this.1, this.2⟩
  simp only [List.any_eq_true, bne_iff_ne, ne_eq, not_exists, not_and, Decidable.not_not] at ht
  exact ht z hz

example : ∃ r, concatRun 0 [⟨2, [1], [10]⟩, ⟨2, [2], [11, 12]⟩] [0, 0, 0] = .ok r := ⟨_, rfl⟩

end Verif.Props
