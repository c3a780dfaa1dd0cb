import Verif.Kernels.DataMoveLemmas
import Verif.Props.Concat
/-!
# C48: operators that pick elements by index

In all statements a tensor is a shape with its elements in row-major order; the element at coordinate `c` of a tensor of
shape `s` with elements `d` is `d[lin s c]`. `dst` is whatever the output buffer held before.
-/
namespace Verif.Props
open Verif.Core Verif.Spec Verif.Kernels

variable {α : Type}

/-- `i` means row `j` of `n` rows: itself, or counted from the end -/
def MeansRow (n : Nat) (i : Int) (j : Nat) : Prop := j < n ∧ (i = j ∨ i = (j : Int) - n)

/-! ## gather -/

/-- **C48, gather.** With an axis of the operand (itself or counted from the end) and indices that name rows along it (from
the end only when the axis is not), the result has the axis replaced by the extents of the indices, and the element at
`(u, v, w)` is the element of the operand at `(u, index at v, w)`. -/
theorem C48_gather_partial (axis : Int) (dtype : Nat) (pre post ishape : List Nat) (a : Nat) (data dst : List α)
    (idx : List Int) (row : List Nat) (hax : MeansDim axis (pre ++ a :: post).length pre.length)
    (hrank : (pre ++ ishape ++ post).length ≤ 7)
    (hdata : data.length = prod (pre ++ a :: post)) (hil : idx.length = prod ishape) (hrl : row.length = idx.length)
    (hidx : ∀ k (hk : k < idx.length), MeansRow a (idx[k]) (row.getD k 0))
    (hneg : axis < 0 → ∀ i ∈ idx, 0 ≤ i)
    (hd : dst.length = prod (pre ++ ishape ++ post)) :
    ∃ out, gatherRun axis ⟨dtype, pre ++ a :: post, data⟩ ishape idx dst = .ok (pre ++ ishape ++ post, out) ∧
      out.length = prod (pre ++ ishape ++ post) ∧
      ∀ u v w, InBounds pre u → InBounds ishape v → InBounds post w →
        out[lin (pre ++ ishape ++ post) (u ++ v ++ w)]? =
          data[lin (pre ++ a :: post) (u ++ row.getD (lin ishape v) 0 :: w)]? := by
  have hlt : ∀ i ∈ row, i < a := by
    intro i hi
    obtain ⟨k, hk, rfl⟩ := List.getElem_of_mem hi
    have := (hidx k (by omega)).1
    simpa [List.getD, hk] using this
  have hfix := fixIndices_ok (axis := axis) (extent := a) (idx := idx) (is := row) hrl
    (by
      intro k hk
      rcases (hidx k hk).2 with h | h
      · exact Or.inl h
      · by_cases h0 : axis < 0
        · have h1 := hneg h0 _ (List.getElem_mem hk)
          have := (hidx k hk).1
          omega
        · exact Or.inr ⟨by omega, h⟩) hlt
  rw [prod_mid'] at hdata
  have hd' : dst.length = prod pre * row.length * prod post := by rw [hd, prod_app3, hrl, hil]
  obtain ⟨out, e, el, ev⟩ := gather_blocks data (prod pre) a (prod post) row dst hlt hdata hd'
  refine ⟨out, ?_, by rw [el, prod_app3, hrl, hil], ?_⟩
  · unfold gatherRun
    rw [if_neg (by simp), fixDim_ok hax]
    simp only [Res.bind_ok]
    rw [take_mid, drop_mid, getD_mid, if_neg (by omega), hfix]
    simp only [Res.bind_ok]
    rw [e]; rfl
  · intro u v w hu hv hw
    have := ev (lin pre u) (lin ishape v) (lin post w) (lin_lt hu) (by rw [hrl, hil]; exact lin_lt hv) (lin_lt hw)
    rw [lin_app3 hu.length hv.length, lin_mid' hu.length]
    rw [hrl, hil] at this
    exact this

example : gatherRun (-1) ⟨5, [2, 3], [10, 11, 12, 20, 21, 22]⟩ [2, 2] [2, 0, 1, 1] (List.replicate 8 0) =
    .ok ([2, 2, 2], [12, 10, 11, 11, 22, 20, 21, 21]) := by decide
example : MeansDim (-1) 2 1 ∧ MeansRow 3 2 2 ∧ MeansRow 3 (-3) 0 := by unfold MeansDim MeansRow; decide

/-- **C48, gather, out of range.** An index that names no row is never refused: on every operand with elements the kernel
reads outside the operand's buffer. -/
theorem C48_gather_range_false (axis : Int) (dtype : Nat) (pre post ishape : List Nat) (a : Nat) (data dst : List α)
    (idx : List Int) (hax : MeansDim axis (pre ++ a :: post).length pre.length) (h0 : 0 ≤ axis)
    (hdata : data.length = prod (pre ++ a :: post)) (hpre : 0 < prod pre) (hpost : 0 < prod post)
    (i : Int) (hi : i ∈ idx) (hout : ∀ j, ¬ MeansRow a i j) :
    gatherRun axis ⟨dtype, pre ++ a :: post, data⟩ ishape idx dst = .ub := by
  have hb : i < -(a : Int) ∨ (a : Int) ≤ i := by
    by_contra hc
    apply hout (if i < 0 then i + a else i).toNat
    unfold MeansRow
    split <;> omega
  unfold gatherRun
  rw [if_neg (by simp), fixDim_ok hax]
  simp only [Res.bind_ok]
  rw [take_mid, drop_mid, getD_mid]
  split
  · rfl
  have hfix : fixIndices axis a idx = .ok (idx.map fun i => if i < 0 then i + a else i) := by
    clear hi
    induction idx with
    | nil => rfl
    | cons b idx ih =>
      have e : fixIndex axis a b = .ok (if b < 0 then b + a else b) := by
        unfold fixIndex; split
        · rw [if_neg (by omega)]
        · rfl
      unfold fixIndices
      rw [e, ih]; rfl
  rw [hfix]
  simp only [Res.bind_ok]
  rw [runMovesI_ub]
  · rfl
  obtain ⟨k, hk, rfl⟩ := List.getElem_of_mem hi
  rw [prod_mid'] at hdata
  have hget : (idx.map fun i => if i < 0 then i + (a : Int) else i).getD k 0 = if idx[k] < 0 then idx[k] + a else idx[k] := by
    simp [List.getD, hk]
  unfold gatherMoves
  rcases hb with hb | hb
  · refine ⟨_, List.mem_flatMap.2 ⟨k, List.mem_range.2 (by simpa using hk), List.mem_flatMap.2 ⟨0, List.mem_range.2 hpre,
      List.mem_map.2 ⟨0, List.mem_range.2 hpost, rfl⟩⟩⟩, Or.inl ?_⟩
    simp only
    rw [hget, if_pos (by omega)]
    have hw : (1 : Int) ≤ (prod post : Int) := by exact_mod_cast hpost
    have : (((0 * a : Nat) : Int) + (idx[k] + a)) ≤ -1 := by simp; omega
    have := Int.mul_le_mul_of_nonneg_right this (show (0 : Int) ≤ prod post by omega)
    push_cast at this ⊢
    omega
  · refine ⟨_, List.mem_flatMap.2 ⟨k, List.mem_range.2 (by simpa using hk), List.mem_flatMap.2 ⟨prod pre - 1,
      List.mem_range.2 (by omega), List.mem_map.2 ⟨0, List.mem_range.2 hpost, rfl⟩⟩⟩, Or.inr ?_⟩
    simp only
    rw [hget, if_neg (by omega), hdata]
    have e : prod pre * a = (prod pre - 1) * a + a := by
      conv => lhs; rw [show prod pre = (prod pre - 1) + 1 by omega]
      rw [Nat.add_mul, Nat.one_mul]
    have h1 : ((prod pre * a : Nat) : Int) ≤ (((prod pre - 1) * a : Nat) : Int) + idx[k] := by
      rw [e]; push_cast; omega
    have := Int.mul_le_mul_of_nonneg_right h1 (show (0 : Int) ≤ prod post by omega)
    push_cast at this ⊢
    omega

example : gatherRun 1 ⟨5, [2, 3], [10, 11, 12, 20, 21, 22]⟩ [1] [3] [0, 0] = .ub ∧ ∀ j, ¬ MeansRow 3 3 j := by
  refine ⟨by decide, fun j => ?_⟩
  unfold MeansRow; omega

/-- **C48, gather, negative index on a negative axis.** Whatever the operand, an index counted from the end together with an
axis counted from the end is undefined behaviour, although each alone works. -/
theorem C48_gather_negative_false (axis : Int) (x : Operand α) (ishape : List Nat) (idx : List Int) (dst : List α)
    (hax : axis < 0) (i : Int) (hi : i ∈ idx) (h0 : i < 0) (r : List Nat × List α) :
    gatherRun axis x ishape idx dst ≠ .ok r := by
  have key : ∀ (l : List Int) (e : Nat), i ∈ l → ∀ r, fixIndices axis e l ≠ .ok r := by
    intro l e
    induction l with
    | nil => intro h; simp at h
    | cons b l ih =>
      intro h r hr
      unfold fixIndices at hr
      rw [Res.bind_eq_ok] at hr
      obtain ⟨c, hc, hr⟩ := hr
      rw [Res.bind_eq_ok] at hr
      obtain ⟨c', hc', hr⟩ := hr
      rcases List.mem_cons.1 h with rfl | h
      · unfold fixIndex at hc
        rw [if_pos h0, if_pos hax] at hc
        cases hc
      · exact ih h _ hc'
  intro h
  unfold gatherRun at h
  split at h
  · cases h
  rw [Res.bind_eq_ok] at h
  obtain ⟨d, -, h⟩ := h
  simp only at h
  split at h
  · cases h
  rw [Res.bind_eq_ok] at h
  obtain ⟨is, hf, -⟩ := h
  exact key _ _ hi _ hf

example : gatherRun (-1) ⟨5, [3], [10, 11, 12]⟩ [1] [-1] [0] = .ub ∧
    gatherRun 0 ⟨5, [3], [10, 11, 12]⟩ [1] [-1] [0] = .ok ([1], [12]) ∧
    gatherRun (-1) ⟨5, [3], [10, 11, 12]⟩ [1] [2] [0] = .ok ([1], [12]) := by decide

/-! ## gather_v2 -/

/-- **C48, gather_v2.** The last extent of the indices is the length of the tuples; each tuple names the leading coordinates,
and the element at `(v, w)` of the result is the element of the operand at `(tuple at v, w)`. -/
theorem C48_gather_nd_partial (dtype : Nat) (s1 s2 is : List Nat) (data dst : List α) (idx : List Int)
    (tuple : Nat → List Nat) (hr : 0 < (s1 ++ s2).length) (hrank : (is ++ s2).length ≤ 7)
    (hp : ∀ x ∈ s1 ++ s2, 0 < x) (hb : prod (s1 ++ s2) ≤ 2147483647) (hdata : data.length = prod (s1 ++ s2))
    (hidx : ∀ i, i < prod is → InBounds s1 (tuple i) ∧
      (idx.drop (i * s1.length)).take s1.length = (tuple i).map Int.ofNat)
    (hd : dst.length = prod (is ++ s2)) :
    ∃ out, gatherNdRun ⟨dtype, s1 ++ s2, data⟩ (is ++ [s1.length]) idx dst = .ok (is ++ s2, out) ∧
      out.length = prod (is ++ s2) ∧
      ∀ v w, InBounds is v → InBounds s2 w →
        out[lin (is ++ s2) (v ++ w)]? = data[lin (s1 ++ s2) (tuple (lin is v) ++ w)]? := by
  have hloop := gatherNdLoop_ok (idx := idx) tuple hp hb (List.range (prod is))
    (fun i hi => hidx i (List.mem_range.1 hi))
  rw [prod_append] at hdata hd
  obtain ⟨out, e, el, ev⟩ := runMoves_blocks data (prod is) 1 (prod s2)
    (fun n _ t => lin s1 (tuple n) * prod s2 + t)
    ((List.range (prod is)).flatMap fun i => (List.range (prod s2)).map fun t =>
        (i * prod s2 + t, lin s1 (tuple i) * prod s2 + t)) dst
    (by
      intro m
      simp only [List.mem_flatMap, List.mem_range, List.mem_map]
      constructor
      · rintro ⟨i, hi, t, ht, rfl⟩; exact ⟨i, 0, t, hi, by omega, ht, by simp⟩
      · rintro ⟨n, i, t, hn, hi, ht, rfl⟩
        have : i = 0 := by omega
        subst this
        exact ⟨n, hn, t, ht, by simp⟩)
    (by
      intro n i t hn _ ht
      have h1 := lin_lt (hidx n hn).1
      have h2 : (lin s1 (tuple n) + 1) * prod s2 ≤ prod s1 * prod s2 := Nat.mul_le_mul_right _ h1
      rw [Nat.add_mul] at h2
      omega)
    (by rw [hd]; simp)
  refine ⟨out, ?_, by rw [el, prod_append]; simp, ?_⟩
  · unfold gatherNdRun
    rw [if_neg (by simp only [List.length_append, List.length_cons, List.length_nil] at hr ⊢; omega)]
    simp only
    rw [show (is ++ [s1.length]).getLastD 0 = s1.length by simp [List.getLastD_eq_getLast?], if_neg (by simp)]
    rw [List.dropLast_concat, List.drop_left, if_neg (by omega), weights_ok (fits_of_pos hp hb)]
    simp only [Res.bind_ok]
    rw [hloop]
    simp only [Res.bind_ok]
    rw [runMovesI_eq _ _ _ _ rfl, e]
    rfl
  · intro v w hv hw
    have := ev (lin is v) 0 (lin s2 w) (lin_lt hv) (by omega) (lin_lt hw)
    rw [lin_append hv.length, lin_append (hidx _ (lin_lt hv)).1.length]
    simpa using this

example : gatherNdRun ⟨5, [2, 2, 2], [0, 1, 2, 3, 4, 5, 6, 7]⟩ [3, 2] [1, 0, 0, 1, 1, 1] (List.replicate 6 0) =
    .ok ([3, 2], [4, 5, 2, 3, 6, 7]) := by decide

/-- **C48, gather_v2, out of range.** Tuples are not checked: `(0, 2)` in a 2 × 2 matrix is the element `(1, 0)`. -/
theorem C48_gather_nd_range_false : gatherNdRun ⟨5, [2, 2], [10, 11, 20, 21]⟩ [1, 2] [0, 2] [0] = .ok ([1], [20]) ∧
    ¬ InBounds [2, 2] [0, 2] := by decide

/-! ## gather_elements -/

/-- **C48, gather_elements.** With a non-negative axis, indices of the operand's shape with extent 1 along the axis, each
naming a row: the element at `(u, 0, w)` is the element of the operand at `(u, index at (u, 0, w), w)`. -/
theorem C48_gather_elements_partial (dtype : Nat) (pre post : List Nat) (a : Nat) (data dst : List α)
    (idx : List Int) (row : List Nat) (hty : plainType dtype = true)
    (hdata : data.length = prod (pre ++ a :: post)) (hil : idx.length = prod (pre ++ 1 :: post))
    (hrl : row.length = idx.length) (hidx : ∀ k (hk : k < idx.length), MeansRow a (idx[k]) (row.getD k 0))
    (hd : dst.length = prod (pre ++ 1 :: post)) :
    ∃ out, gatherElemRun pre.length ⟨dtype, pre ++ a :: post, data⟩ (pre ++ 1 :: post) idx dst =
        .ok (pre ++ 1 :: post, out) ∧ out.length = prod (pre ++ 1 :: post) ∧
      ∀ u w, InBounds pre u → InBounds post w →
        out[lin (pre ++ 1 :: post) (u ++ 0 :: w)]? =
          data[lin (pre ++ a :: post) (u ++ row.getD (lin (pre ++ 1 :: post) (u ++ 0 :: w)) 0 :: w)]? := by
  have hlt : ∀ i ∈ row, i < a := by
    intro i hi
    obtain ⟨k, hk, rfl⟩ := List.getElem_of_mem hi
    have := (hidx k (by omega)).1
    simpa [List.getD, hk] using this
  have hfix := fixIndices_ok (axis := (pre.length : Int)) (extent := a) (idx := idx) (is := row) hrl
    (by
      intro k hk
      rcases (hidx k hk).2 with h | h
      · exact Or.inl h
      · exact Or.inr ⟨by omega, h⟩) hlt
  have hP : prod (pre ++ 1 :: post) = prod pre * prod post := by rw [prod_mid']; simp
  rw [prod_mid'] at hdata
  rw [hP] at hil hd
  have hloop := gatherElemLoop_ok a (prod post) row (List.range (prod pre * prod post))
    (fun o ho => by rw [hrl, hil]; exact List.mem_range.1 ho)
  obtain ⟨out, e, el, hin, -⟩ := runMoves_spec data
    (fun o => (o / prod post * a + row.getD o 0) * prod post + o % prod post)
    ((List.range (prod pre * prod post)).map fun o =>
      (o, (o / prod post * a + row.getD o 0) * prod post + o % prod post)) dst
    (by simp only [List.mem_map]; rintro _ ⟨o, -, rfl⟩; rfl)
    (by
      simp only [List.mem_map, List.mem_range]
      rintro _ ⟨o, ho, rfl⟩
      simp only
      have hw : 0 < prod post := by
        rcases Nat.eq_zero_or_pos (prod post) with h0 | h0
        · rw [h0] at ho; omega
        · exact h0
      rw [hdata]
      refine radix3_lt ((Nat.div_lt_iff_lt_mul hw).2 ho) (hlt _ ?_) (Nat.mod_lt _ hw)
      have : o < row.length := by omega
      simp [List.getD, this])
    (by
      simp only [List.mem_map, List.mem_range]
      rintro _ ⟨o, ho, rfl⟩
      simp only
      omega)
  refine ⟨out, ?_, by omega, ?_⟩
  · unfold gatherElemRun
    rw [if_neg (by simp), fixDim_ok (d := pre.length) ⟨by simp, Or.inl rfl⟩]
    simp only [Res.bind_ok]
    rw [if_neg (by omega), getD_mid, hfix]
    simp only [Res.bind_ok]
    rw [if_pos hty, drop_mid, take_mid, hloop]
    simp only [Res.bind_ok]
    rw [runMovesI_eq _ _ _ _ rfl, e]
    rfl
  · intro u w hu hw
    have hlw := lin_lt hw
    have hq : lin (pre ++ 1 :: post) (u ++ 0 :: w) = lin pre u * prod post + lin post w := by
      rw [lin_mid' hu.length]; simp
    have hlt2 : lin pre u * prod post + lin post w < prod pre * prod post := by
      have h2 : (lin pre u + 1) * prod post ≤ prod pre * prod post := Nat.mul_le_mul_right _ (lin_lt hu)
      rw [Nat.add_mul] at h2; omega
    rw [hin _ (by simp only [List.map_map, List.mem_map, List.mem_range, Function.comp]; exact ⟨_, by rw [hq]; exact hlt2, rfl⟩)]
    rw [hq, lin_mid' hu.length, Nat.add_comm (lin pre u * prod post), Nat.add_mul_div_right _ _ (by omega),
      Nat.div_eq_of_lt hlw, Nat.add_mul_mod_self_right, Nat.mod_eq_of_lt hlw]
    simp

example : gatherElemRun 1 ⟨10, [2, 3], [10, 11, 12, 20, 21, 22]⟩ [2, 1] [2, -3] [0, 0] = .ok ([2, 1], [12, 20]) := by decide

/-- **C48, gather_elements, negative axis.** An axis counted from the end is accepted by the check and is then always
undefined behaviour. -/
theorem C48_gather_elements_axis_false (axis : Int) (x : Operand α) (ishape : List Nat) (idx : List Int) (dst : List α)
    (h : axis < 0) (hr : -(x.shape.length : Int) ≤ axis) : gatherElemRun axis x ishape idx dst = .ub := by
  have hn : x.shape.length ≠ 0 := by omega
  unfold gatherElemRun
  rw [if_neg hn, fixDim_ok (d := (axis + x.shape.length).toNat) ⟨by omega, Or.inr (by omega)⟩]
  simp only [Res.bind_ok]
  rw [if_pos h]

example : gatherElemRun (-1) ⟨10, [3], [10, 11, 12]⟩ [1] [2] [0] = .ub := by decide

/-- **C48, gather_elements, more than one index along the axis.** With indices of shape 2 × 2 into a 2 × 3 operand along
axis 1 only half of the result is written (`7` is what the buffer held), and not with the elements asked for: the result
should be `[[12, 10], [20, 21]]`. -/
theorem C48_gather_elements_extent_false :
    gatherElemRun 1 ⟨10, [2, 3], [10, 11, 12, 20, 21, 22]⟩ [2, 2] [2, 0, 0, 1] [7, 7, 7, 7] =
      .ok ([2, 2], [12, 20, 7, 7]) := by decide

/-! ## dimshuffle -/

/-- **C48, dimshuffle.** The rows along a dimension are replaced by the named rows: the element at `(u, i, w)` is the element
of the operand at `(u, shuffle i, w)`. -/
theorem C48_dimshuffle (dtype : Nat) (pre post sh : List Nat) (a : Nat) (data dst : List α) (hr : pre.length < 7)
    (hne : sh ≠ []) (hsh : ∀ s ∈ sh, s < a) (hdata : data.length = prod (pre ++ a :: post))
    (hd : dst.length = prod (pre ++ sh.length :: post)) :
    ∃ out, dimshuffleRun pre.length (sh.map Int.ofNat) ⟨dtype, pre ++ a :: post, data⟩ dst =
        .ok (pre ++ sh.length :: post, out) ∧ out.length = prod (pre ++ sh.length :: post) ∧
      ∀ u i w, InBounds pre u → i < sh.length → InBounds post w →
        out[lin (pre ++ sh.length :: post) (u ++ i :: w)]? = data[lin (pre ++ a :: post) (u ++ sh.getD i 0 :: w)]? := by
  rw [prod_mid'] at hdata hd
  have hsi : ∀ i, i < sh.length → sh.getD i 0 < a := fun i hi => hsh _ (by simp [List.getD, hi])
  obtain ⟨out, e, el, ev⟩ := runMoves_blocks data (prod pre) sh.length (prod post)
    (fun n i t => (n * a + sh.getD i 0) * prod post + t) (shuffleMoves (prod pre) a (prod post) sh) dst
    (by
      intro m
      unfold shuffleMoves
      simp only [List.mem_flatMap, List.mem_range, List.mem_map]
      have hx : ∀ n i t, n * (prod post * sh.length) + i * prod post + t = (n * sh.length + i) * prod post + t :=
        fun n i t => by rw [Nat.add_mul]; congr 2; rw [Nat.mul_assoc, Nat.mul_comm (prod post)]
      have hy : ∀ n i t, n * (a * prod post) + i * prod post + t = (n * a + i) * prod post + t :=
        fun n i t => by rw [Nat.add_mul]; congr 2; rw [Nat.mul_assoc]
      constructor
      · rintro ⟨n, hn, i, hi, t, ht, rfl⟩; exact ⟨n, i, t, hn, hi, ht, by rw [hx, hy]⟩
      · rintro ⟨n, i, t, hn, hi, ht, rfl⟩; exact ⟨n, hn, i, hi, t, ht, by rw [hx, hy]⟩)
    (by intro n i t hn hi ht; rw [hdata]; exact radix3_lt hn (hsi i hi) ht) hd
  refine ⟨out, ?_, by rw [el, prod_mid'], ?_⟩
  · unfold dimshuffleRun
    have hneg : ((sh.map Int.ofNat).any fun s => decide (s < 0)) = false := by simp
    rw [if_neg (by rw [hneg]; simp [hne]), if_neg (by omega), if_neg (by simp)]
    simp only [Int.toNat_natCast]
    rw [if_neg, getD_mid, take_mid, drop_mid, List.map_map]
    · have : sh.map (Int.toNat ∘ Int.ofNat) = sh := by
        conv => rhs; rw [← List.map_id sh]
        apply List.map_congr_left; intro x _; rfl
      rw [this, e, set_mid]
      simp
    · simp only [getD_mid, List.any_eq_true, List.mem_map, decide_eq_true_eq, not_exists, not_and]
      rintro _ ⟨s, hs, rfl⟩
      have := hsh s hs
      simp; omega
  · intro u i w hu hi hw
    rw [lin_mid' hu.length, lin_mid' hu.length]
    exact ev _ _ _ (lin_lt hu) hi (lin_lt hw)

example : dimshuffleRun 1 [2, 0] ⟨5, [2, 3], [10, 11, 12, 20, 21, 22]⟩ [0, 0, 0, 0] = .ok ([2, 2], [12, 10, 22, 20]) := by
  decide

/-- **C48, dimshuffle, refusals.** Whatever it returns, the dimension is one of the operand's and every row exists. -/
theorem C48_dimshuffle_rejects (dim : Int) (sh : List Int) (x : Operand α) (dst : List α) (r : List Nat × List α)
    (h : dimshuffleRun dim sh x dst = .ok r) :
    0 ≤ dim ∧ dim < x.shape.length ∧ sh ≠ [] ∧ ∀ s ∈ sh, 0 ≤ s ∧ s < x.shape.getD dim.toNat 0 := by
  unfold dimshuffleRun at h
  split at h
  · cases h
  rename_i h1
  split at h
  · cases h
  split at h
  · cases h
  simp only at h
  split at h
  · cases h
  rename_i h2
  simp only [not_or, List.any_eq_true, decide_eq_true_eq, not_exists, not_and, not_lt, not_le] at h1 h2
  exact ⟨by omega, by omega, h1.2.1, fun s hs => ⟨h1.2.2 s hs, h2 s hs⟩⟩

example : ∃ r, dimshuffleRun 1 [2, 0] ⟨5, [2, 3], [10, 11, 12, 20, 21, 22]⟩ [0, 0, 0, 0] = .ok r := ⟨_, rfl⟩

/-! ## scatter_nd -/

/-- **C48, scatter_nd.** With indices that are single numbers, each naming a row of the operand, and one update per index:
row `j` of the result is the last update whose index is `j`, and the operand's row `j` if there is none. -/
theorem C48_scatter_partial (dtype : Nat) (n0 m : Nat) (s rest : List Nat) (data u dst : List α) (row : List Nat)
    (hrest : prod rest = 1) (hrl : row.length = prod (m :: rest)) (hlt : ∀ i ∈ row, i < n0)
    (hdata : data.length = prod (n0 :: s)) (hu : u.length = prod (m :: s)) (hd : dst.length = prod (n0 :: s)) :
    ∃ out, scatterRun ⟨dtype, n0 :: s, data⟩ (m :: rest) (row.map Int.ofNat) ⟨dtype, m :: s, u⟩ dst = .ok (n0 :: s, out) ∧
      out.length = prod (n0 :: s) ∧
      ∀ j w, j < n0 → InBounds s w →
        (∀ i, i < m → row.getD i 0 = j → (∀ i', i < i' → i' < m → row.getD i' 0 ≠ j) →
          out[lin (n0 :: s) (j :: w)]? = u[lin (m :: s) (i :: w)]?) ∧
        ((∀ i, i < m → row.getD i 0 ≠ j) → out[lin (n0 :: s) (j :: w)]? = data[lin (n0 :: s) (j :: w)]?) := by
  simp only [prod] at hrl hdata hu hd ⊢
  rw [hrest] at hrl
  obtain ⟨o, e, el, hin, -⟩ := runMoves_spec data id ((List.range data.length).map fun i => (i, i)) dst
    (by simp) (by simp) (by simp; omega)
  have ho : o = data := by
    apply List.ext_getElem?
    intro i
    by_cases hi : i < data.length
    · exact hin i (by simp [hi])
    · rw [List.getElem?_eq_none (by omega), List.getElem?_eq_none (by omega)]
  subst ho
  obtain ⟨out, e2, el2, ev⟩ := scatter_ok n0 (prod s) m row u o (by omega) hlt (by omega) hdata
  refine ⟨out, ?_, el2, ?_⟩
  · unfold scatterRun
    rw [if_neg (by simp), if_neg (by simp), if_neg (by simp)]
    simp only
    rw [e]
    simp only [Res.bind_ok, List.tail_cons, List.getD_cons_zero]
    have : scatterLoop (prod s) (row.map Int.ofNat) u (List.range m) o = .ok out := e2
    rw [this]; rfl
  · intro j w hj hw
    exact ev j (lin s w) hj (lin_lt hw)

example : scatterRun ⟨5, [3, 2], [0, 0, 1, 1, 2, 2]⟩ [2, 1] [2, 0] ⟨5, [2, 2], [8, 8, 9, 9]⟩ (List.replicate 6 7) =
    .ok ([3, 2], [9, 9, 1, 1, 8, 8]) := by decide

/-- **C48, scatter_nd, tuples.** Indices that are pairs, as the operator's name promises, are not understood: writing `9` at
`(1, 1)` of a 2 × 2 matrix of zeros sets the element `(0, 1)` instead. -/
theorem C48_scatter_tuples_false : scatterRun ⟨5, [2, 2], [0, 0, 0, 0]⟩ [1, 2] [1, 1] ⟨5, [1], [9]⟩ [7, 7, 7, 7] =
    .ok ([2, 2], [0, 9, 0, 0]) := by decide

end Verif.Props
