import Verif.Kernels.TileLemmas
import Verif.Kernels.SplitLemmas
import Verif.Props.Concat
import Verif.Props.SplitBins
/-!
# C49: operators that cut, repeat and stack tensors

A tensor is a shape with its elements in row-major order; the element at coordinate `c` of a tensor of shape `s` with
elements `d` is `d[lin s c]`. `dst` is whatever the output buffer held before.
-/
namespace Verif.Props
open Verif.Core Verif.Spec Verif.Kernels

variable {α : Type}

/-! ## tile -/

/-- extents 1 put in front, up to rank `n` -/
def leadOnes (n : Nat) (s : List Nat) : List Nat := List.replicate (n - s.length) 1 ++ s

/-- the tiled shape: extent times repeat -/
def tiledShape (shape reps : List Nat) : List Nat :=
  List.zipWith (· * ·) (leadOnes reps.length shape) (leadOnes shape.length reps)

theorem wrap_eq {X c : List Nat} (h : c.length = X.length) : wrap X c = List.zipWith (· % ·) c X := by
  induction X generalizing c with
  | nil => cases c <;> simp_all [wrap]
  | cons x X ih =>
    cases c with
    | nil => simp at h
    | cons a c => simp [wrap, ih (by simpa using h)]

theorem fits_of_drop {s : List Nat} (h : ∀ k, prod (s.drop k) ≤ 2147483647) : Fits s := by
  induction s with
  | nil => trivial
  | cons a s ih => exact ⟨h 0, ih fun k => h (k + 1)⟩

/-- **C49, tile.** Shape and repeats are aligned at the right, missing ones counting as 1; the extents of the result are the
products, and the element at `c` is the element of the operand at `c` modulo its extents. -/
theorem C49_tile (dtype : Nat) (shape reps : List Nat) (data dst : List α) (hty : plainType dtype = true)
    (hr7 : reps.length ≤ 7) (hdata : data.length = prod shape)
    (hb : ∀ o ∈ tiledShape shape reps, o ≤ 2147483647) (hB : ∀ k, prod ((tiledShape shape reps).drop k) ≤ 2147483647)
    (hR : prod reps ≤ 2147483647)
    (hd : dst.length = prod (tiledShape shape reps)) :
    ∃ out, tileRun ⟨dtype, shape, data⟩ (reps.map Int.ofNat) dst = .ok (tiledShape shape reps, out) ∧
      out.length = prod (tiledShape shape reps) ∧
      ∀ c, InBounds (tiledShape shape reps) c →
        out[lin (tiledShape shape reps) c]? =
          data[lin (leadOnes reps.length shape) (List.zipWith (· % ·) c (leadOnes reps.length shape))]? := by
  have hlen : (leadOnes reps.length shape).length = (leadOnes shape.length reps).length := by
    simp [leadOnes]; omega
  have hmap : (reps.map Int.ofNat).map Int.toNat = reps := by simp [Function.comp_def]
  have hneg : ((reps.map Int.ofNat).any fun r => decide (r < 0)) = false := by
    rw [List.any_eq_false]
    simp only [List.mem_map]
    rintro _ ⟨r, -, rfl⟩
    simp
  have hm : mulExt (leadOnes reps.length shape) (leadOnes shape.length reps) = .ok (tiledShape shape reps) := mulExt_ok hb
  unfold tileRun
  rw [if_neg (by simp; omega), hneg]
  simp only [Bool.false_eq_true, if_false, List.length_map, hmap]
  rw [show padOnes reps.length shape = leadOnes reps.length shape from rfl,
    show padOnes shape.length reps = leadOnes shape.length reps from rfl, hm]
  simp only [Res.bind_ok]
  by_cases hz : 0 ∈ reps
  · rw [if_pos (by simp; exact hz)]
    refine ⟨dst, rfl, hd, fun c hc => ?_⟩
    exfalso
    have hpos := prod_pos_of_inBounds hc
    have h0 : (0 : Nat) ∈ leadOnes shape.length reps := by simp [leadOnes, hz]
    have : ∀ (X R : List Nat), X.length = R.length → 0 ∈ R → prod (List.zipWith (· * ·) X R) = 0 := by
      intro X
      induction X with
      | nil => intro R h h0; cases R <;> simp_all
      | cons x X ih =>
        intro R h h0
        cases R with
        | nil => simp at h
        | cons r R =>
          simp only [List.zipWith_cons_cons, prod]
          rcases List.mem_cons.1 h0 with rfl | h0
          · simp
          · rw [ih R (by simpa using h) h0]; simp
    rw [tiledShape, this _ _ hlen h0] at hpos
    omega
  rw [if_neg (by simp; exact hz), if_pos hty, weights_ok (fits_of_drop hB)]
  simp only [Res.bind_ok]
  have hpR : prod (leadOnes shape.length reps) = prod reps := prod_padOnes _ _
  have hpX : prod (leadOnes reps.length shape) = prod shape := prod_padOnes _ _
  rw [hpR, int32_ok (i32_nat hR)]
  simp only [Res.bind_ok, Int.toNat_natCast]
  by_cases hx : 0 ∈ leadOnes reps.length shape
  · have hz0 : prod (leadOnes reps.length shape) = 0 := by
      have : ∀ l : List Nat, 0 ∈ l → prod l = 0 := by
        intro l
        induction l with
        | nil => simp
        | cons a l ih =>
          intro h
          rcases List.mem_cons.1 h with rfl | h
          · simp [prod]
          · simp [prod, ih h]
      exact this _ hx
    rw [hz0]
    refine ⟨dst, rfl, hd, fun c hc => ?_⟩
    exfalso
    have hpos := prod_pos_of_inBounds hc
    have : ∀ (X R : List Nat), X.length = R.length → 0 ∈ X → prod (List.zipWith (· * ·) X R) = 0 := by
      intro X
      induction X with
      | nil => intro R h h0; simp at h0
      | cons x X ih =>
        intro R h h0
        cases R with
        | nil => simp at h
        | cons r R =>
          simp only [List.zipWith_cons_cons, prod]
          rcases List.mem_cons.1 h0 with rfl | h0
          · simp
          · rw [ih R (by simpa using h) h0]; simp
    rw [tiledShape, this _ _ hlen hx] at hpos
    omega
  have hXp : ∀ x ∈ leadOnes reps.length shape, 0 < x := by
    intro x hxm
    rcases Nat.eq_zero_or_pos x with rfl | h
    · exact absurd hxm hx
    · exact h
  have hRp : ∀ x ∈ leadOnes shape.length reps, 0 < x := by
    intro x hxm
    rcases Nat.eq_zero_or_pos x with rfl | h
    · simp [leadOnes] at hxm; exact absurd hxm hz
    · exact h
  obtain ⟨ms, out, e1, e2, el, ev⟩ := tile_ok (leadOnes reps.length shape) (leadOnes shape.length reps) data dst hlen hXp hRp
    hb (hB 0) (by rw [hdata, hpX]) hd
  rw [hpR] at e1
  refine ⟨out, ?_, el, ?_⟩
  · rw [show tiledShape shape reps = List.zipWith (· * ·) (leadOnes reps.length shape) (leadOnes shape.length reps) from rfl,
      e1]
    simp only [Res.bind_ok]
    rw [e2]; rfl
  · intro c hc
    have hcl : c.length = (leadOnes reps.length shape).length := by
      rw [hc.length, tiledShape, List.length_zipWith, ← hlen, Nat.min_self]
    rw [← wrap_eq hcl]
    exact ev c hc

example : tileRun ⟨5, [2, 3], [1, 2, 3, 4, 5, 6]⟩ [2, 1, 2] (List.replicate 24 0) =
    .ok ([2, 2, 6], [1, 2, 3, 1, 2, 3, 4, 5, 6, 4, 5, 6, 1, 2, 3, 1, 2, 3, 4, 5, 6, 4, 5, 6]) ∧
    tiledShape [2, 3] [2, 1, 2] = [2, 2, 6] := by decide +kernel

/-- **C49, tile, rejection.** A negative repeat is refused, whatever the operand. -/
theorem C49_tile_rejects (x : Operand α) (reps : List Int) (dst : List α) (h7 : reps.length ≤ 7) (r : Int) (hr : r ∈ reps)
    (h0 : r < 0) : tileRun x reps dst = .err := by
  unfold tileRun
  rw [if_neg (by omega), if_pos (List.any_eq_true.2 ⟨r, hr, by simpa using h0⟩)]

example : tileRun ⟨5, [2], [1, 2]⟩ [2, -1] [] = .err := by decide

/-! ## slice -/

/-- The box that `begin` and `size` mean along an extent: it starts at `b`, which is inside, and holds `o` elements: the
number given, or the rest when a negative number is given. -/
def MeansBox (extent : Nat) (begin size : Int) (b o : Nat) : Prop :=
  begin = b ∧ b < extent ∧ b + o ≤ extent ∧ (size = o ∨ size < 0 ∧ b + o = extent)

theorem boxIn_of {shape : List Nat} {begins sizes : List Int} {b o : List Nat} (hbl : begins.length = shape.length)
    (hsl : sizes.length = shape.length) (hl : b.length = shape.length) (hol : o.length = shape.length)
    (h : ∀ k, k < shape.length → MeansBox (shape.getD k 0) (begins.getD k 0) (sizes.getD k 0) (b.getD k 0) (o.getD k 0))
    (hx : ∀ a ∈ shape, a ≤ 2147483647) (hsz : ∀ s ∈ sizes, -9223372036854775808 ≤ s) :
    BoxIn shape b o ∧ begins.map clampInt = ints b ∧
      boxSliceExt shape (begins.map clampInt) (sizes.map clampInt) = .ok o := by
  induction shape generalizing begins sizes b o with
  | nil =>
    cases b <;> cases o <;> cases begins <;> cases sizes <;> simp_all [BoxIn, boxSliceExt]
  | cons a shape ih =>
    match b, o, begins, sizes, hbl, hsl, hl, hol with
    | b :: bs, o :: os, p :: ps, s :: ss, hbl, hsl, hl, hol =>
      obtain ⟨i1, i2, i3⟩ := ih (begins := ps) (sizes := ss) (b := bs) (o := os) (by simpa using hbl) (by simpa using hsl)
        (by simpa using hl) (by simpa using hol) (fun k hk => by simpa using h (k + 1) (by simp; omega))
        (fun y hy => hx y (by simp [hy])) (fun y hy => hsz y (by simp [hy]))
      obtain ⟨h1, h2, h3, h4⟩ := h 0 (by simp)
      simp only [List.getD_cons_zero] at h1 h2 h3 h4
      have ha := hx a (by simp)
      have hp : clampInt p = (b : Int) := by rw [h1]; unfold clampInt; split <;> [omega; split <;> omega]
      have hs : (if clampInt s < 0 then (a : Int) - b else clampInt s) = o := by
        unfold clampInt
        rcases h4 with h4 | ⟨h4, h5⟩
        · rw [h4]; split <;> split <;> (try split) <;> omega
        · split <;> (try split) <;> (try split) <;> omega
      refine ⟨⟨h2, h3, i1⟩, by simp [hp, i2], ?_⟩
      simp only [List.map_cons, boxSliceExt]
      rw [hp, if_neg (by omega), hs, int32_ok ⟨by omega, by omega⟩]
      simp only [Res.bind_ok]
      rw [if_neg (by omega), i3]
      simp

theorem fits_box {x b o : List Nat} (h : BoxIn x b o) (hB : prod x ≤ 2147483647) : Fits x ∧ Fits o ∧ prod o ≤ prod x := by
  induction x generalizing b o with
  | nil => cases b <;> cases o <;> simp_all [BoxIn, Fits, prod]
  | cons a x ih =>
    match b, o, h with
    | b :: bs, o :: os, h =>
      simp only [prod] at hB ⊢
      obtain ⟨h1, h2, h3⟩ := h
      have hax : 1 * prod x ≤ a * prod x := Nat.mul_le_mul_right _ (by omega)
      obtain ⟨f1, f2, f3⟩ := ih h3 (by omega)
      have : o * prod os ≤ a * prod x := Nat.mul_le_mul (by omega) f3
      exact ⟨⟨by simp only [prod]; omega, f1⟩, ⟨by simp only [prod]; omega, f2⟩, this⟩

/-- **C49, slice.** If begins and sizes mean a box inside the operand, the result has the box's extents and its element at `c`
is the operand's at `c` plus the box's corner. -/
theorem C49_slice (dtype : Nat) (shape : List Nat) (begins sizes : List Int) (b o : List Nat) (data dst : List α)
    (hty : plainType dtype = true) (hbl : begins.length = shape.length)
    (hsl : sizes.length = shape.length) (hl : b.length = shape.length) (hol : o.length = shape.length)
    (h : ∀ k, k < shape.length → MeansBox (shape.getD k 0) (begins.getD k 0) (sizes.getD k 0) (b.getD k 0) (o.getD k 0))
    (hx : ∀ a ∈ shape, a ≤ 2147483647) (hsz : ∀ s ∈ sizes, -9223372036854775808 ≤ s) (hB : prod shape ≤ 2147483647)
    (hdata : data.length = prod shape) (hd : dst.length = prod o) :
    ∃ out, boxSliceRun ⟨dtype, shape, data⟩ begins sizes dst = .ok (o, out) ∧ out.length = prod o ∧
      ∀ c, InBounds o c → out[lin o c]? = data[lin shape (List.zipWith (· + ·) c b)]? := by
  obtain ⟨h1, h2, h3⟩ := boxIn_of hbl hsl hl hol h hx hsz
  obtain ⟨f1, f2, f3⟩ := fits_box h1 hB
  obtain ⟨out, e, el, ev⟩ := slice_moves shape b o data dst h1 hdata hd
  refine ⟨out, ?_, el, ?_⟩
  · unfold boxSliceRun
    rw [if_neg (by simp [hbl, hsl]), h3]
    simp only [Res.bind_ok]
    rw [if_pos hty, weights_ok f1, weights_ok f2, h2]
    simp only [Res.bind_ok]
    rw [boxSliceLoop_ok h1 hx hB (by omega) _ (fun i hi => List.mem_range.1 hi)]
    simp only [Res.bind_ok]
    rw [e]; rfl
  · intro c hc
    rw [ev c hc]
    congr 2
    have : c.length = b.length := by rw [hc.length, hol, hl]
    clear * - this
    induction c generalizing b with
    | nil => cases b <;> simp_all [addC]
    | cons a c ih =>
      cases b with
      | nil => simp at this
      | cons p b => simp only [addC, List.zipWith_cons_cons]; rw [ih b (by simpa using this)]

example : boxSliceRun ⟨5, [3, 4], List.range 12⟩ [1, 2] [2, -1] (List.replicate 4 0) = .ok ([2, 2], [6, 7, 10, 11]) ∧
    MeansBox 3 1 2 1 2 ∧ MeansBox 4 2 (-1) 2 2 := by
  refine ⟨by decide +kernel, ?_, ?_⟩ <;> unfold MeansBox <;> omega

theorem boxSliceExt_means {shape : List Nat} {begins sizes : List Int} {o : List Nat}
    (hbl : begins.length = shape.length) (hsl : sizes.length = shape.length) (hx : ∀ a ∈ shape, a < 2147483647)
    (h : boxSliceExt shape (begins.map clampInt) (sizes.map clampInt) = .ok o) :
    o.length = shape.length ∧ ∀ k, k < shape.length →
      ∃ b, MeansBox (shape.getD k 0) (begins.getD k 0) (sizes.getD k 0) b (o.getD k 0) := by
  induction shape generalizing begins sizes o with
  | nil => simp_all [boxSliceExt]
  | cons a shape ih =>
    match begins, sizes, hbl, hsl with
    | p :: ps, s :: ss, hbl, hsl =>
      simp only [List.map_cons, boxSliceExt] at h
      by_cases hc : clampInt p < 0 ∨ (a : Int) ≤ clampInt p
      · rw [if_pos hc] at h; cases h
      rw [if_neg hc, Res.bind_eq_ok] at h
      obtain ⟨e, he, h⟩ := h
      rw [int32_eq_ok] at he
      by_cases hc2 : (a : Int) < e
      · rw [if_pos hc2] at h; cases h
      rw [if_neg hc2, Res.bind_eq_ok] at h
      obtain ⟨r, hr, h⟩ := h
      cases h
      obtain ⟨i1, i2⟩ := ih (by simpa using hbl) (by simpa using hsl) (fun y hy => hx y (by simp [hy])) hr
      refine ⟨by simp [i1], ?_⟩
      intro k hk
      cases k with
      | succ k => simpa using i2 k (by simpa using hk)
      | zero =>
        have ha := hx a (by simp)
        have hpe : clampInt p = p := by
          unfold clampInt at hc ⊢
          split <;> [skip; split] <;> (first | rfl | (exfalso; rename_i q; revert hc; simp [q]; try omega))
        rw [hpe] at hc he ⊢
        refine ⟨p.toNat, ?_⟩
        simp only [List.getD_cons_zero]
        obtain ⟨he1, he2⟩ := he
        unfold MeansBox
        by_cases hs : clampInt s < 0
        · rw [if_pos hs] at he2 ⊢
          have : s < 0 := by
            unfold clampInt at hs
            split at hs <;> [omega; (split at hs <;> omega)]
          omega
        · rw [if_neg hs] at he2 ⊢
          have : s ≤ 2147483647 := by
            by_contra hgt
            have : clampInt s = 2147483647 := by unfold clampInt; rw [if_pos (by omega)]
            omega
          have : clampInt s = s := by
            unfold clampInt at hs ⊢
            rw [if_neg (by omega)] at hs ⊢
            split at hs <;> [omega; (rw [if_neg (by omega)])]
          omega

/-- **C49, slice, rejection.** Slicing returns a result only for begins and sizes that mean a box inside the operand. -/
theorem C49_slice_rejects (x : Operand α) (begins sizes : List Int) (dst : List α) (o : List Nat) (out : List α)
    (hx : ∀ a ∈ x.shape, a < 2147483647) (h : boxSliceRun x begins sizes dst = .ok (o, out)) :
    begins.length = x.shape.length ∧ sizes.length = x.shape.length ∧ o.length = x.shape.length ∧
      ∀ k, k < x.shape.length →
        ∃ b, MeansBox (x.shape.getD k 0) (begins.getD k 0) (sizes.getD k 0) b (o.getD k 0) := by
  unfold boxSliceRun at h
  by_cases hc : sizes.length ≠ begins.length ∨ sizes.length ≠ x.shape.length
  · rw [if_pos hc] at h; cases h
  rw [if_neg hc, Res.bind_eq_ok] at h
  obtain ⟨o', ho, h⟩ := h
  have : o' = o := by
    split at h
    · simp only [Res.bind_eq_ok] at h
      obtain ⟨_, _, _, _, _, _, _, _, h⟩ := h
      cases h; rfl
    · cases h
  subst this
  have hbl : begins.length = x.shape.length := by omega
  have hsl : sizes.length = x.shape.length := by omega
  obtain ⟨h1, h2⟩ := boxSliceExt_means hbl hsl hx ho
  exact ⟨hbl, hsl, h1, h2⟩

example : boxSliceRun ⟨5, [3], [7, 8, 9]⟩ [3] [0] [] = .err ∧ boxSliceRun ⟨5, [3], [7, 8, 9]⟩ [1] [3] [] = .err ∧
    boxSliceRun ⟨5, [3], [7, 8, 9]⟩ [1] [2] [0, 0] = .ok ([2], [8, 9]) := by decide +kernel

/-- **C49, slice, not everything else is refused cleanly.** A size near `INT_MAX` overflows in the check itself. -/
theorem C49_slice_overflow_false :
    boxSliceRun ⟨5, [3], [7, 8, 9]⟩ [1] [2147483647] ([] : List Nat) = .ub := by decide +kernel

/-! ## stack -/

/-- **C49, stack.** Stacking operands of one type and shape along a new axis of extent one per operand puts element `(u, v)`
of operand `k` at `(u, k, v)`. -/
theorem C49_stack (axis : Int) (xs : List (Operand α)) (dtype : Nat) (pre post : List Nat) (dst : List α) (hne : xs ≠ [])
    (hx : ∀ x ∈ xs, x.dtype = dtype ∧ x.shape = pre ++ post ∧ x.data.length = prod (pre ++ post))
    (hax : MeansDim axis ((pre ++ post).length + 1) pre.length) (hrank : (pre ++ post).length < 7)
    (hty : typeBytes dtype ∈ [1, 2, 4, 8, 16]) (hn : xs.length ≤ 2147483647)
    (hd : dst.length = prod (pre ++ xs.length :: post)) :
    ∃ out, stackRun axis xs dst = .ok (pre ++ xs.length :: post, out) ∧ out.length = prod (pre ++ xs.length :: post) ∧
      ∀ k (hk : k < xs.length) u v, InBounds pre u → InBounds post v →
        out[lin (pre ++ xs.length :: post) (u ++ k :: v)]? = xs[k].data[lin (pre ++ post) (u ++ v)]? := by
  have hsh : stackShapes pre.length xs = .ok (xs.map fun x => { x with shape := pre ++ 1 :: post }) := by
    clear hne hn hd
    induction xs with
    | nil => rfl
    | cons x xs ih =>
      obtain ⟨-, h2, -⟩ := hx x (by simp)
      unfold stackShapes
      rw [h2, if_neg (by simp at hrank ⊢; omega), ih fun y hy => hx y (by simp [hy])]
      simp
  have hoff : ∀ k, k ≤ xs.length →
      offsetOf pre.length (xs.map fun x => ({ x with shape := pre ++ 1 :: post } : Operand α)) k = k := by
    intro k hk
    unfold offsetOf
    rw [← List.map_take, List.map_map]
    simp only [Function.comp_def, getD_mid]
    simp; omega
  have hall : offsetOf pre.length (xs.map fun x => ({ x with shape := pre ++ 1 :: post } : Operand α))
      (xs.map fun x => ({ x with shape := pre ++ 1 :: post } : Operand α)).length = xs.length := by
    rw [List.length_map]; exact hoff _ (Nat.le_refl _)
  have hp1 : prod (pre ++ 1 :: post) = prod (pre ++ post) := by rw [prod_append, prod_append, prod]; simp
  obtain ⟨out, e, el, ev, -⟩ := C17_concat axis (xs.map fun x => ({ x with shape := pre ++ 1 :: post } : Operand α)) dtype
    pre post dst (by simpa using hne)
    (by
      intro y hy
      obtain ⟨x, hxm, rfl⟩ := List.mem_map.1 hy
      obtain ⟨h1, h2, h3⟩ := hx x hxm
      exact ⟨h1, 1, rfl, by simp only; rw [h3, hp1]⟩)
    (by simpa [Nat.add_assoc] using hax) hty (by rw [hall]; exact hn) (by rw [hall]; exact hd)
  rw [hall] at e el ev
  refine ⟨out, ?_, el, ?_⟩
  · cases xs with
    | nil => exact absurd rfl hne
    | cons x xs =>
      unfold stackRun
      simp only
      rw [(hx x (by simp)).2.1, fixDim_ok hax]
      simp only [Res.bind_ok]
      rw [hsh]
      exact e
  · intro k hk u v hu hv
    have := ev k (by simpa using hk) u 0 v hu.length
      (by simp only [List.getElem_map]; exact (inBounds_append hu.length).2 ⟨hu, Nat.zero_lt_one, hv⟩)
    rw [hoff k (by omega)] at this
    simp only [List.getElem_map, Nat.add_zero] at this
    rw [this]
    congr 1
    rw [lin_append hu.length, lin_append hu.length, lin, prod]
    simp

example : stackRun (-1) [⟨5, [2], [1, 2]⟩, ⟨5, [2], [3, 4]⟩] [0, 0, 0, 0] = .ok ([2, 2], [1, 3, 2, 4]) ∧
    MeansDim (-1) 2 1 := by
  refine ⟨by decide +kernel, ?_⟩
  unfold MeansDim; decide

theorem insert_inj {d : Nat} {s t : List Nat} (hs : d ≤ s.length) (hl : s.length = t.length)
    (h : ∀ j, j ≠ d → (t.take d ++ 1 :: t.drop d).getD j 0 = (s.take d ++ 1 :: s.drop d).getD j 0) : t = s := by
  apply List.ext_getElem? 
  intro i
  have key : ∀ (l : List Nat), d ≤ l.length → i < d → (l.take d ++ 1 :: l.drop d)[i]? = l[i]? := by
    intro l hl hi
    rw [List.getElem?_append_left (by simp; omega), List.getElem?_take, if_pos hi]
  have key2 : ∀ (l : List Nat), d ≤ l.length → d ≤ i → (l.take d ++ 1 :: l.drop d)[i + 1]? = l[i]? := by
    intro l hl hi
    rw [List.getElem?_append_right (by simp; omega), List.length_take, Nat.min_eq_left hl,
      show i + 1 - d = (i - d) + 1 by omega, List.getElem?_cons_succ, List.getElem?_drop, Nat.add_sub_cancel' hi]
  have fin : ∀ (a b : Option Nat), (i < s.length → a.isSome ∧ b.isSome) → (¬ i < s.length → a = none ∧ b = none) →
      a.getD 0 = b.getD 0 → a = b := by
    intro a b h1 h2 h3
    by_cases hi : i < s.length
    · obtain ⟨ha, hb⟩ := h1 hi
      cases a <;> cases b <;> simp_all
    · obtain ⟨rfl, rfl⟩ := h2 hi; rfl
  apply fin
  · intro hi; simp [hi, ← hl]
  · intro hi; exact ⟨List.getElem?_eq_none (by omega), List.getElem?_eq_none (by omega)⟩
  · by_cases hi : i < d
    · have := h i (by omega)
      rw [List.getD, List.getD, key t (by omega) hi, key s hs hi] at this
      exact this
    · have := h (i + 1) (by omega)
      rw [List.getD, List.getD, key2 t (by omega) (by omega), key2 s hs (by omega)] at this
      exact this

/-- **C49, stack, rejection.** Stacking two or more operands returns a result only if all have the type and the shape of the
first. -/
theorem C49_stack_rejects (axis : Int) (x y : Operand α) (ys : List (Operand α)) (dst : List α) (r : List Nat × List α)
    (h : stackRun axis (x :: y :: ys) dst = .ok r) : ∀ z ∈ y :: ys, z.dtype = x.dtype ∧ z.shape = x.shape := by
  unfold stackRun at h
  rw [Res.bind_eq_ok] at h
  obtain ⟨d, hd, h⟩ := h
  rw [Res.bind_eq_ok] at h
  obtain ⟨zs, hz, h⟩ := h
  have key : ∀ (l zs : List (Operand α)), stackShapes d l = .ok zs →
      (∀ x ∈ l, d ≤ x.shape.length) ∧
      zs = l.map fun x => { x with shape := x.shape.take d ++ 1 :: x.shape.drop d } := by
    intro l
    induction l with
    | nil => intro zs h; cases h; exact ⟨by simp, rfl⟩
    | cons a l ih =>
      intro zs h
      unfold stackShapes at h
      split at h
      · cases h
      rename_i hc
      rw [Res.bind_eq_ok] at h
      obtain ⟨w, hw, h⟩ := h
      cases h
      obtain ⟨h1, h2⟩ := ih w hw
      refine ⟨?_, by rw [h2]; rfl⟩
      intro b hb
      rcases List.mem_cons.1 hb with rfl | hb
      · omega
      · exact h1 b hb
  obtain ⟨hlen, rfl⟩ := key _ _ hz
  simp only [List.map_cons] at h
  obtain ⟨d', hm, hall⟩ := C17_rejects axis _ _ _ dst r h
  have hdd : d' = d := by
    have e := fixDim_ok hm
    have hx : d ≤ x.shape.length := hlen x (by simp)
    rw [show (x.shape.take d ++ 1 :: x.shape.drop d).length = x.shape.length + 1 by simp; omega] at e
    rw [hd] at e
    cases e; rfl
  subst hdd
  intro z hzm
  have := hall { z with shape := z.shape.take d' ++ 1 :: z.shape.drop d' } (by
    rw [← List.map_cons (f := fun x : Operand α => ({ x with shape := x.shape.take d' ++ 1 :: x.shape.drop d' } : Operand α))]
    exact List.mem_map.2 ⟨z, hzm, rfl⟩)
  obtain ⟨h1, h2, h3⟩ := this
  have hx : d' ≤ x.shape.length := hlen x (by simp)
  have hz' : d' ≤ z.shape.length := hlen z (List.mem_cons_of_mem _ hzm)
  refine ⟨h1, insert_inj hx ?_ h3⟩
  simp at h2; omega

example : stackRun 0 [⟨5, [2], [1, 2]⟩, ⟨5, [3], [3, 4, 5]⟩] (List.replicate 5 0) = .err ∧
    ∃ r, stackRun 0 [⟨5, [2], [1, 2]⟩, ⟨5, [2], [3, 4]⟩] (List.replicate 4 0) = .ok r := ⟨by decide +kernel, _, rfl⟩

/-- **C49, stack, an operand of lower rank** is not refused but inserts past the end of its shape. -/
theorem C49_stack_rank_false :
    stackRun 2 [⟨5, [1, 1], [1]⟩, ⟨5, [1], [2]⟩] [0, 0] = .ub := by decide +kernel

/-! ## split and chunk -/

/-- **C49, split.** When the parts add up to the extent along the dimension, part `i` holds the rows from the sum of the parts
before it. -/
theorem C49_split_partial (dim : Int) (dtype : Nat) (pre post : List Nat) (a : Nat) (data : List α) (ps : List Nat)
    (dsts : List (List α)) (hty : plainType dtype = true) (hdim : MeansDim dim (pre ++ a :: post).length pre.length)
    (hdata : data.length = prod (pre ++ a :: post)) (hsum : ps.sum = a) (hl : dsts.length = ps.length)
    (hd : ∀ i (h : i < dsts.length) (h' : i < ps.length), dsts[i].length = prod (pre ++ ps[i] :: post)) :
    ∃ outs, splitRun dim ⟨dtype, pre ++ a :: post, data⟩ (ps.map Int.ofNat) dsts =
        .ok (ps.map fun p => pre ++ p :: post, outs) ∧ outs.length = ps.length ∧
      ∀ i (h : i < outs.length) (h' : i < ps.length), outs[i].length = prod (pre ++ ps[i] :: post) ∧
        ∀ u j v, InBounds pre u → j < ps[i] → InBounds post v →
          outs[i][lin (pre ++ ps[i] :: post) (u ++ j :: v)]? =
            data[lin (pre ++ a :: post) (u ++ ((ps.take i).sum + j) :: v)]? := by
  obtain ⟨outs, e, el, ev⟩ := splitCopy_ok (prod pre) (prod post) a data (by rw [hdata, prod_mid']) ps 0 dsts
    (by omega) hl (fun i h h' => by rw [hd i h h', prod_mid'])
  refine ⟨outs, ?_, el, ?_⟩
  · unfold splitRun
    rw [fixDim_ok hdim]
    simp only [Res.bind_ok]
    rw [if_neg (by simp), if_pos hty, take_mid, drop_mid]
    rw [show (ps.map Int.ofNat).map Int.toNat = ps by simp [Function.comp_def], hsum, e]
    simp only [Res.bind_ok, set_mid]
  · intro i h h'
    obtain ⟨h1, h2⟩ := ev i h h'
    refine ⟨by rw [h1, prod_mid'], ?_⟩
    intro u j v hu hj hv
    rw [lin_mid' hu.length, lin_mid' hu.length, h2 _ _ _ (lin_lt hu) hj (lin_lt hv)]
    simp

example : splitRun 1 ⟨5, [2, 3], [1, 2, 3, 4, 5, 6]⟩ [1, 2] [[0, 0], [0, 0, 0, 0]] =
    .ok ([[2, 1], [2, 2]], [[1, 4], [2, 3, 5, 6]]) ∧ MeansDim 1 2 1 := by
  refine ⟨by decide +kernel, ?_⟩
  unfold MeansDim; decide

/-- **C49, split, parts that do not add up** are not refused: the later rows of the parts are taken from wrong places, or read
outside the operand. -/
theorem C49_split_sum_false :
    splitRun 1 ⟨5, [2, 3], [1, 2, 3, 4, 5, 6]⟩ [1, 1] [[0, 0], [0, 0]] = .ok ([[2, 1], [2, 1]], [[1, 3], [2, 4]]) ∧
    splitRun 1 ⟨5, [2, 3], [1, 2, 3, 4, 5, 6]⟩ [2, 2] [[0, 0, 0, 0], [0, 0, 0, 0]] = .ub := by decide +kernel

/-- the bins of `[0, a)` for step `step` -/
theorem chunk_bins {a chunks step n : Nat} {q : ℚ} (hc : 1 < chunks) (hac : chunks ≤ a)
    (hstep : chunks * (step - 1) < a ∧ a ≤ chunks * step) (hs : 0 < step) (hn : n * step < a ∧ a ≤ (n + 1) * step)
    (hmax : a + step ≤ 2147483647) (hq : Concurrency.NearestDouble ((a : ℚ) / chunks) q) :
    Concurrency.splitBins (a + 1) q 0 a chunks = some (.ok
      (((List.range n).map fun (i : Nat) => ((i : Int) * step, (i : Int) * step + step)) ++ [((n : Int) * step, (a : Int))])) := by
  have hceil : ⌈q⌉ = (step : Int) := by
    rw [ceil_nearest (d := a) (b := chunks) (by omega) (by omega) (by omega) (by simpa using hq)]
    have hcq : (0 : ℚ) < ((chunks : Int) : ℚ) := by exact_mod_cast (by omega : 0 < chunks)
    rw [Int.ceil_eq_iff]
    constructor
    · rw [lt_div_iff₀ hcq]
      have h1 : (((step - 1 : Nat) : ℚ)) * chunks < a := by
        have := hstep.1; rw [Nat.mul_comm] at this; exact_mod_cast this
      have h2 : ((step - 1 : Nat) : ℚ) = (step : ℚ) - 1 := by rw [Nat.cast_sub hs]; simp
      rw [h2] at h1
      exact_mod_cast h1
    · rw [div_le_iff₀ hcq]
      have := hstep.2; rw [Nat.mul_comm] at this
      exact_mod_cast this
  unfold Concurrency.splitBins
  rw [if_neg (by omega), if_neg (by omega), hceil]
  simp only
  rw [if_neg (by omega)]
  have h1 : (n : Int) * step < (a : Int) - 0 := by have := hn.1; rw [Int.sub_zero]; exact_mod_cast this
  have h2 : (a : Int) - 0 ≤ ((n : Int) + 1) * step := by have := hn.2; rw [Int.sub_zero]; exact_mod_cast this
  rw [splitLoop_bins (a : Int) step (by omega) (by omega) n 0 [] (a + 1) (by omega) h1 h2 (by
    have h3 : n * 1 ≤ n * step := Nat.mul_le_mul_left _ hs
    have := hn.1
    omega)]
  simp

/-- the sizes of the chunks: all of the rounded-up size but the last, which holds the rest -/
def chunkSizes (a chunks step : Nat) : List Nat := List.replicate (chunks - 1) step ++ [a - (chunks - 1) * step]

/-- **C49, chunk.** With `step` the extent divided by the number of chunks, rounded up: if `chunks - 1` steps leave something
for the last chunk, every chunk but the last holds `step` rows, the last the rest, and chunk `i` starts at row `i * step`. -/
theorem C49_chunk_partial (q : ℚ) (dim : Int) (dtype : Nat) (pre post : List Nat) (a chunks step : Nat) (data : List α)
    (dsts : List (List α)) (hty : typeBytes dtype ∈ [1, 2, 4, 8, 16])
    (hdim : MeansDim dim (pre ++ a :: post).length pre.length)
    (hdata : data.length = prod (pre ++ a :: post)) (hc : 0 < chunks) (hac : chunks ≤ a)
    (hstep : chunks * (step - 1) < a ∧ a ≤ chunks * step) (hleft : (chunks - 1) * step < a)
    (hmax : a + step ≤ 2147483647) (hq : Concurrency.NearestDouble ((a : ℚ) / chunks) q)
    (hl : dsts.length = chunks)
    (hd : ∀ i (h : i < dsts.length) (h' : i < (chunkSizes a chunks step).length),
      dsts[i].length = prod (pre ++ (chunkSizes a chunks step)[i] :: post)) :
    ∃ outs, chunkRun q chunks dim ⟨dtype, pre ++ a :: post, data⟩ dsts =
        .ok ((chunkSizes a chunks step).map fun p => pre ++ p :: post, outs) ∧ outs.length = chunks ∧
      ∀ i (h : i < outs.length) (h' : i < (chunkSizes a chunks step).length),
        outs[i].length = prod (pre ++ (chunkSizes a chunks step)[i] :: post) ∧
        ∀ u j v, InBounds pre u → j < (chunkSizes a chunks step)[i] → InBounds post v →
          outs[i][lin (pre ++ (chunkSizes a chunks step)[i] :: post) (u ++ j :: v)]? =
            data[lin (pre ++ a :: post) (u ++ (i * step + j) :: v)]? := by
  have hs : 0 < step := by
    rcases Nat.eq_zero_or_pos step with rfl | h
    · simp at hstep; omega
    · exact h
  have hsum : (chunkSizes a chunks step).sum = a := by simp [chunkSizes]; omega
  have hlen : (chunkSizes a chunks step).length = chunks := by simp [chunkSizes]; omega
  obtain ⟨outs, e, el, ev⟩ := splitCopy_ok (prod pre) (prod post) a data (by rw [hdata, prod_mid']) (chunkSizes a chunks step) 0
    dsts (by omega) (by omega) (fun i h h' => by rw [hd i h h', prod_mid'])
  have hbins : ∃ bins, Concurrency.splitBins (a + 1) q 0 a chunks = some (.ok bins) ∧ bins.length = chunks ∧
      bins.map (fun b => (b.2 - b.1).toNat) = chunkSizes a chunks step := by
    by_cases h1 : chunks = 1
    · subst h1
      refine ⟨[(0, (a : Int))], ?_, rfl, by simp [chunkSizes]⟩
      unfold Concurrency.splitBins
      rw [if_neg (by omega), if_pos (by omega)]
    · refine ⟨_, chunk_bins (n := chunks - 1) (by omega) hac hstep hs ⟨hleft, ?_⟩ hmax hq, by simp; omega, ?_⟩
      · rw [Nat.sub_add_cancel (by omega)]; exact hstep.2
      · rw [List.map_append, List.map_map, chunkSizes]
        congr 1
        · apply List.ext_getElem
          · simp
          · intro i h1 h2
            simp
        · simp only [List.map_cons, List.map_nil, List.cons.injEq, and_true]
          have : ((chunks - 1 : Nat) : Int) * step = (((chunks - 1) * step : Nat) : Int) := by push_cast; ring
          rw [this]
          omega
  obtain ⟨bins, hb1, hb2, hb3⟩ := hbins
  refine ⟨outs, ?_, by omega, ?_⟩
  · unfold chunkRun
    rw [if_neg (by omega), fixDim_ok hdim]
    simp only [Res.bind_ok]
    rw [take_mid, drop_mid, getD_mid, if_neg (by omega), hb1]
    simp only
    rw [if_neg (by omega), if_pos hty]
    rw [show bins.take (chunks : Int).toNat = bins by rw [Int.toNat_natCast, ← hb2, List.take_length], hb3, e]
    simp only [Res.bind_ok, set_mid]
  · intro i h h'
    obtain ⟨h1, h2⟩ := ev i h h'
    refine ⟨by rw [h1, prod_mid'], ?_⟩
    intro u j v hu hj hv
    have htake : ((chunkSizes a chunks step).take i).sum = i * step := by
      unfold chunkSizes
      rw [List.take_append_of_le_length (by simp; omega), List.take_replicate]
      simp
      left; omega
    rw [lin_mid' hu.length, lin_mid' hu.length, h2 _ _ _ (lin_lt hu) hj (lin_lt hv), htake]
    simp

example : chunkSizes 7 3 3 = [3, 3, 1] ∧ (3 * (3 - 1) < 7 ∧ 7 ≤ 3 * 3) ∧ (3 - 1) * 3 < 7 ∧
    Concurrency.NearestDouble (((7 : Nat) : ℚ) / (3 : Nat)) (7 / 3) ∧
    chunkRun (7 / 3) 3 (-1) ⟨5, [7], [1, 2, 3, 4, 5, 6, 7]⟩ [[0, 0, 0], [0, 0, 0], [0]] =
      .ok ([[3], [3], [1]], [[1, 2, 3], [4, 5, 6], [7]]) := by
  have hc : ⌈(7 / 3 : ℚ)⌉ = 3 := by rw [Int.ceil_eq_iff]; norm_num
  refine ⟨by decide, by decide, by decide, ⟨by norm_num, fun _ _ _ => by norm_num⟩, ?_⟩
  unfold chunkRun Concurrency.splitBins
  rw [hc]
  rfl

/-- **C49, chunk, when the steps leave nothing for the last chunk**: fewer pieces than chunks come out of the splitting, and
the missing ones are read past the end of a vector. This happens for every such extent, e.g. 5 rows in 4 chunks. -/
theorem C49_chunk_false (q : ℚ) (dim : Int) (dtype : Nat) (pre post : List Nat) (a chunks step : Nat) (data : List α)
    (dsts : List (List α)) (hdim : MeansDim dim (pre ++ a :: post).length pre.length)
    (hc : 0 < chunks) (hac : chunks ≤ a) (hstep : chunks * (step - 1) < a ∧ a ≤ chunks * step)
    (hleft : a ≤ (chunks - 1) * step) (hmax : a + step ≤ 2147483647)
    (hq : Concurrency.NearestDouble ((a : ℚ) / chunks) q) :
    chunkRun q chunks dim ⟨dtype, pre ++ a :: post, data⟩ dsts = .ub := by
  have hs : 0 < step := by
    rcases Nat.eq_zero_or_pos step with rfl | h
    · simp at hstep; omega
    · exact h
  have hc1 : 1 < chunks := by
    by_contra h
    have : chunks = 1 := by omega
    subst this; simp at hleft; omega
  have hn1 : (a - 1) / step * step < a := by
    have := Nat.div_mul_le_self (a - 1) step; omega
  have hn2 : a ≤ ((a - 1) / step + 1) * step := by
    have := Nat.div_add_mod' (a - 1) step
    have := Nat.mod_lt (a - 1) hs
    rw [Nat.add_mul]; omega
  have hlt : (a - 1) / step + 1 < chunks := by
    by_contra h
    have h1 : (chunks - 1) * step ≤ (a - 1) / step * step := Nat.mul_le_mul_right _ (by omega)
    omega
  unfold chunkRun
  rw [if_neg (by omega), fixDim_ok hdim]
  simp only [Res.bind_ok]
  rw [getD_mid, if_neg (by omega), chunk_bins hc1 hac hstep hs ⟨hn1, hn2⟩ hmax hq]
  simp only
  rw [if_pos]
  simp only [List.length_append, List.length_map, List.length_range, List.length_singleton]
  omega

example : (4 * (2 - 1) < 5 ∧ 5 ≤ 4 * 2) ∧ 5 ≤ (4 - 1) * 2 ∧
    Concurrency.NearestDouble (((5 : Nat) : ℚ) / (4 : Nat)) (5 / 4) := by
  refine ⟨by decide, by decide, ⟨by norm_num, fun _ _ _ => by norm_num⟩⟩

/-- **C49, chunk, refusals.** No chunks, a dimension the operand does not have, and more chunks than the extent are refused. -/
theorem C49_chunk_rejects (q : ℚ) (chunks dim : Int) (x : Operand α) (dsts : List (List α))
    (h : chunks ≤ 0 ∨ (∀ d, ¬ MeansDim dim x.shape.length d) ∨
      ∃ d, MeansDim dim x.shape.length d ∧ (x.shape.getD d 0 : Int) < chunks) : chunkRun q chunks dim x dsts = .err := by
  unfold chunkRun
  by_cases h0 : chunks ≤ 0
  · rw [if_pos h0]
  rw [if_neg h0]
  rcases h with h | h | ⟨d, hd, hlt⟩
  · exact absurd h h0
  · rcases hf : fixDim dim x.shape.length with d | _ | _
    · exact absurd (fixDim_eq_ok hf) (h d)
    · rfl
    · unfold fixDim at hf
      generalize (if dim ≥ 0 then dim else (x.shape.length : Int) + dim) = e at hf
      simp only at hf
      split at hf <;> cases hf
  · rw [fixDim_ok hd]
    simp only [Res.bind_ok]
    rw [if_pos hlt]

example : chunkRun (2 / 3) 3 0 ⟨5, [2], [1, 2]⟩ [] = .err := C49_chunk_rejects _ _ _ _ _ (Or.inr (Or.inr ⟨0, by
  unfold MeansDim; decide, by decide⟩))
example : chunkRun (2 / 3) 0 0 ⟨5, [2], [1, 2]⟩ [] = .err := C49_chunk_rejects _ _ _ _ _ (Or.inl (by decide))

/-- **C49, split, refusals.** A dimension the operand does not have is refused. -/
theorem C49_split_rejects (dim : Int) (x : Operand α) (parts : List Int) (dsts : List (List α))
    (h : ∀ d, ¬ MeansDim dim x.shape.length d) : splitRun dim x parts dsts = .err := by
  unfold splitRun
  rcases hf : fixDim dim x.shape.length with d | _ | _
  · exact absurd (fixDim_eq_ok hf) (h d)
  · rfl
  · unfold fixDim at hf
    generalize (if dim ≥ 0 then dim else (x.shape.length : Int) + dim) = e at hf
    simp only at hf
    split at hf <;> cases hf

example : ∀ d, ¬ MeansDim 3 2 d := by unfold MeansDim; omega

end Verif.Props
