import Verif.Kernels.ResampleLemmas
import Verif.Props.Cast
import Verif.Props.Depthwise
/-!
# C65: resize2d

Specification: interpolation as sums over all pixels of the source, with the tent function or Keys' cubic kernel as weights (`tent`, `keys`, `blend`);
what may be asked for (`Wanted`).
-/
namespace Verif.Props
open Verif.Core Verif.Kernels

/-! ## specification -/

/-- the weight of linear interpolation at a distance -/
def tent (t : Rat) : Rat := if |t| ≤ 1 then 1 - |t| else 0

/-- the weight of cubic interpolation at a distance (Keys' kernel with a = -3/4) -/
def keys (t : Rat) : Rat :=
  if |t| ≤ 1 then 5 / 4 * |t| ^ 3 - 9 / 4 * |t| ^ 2 + 1
  else if |t| ≤ 2 then -3 / 4 * |t| ^ 3 + 15 / 4 * |t| ^ 2 - 6 * |t| + 3
  else 0

/-- all pixels `X` of an image with `h` rows and `w` columns, weighted by their distances from the place (y, x) -/
def blend (K : Rat → Rat) (h w : Nat) (X : Nat → Nat → Rat) (y x : Rat) : Rat :=
  ∑ j ∈ Finset.range h, K (y - j) * ∑ i ∈ Finset.range w, K (x - i) * X j i

/-- the codes of the element types with arithmetic: int8 to uint64 (1 to 8), float32 (10) and float64 (11); half precision (9), booleans, characters and
complex numbers are not -/
def Arith (dtype : Nat) : Prop := (1 ≤ dtype ∧ dtype ≤ 8) ∨ dtype = 10 ∨ dtype = 11

instance (dtype : Nat) : Decidable (Arith dtype) := by unfold Arith; infer_instance

/-- the request `size` (negative: as it is) is to change the extents `i` and `i + 1` of `shape`, and results in `o` -/
structure Wanted (shape : List Nat) (size : List Int) (i : Nat) (o : List Nat) : Prop where
  rank : shape.length = size.length
  two : i + 1 < size.length
  rows : ∃ s : Int, size[i]? = some s ∧ 0 < s ∧ o[i]? = some s.toNat
  cols : ∃ s : Int, size[i + 1]? = some s ∧ 0 < s ∧ o[i + 1]? = some s.toNat
  length : o.length = shape.length
  others : ∀ j : Nat, j ≠ i → j ≠ i + 1 → o[j]? = shape[j]? ∧ ∀ s : Int, size[j]? = some s → s < 0 ∨ 0 < s ∧ shape[j]? = some s.toNat

/-! ## sums over windows -/

theorem tent_far {t : Rat} (h : 1 ≤ |t|) : tent t = 0 := by
  unfold tent
  split
  · linarith
  · rfl

theorem keys_far {t : Rat} (h : 2 ≤ |t|) : keys t = 0 := by
  unfold keys
  rw [if_neg (by linarith)]
  split
  · have : |t| = 2 := by linarith
    rw [this]; norm_num
  · rfl

theorem tent_sum {n : Nat} {k : Nat} {f : Rat} (h0 : 0 ≤ f) (h1 : f ≤ 1) (hk : k + 1 < n) (X : Nat → Rat) :
    ∑ i ∈ Finset.range n, tent ((k : Rat) + f - i) * X i = (1 - f) * X k + f * X (k + 1) := by
  rw [sum_window (b := k) (L := 2) _ (by omega)]
  · rw [Finset.sum_range_succ, Finset.sum_range_one]
    have e0 : tent ((k : Rat) + f - ((k + 0 : Nat) : Rat)) = 1 - f := by
      rw [show (k : Rat) + f - ((k + 0 : Nat) : Rat) = f by push_cast; ring]
      unfold tent
      rw [abs_of_nonneg h0, if_pos h1]
    have e1 : tent ((k : Rat) + f - ((k + 1 : Nat) : Rat)) = f := by
      rw [show (k : Rat) + f - ((k + 1 : Nat) : Rat) = -(1 - f) by push_cast; ring]
      unfold tent
      rw [abs_neg, abs_of_nonneg (by linarith), if_pos (by linarith)]
      ring
    rw [e0, e1]
    rfl
  · intro i _ hi
    rw [tent_far, zero_mul]
    rcases Nat.lt_or_ge i k with h | h
    · have : (i : Rat) + 1 ≤ k := by exact_mod_cast h
      rw [abs_of_nonneg (by linarith)]
      linarith
    · have : (k : Rat) + 2 ≤ i := by
        have : k + 2 ≤ i := by omega
        exact_mod_cast this
      rw [abs_of_nonpos (by linarith)]
      linarith

theorem keys_coef {f : Rat} (h0 : 0 ≤ f) (h1 : f ≤ 1) (i : Nat) (hi : i < 4) : keys (f + 1 - i) = cubicCoef f i := by
  have hi : i = 0 ∨ i = 1 ∨ i = 2 ∨ i = 3 := by omega
  rcases hi with rfl | rfl | rfl | rfl
  · simp only [cubicCoef, if_true, Nat.cast_zero, sub_zero]
    unfold keys
    rw [abs_of_nonneg (by linarith)]
    split
    · have : f = 0 := by linarith
      subst this
      norm_num
    · rw [if_pos (by linarith)]
      ring
  · simp only [cubicCoef]
    unfold keys
    norm_num
    rw [abs_of_nonneg h0, if_pos h1]
    ring
  · simp only [cubicCoef]
    unfold keys
    norm_num
    rw [abs_of_nonpos (by linarith), if_pos (by linarith)]
    ring
  · simp only [cubicCoef]
    unfold keys
    norm_num
    rw [abs_of_nonpos (by linarith)]
    split
    · have : f = 1 := by linarith
      subst this
      norm_num
    · rw [if_pos (by linarith)]
      ring

theorem keys_sum {n : Nat} {k : Nat} {f : Rat} (h0 : 0 ≤ f) (h1 : f ≤ 1) (hk : k + 3 < n) (X : Nat → Rat) :
    ∑ i ∈ Finset.range n, keys ((k : Rat) + 1 + f - i) * X i = ∑ i ∈ Finset.range 4, cubicCoef f i * X (k + i) := by
  rw [sum_window (b := k) (L := 4) _ (by omega)]
  · apply Finset.sum_congr rfl
    intro i hi
    rw [← keys_coef h0 h1 i (Finset.mem_range.1 hi)]
    congr 2
    push_cast
    ring
  · intro i _ hi
    rw [keys_far, zero_mul]
    rcases Nat.lt_or_ge i k with h | h
    · have : (i : Rat) + 1 ≤ k := by exact_mod_cast h
      rw [abs_of_nonneg (by linarith)]
      linarith
    · have : (k : Rat) + 4 ≤ i := by
        have : k + 4 ≤ i := by omega
        exact_mod_cast this
      rw [abs_of_nonpos (by linarith)]
      linarith

/-! ## the kernels -/

/-- the pixels of one channel of an image -/
def Image.pixel (m : Image) (c j i : Nat) : Rat := m.data.getD (m.start + ((j * m.w + i) * m.ch + c)) 0

theorem trunc_split {n : Nat} {t : Rat} (h0 : 0 ≤ t) (h1 : t < (n : Rat) - 1) :
    ∃ k : Nat, k + 1 < n ∧ truncQ t = k ∧ 0 ≤ t - k ∧ t - k ≤ 1 := by
  have f0 := Int.floor_nonneg.2 h0
  obtain ⟨k, hk⟩ := Int.eq_ofNat_of_zero_le f0
  have a := Int.floor_le t
  have b := Int.lt_floor_add_one t
  rw [hk] at a b
  refine ⟨k, ?_, ?_, ?_, ?_⟩
  · have : (k : Rat) + 1 < n := by push_cast at a; linarith
    exact_mod_cast this
  · unfold truncQ
    rw [if_pos h0, hk]
  · push_cast at a; linarith
  · push_cast at b; linarith

theorem linearAt_ok {m : Image} {y x : Rat} {c : Nat} (hm : m.start + m.h * m.w * m.ch ≤ m.data.length) (hy : 0 ≤ y ∧ y < (m.h : Rat) - 1)
    (hx : 0 ≤ x ∧ x < (m.w : Rat) - 1) (hc : c < m.ch) : linearAt m y x c = .ok (blend tent m.h m.w (Image.pixel m c) y x) := by
  obtain ⟨k, k1, k2, k3, k4⟩ := trunc_split hy.1 hy.2
  obtain ⟨l, l1, l2, l3, l4⟩ := trunc_split hx.1 hx.2
  unfold linearAt
  rw [k2, l2]
  simp only
  rw [Image.at_ok hm (by omega) (by omega) hc, Res.bind_ok, Image.at_ok hm (by omega) (by omega) hc, Res.bind_ok, Image.at_ok hm (by omega) (by omega) hc,
    Res.bind_ok, Image.at_ok hm (by omega) (by omega) hc, Res.bind_ok]
  congr 1
  have sy : ∀ f : Nat → Rat, ∑ j ∈ Finset.range m.h, tent (y - j) * f j = (1 - (y - k)) * f k + (y - k) * f (k + 1) := by
    intro f
    have := tent_sum (n := m.h) (k := k) k3 k4 k1 f
    rw [← this]
    apply Finset.sum_congr rfl
    intro i _
    congr 2
    ring
  have sx : ∀ f : Nat → Rat, ∑ i ∈ Finset.range m.w, tent (x - i) * f i = (1 - (x - l)) * f l + (x - l) * f (l + 1) := by
    intro f
    have := tent_sum (n := m.w) (k := l) l3 l4 l1 f
    rw [← this]
    apply Finset.sum_congr rfl
    intro i _
    congr 2
    ring
  unfold blend
  rw [sy, sx, sx]
  have t1 : ((k : Int) + 1).toNat = k + 1 := by omega
  have t2 : ((l : Int) + 1).toNat = l + 1 := by omega
  simp only [t1, t2, Int.toNat_natCast, Image.pixel]
  push_cast
  ring

theorem cubicAt_ok {m : Image} {py px : Int × Rat} {c : Nat} (hm : m.start + m.h * m.w * m.ch ≤ m.data.length)
    (hy : 1 ≤ py.1 ∧ py.1 ≤ (m.h : Int) - 3) (hx : 1 ≤ px.1 ∧ px.1 ≤ (m.w : Int) - 3) (fy : 0 ≤ py.2 ∧ py.2 ≤ 1) (fx : 0 ≤ px.2 ∧ px.2 ≤ 1) (hc : c < m.ch) :
    cubicAt m py px c = .ok (blend keys m.h m.w (Image.pixel m c) (py.1 + py.2) (px.1 + px.2)) := by
  obtain ⟨sy, fy'⟩ := py
  obtain ⟨sx, fx'⟩ := px
  simp only at hy hx fy fx ⊢
  obtain ⟨k, hk⟩ := Int.eq_ofNat_of_zero_le (show 0 ≤ sy - 1 by omega)
  obtain ⟨l, hl⟩ := Int.eq_ofNat_of_zero_le (show 0 ≤ sx - 1 by omega)
  unfold cubicAt
  have key := loopSum (α := Rat) (n := 4) (a := 0) (f := fun s i => loop (fun s j => do
    let v ← m.at_ (sy - 1 + (j : Nat)) (sx - 1 + (i : Nat)) c
    .ok (s + v * cubicCoef fx' i * cubicCoef fy' j)) 4 s)
    (v := fun i => ∑ j ∈ Finset.range 4, Image.pixel m c (k + j) (l + i) * cubicCoef fx' i * cubicCoef fy' j) (by
      intro i s hi
      apply loopSum
      intro j s' hj
      rw [Image.at_ok hm (by omega) (by omega) hc, Res.bind_ok]
      congr 3
      unfold Image.pixel
      congr 2
      rw [show (sy - 1 + (j : Int)).toNat = k + j by omega, show (sx - 1 + (i : Int)).toNat = l + i by omega])
  refine key.trans ?_
  congr 1
  rw [zero_add]
  unfold blend
  have e1 : (sy : Rat) + fy' = (k : Rat) + 1 + fy' := by
    have : sy = (k : Int) + 1 := by omega
    rw [this]; push_cast; ring
  have e2 : (sx : Rat) + fx' = (l : Rat) + 1 + fx' := by
    have : sx = (l : Int) + 1 := by omega
    rw [this]; push_cast; ring
  rw [e1, e2, keys_sum fy.1 fy.2 (by omega), Finset.sum_comm]
  apply Finset.sum_congr rfl
  intro j _
  rw [keys_sum fx.1 fx.2 (by omega), Finset.mul_sum]
  apply Finset.sum_congr rfl
  intro i _
  ring

/-! ## what may be asked for -/

/-- an extent that is left alone or asked for as it is -/
def KeepPair (p : Nat × Int) : Prop := p.2 < 0 ∨ 0 < p.2 ∧ (p.1 : Int) = p.2

theorem findRows_sound {l : List (Nat × Int)} {i0 i : Nat} (h : findRows i0 l = some i) :
    i0 ≤ i ∧ (∃ p, l[i - i0]? = some p ∧ 0 < p.2) ∧ ∀ j p, j < i - i0 → l[j]? = some p → KeepPair p := by
  induction l generalizing i0 with
  | nil => simp [findRows] at h
  | cons p r ih =>
    unfold findRows at h
    split at h
    · simp at h
    rename_i n0
    have step : findRows (i0 + 1) r = some i → KeepPair p →
        i0 ≤ i ∧ (∃ q, (p :: r)[i - i0]? = some q ∧ 0 < q.2) ∧ ∀ j q, j < i - i0 → (p :: r)[j]? = some q → KeepPair q := by
      intro h hp
      obtain ⟨h1, ⟨q, h2, h3⟩, h4⟩ := ih h
      refine ⟨by omega, ⟨q, ?_, h3⟩, ?_⟩
      · rw [show i - i0 = (i - (i0 + 1)) + 1 by omega, List.getElem?_cons_succ, h2]
      · intro j q' hj hq
        cases j with
        | zero => simp at hq; exact hq ▸ hp
        | succ j => exact h4 j q' (by omega) (by simpa using hq)
    split at h
    · rename_i n1
      exact step h (.inl n1)
    · rename_i n1
      split at h
      · rename_i n2
        exact step h (.inr ⟨by omega, n2.1⟩)
      · simp only [Option.some.injEq] at h
        subst h
        exact ⟨le_refl _, ⟨p, by simp, by omega⟩, fun j _ hj => by omega⟩

theorem findDim_sound {l : List (Nat × Int)} {i : Nat} (h : findDim l = some i) :
    (∃ p, l[i]? = some p ∧ 0 < p.2) ∧ (∃ p, l[i + 1]? = some p ∧ 0 < p.2) ∧ ∀ j p, j ≠ i → j ≠ i + 1 → l[j]? = some p → KeepPair p := by
  unfold findDim at h
  split at h
  · simp at h
  rename_i k hk
  split at h
  · simp at h
  rename_i q hq
  split at h
  · simp at h
  rename_i hpos
  split at h
  · rename_i hall
    simp only [Option.some.injEq] at h
    subst h
    obtain ⟨-, h2, h3⟩ := findRows_sound hk
    simp only [Nat.sub_zero] at h2 h3
    refine ⟨h2, ⟨q, hq, by omega⟩, ?_⟩
    intro j p n1 n2 hj
    rcases Nat.lt_or_ge j k with hlt | hge
    · exact h3 j p hlt hj
    · rw [List.all_eq_true] at hall
      have : p ∈ l.drop (k + 2) := by
        apply List.mem_of_getElem? (i := j - (k + 2))
        rw [List.getElem?_drop, show k + 2 + (j - (k + 2)) = j by omega, hj]
      have := hall p this
      simp only [Bool.and_eq_true, bne_iff_ne, ne_eq, Bool.or_eq_true, beq_iff_eq, decide_eq_true_eq] at this
      unfold KeepPair
      omega
  · simp at h

/-- the extents that result from a request -/
def askedShape (shape : List Nat) (size : List Int) : List Nat := List.zipWith (fun n s => if 0 < s then s.toNat else n) shape size

theorem asked_get {shape : List Nat} {size : List Int} {j n : Nat} {s : Int} (h1 : shape[j]? = some n) (h2 : size[j]? = some s) :
    (askedShape shape size)[j]? = some (if 0 < s then s.toNat else n) := by
  unfold askedShape
  rw [List.getElem?_zipWith, h1, h2]

theorem wanted_asked {shape : List Nat} {size : List Int} {i : Nat} {o : List Nat} (h : Wanted shape size i o) : o = askedShape shape size := by
  apply List.ext_getElem?
  intro j
  by_cases hj : j < shape.length
  · have hs : j < size.length := by have := h.rank; omega
    rw [asked_get (List.getElem?_eq_getElem hj) (List.getElem?_eq_getElem hs)]
    by_cases e1 : j = i
    · subst e1
      obtain ⟨s, a, b, c⟩ := h.rows
      rw [List.getElem?_eq_getElem hs] at a
      simp only [Option.some.injEq] at a
      rw [c, a, if_pos b]
    · by_cases e2 : j = i + 1
      · subst e2
        obtain ⟨s, a, b, c⟩ := h.cols
        rw [List.getElem?_eq_getElem hs] at a
        simp only [Option.some.injEq] at a
        rw [c, a, if_pos b]
      · obtain ⟨a, b⟩ := h.others j e1 e2
        rw [a, List.getElem?_eq_getElem hj]
        rcases b _ (List.getElem?_eq_getElem hs) with b | ⟨b, c⟩
        · rw [if_neg (by omega)]
        · rw [if_pos b]
          rw [List.getElem?_eq_getElem hj] at c
          exact c
  · rw [List.getElem?_eq_none (by have := h.length; omega), List.getElem?_eq_none (by simp [askedShape]; omega)]

theorem zip_get {shape : List Nat} {size : List Int} {j : Nat} {p : Nat × Int} :
    (shape.zip size)[j]? = some p ↔ shape[j]? = some p.1 ∧ size[j]? = some p.2 := by
  rw [List.getElem?_zip_eq_some]

/-- **C65, requests**: the two extents become those asked for, all others stay, and have not been asked to change. -/
theorem C65_request {shape : List Nat} {size : List Int} {i : Nat} {o : List Nat} (h : resizeCheck shape size = .ok (i, o)) : Wanted shape size i o := by
  unfold resizeCheck at h
  split at h
  · simp at h
  rename_i hr
  split at h
  · simp at h
  rename_i k hk
  simp only [Res.ok.injEq, Prod.mk.injEq] at h
  obtain ⟨rfl, rfl⟩ := h
  obtain ⟨⟨p, p1, p2⟩, ⟨q, q1, q2⟩, ho⟩ := findDim_sound hk
  rw [zip_get] at p1 q1
  have l1 : k < shape.length := by
    by_contra hc
    rw [List.getElem?_eq_none (by omega)] at p1
    simp at p1
  have l2 : k + 1 < shape.length := by
    by_contra hc
    rw [List.getElem?_eq_none (by omega)] at q1
    simp at q1
  have hlen : shape.length = size.length := by omega
  have g1 : size.getD k 0 = p.2 := by rw [List.getD_eq_getElem?_getD, p1.2]; rfl
  have g2 : size.getD (k + 1) 0 = q.2 := by rw [List.getD_eq_getElem?_getD, q1.2]; rfl
  refine ⟨hlen, by omega, ⟨p.2, p1.2, p2, ?_⟩, ⟨q.2, q1.2, q2, ?_⟩, by simp, ?_⟩
  · rw [List.getElem?_set_ne (by omega), List.getElem?_set_self (by omega), g1]
  · rw [List.getElem?_set_self (by simpa using l2), g2]
  · intro j n1 n2
    refine ⟨by rw [List.getElem?_set_ne (by omega), List.getElem?_set_ne (by omega)], ?_⟩
    intro s hs
    have lj : j < shape.length := by
      by_contra hc
      rw [List.getElem?_eq_none (by omega)] at hs
      simp at hs
    rcases ho j (shape[j], s) n1 n2 (zip_get.2 ⟨List.getElem?_eq_getElem lj, hs⟩) with h | ⟨h, e⟩
    · exact .inl h
    · refine .inr ⟨h, ?_⟩
      rw [List.getElem?_eq_getElem lj]
      simp only at e
      congr 1
      omega

theorem tailFits_iff {l : List (Nat × Int)} : tailFits l = true ↔ ∀ p ∈ l, (p.1 : Int) = p.2 ∨ p.2 < 0 := by
  unfold tailFits
  simp [List.all_eq_true]

theorem findRows_complete {l : List (Nat × Int)} {i i0 : Nat} {p q : Nat × Int} (hp : l[i]? = some p) (hq : l[i + 1]? = some q) (p0 : 0 < p.2) (q0 : 0 < q.2)
    (ho : ∀ j r, j ≠ i → j ≠ i + 1 → l[j]? = some r → KeepPair r) (hch : (p.1 : Int) ≠ p.2 ∨ (q.1 : Int) ≠ q.2) :
    findRows i0 l = some (i0 + i) ∨ 1 ≤ i ∧ findRows i0 l = some (i0 + i - 1) ∧ (q.1 : Int) = q.2 ∧ ∃ r, l[i - 1]? = some r ∧ 0 < r.2 := by
  induction l generalizing i i0 with
  | nil => simp at hp
  | cons a r ih =>
    cases i with
    | zero =>
      left
      simp only [List.getElem?_cons_zero, Option.some.injEq] at hp
      subst hp
      unfold findRows
      rw [if_neg (by omega), if_neg (by omega), if_neg]
      · rfl
      · rintro ⟨-, h⟩
        have : tailFits (r.drop 1) = true := by
          rw [tailFits_iff]
          intro b hb
          obtain ⟨j, hj⟩ := List.mem_iff_getElem?.1 hb
          rw [List.getElem?_drop] at hj
          have := ho (1 + j + 1) b (by omega) (by omega) (by rw [List.getElem?_cons_succ]; exact hj)
          unfold KeepPair at this
          omega
        rw [this] at h
        simp at h
    | succ i =>
      rw [List.getElem?_cons_succ] at hp hq
      have ka := ho 0 a (by omega) (by omega) (by simp)
      have next : findRows (i0 + 1) r = some (i0 + (i + 1)) ∨ 1 ≤ i + 1 ∧ findRows (i0 + 1) r = some (i0 + (i + 1) - 1) ∧ (q.1 : Int) = q.2 ∧
          ∃ b, (a :: r)[i + 1 - 1]? = some b ∧ 0 < b.2 := by
        rcases ih (i0 := i0 + 1) hp hq (fun j b n1 n2 hj => ho (j + 1) b (by omega) (by omega) (by rw [List.getElem?_cons_succ]; exact hj)) with h | ⟨h1, h2, h3, b, h4, h5⟩
        · exact .inl (by rw [h]; congr 1; omega)
        · refine .inr ⟨by omega, by rw [h2]; congr 1; omega, h3, b, ?_, h5⟩
          rw [show i + 1 - 1 = (i - 1) + 1 by omega, List.getElem?_cons_succ, h4]
      unfold findRows
      unfold KeepPair at ka
      rw [if_neg (by omega)]
      split
      · exact next
      · rename_i n1
        split
        · exact next
        · rename_i n2
          have ha : (a.1 : Int) = a.2 := by omega
          have hf : tailFits (r.drop 1) = true := by
            cases hb : tailFits (r.drop 1) with
            | true => rfl
            | false => exact absurd ⟨ha, hb⟩ n2
          rw [tailFits_iff] at hf
          have hq' : (q.1 : Int) = q.2 := by
            have : q ∈ r.drop 1 := by
              apply List.mem_of_getElem? (i := i)
              rw [List.getElem?_drop, Nat.add_comm]
              exact hq
            have := hf q this
            omega
          cases i with
          | zero => exact .inr ⟨by omega, by congr 1, hq', a, by simp, by omega⟩
          | succ i =>
            have : p ∈ r.drop 1 := by
              apply List.mem_of_getElem? (i := i)
              rw [List.getElem?_drop, Nat.add_comm]
              exact hp
            have := hf p this
            omega

/-- **C65, requests are met**: every request that changes something is accepted. -/
theorem C65_request_met {shape : List Nat} {size : List Int} {i : Nat} {o : List Nat} (h : Wanted shape size i o) (hch : o ≠ shape) :
    ∃ i', resizeCheck shape size = .ok (i', o) := by
  obtain ⟨s, a1, a2, a3⟩ := h.rows
  obtain ⟨t, b1, b2, b3⟩ := h.cols
  have l1 : i + 1 < shape.length := by have := h.two; have := h.rank; omega
  have hp : (shape.zip size)[i]? = some (shape[i], s) := zip_get.2 ⟨List.getElem?_eq_getElem (by omega), a1⟩
  have hq : (shape.zip size)[i + 1]? = some (shape[i + 1], t) := zip_get.2 ⟨List.getElem?_eq_getElem (by omega), b1⟩
  have ho : ∀ j r, j ≠ i → j ≠ i + 1 → (shape.zip size)[j]? = some r → KeepPair r := by
    intro j r n1 n2 hj
    rw [zip_get] at hj
    rcases (h.others j n1 n2).2 r.2 hj.2 with c | ⟨c, d⟩
    · exact .inl c
    · rw [hj.1] at d
      simp only [Option.some.injEq] at d
      exact .inr ⟨c, by omega⟩
  have hc : ((shape[i] : Nat) : Int) ≠ s ∨ ((shape[i + 1] : Nat) : Int) ≠ t := by
    by_contra hcon
    simp only [not_or, ne_eq, Decidable.not_not] at hcon
    apply hch
    apply List.ext_getElem?
    intro j
    by_cases e1 : j = i
    · subst e1
      rw [a3, List.getElem?_eq_getElem (by omega), ← hcon.1]
      simp
    · by_cases e2 : j = i + 1
      · subst e2
        rw [b3, List.getElem?_eq_getElem (by omega), ← hcon.2]
        simp
      · exact (h.others j e1 e2).1
  have found : ∃ i', findDim (shape.zip size) = some i' := by
    rcases findRows_complete (i0 := 0) hp hq a2 b2 ho hc with f | ⟨f1, f2, f3, r, f4, f5⟩
    · refine ⟨i, ?_⟩
      unfold findDim
      rw [f]
      simp only [Nat.zero_add]
      rw [hq]
      simp only
      rw [if_neg (by omega), if_pos]
      rw [List.all_eq_true]
      intro b hb
      obtain ⟨j, hj⟩ := List.mem_iff_getElem?.1 hb
      rw [List.getElem?_drop] at hj
      have := ho (i + 2 + j) b (by omega) (by omega) hj
      unfold KeepPair at this
      simp only [Bool.and_eq_true, bne_iff_ne, ne_eq, Bool.or_eq_true, beq_iff_eq, decide_eq_true_eq]
      omega
    · refine ⟨i - 1, ?_⟩
      unfold findDim
      rw [f2]
      simp only [Nat.zero_add]
      rw [show i - 1 + 1 = i by omega, hp]
      simp only
      rw [if_neg (by omega), if_pos]
      rw [List.all_eq_true]
      intro b hb
      obtain ⟨j, hj⟩ := List.mem_iff_getElem?.1 hb
      rw [List.getElem?_drop] at hj
      simp only [Bool.and_eq_true, bne_iff_ne, ne_eq, Bool.or_eq_true, beq_iff_eq, decide_eq_true_eq]
      by_cases e : j = 0
      · subst e
        rw [show i - 1 + 2 + 0 = i + 1 by omega, hq] at hj
        simp only [Option.some.injEq] at hj
        subst hj
        simp only at f3 ⊢
        omega
      · have := ho (i - 1 + 2 + j) b (by omega) (by omega) hj
        unfold KeepPair at this
        omega
  obtain ⟨i', hi'⟩ := found
  have : ∃ o', resizeCheck shape size = .ok (i', o') := by
    unfold resizeCheck
    have := h.rank
    have := h.two
    rw [if_neg (by omega), hi']
    exact ⟨_, rfl⟩
  obtain ⟨o', ho'⟩ := this
  refine ⟨i', ?_⟩
  rw [ho', wanted_asked (C65_request ho'), wanted_asked h]

example : ∃ i', resizeCheck [1, 3, 5, 7] [1, -1, 10, 7] = .ok (i', [1, 3, 10, 7]) := by
  refine C65_request_met (i := 2) ⟨rfl, by decide, ⟨10, rfl, by decide, rfl⟩, ⟨7, rfl, by decide, rfl⟩, rfl, ?_⟩ (by decide)
  intro j h1 h2
  rcases j with _ | _ | _ | _ | j
  · exact ⟨rfl, fun s hs => .inr (by simp at hs; subst hs; decide)⟩
  · exact ⟨rfl, fun s hs => .inl (by simp at hs; subst hs; decide)⟩
  · omega
  · omega
  · exact ⟨rfl, fun s hs => by simp at hs⟩

/-- A request that changes nothing can be refused: to keep the first extent at 1, the second as it is and to make the last two 5 and 7 is accepted for an
image of any other size, but not if they are 5 and 7. -/
theorem C65_same_size_false : resizeCheck [1, 3, 5, 7] [1, -1, 5, 7] = .err ∧ resizeCheck [1, 3, 6, 7] [1, -1, 5, 7] = .ok (2, [1, 3, 5, 7]) ∧
    Wanted [1, 3, 5, 7] [1, -1, 5, 7] 2 [1, 3, 5, 7] := by
  refine ⟨by decide, by decide, rfl, by decide, ⟨5, rfl, by decide, rfl⟩, ⟨7, rfl, by decide, rfl⟩, rfl, ?_⟩
  intro j h1 h2
  rcases j with _ | _ | _ | _ | j
  · exact ⟨rfl, fun s hs => .inr (by simp at hs; subst hs; decide)⟩
  · exact ⟨rfl, fun s hs => .inl (by simp at hs; subst hs; decide)⟩
  · omega
  · omega
  · exact ⟨rfl, fun s hs => by simp at hs⟩

/-! ## values -/

/-- every element of a batch of images has a property -/
def EachPixel (number h w ch : Nat) (out : List Rat) (P : Nat → Nat → Nat → Nat → Rat → Prop) : Prop :=
  out.length = number * h * w * ch ∧
    ∀ b y x c, b < number → y < h → x < w → c < ch → ∃ e, out[((b * h + y) * w + x) * ch + c]? = some e ∧ P b y x c e

theorem extents_prod (l : List Nat) : extents l = l.prod := by
  have : ∀ (l : List Nat) (a : Nat), l.foldl (· * ·) a = a * l.prod := by
    intro l
    induction l with
    | nil => simp
    | cons n l ih => intro a; rw [List.foldl_cons, ih, List.prod_cons, Nat.mul_assoc]
  unfold extents
  rw [this, Nat.one_mul]

theorem choose4 {A B C D : Nat} {Q : Nat → Nat → Nat → Nat → Rat → Prop} (h : ∀ b y x c, b < A → y < B → x < C → c < D → ∃ e, Q b y x c e) :
    ∃ V : Nat → Nat → Nat → Nat → Rat, ∀ b y x c, b < A → y < B → x < C → c < D → Q b y x c (V b y x c) := by
  have : ∀ b y x c, ∃ e, b < A → y < B → x < C → c < D → Q b y x c e := by
    intro b y x c
    by_cases g : b < A ∧ y < B ∧ x < C ∧ c < D
    · obtain ⟨e, he⟩ := h b y x c g.1 g.2.1 g.2.2.1 g.2.2.2
      exact ⟨e, fun _ _ _ _ => he⟩
    · exact ⟨0, fun a b c d => absurd ⟨a, b, c, d⟩ g⟩
  choose V hV using this
  exact ⟨V, hV⟩

theorem eachPixel_of {A B C D : Nat} {V : Nat → Nat → Nat → Nat → Rat} {P : Nat → Nat → Nat → Nat → Rat → Prop}
    (h : ∀ b y x c, b < A → y < B → x < C → c < D → P b y x c (V b y x c)) :
    EachPixel A B C D ((List.range (A * B * C * D)).map (dec4 B C D V)) P :=
  ⟨by simp, fun b y x c hb hy hx hc => ⟨_, dec4_get V hb hy hx hc, h b y x c hb hy hx hc⟩⟩

/-- the image `b` of a tensor -/
def batchImage (x : List Rat) (h w ch b : Nat) : Image := ⟨x, b * (ch * h * w), h, w, ch⟩

theorem batchImage_fits {x : List Rat} {number h w ch b : Nat} (hx : x.length = number * h * w * ch) (hb : b < number) :
    (batchImage x h w ch b).start + h * w * ch ≤ x.length := by
  have : (b + 1) * (ch * h * w) ≤ number * (ch * h * w) := Nat.mul_le_mul_right _ hb
  rw [hx]
  calc b * (ch * h * w) + h * w * ch = (b + 1) * (ch * h * w) := by ring
    _ ≤ number * (ch * h * w) := this
    _ = number * h * w * ch := by ring

theorem batchImage_pixel (x : List Rat) (h w ch b c j i : Nat) :
    Image.pixel (batchImage x h w ch b) c j i = x.getD (((b * h + j) * w + i) * ch + c) 0 := by
  unfold Image.pixel batchImage
  congr 1
  ring

theorem arith_iff {dtype : Nat} : Arith dtype ↔ dtype ∈ resampleTypes := by
  unfold Arith resampleTypes
  simp only [List.mem_cons, List.not_mem_nil, or_false]
  omega

/-- a whole resize from its elements -/
theorem resize_each {fp : Coord} {rnd : Nat → Rat → Rat} {k : Sampling} {dtype : Nat} {d : NumTy} {pre post : List Nat} {h w dh dw : Nat} {size : List Int}
    {x : List Rat} {fresh : Nat → List Rat} (hreq : resizeCheck (pre ++ h :: w :: post) size = .ok (pre.length, pre ++ dh :: dw :: post))
    (hne : ¬ (h = dh ∧ w = dw)) (hd : numTy dtype = some d) (hs : Arith dtype) (hf : ∀ n, (fresh n).length = n)
    {P : Nat → Nat → Nat → Nat → Rat → Prop}
    (hc : ∀ b y x' c, b < pre.prod → y < dh → x' < dw → c < post.prod → ∃ e,
      sampleAt k (castCell rnd .real d dtype) (batchImage x h w post.prod b) (fp.last h, fp.last w) (fp.pos k h dh y) (fp.pos k w dw x') c = .ok e ∧ P b y x' c e) :
    ∃ out, resizeRun fp rnd k dtype (pre ++ h :: w :: post) size x fresh = .ok (pre ++ dh :: dw :: post, out) ∧
      EachPixel pre.prod dh dw post.prod out P := by
  obtain ⟨V, hV⟩ := choose4 hc
  refine ⟨(List.range (pre.prod * dh * dw * post.prod)).map (dec4 dh dw post.prod V), ?_, eachPixel_of fun b y x' c hb hy hx h => (hV b y x' c hb hy hx h).2⟩
  unfold resizeRun
  rw [hreq, Res.bind_ok]
  simp only
  rw [if_neg (by
    intro e
    rw [List.append_cancel_left_eq] at e
    simp only [List.cons.injEq] at e
    exact hne ⟨e.1, e.2.1⟩)]
  unfold resizeCompute
  rw [hd]
  simp only
  rw [if_pos (arith_iff.1 hs)]
  have t1 : (pre ++ dh :: dw :: post).take pre.length = pre := by simp
  have t2 : (pre ++ dh :: dw :: post).drop (pre.length + 2) = post := by
    rw [List.drop_append]; simp
  have g : ∀ a b : Nat, (pre ++ a :: b :: post).getD pre.length 0 = a ∧ (pre ++ a :: b :: post).getD (pre.length + 1) 0 = b := by
    intro a b
    constructor <;> simp [List.getD_eq_getElem?_getD, List.getElem?_append_right]
  rw [t1, t2, (g h w).1, (g h w).2, (g dh dw).1, (g dh dw).2, extents_prod, extents_prod, extents_prod]
  unfold resizeBatch
  have key := writeBatch_ok (number := pre.prod) (dh := dh) (dw := dw) (ch := post.prod) (out := fresh (pre ++ dh :: dw :: post).prod)
    (cell := fun b y x' c => sampleAt k (castCell rnd .real d dtype) (batchImage x h w post.prod b) (fp.last h, fp.last w) (fp.pos k h dh y) (fp.pos k w dw x') c)
    (V := V) (by rw [hf, List.prod_append, List.prod_cons, List.prod_cons]; ring) (fun b y x' c hb hy hx h => (hV b y x' c hb hy hx h).1)
  have e : (fun out b => resizeImage fp k (castCell rnd .real d dtype) ⟨x, b * (post.prod * h * w), h, w, post.prod⟩ dh dw (b * (post.prod * dh * dw)) out) =
      fun out b => writeImage (fun y x' c =>
        sampleAt k (castCell rnd .real d dtype) (batchImage x h w post.prod b) (fp.last h, fp.last w) (fp.pos k h dh y) (fp.pos k w dw x') c)
        (b * (post.prod * dh * dw)) dh dw post.prod out := by
    funext out b
    unfold resizeImage
    rw [if_neg (by simp only; rintro ⟨-, a, b⟩; exact hne ⟨b, a⟩)]
    rfl
  rw [e, key, Res.bind_ok]

/-- the element is a value of the type -/
def InType (d : NumTy) (v : Rat) : Prop :=
  match d with
  | .real => True
  | .int t => ∃ n : Int, v = n ∧ t.has n

/-- the place where the linear interpolation looks: from the first to (almost) the last row or column -/
def inside (fp : Coord) (s : Nat) (t : Rat) : Rat := if t < 0 then 0 else if t < (s : Rat) - 1 then t else fp.last s

theorem clampPos_inside (fp : Coord) {s : Nat} (hs : 2 ≤ s) (t : Rat) : clampPos s (fp.last s) t = inside fp s t := by
  have : (2 : Rat) ≤ s := by exact_mod_cast hs
  unfold clampPos inside
  by_cases h : t < 0
  · have e : (if t ≥ 0 then t else 0) = 0 := if_neg (by linarith)
    simp only [e]
    rw [if_pos h, if_pos (by linarith)]
  · have e : (if t ≥ 0 then t else 0) = t := if_pos (by linarith)
    simp only [e]
    rw [if_neg h]

theorem inside_range (fp : Coord) {s : Nat} (hs : 2 ≤ s) (hl : (s : Rat) - 2 ≤ fp.last s ∧ fp.last s < (s : Rat) - 1) (t : Rat) :
    0 ≤ inside fp s t ∧ inside fp s t < (s : Rat) - 1 := by
  have : (2 : Rat) ≤ s := by exact_mod_cast hs
  unfold inside
  split
  · constructor <;> linarith
  · split
    · constructor <;> linarith
    · constructor <;> linarith [hl.1, hl.2]

theorem tent_line {n : Nat} {t : Rat} (h0 : 0 ≤ t) (h1 : t < (n : Rat) - 1) :
    ∃ k : Nat, k + 1 < n ∧ ∃ f : Rat, 0 ≤ f ∧ f ≤ 1 ∧ ∀ X : Nat → Rat, ∑ i ∈ Finset.range n, tent (t - i) * X i = (1 - f) * X k + f * X (k + 1) := by
  obtain ⟨k, k1, -, k3, k4⟩ := trunc_split h0 h1
  refine ⟨k, k1, t - k, k3, k4, fun X => ?_⟩
  rw [← tent_sum k3 k4 k1 X]
  apply Finset.sum_congr rfl
  intro i _
  congr 2
  ring

/-- **C65, linear interpolation stays in between**: no result is smaller than the smallest or larger than the largest pixel. -/
theorem C65_between {h w : Nat} {X : Nat → Nat → Rat} {y x lo hi : Rat} (hy : 0 ≤ y ∧ y < (h : Rat) - 1) (hx : 0 ≤ x ∧ x < (w : Rat) - 1)
    (hX : ∀ j i, j < h → i < w → lo ≤ X j i ∧ X j i ≤ hi) : lo ≤ blend tent h w X y x ∧ blend tent h w X y x ≤ hi := by
  obtain ⟨k, k1, f, f0, f1, ky⟩ := tent_line hy.1 hy.2
  obtain ⟨l, l1, g, g0, g1, lx⟩ := tent_line hx.1 hx.2
  unfold blend
  rw [ky, lx, lx]
  have line : ∀ a b g : Rat, 0 ≤ g → g ≤ 1 → (lo ≤ a ∧ a ≤ hi) → (lo ≤ b ∧ b ≤ hi) → lo ≤ (1 - g) * a + g * b ∧ (1 - g) * a + g * b ≤ hi := by
    intro a b g g0 g1 ha hb
    constructor
    · nlinarith [mul_nonneg (sub_nonneg.2 g1) (sub_nonneg.2 ha.1), mul_nonneg g0 (sub_nonneg.2 hb.1)]
    · nlinarith [mul_nonneg (sub_nonneg.2 g1) (sub_nonneg.2 ha.2), mul_nonneg g0 (sub_nonneg.2 hb.2)]
  exact line _ _ f f0 f1 (line _ _ g g0 g1 (hX k l (by omega) (by omega)) (hX k (l + 1) (by omega) l1))
    (line _ _ g g0 g1 (hX (k + 1) l k1 (by omega)) (hX (k + 1) (l + 1) k1 l1))

theorem linear_castable {d : NumTy} {h w : Nat} {X : Nat → Nat → Rat} {y x : Rat} (hy : 0 ≤ y ∧ y < (h : Rat) - 1) (hx : 0 ≤ x ∧ x < (w : Rat) - 1)
    (hX : ∀ j i, j < h → i < w → InType d (X j i)) : Castable .real d (blend tent h w X y x) := by
  cases d with
  | real => trivial
  | int t =>
    have := C65_between (X := X) (lo := t.lo) (hi := (t.hi : Rat) - 1) hy hx (by
      intro j i hj hi
      obtain ⟨n, e, a, b⟩ := hX j i hj hi
      rw [e]
      constructor
      · exact_mod_cast a
      · have : n ≤ t.hi - 1 := by omega
        have : ((n : Int) : Rat) ≤ ((t.hi - 1 : Int) : Rat) := by exact_mod_cast this
        push_cast at this
        exact this)
    exact ⟨by linarith [this.1], by linarith [this.2]⟩

/-- the source pixel (j, i) of the image `b` and the channel `c` -/
def source (x : List Rat) (h w ch b c j i : Nat) : Rat := x.getD (((b * h + j) * w + i) * ch + c) 0

theorem source_mem {x : List Rat} {number h w ch b c j i : Nat} (hx : x.length = number * h * w * ch) (hb : b < number) (hj : j < h) (hi : i < w) (hc : c < ch) :
    source x h w ch b c j i ∈ x := by
  have lt : ((b * h + j) * w + i) * ch + c < x.length := by rw [hx]; exact rc_lt (rc_lt (rc_lt hb hj) hi) hc
  unfold source
  rw [List.getD_eq_getElem?_getD, List.getElem?_eq_getElem lt]
  exact List.getElem_mem lt

/-- **C65, linear.** Whatever the rounding of the coordinates is (`fp`), every element is interpolated between the pixels around a place inside the
source. Missing: sources with one row or column (`C65_one_row_false`); the rounding of sums and weights. -/
theorem C65_linear_partial (fp : Coord) (rnd : Nat → Rat → Rat) (dtype : Nat) (d : NumTy) (hd : numTy dtype = some d) (hs : Arith dtype)
    (pre post : List Nat) (h w dh dw : Nat) (size : List Int) (hreq : resizeCheck (pre ++ h :: w :: post) size = .ok (pre.length, pre ++ dh :: dw :: post))
    (hne : ¬ (h = dh ∧ w = dw)) (h2 : 2 ≤ h) (w2 : 2 ≤ w) (lh : (h : Rat) - 2 ≤ fp.last h ∧ fp.last h < (h : Rat) - 1)
    (lw : (w : Rat) - 2 ≤ fp.last w ∧ fp.last w < (w : Rat) - 1) (x : List Rat) (hx : x.length = pre.prod * h * w * post.prod) (hX : ∀ v ∈ x, InType d v)
    (fresh : Nat → List Rat) (hf : ∀ n, (fresh n).length = n) :
    ∃ out, resizeRun fp rnd .linear dtype (pre ++ h :: w :: post) size x fresh = .ok (pre ++ dh :: dw :: post, out) ∧
      EachPixel pre.prod dh dw post.prod out fun b y x' c e => Converts rnd .real d dtype
        (blend tent h w (source x h w post.prod b c) (inside fp h (fp.pos .linear h dh y)) (inside fp w (fp.pos .linear w dw x'))) e := by
  refine resize_each hreq hne hd hs hf ?_
  intro b y x' c hb hy hx' hc
  have iy := inside_range fp h2 lh (fp.pos .linear h dh y)
  have ix := inside_range fp w2 lw (fp.pos .linear w dw x')
  unfold sampleAt
  simp only
  have e1 : (batchImage x h w post.prod b).h = h := rfl
  have e2 : (batchImage x h w post.prod b).w = w := rfl
  rw [e1, e2, clampPos_inside fp h2, clampPos_inside fp w2, linearAt_ok (batchImage_fits hx hb) iy ix hc, Res.bind_ok, e1, e2]
  have pix : Image.pixel (batchImage x h w post.prod b) c = source x h w post.prod b c := by
    funext j i
    exact batchImage_pixel x h w post.prod b c j i
  rw [pix]
  exact castCell_ok rnd (sd := 10) hd rfl (linear_castable iy ix fun j i hj hi => hX _ (source_mem hx hb hj hi hc))

/-- **C65, places**: without rounding, the centres of the pixels of both images are aligned (for `hard`: their corners). -/
theorem C65_places (s d i : Nat) (hd : 0 < d) :
    (∀ k : Sampling, k ≠ .hard → (Coord.exact.pos k s d i + 1 / 2) * d = ((i : Rat) + 1 / 2) * s) ∧ Coord.exact.pos .hard s d i * d = (i : Rat) * s ∧
    (2 ≤ s → (s : Rat) - 2 ≤ Coord.exact.last s ∧ Coord.exact.last s < (s : Rat) - 1) := by
  have : (d : Rat) ≠ 0 := by exact_mod_cast (by omega : d ≠ 0)
  refine ⟨?_, ?_, ?_⟩
  · intro k hk
    cases k <;> simp only [Coord.exact] <;> first | exact absurd rfl hk | skip
    all_goals field_simp
    all_goals ring
  · simp only [Coord.exact]
    field_simp
  · intro _
    simp only [Coord.exact]
    constructor <;> linarith

/-! ### copying single pixels -/

theorem toI_ok {v : Rat} (h : -2147483649 < v ∧ v < 2147483648) : toI v = .ok (truncQ v) := by
  unfold toI
  apply if_pos
  exact truncQ_has cInt_type (by simp only [cInt, IntTy.lo, IntTy.hi]; norm_num; exact ⟨by linarith [h.1], h.2⟩)

theorem truncQ_int (n : Int) : truncQ (n : Rat) = n := by
  unfold truncQ
  split <;> simp

theorem clampIdx_range {n : Nat} (hn : 0 < n) (i : Int) : 0 ≤ clampIdx n i ∧ clampIdx n i < n := by
  unfold clampIdx
  simp only
  generalize hj : (if i ≥ 0 then i else 0) = j
  have : 0 ≤ j := by rw [← hj]; split <;> omega
  split <;> omega

theorem clampIdx_id {n : Nat} {i : Int} (h : 0 ≤ i ∧ i < n) : clampIdx n i = i := by
  unfold clampIdx
  simp only
  rw [if_pos h.1]
  split <;> omega

/-- **C65, one pixel each**: whatever the rounding of the coordinates is, `nearest` and `hard` copy elements of the source: those of one row of the source to a
row of the result, those of one column to a column. -/
theorem C65_copies (fp : Coord) (rnd : Nat → Rat → Rat) (k : Sampling) (hk : k = .nearest ∨ k = .hard) (dtype : Nat) (d : NumTy) (hd : numTy dtype = some d)
    (hs : Arith dtype)
    (pre post : List Nat) (h w dh dw : Nat) (size : List Int) (hreq : resizeCheck (pre ++ h :: w :: post) size = .ok (pre.length, pre ++ dh :: dw :: post))
    (hne : ¬ (h = dh ∧ w = dw)) (h0 : 0 < h) (w0 : 0 < w) (R Q : Nat → Int) (hR : ∀ y, y < dh → pickIdx k (fp.pos k h dh y) = .ok (R y))
    (hQ : ∀ y, y < dw → pickIdx k (fp.pos k w dw y) = .ok (Q y))
    (x : List Rat) (hx : x.length = pre.prod * h * w * post.prod) (fresh : Nat → List Rat) (hf : ∀ n, (fresh n).length = n) :
    ∃ out, resizeRun fp rnd k dtype (pre ++ h :: w :: post) size x fresh = .ok (pre ++ dh :: dw :: post, out) ∧
      EachPixel pre.prod dh dw post.prod out fun b y x' c e => e = source x h w post.prod b c (clampIdx h (R y)).toNat (clampIdx w (Q x')).toNat := by
  refine resize_each hreq hne hd hs hf ?_
  intro b y x' c hb hy hx' hc
  have e : sampleAt k (castCell rnd .real d dtype) (batchImage x h w post.prod b) (fp.last h, fp.last w) (fp.pos k h dh y) (fp.pos k w dw x') c =
      (batchImage x h w post.prod b).at_ (clampIdx h (R y)) (clampIdx w (Q x')) c := by
    rcases hk with rfl | rfl <;> (unfold sampleAt; simp only; rw [hR y hy, Res.bind_ok, hQ x' hx', Res.bind_ok]; rfl)
  rw [e, Image.at_ok (batchImage_fits hx hb) (clampIdx_range h0 _) (clampIdx_range w0 _) hc]
  exact ⟨_, rfl, batchImage_pixel x h w post.prod b c _ _⟩

theorem roundQ_near (v : Rat) : ∃ n : Int, roundQ v = n ∧ |(n : Rat) - v| ≤ 1 / 2 := by
  unfold roundQ
  split
  · refine ⟨_, rfl, ?_⟩
    rw [abs_le]
    constructor <;> linarith [Int.floor_le (v + 1 / 2), Int.lt_floor_add_one (v + 1 / 2)]
  · refine ⟨_, rfl, ?_⟩
    rw [abs_le]
    constructor <;> linarith [Int.le_ceil (v - 1 / 2), Int.ceil_lt_add_one (v - 1 / 2)]

/-- the place of a row or column in the source: the centres of the pixels are aligned -/
def centreAt (s d i : Nat) : Rat := ((i : Rat) + 1 / 2) * s / d - 1 / 2

theorem centre_range {s d i : Nat} (hs : 0 < s) (hi : i < d) : -1 / 2 < centreAt s d i ∧ centreAt s d i < (s : Rat) - 1 / 2 := by
  have d0 : (0 : Rat) < d := by exact_mod_cast (by omega : 0 < d)
  have s0 : (0 : Rat) < s := by exact_mod_cast hs
  have i0 : (0 : Rat) ≤ i := by exact_mod_cast Nat.zero_le i
  have id : (i : Rat) + 1 ≤ d := by exact_mod_cast hi
  unfold centreAt
  constructor
  · have : 0 < ((i : Rat) + 1 / 2) * s / d := by positivity
    linarith
  · have : ((i : Rat) + 1 / 2) * s / d < s := by
      rw [div_lt_iff₀ d0]
      nlinarith
    linarith

theorem exact_centre {s d i : Nat} (hi : i < d) (k : Sampling) (hk : k ≠ .hard) : Coord.exact.pos k s d i = centreAt s d i := by
  have := (C65_places s d i (by omega)).1 k hk
  have d0 : (d : Rat) ≠ 0 := by exact_mod_cast (by omega : d ≠ 0)
  unfold centreAt
  rw [eq_sub_iff_add_eq, eq_div_iff d0]
  exact this

/-- the row or column that `nearest` takes -/
theorem nearest_idx {s d i : Nat} (hs : 0 < s) (hs2 : s < 2147483648) (hi : i < d) :
    ∃ n : Nat, n < s ∧ pickIdx .nearest (Coord.exact.pos .nearest s d i) = .ok (n : Int) ∧ |(n : Rat) - centreAt s d i| ≤ 1 / 2 := by
  rw [exact_centre hi _ (by decide)]
  obtain ⟨c1, c2⟩ := centre_range hs hi
  obtain ⟨n, e, a⟩ := roundQ_near (centreAt s d i)
  have s1 : (s : Rat) ≤ 2147483647 := by exact_mod_cast (by omega : s ≤ 2147483647)
  have a' := abs_le.1 a
  have n0 : 0 ≤ n := by
    have : (-1 : Rat) < n := by linarith [a'.1]
    have : -1 < n := by exact_mod_cast this
    omega
  have n1 : n < s := by
    have : (n : Rat) < s := by
      have : (n : Rat) ≤ centreAt s d i + 1 / 2 := by linarith [a'.2]
      linarith
    exact_mod_cast this
  refine ⟨n.toNat, by omega, ?_, ?_⟩
  · unfold pickIdx
    rw [if_pos rfl, e, toI_ok, truncQ_int]
    · congr 1; omega
    · have : (0 : Rat) ≤ n := by exact_mod_cast n0
      have : (n : Rat) < s := by exact_mod_cast n1
      constructor <;> linarith
  · have : ((n.toNat : Nat) : Rat) = n := by
      have : ((n.toNat : Nat) : Int) = n := by omega
      exact_mod_cast this
    rw [this]
    exact a

theorem hard_idx {s d i : Nat} (hs2 : s < 2147483648) (hi : i < d) :
    pickIdx .hard (Coord.exact.pos .hard s d i) = .ok ((i * s / d : Nat) : Int) := by
  have d0 : (0 : Rat) < d := by exact_mod_cast (by omega : 0 < d)
  have e : Coord.exact.pos .hard s d i = (i : Rat) * s / d := by
    simp only [Coord.exact]
    ring
  have i0 : (0 : Rat) ≤ i := by exact_mod_cast Nat.zero_le i
  have s0 : (0 : Rat) ≤ s := by exact_mod_cast Nat.zero_le s
  have id : (i : Rat) ≤ d := by exact_mod_cast Nat.le_of_lt hi
  have p0 : (0 : Rat) ≤ (i : Rat) * s / d := by positivity
  have p1 : (i : Rat) * s / d ≤ s := by
    rw [div_le_iff₀ d0]
    nlinarith
  have s1 : (s : Rat) ≤ 2147483647 := by exact_mod_cast (by omega : s ≤ 2147483647)
  unfold pickIdx
  rw [if_neg (by decide), e, toI_ok (by constructor <;> linarith)]
  congr 1
  unfold truncQ
  rw [if_pos p0]
  have : (i : Rat) * s / d = ((i * s : Nat) : Rat) / (d : Nat) := by push_cast; ring
  rw [this, Rat.floor_natCast_div_natCast]
  rfl

/-- **C65, nearest.** Every element is the source pixel nearest to its place, in exact arithmetic. -/
theorem C65_nearest (rnd : Nat → Rat → Rat) (dtype : Nat) (d : NumTy) (hd : numTy dtype = some d) (hs : Arith dtype)
    (pre post : List Nat) (h w dh dw : Nat) (size : List Int) (hreq : resizeCheck (pre ++ h :: w :: post) size = .ok (pre.length, pre ++ dh :: dw :: post))
    (hne : ¬ (h = dh ∧ w = dw)) (h0 : 0 < h) (w0 : 0 < w) (h31 : h < 2147483648) (w31 : w < 2147483648)
    (x : List Rat) (hx : x.length = pre.prod * h * w * post.prod) (fresh : Nat → List Rat) (hf : ∀ n, (fresh n).length = n) :
    ∃ (out : List Rat) (R Q : Nat → Nat), resizeRun Coord.exact rnd .nearest dtype (pre ++ h :: w :: post) size x fresh = .ok (pre ++ dh :: dw :: post, out) ∧
      (∀ y, y < dh → R y < h ∧ |(R y : Rat) - centreAt h dh y| ≤ 1 / 2) ∧ (∀ y, y < dw → Q y < w ∧ |(Q y : Rat) - centreAt w dw y| ≤ 1 / 2) ∧
      EachPixel pre.prod dh dw post.prod out fun b y x' c e => e = source x h w post.prod b c (R y) (Q x') := by
  have pick : ∀ s d : Nat, 0 < s → s < 2147483648 → ∃ R : Nat → Nat, ∀ y, y < d → R y < s ∧ pickIdx .nearest (Coord.exact.pos .nearest s d y) = .ok (R y : Int) ∧
      |(R y : Rat) - centreAt s d y| ≤ 1 / 2 := by
    intro s d s0 s31
    have : ∀ y, ∃ n : Nat, y < d → n < s ∧ pickIdx .nearest (Coord.exact.pos .nearest s d y) = .ok (n : Int) ∧ |(n : Rat) - centreAt s d y| ≤ 1 / 2 := by
      intro y
      by_cases hy : y < d
      · obtain ⟨n, hn⟩ := nearest_idx s0 s31 hy
        exact ⟨n, fun _ => hn⟩
      · exact ⟨0, fun h => absurd h hy⟩
    choose R hR using this
    exact ⟨R, hR⟩
  obtain ⟨R, hR⟩ := pick h dh h0 h31
  obtain ⟨Q, hQ⟩ := pick w dw w0 w31
  obtain ⟨out, e, l, p⟩ := C65_copies Coord.exact rnd .nearest (.inl rfl) dtype d hd hs pre post h w dh dw size hreq hne h0 w0 (fun y => R y) (fun y => Q y)
    (fun y hy => (hR y hy).2.1) (fun y hy => (hQ y hy).2.1) x hx fresh hf
  refine ⟨out, R, Q, e, fun y hy => ⟨(hR y hy).1, (hR y hy).2.2⟩, fun y hy => ⟨(hQ y hy).1, (hQ y hy).2.2⟩, l, ?_⟩
  intro b y x' c hb hy hx' hc
  obtain ⟨v, hv, ev⟩ := p b y x' c hb hy hx' hc
  refine ⟨v, hv, ?_⟩
  rw [ev, clampIdx_id ⟨by omega, by have := (hR y hy).1; omega⟩, clampIdx_id ⟨by omega, by have := (hQ x' hx').1; omega⟩]
  simp

/-- **C65, hard.** The element at row y and column x is the source pixel at y * h / dh and x * w / dw, rounded down, in exact arithmetic. -/
theorem C65_hard (rnd : Nat → Rat → Rat) (dtype : Nat) (d : NumTy) (hd : numTy dtype = some d) (hs : Arith dtype)
    (pre post : List Nat) (h w dh dw : Nat) (size : List Int) (hreq : resizeCheck (pre ++ h :: w :: post) size = .ok (pre.length, pre ++ dh :: dw :: post))
    (hne : ¬ (h = dh ∧ w = dw)) (h0 : 0 < h) (w0 : 0 < w) (h31 : h < 2147483648) (w31 : w < 2147483648)
    (x : List Rat) (hx : x.length = pre.prod * h * w * post.prod) (fresh : Nat → List Rat) (hf : ∀ n, (fresh n).length = n) :
    ∃ out : List Rat, resizeRun Coord.exact rnd .hard dtype (pre ++ h :: w :: post) size x fresh = .ok (pre ++ dh :: dw :: post, out) ∧
      EachPixel pre.prod dh dw post.prod out fun b y x' c e => e = source x h w post.prod b c (y * h / dh) (x' * w / dw) := by
  obtain ⟨out, e, l, p⟩ := C65_copies Coord.exact rnd .hard (.inr rfl) dtype d hd hs pre post h w dh dw size hreq hne h0 w0
    (fun y => ((y * h / dh : Nat) : Int)) (fun y => ((y * w / dw : Nat) : Int))
    (fun y hy => hard_idx h31 hy) (fun y hy => hard_idx w31 hy) x hx fresh hf
  refine ⟨out, e, l, ?_⟩
  intro b y x' c hb hy hx' hc
  obtain ⟨v, hv, ev⟩ := p b y x' c hb hy hx' hc
  refine ⟨v, hv, ?_⟩
  have a1 : y * h / dh < h := by
    rw [Nat.div_lt_iff_lt_mul (by omega), Nat.mul_comm]
    exact Nat.mul_lt_mul_of_pos_left hy h0
  have a2 : x' * w / dw < w := by
    rw [Nat.div_lt_iff_lt_mul (by omega), Nat.mul_comm]
    exact Nat.mul_lt_mul_of_pos_left hx' w0
  rw [ev]
  simp only
  generalize y * h / dh = n at a1 ⊢
  generalize x' * w / dw = m at a2 ⊢
  rw [clampIdx_id ⟨by omega, by omega⟩, clampIdx_id ⟨by omega, by omega⟩]
  simp

example : ∃ out, resizeRun Coord.exact (fun _ v => v) .hard 2 [2, 3] [4, -1] (List.replicate 6 0) (fun n => List.replicate n 0) = .err ∧
    resizeRun Coord.exact (fun _ v => v) .hard 2 [2, 3] [4, 5] (List.replicate 6 0) (fun n => List.replicate n 0) = .ok ([4, 5], out) := by
  obtain ⟨out, e, -⟩ := C65_hard (fun _ v => v) 2 (.int ⟨false, 8⟩) rfl (by decide) [] [] 2 3 4 5 [4, 5] (by decide) (by decide) (by decide) (by decide) (by decide)
    (by decide) (List.replicate 6 0) (by simp) (fun n => List.replicate n 0) (by simp)
  exact ⟨out, rfl, e⟩

example : ∃ out, resizeRun Coord.exact (fun _ v => v) .linear 2 [2, 3] [4, 5] (List.replicate 6 7) (fun n => List.replicate n 0) = .ok ([4, 5], out) := by
  obtain ⟨out, e, -⟩ := C65_linear_partial Coord.exact (fun _ v => v) 2 (.int ⟨false, 8⟩) rfl (by decide) [] [] 2 3 4 5 [4, 5] (by decide) (by decide) (by decide) (by decide)
    ((C65_places 2 1 0 (by decide)).2.2 (by decide)) ((C65_places 3 1 0 (by decide)).2.2 (by decide)) (List.replicate 6 7) (by simp)
    (by intro v hv; rw [List.eq_of_mem_replicate hv]; exact ⟨7, rfl, by decide⟩) (fun n => List.replicate n 0) (by simp)
  exact ⟨out, e⟩

/-! ### cubic -/

/-- the place where the cubic interpolation looks: from the second row or column to the last but two -/
def cubicPlace (s : Nat) (t : Rat) : Rat := if t < 1 then 1 else if t < (s : Rat) - 3 then t else (s : Rat) - 3

theorem cubic_split {s : Nat} (hs : 4 ≤ s) {t : Rat} (ht : -2147483648 ≤ t ∧ t < 2147483648) :
    ∃ p, cubicSplit t = .ok p ∧ 1 ≤ (cubicInside s p).1 ∧ (cubicInside s p).1 ≤ (s : Int) - 3 ∧ 0 ≤ (cubicInside s p).2 ∧ (cubicInside s p).2 ≤ 1 ∧
      ((cubicInside s p).1 : Rat) + (cubicInside s p).2 = cubicPlace s t := by
  have a := Int.floor_le t
  have b := Int.lt_floor_add_one t
  have f1 : (-2147483648 : Int) ≤ ⌊t⌋ := Int.le_floor.2 (by push_cast; exact ht.1)
  have f2 : ⌊t⌋ < 2147483648 := Int.floor_lt.2 (by push_cast; exact ht.2)
  have g1 : (-2147483648 : Rat) ≤ (⌊t⌋ : Int) := by exact_mod_cast f1
  have g2 : ((⌊t⌋ : Int) : Rat) < 2147483648 := by exact_mod_cast f2
  refine ⟨(⌊t⌋, t - ⌊t⌋), ?_, ?_⟩
  · unfold cubicSplit
    rw [toI_ok ⟨by linarith, g2⟩, truncQ_int, Res.bind_ok]
  · have s4 : (4 : Rat) ≤ s := by exact_mod_cast hs
    unfold cubicInside cubicPlace
    simp only
    by_cases c1 : ⌊t⌋ < 1
    · have t1 : t < 1 := by
        have : ((⌊t⌋ : Int) : Rat) + 1 ≤ 1 := by exact_mod_cast (by omega : ⌊t⌋ + 1 ≤ 1)
        linarith
      rw [if_pos c1, if_pos t1]
      simp only
      by_cases c2 : (1 : Int) ≥ (s : Int) - 3
      · rw [if_pos c2]
        have : s = 4 := by omega
        subst this
        norm_num
      · rw [if_neg c2]
        simp only
        refine ⟨le_refl _, by omega, le_refl _, by norm_num, by norm_num⟩
    · have t1 : ¬ t < 1 := by
        have : (1 : Rat) ≤ (⌊t⌋ : Int) := by exact_mod_cast (by omega : 1 ≤ ⌊t⌋)
        linarith
      rw [if_neg c1, if_neg t1]
      simp only
      by_cases c2 : ⌊t⌋ ≥ (s : Int) - 3
      · have t2 : ¬ t < (s : Rat) - 3 := by
          have : ((s : Rat) - 3) ≤ (⌊t⌋ : Int) := by exact_mod_cast c2
          linarith
        rw [if_pos c2, if_neg t2]
        simp only
        refine ⟨by omega, le_refl _, le_refl _, by norm_num, by push_cast; ring⟩
      · have t2 : t < (s : Rat) - 3 := by
          have : ((⌊t⌋ : Int) : Rat) + 1 ≤ (s : Rat) - 3 := by exact_mod_cast (by omega : ⌊t⌋ + 1 ≤ (s : Int) - 3)
          linarith
        rw [if_neg c2, if_pos t2]
        simp only
        refine ⟨by omega, by omega, by linarith, by linarith, by ring⟩

/-- **C65, cubic.** Whatever the rounding of the coordinates is (as long as they are in the range of `int`), every element is interpolated with Keys' kernel at
a place from the second to the last but two row and column; the result has to fit the type. Missing: sources with less than four rows or columns
(`C65_cubic_small_false`), the borders (`C65_cubic_border_false`); the rounding of sums and weights. -/
theorem C65_cubic_partial (fp : Coord) (rnd : Nat → Rat → Rat) (dtype : Nat) (d : NumTy) (hd : numTy dtype = some d) (hs : Arith dtype)
    (pre post : List Nat) (h w dh dw : Nat) (size : List Int) (hreq : resizeCheck (pre ++ h :: w :: post) size = .ok (pre.length, pre ++ dh :: dw :: post))
    (hne : ¬ (h = dh ∧ w = dw)) (h4 : 4 ≤ h) (w4 : 4 ≤ w) (ph : ∀ y, y < dh → -2147483648 ≤ fp.pos .cubic h dh y ∧ fp.pos .cubic h dh y < 2147483648)
    (pw : ∀ y, y < dw → -2147483648 ≤ fp.pos .cubic w dw y ∧ fp.pos .cubic w dw y < 2147483648)
    (x : List Rat) (hx : x.length = pre.prod * h * w * post.prod)
    (hX : ∀ b y x' c, b < pre.prod → y < dh → x' < dw → c < post.prod → Castable .real d
      (blend keys h w (source x h w post.prod b c) (cubicPlace h (fp.pos .cubic h dh y)) (cubicPlace w (fp.pos .cubic w dw x'))))
    (fresh : Nat → List Rat) (hf : ∀ n, (fresh n).length = n) :
    ∃ out, resizeRun fp rnd .cubic dtype (pre ++ h :: w :: post) size x fresh = .ok (pre ++ dh :: dw :: post, out) ∧
      EachPixel pre.prod dh dw post.prod out fun b y x' c e => Converts rnd .real d dtype
        (blend keys h w (source x h w post.prod b c) (cubicPlace h (fp.pos .cubic h dh y)) (cubicPlace w (fp.pos .cubic w dw x'))) e := by
  refine resize_each hreq hne hd hs hf ?_
  intro b y x' c hb hy hx' hc
  obtain ⟨p, p0, p1, p2, p3, p4, p5⟩ := cubic_split h4 (ph y hy)
  obtain ⟨q, q0, q1, q2, q3, q4, q5⟩ := cubic_split w4 (pw x' hx')
  unfold sampleAt
  simp only
  have e1 : (batchImage x h w post.prod b).h = h := rfl
  have e2 : (batchImage x h w post.prod b).w = w := rfl
  rw [p0, Res.bind_ok, q0, Res.bind_ok, e1, e2, cubicAt_ok (batchImage_fits hx hb) ⟨p1, p2⟩ ⟨q1, q2⟩ ⟨p3, p4⟩ ⟨q3, q4⟩ hc, Res.bind_ok, e1, e2, p5, q5]
  have pix : Image.pixel (batchImage x h w post.prod b) c = source x h w post.prod b c := by
    funext j i
    exact batchImage_pixel x h w post.prod b c j i
  rw [pix]
  exact castCell_ok rnd (sd := 10) hd rfl (hX b y x' c hb hy hx' hc)

/-- A source of four rows and four columns: every element of the result is made from the same pixel, whatever the wanted size is. -/
theorem C65_cubic_border_false (X : Nat → Nat → Rat) (t u : Rat) : cubicPlace 4 t = 1 ∧ cubicPlace 4 u = 1 ∧ blend keys 4 4 X 1 1 = X 1 1 := by
  have p : ∀ t, cubicPlace 4 t = 1 := by
    intro t
    unfold cubicPlace
    split
    · rfl
    · split
      · rename_i a b
        exfalso
        push_cast at b
        linarith
      · norm_num
  refine ⟨p t, p u, ?_⟩
  have h := keys_sum (n := 4) (k := 0) (f := 0) (le_refl _) (by norm_num) (by decide)
  have coef : cubicCoef 0 0 = 0 ∧ cubicCoef 0 1 = 1 ∧ cubicCoef 0 2 = 0 ∧ cubicCoef 0 3 = 0 := by
    simp only [cubicCoef]
    norm_num
  have line : ∀ Y : Nat → Rat, ∑ i ∈ Finset.range 4, keys (1 - (i : Rat)) * Y i = Y 1 := by
    intro Y
    have := h Y
    simp only [Finset.sum_range_succ, Finset.sum_range_zero, coef.1, coef.2.1, coef.2.2.1, coef.2.2.2] at this ⊢
    norm_num at this ⊢
    exact this
  unfold blend
  rw [line, line]

/-! ### small sources -/

theorem rdI_ne_err (b : List Rat) (i : Int) : rdI b i ≠ .err := by
  unfold rdI rd
  split
  · split <;> simp
  · simp

theorem bind_ne_err {α β : Type} {r : Res α} {f : α → Res β} (h1 : r ≠ .err) (h2 : ∀ a, f a ≠ .err) : (r >>= f) ≠ .err := by
  cases r with
  | ok a => exact h2 a
  | err => exact absurd rfl h1
  | ub => simp

theorem castCell_ne_err (rnd : Nat → Rat → Rat) (d : NumTy) (dtype : Nat) (v : Rat) : castCell rnd .real d dtype v ≠ .err := by
  cases d with
  | real => simp [castCell]
  | int t => simp only [castCell]; split <;> simp

theorem toI_ne_err (v : Rat) : toI v ≠ .err := by
  unfold toI
  split <;> simp

theorem cubicAt_ne_err (m : Image) (p q : Int × Rat) (c : Nat) : cubicAt m p q c ≠ .err := by
  unfold cubicAt
  exact loop_ne_err fun i s _ => loop_ne_err fun j s _ => bind_ne_err (rdI_ne_err _ _) fun _ => by simp

theorem sampleAt_ne_err {k : Sampling} {fin : Rat → Res Rat} (hf : ∀ v, fin v ≠ .err) (m : Image) (l : Rat × Rat) (y x : Rat) (c : Nat) :
    sampleAt k fin m l y x c ≠ .err := by
  have split : ∀ t, cubicSplit t ≠ .err := fun t => bind_ne_err (toI_ne_err _) fun _ => by simp
  cases k
  · exact bind_ne_err (bind_ne_err (rdI_ne_err _ _) fun _ => bind_ne_err (rdI_ne_err _ _) fun _ => bind_ne_err (rdI_ne_err _ _) fun _ =>
      bind_ne_err (rdI_ne_err _ _) fun _ => by simp) hf
  · exact bind_ne_err (split _) fun _ => bind_ne_err (split _) fun _ => bind_ne_err (cubicAt_ne_err _ _ _ _) hf
  · exact bind_ne_err (toI_ne_err _) fun _ => bind_ne_err (toI_ne_err _) fun _ => rdI_ne_err _ _
  · exact bind_ne_err (toI_ne_err _) fun _ => bind_ne_err (toI_ne_err _) fun _ => rdI_ne_err _ _

theorem wr_ne_err (out : List Rat) (i : Nat) (v : Rat) : wr out i v ≠ .err := by
  unfold wr
  split <;> simp

theorem writeImage_ub {cell : Nat → Nat → Nat → Res Rat} {start dh dw ch y x c : Nat} (he : ∀ y x c, cell y x c ≠ .err) (hy : y < dh) (hx : x < dw) (hc : c < ch)
    (hu : cell y x c = .ub) (out : List Rat) : writeImage cell start dh dw ch out = .ub := by
  unfold writeImage
  have n1 : ∀ y x (out : List Rat), loop (fun out c => do
      let v ← cell y x c
      wr out (start + ((y * dw + x) * ch + c)) v) ch out ≠ .err :=
    fun y x out => loop_ne_err fun i s _ => bind_ne_err (he _ _ _) fun _ => wr_ne_err _ _ _
  refine loop_ub_of hy (fun i s _ => loop_ne_err fun j s _ => n1 _ _ _) fun s => ?_
  refine loop_ub_of hx (fun j s _ => n1 _ _ _) fun s => ?_
  refine loop_ub_of hc (fun i s _ => bind_ne_err (he _ _ _) fun _ => wr_ne_err _ _ _) fun s => ?_
  rw [hu]
  rfl

theorem writeImage_ne_err {cell : Nat → Nat → Nat → Res Rat} {start dh dw ch : Nat} (he : ∀ y x c, cell y x c ≠ .err) (out : List Rat) :
    writeImage cell start dh dw ch out ≠ .err :=
  loop_ne_err fun _ _ _ => loop_ne_err fun _ _ _ => loop_ne_err fun _ _ _ => bind_ne_err (he _ _ _) fun _ => wr_ne_err _ _ _

/-- one undefined element makes the whole undefined -/
theorem resize_undefined {fp : Coord} {rnd : Nat → Rat → Rat} {k : Sampling} {dtype : Nat} {d : NumTy} {pre post : List Nat} {h w dh dw : Nat} {size : List Int}
    {x : List Rat} {fresh : Nat → List Rat} (hreq : resizeCheck (pre ++ h :: w :: post) size = .ok (pre.length, pre ++ dh :: dw :: post))
    (hne : ¬ (h = dh ∧ w = dw)) (hd : numTy dtype = some d) (hs : Arith dtype) {b y x' c : Nat} (hb : b < pre.prod) (hy : y < dh) (hx : x' < dw)
    (hc : c < post.prod) (hu : sampleAt k (castCell rnd .real d dtype) (batchImage x h w post.prod b) (fp.last h, fp.last w) (fp.pos k h dh y) (fp.pos k w dw x') c = .ub) :
    resizeRun fp rnd k dtype (pre ++ h :: w :: post) size x fresh = .ub := by
  unfold resizeRun
  rw [hreq, Res.bind_ok]
  simp only
  rw [if_neg (by
    intro e
    rw [List.append_cancel_left_eq] at e
    simp only [List.cons.injEq] at e
    exact hne ⟨e.1, e.2.1⟩)]
  unfold resizeCompute
  rw [hd]
  simp only
  rw [if_pos (arith_iff.1 hs)]
  have t1 : (pre ++ dh :: dw :: post).take pre.length = pre := by simp
  have t2 : (pre ++ dh :: dw :: post).drop (pre.length + 2) = post := by
    rw [List.drop_append]; simp
  have g : ∀ a b : Nat, (pre ++ a :: b :: post).getD pre.length 0 = a ∧ (pre ++ a :: b :: post).getD (pre.length + 1) 0 = b := by
    intro a b
    constructor <;> simp [List.getD_eq_getElem?_getD, List.getElem?_append_right]
  rw [t1, t2, (g h w).1, (g h w).2, (g dh dw).1, (g dh dw).2, extents_prod, extents_prod, extents_prod]
  unfold resizeBatch
  have e : (fun out b => resizeImage fp k (castCell rnd .real d dtype) ⟨x, b * (post.prod * h * w), h, w, post.prod⟩ dh dw (b * (post.prod * dh * dw)) out) =
      fun out b => writeImage (fun y x' c =>
        sampleAt k (castCell rnd .real d dtype) (batchImage x h w post.prod b) (fp.last h, fp.last w) (fp.pos k h dh y) (fp.pos k w dw x') c)
        (b * (post.prod * dh * dw)) dh dw post.prod out := by
    funext out b
    unfold resizeImage
    rw [if_neg (by simp only; rintro ⟨-, a, b⟩; exact hne ⟨b, a⟩)]
    rfl
  have key : ∀ s : List Rat, loop (fun out b => writeImage (fun y x' c =>
        sampleAt k (castCell rnd .real d dtype) (batchImage x h w post.prod b) (fp.last h, fp.last w) (fp.pos k h dh y) (fp.pos k w dw x') c)
        (b * (post.prod * dh * dw)) dh dw post.prod out) pre.prod s = .ub := by
    intro s
    refine loop_ub_of hb (fun i s _ => ?_) (fun s => ?_)
    · exact writeImage_ne_err (fun _ _ _ => sampleAt_ne_err (castCell_ne_err rnd d dtype) _ _ _ _ _) s
    · refine writeImage_ub (y := y) (x := x') (c := c) (fun _ _ _ => ?_) hy hx hc hu s
      exact sampleAt_ne_err (castCell_ne_err rnd d dtype) _ _ _ _ _
  rw [e, key]
  rfl

theorem trunc_last : truncQ (-1 / 100000) = 0 := by
  unfold truncQ
  rw [if_neg (by norm_num), Int.ceil_eq_iff]
  norm_num

/-- Linear interpolation of an image with a single row reads behind the end of the tensor, for every width and every other size that is asked for. -/
theorem C65_one_row_false (rnd : Nat → Rat → Rat) (dtype : Nat) (d : NumTy) (hd : numTy dtype = some d) (hs : Arith dtype)
    (pre post : List Nat) (w dh dw : Nat) (size : List Int) (hreq : resizeCheck (pre ++ 1 :: w :: post) size = .ok (pre.length, pre ++ dh :: dw :: post))
    (hne : ¬ (1 = dh ∧ w = dw)) (h0 : 0 < pre.prod) (w0 : 0 < w) (c0 : 0 < post.prod) (dh0 : 0 < dh) (dw0 : 0 < dw)
    (x : List Rat) (hx : x.length = pre.prod * 1 * w * post.prod) (fresh : Nat → List Rat) :
    resizeRun Coord.exact rnd .linear dtype (pre ++ 1 :: w :: post) size x fresh = .ub := by
  refine resize_undefined (b := pre.prod - 1) (y := 0) (x' := 0) (c := 0) hreq hne hd hs (by omega) dh0 dw0 c0 ?_
  have e1 : (batchImage x 1 w post.prod (pre.prod - 1)).h = 1 := rfl
  have e2 : (batchImage x 1 w post.prod (pre.prod - 1)).w = w := rfl
  unfold sampleAt
  simp only
  rw [e1, e2]
  have py : ∀ t, clampPos 1 (Coord.exact.last 1) t = -1 / 100000 := by
    intro t
    unfold clampPos
    simp only
    rw [if_neg]
    · simp only [Coord.exact]; norm_num
    · push_cast
      split <;> linarith
  have px : 0 ≤ truncQ (clampPos w (Coord.exact.last w) (Coord.exact.pos .linear w dw 0)) := by
    rcases Nat.lt_or_ge w 2 with h | h
    · have : w = 1 := by omega
      subst this
      rw [py, trunc_last]
    · rw [clampPos_inside _ h]
      have := (inside_range Coord.exact h ((C65_places w 1 0 (by decide)).2.2 h) (Coord.exact.pos .linear w dw 0)).1
      unfold truncQ
      rw [if_pos this]
      exact Int.floor_nonneg.2 this
  rw [py]
  generalize clampPos w (Coord.exact.last w) (Coord.exact.pos .linear w dw 0) = u at px ⊢
  have last : (batchImage x 1 w post.prod (pre.prod - 1)).at_ (0 + 1) (truncQ u) 0 = .ub := by
    unfold Image.at_
    simp only [batchImage]
    obtain ⟨n, hn⟩ := Int.eq_ofNat_of_zero_le px
    rw [hn]
    have : (((pre.prod - 1) * (post.prod * 1 * w) : Nat) : Int) + ((0 + 1) * (w : Int) + n) * post.prod + (0 : Nat) =
        (((pre.prod - 1) * (post.prod * 1 * w) + (w + n) * post.prod : Nat) : Int) := by push_cast; ring
    rw [this]
    unfold rdI
    rw [if_pos (by omega), rd_ub]
    rw [Int.toNat_natCast, hx]
    obtain ⟨m, hm⟩ : ∃ m, pre.prod = m + 1 := ⟨pre.prod - 1, by omega⟩
    rw [hm, Nat.add_sub_cancel]
    calc (m + 1) * 1 * w * post.prod = m * (post.prod * 1 * w) + w * post.prod := by ring
      _ ≤ m * (post.prod * 1 * w) + (w + n) * post.prod := by
        apply Nat.add_le_add_left
        exact Nat.mul_le_mul_right _ (by omega)
  have lin : linearAt (batchImage x 1 w post.prod (pre.prod - 1)) (-1 / 100000) u 0 = .ub := by
    unfold linearAt
    rw [trunc_last]
    simp only
    rw [last]
    have n1 : ∀ y' x'', (batchImage x 1 w post.prod (pre.prod - 1)).at_ y' x'' 0 ≠ .err := fun _ _ => rdI_ne_err _ _
    cases h1 : (batchImage x 1 w post.prod (pre.prod - 1)).at_ 0 (truncQ u) 0 with
    | err => exact absurd h1 (n1 _ _)
    | ub => rfl
    | ok a =>
      rw [Res.bind_ok]
      cases h2 : (batchImage x 1 w post.prod (pre.prod - 1)).at_ 0 (truncQ u + 1) 0 with
      | err => exact absurd h2 (n1 _ _)
      | ub => rfl
      | ok b => rfl
  rw [lin]
  rfl

example : resizeRun Coord.exact (fun _ v => v) .linear 2 [1, 3] [2, 6] [1, 2, 3] (fun n => List.replicate n 0) = .ub :=
  C65_one_row_false (fun _ v => v) 2 (.int ⟨false, 8⟩) rfl (by decide) [] [] 3 2 6 [2, 6] (by decide) (by decide) (by decide) (by decide) (by decide) (by decide) (by decide)
    [1, 2, 3] (by decide) _

/-- Cubic interpolation of an image with less than four rows reads before the start of the tensor, for every width and every other size that is asked for. -/
theorem C65_cubic_small_false (rnd : Nat → Rat → Rat) (dtype : Nat) (d : NumTy) (hd : numTy dtype = some d) (hs : Arith dtype)
    (pre post : List Nat) (h w dh dw : Nat) (size : List Int) (hreq : resizeCheck (pre ++ h :: w :: post) size = .ok (pre.length, pre ++ dh :: dw :: post))
    (hne : ¬ (h = dh ∧ w = dw)) (h3 : h < 4) (h0 : 0 < h) (w31 : w < 2147483648) (n0 : 0 < pre.prod) (w0 : 0 < w) (c0 : 0 < post.prod) (dh0 : 0 < dh) (dw0 : 0 < dw)
    (x : List Rat) (fresh : Nat → List Rat) :
    resizeRun Coord.exact rnd .cubic dtype (pre ++ h :: w :: post) size x fresh = .ub := by
  refine resize_undefined (b := 0) (y := 0) (x' := 0) (c := 0) hreq hne hd hs n0 dh0 dw0 c0 ?_
  have spl : ∀ s d : Nat, 0 < s → s < 2147483648 → 0 < d → ∃ p, cubicSplit (Coord.exact.pos .cubic s d 0) = .ok p := by
    intro s d s0 s31 d0
    rw [exact_centre d0 _ (by decide)]
    obtain ⟨c1, c2⟩ := centre_range s0 d0
    have s1 : (s : Rat) ≤ 2147483647 := by exact_mod_cast (by omega : s ≤ 2147483647)
    have f1 : (-1 : Int) ≤ ⌊centreAt s d 0⌋ := Int.le_floor.2 (by push_cast; linarith)
    have f2 : ⌊centreAt s d 0⌋ < 2147483648 := Int.floor_lt.2 (by push_cast; linarith)
    have g1 : (-1 : Rat) ≤ (⌊centreAt s d 0⌋ : Int) := by exact_mod_cast f1
    have g2 : ((⌊centreAt s d 0⌋ : Int) : Rat) < 2147483648 := by exact_mod_cast f2
    unfold cubicSplit
    rw [toI_ok ⟨by linarith, g2⟩, Res.bind_ok]
    exact ⟨_, rfl⟩
  obtain ⟨p, hp⟩ := spl h dh h0 (by omega) dh0
  obtain ⟨q, hq⟩ := spl w dw w0 w31 dw0
  unfold sampleAt
  simp only
  rw [hp, Res.bind_ok, hq, Res.bind_ok]
  have e1 : (batchImage x h w post.prod 0).h = h := rfl
  have e2 : (batchImage x h w post.prod 0).w = w := rfl
  rw [e1, e2]
  have r : (cubicInside h p).1 ≤ 0 := by
    unfold cubicInside
    generalize (if p.1 < 1 then ((1 : Int), (0 : Rat)) else p) = p'
    simp only
    split
    · simp only; omega
    · omega
  have q' : (cubicInside w q).1 ≤ (w : Int) - 3 := by
    unfold cubicInside
    generalize (if q.1 < 1 then ((1 : Int), (0 : Rat)) else q) = q'
    simp only
    split
    · simp
    · omega
  have ub : cubicAt (batchImage x h w post.prod 0) (cubicInside h p) (cubicInside w q) 0 = .ub := by
    unfold cubicAt
    refine loop_ub_of (k := 0) (by decide) (fun i s _ => loop_ne_err fun j s _ => bind_ne_err (rdI_ne_err _ _) fun _ => by simp) fun s => ?_
    refine loop_ub_of (k := 0) (by decide) (fun i s _ => bind_ne_err (rdI_ne_err _ _) fun _ => by simp) fun s => ?_
    have : (batchImage x h w post.prod 0).at_ ((cubicInside h p).1 - 1 + ((0 : Nat) : Int)) ((cubicInside w q).1 - 1 + ((0 : Nat) : Int)) 0 = .ub := by
      unfold Image.at_
      simp only [batchImage]
      unfold rdI
      rw [if_neg]
      have a : ((cubicInside h p).1 - 1 + ((0 : Nat) : Int)) * (w : Int) + ((cubicInside w q).1 - 1 + ((0 : Nat) : Int)) ≤ -4 := by
        have : ((cubicInside h p).1 - 1 + ((0 : Nat) : Int)) * (w : Int) ≤ (-1) * (w : Int) := mul_le_mul_of_nonneg_right (by omega) (by omega)
        omega
      have : (((cubicInside h p).1 - 1 + ((0 : Nat) : Int)) * (w : Int) + ((cubicInside w q).1 - 1 + ((0 : Nat) : Int))) * (post.prod : Int) ≤ (-4) * (post.prod : Int) :=
        mul_le_mul_of_nonneg_right a (by omega)
      have z : ((0 * (post.prod * h * w) : Nat) : Int) = 0 := by simp
      rw [z]
      omega
    rw [this]
    rfl
  rw [ub]
  rfl

/-- The last column is not kept: enlarging a row of the bytes 0 and 255 does not give 255 at its end. -/
theorem C65_edge_false : resizeRun Coord.exact (fun _ v => v) .linear 2 [2, 2] [2, 4] [0, 255, 0, 255] (fun n => List.replicate n 0) =
    .ok ([2, 4], [0, 63, 191, 254, 0, 63, 191, 254]) := by decide +kernel

/-! ### unchanged size, refusals, and the two operators that use this one -/

/-- **C65**: if the size is the one asked for, the result is the operand; unsupported types and impossible requests are refused. -/
theorem C65_rejects (fp : Coord) (rnd : Nat → Rat → Rat) (k : Sampling) (dtype : Nat) (shape : List Nat) (size : List Int) (x : List Rat) (fresh : Nat → List Rat) :
    (∀ i, resizeCheck shape size = .ok (i, shape) → resizeRun fp rnd k dtype shape size x fresh = .ok (shape, x)) ∧
    ((∀ i o, ¬ Wanted shape size i o) → resizeRun fp rnd k dtype shape size x fresh = .err) ∧
    (∀ i o, resizeCheck shape size = .ok (i, o) → o ≠ shape → ¬ Arith dtype → resizeRun fp rnd k dtype shape size x fresh = .err) := by
  refine ⟨fun i h => ?_, fun h => ?_, fun i o h hne ht => ?_⟩
  · unfold resizeRun
    rw [h, Res.bind_ok]
    simp
  · unfold resizeRun
    cases hc : resizeCheck shape size with
    | ok p => exact absurd (C65_request (i := p.1) (o := p.2) hc) (h _ _)
    | err => rfl
    | ub =>
      unfold resizeCheck at hc
      split at hc
      · simp at hc
      · split at hc <;> simp at hc
  · unfold resizeRun
    rw [h, Res.bind_ok]
    simp only
    rw [if_neg (fun e => hne e.symm)]
    unfold resizeCompute
    split
    · rfl
    · rw [if_neg (fun e => ht (arith_iff.2 e))]; rfl

/-- **C65, types**: the numbers 0 to 3 choose linear, cubic, nearest and hard; every other number is taken for nearest, it is not refused. -/
theorem C65_types_partial (fp : Coord) (rnd : Nat → Rat → Rat) (dtype : Nat) (shape : List Nat) (size : List Int) (x : List Rat) (fresh : Nat → List Rat) :
    (∀ type k, (type, k) ∈ [((0 : Int), Sampling.linear), (1, .cubic), (2, .nearest), (3, .hard)] →
      resizeOp fp rnd type dtype shape size x fresh = resizeRun fp rnd k dtype shape size x fresh) ∧
    ∀ type : Int, (type < 0 ∨ 3 < type) → resizeOp fp rnd type dtype shape size x fresh = resizeRun fp rnd .nearest dtype shape size x fresh := by
  constructor
  · intro type k h
    simp only [List.mem_cons, Prod.mk.injEq, List.not_mem_nil, or_false] at h
    rcases h with ⟨rfl, rfl⟩ | ⟨rfl, rfl⟩ | ⟨rfl, rfl⟩ | ⟨rfl, rfl⟩ <;> rfl
  · intro type h
    unfold resizeOp resizeType
    rw [if_neg (by omega), if_neg (by omega), if_neg (by omega)]

/-- **C65, resize_nearest_neighbor** and **sample2d_v2** resize to the extents given for two dimensions, or to those of the source times factors, rounded down. -/
theorem C65_wrappers (fp : Coord) (rnd : Nat → Rat → Rat) (dtype : Nat) (shape : List Nat) (x : List Rat) (fresh : Nat → List Rat) :
    (∀ (dim : Nat) (h w : Int), dim + 1 < shape.length → 0 < h → 0 < w →
      resizeNearestRun fp rnd dim dtype shape h w x fresh = resizeRun fp rnd .nearest dtype shape
        ((List.replicate dim (-1)) ++ h :: w :: List.replicate (shape.length - (dim + 2)) (-1)) x fresh) ∧
    (∀ mul k scale, shape.length = scale.length →
      sampleV2Run fp rnd mul k dtype shape scale x fresh = resizeRun fp rnd k dtype shape (List.zipWith (fun n s => ⌊mul n s⌋) shape scale) x fresh) ∧
    (∀ mul k scale, shape.length ≠ scale.length → sampleV2Run fp rnd mul k dtype shape scale x fresh = .err) ∧
    ∀ (dim h w : Int), (dim < 0 ∨ (2 ≤ shape.length ∧ ((shape.length : Int) ≤ dim + 1 ∨ h ≤ 0 ∨ w ≤ 0))) → resizeNearestRun fp rnd dim dtype shape h w x fresh = .err := by
  refine ⟨fun dim h w hd h0 w0 => ?_, fun mul k scale e => ?_, fun mul k scale e => ?_, fun dim h w hh => ?_⟩
  · unfold resizeNearestRun
    rw [if_neg (by omega), if_neg (by omega), if_neg (by omega)]
    congr 1
    simp only [Int.toNat_natCast]
    apply List.ext_getElem?
    intro j
    rw [List.getElem?_set, List.getElem?_set]
    simp only [List.length_set, List.length_replicate, List.getElem?_append, List.getElem?_replicate, List.length_replicate]
    by_cases c1 : dim + 1 = j
    · subst c1
      rw [if_pos rfl, if_pos hd, if_neg (by omega), show dim + 1 - dim = 1 by omega]
      rfl
    · rw [if_neg c1]
      by_cases c2 : dim = j
      · subst c2
        rw [if_pos rfl, if_pos (by omega), if_neg (by omega), Nat.sub_self]
        rfl
      · rw [if_neg c2]
        by_cases c3 : j < dim
        · rw [if_pos (by omega), if_pos c3, if_pos c3]
        · rw [if_neg c3]
          obtain ⟨m, hm⟩ : ∃ m, j - dim = m + 2 := ⟨j - dim - 2, by omega⟩
          rw [hm]
          simp only [List.getElem?_cons_succ, List.getElem?_replicate]
          by_cases c4 : j < shape.length
          · rw [if_pos c4, if_pos (by omega)]
          · rw [if_neg c4, if_neg (by omega)]
  · unfold sampleV2Run
    rw [if_neg (by omega)]
  · unfold sampleV2Run
    rw [if_pos e]
  · unfold resizeNearestRun
    rcases hh with h1 | ⟨h1, h2⟩
    · rw [if_pos h1]
    · split
      · rfl
      · rw [if_neg (by omega), if_pos (by omega)]

end Verif.Props
