import Verif.Kernels.ImageNorm
import Verif.Core.Float32
import Verif.Core.Holds
import Verif.Kernels.Eff
import Verif.Kernels.ReduceLemmas
import Verif.Props.Cast
import Mathlib.Algebra.BigOperators.Group.List.Basic
/-!
# C71: images of three channels and of one

An image has its channels last: its shape is `pre ++ [c]`, and `u ++ [j]` is the coordinate of channel `j` of the pixel `u`.
-/
namespace Verif.Props
open Verif.Core Verif.Spec Verif.Kernels

variable {α : Type}

theorem withLast_append (pre : List Nat) (c n : Nat) : withLast (pre ++ [c]) n = pre ++ [n] := by simp [withLast]

theorem getLast_append' (pre : List Nat) (c : Nat) : (pre ++ [c]).getLast? = some c := by simp

theorem colorKernel_ok {x : List α} {N cout : Nat} {out : List α} (g : Nat → α) (hx : ∀ i, i < N → x[i]? = some (g i)) (ho : out.length = N * cout) :
    ∃ out', colorKernel x N 1 cout out = .ok out' ∧ out'.length = N * cout ∧ ∀ i j, i < N → j < cout → out'[i * cout + j]? = some (g i) := by
  have h : Eff (N * cout) (fun p => g (p / cout)) (fun out => loop (fun out i => loop (fun out j => do
      let v ← rd x (i * 1)
      wr out (i * cout + j) v) cout out) N out) (fun p => ∃ i, i < N ∧ ∃ j, j < cout ∧ p = i * cout + j) := by
    refine Eff.loop fun i hi => Eff.loop fun j hj => ?_
    have hp : i * cout + j < N * cout := by
      have : (i + 1) * cout ≤ N * cout := Nat.mul_le_mul_right _ hi
      rw [Nat.add_mul] at this; omega
    refine (Eff.wr (v := g i) hp ?_).congr (fun out _ => ?_) (fun _ => Iff.rfl)
    · rw [Nat.add_comm, Nat.add_mul_div_right _ _ (by omega), Nat.div_eq_of_lt hj, Nat.zero_add]
    · rw [Nat.mul_one, rd_ok (hx i hi)]; rfl
  obtain ⟨out', e, hl, hv, -⟩ := h out ho
  refine ⟨out', e, hl, fun i j hi hj => ?_⟩
  rw [hv _ ⟨i, hi, j, hj, rfl⟩]
  show some (g ((i * cout + j) / cout)) = _
  rw [Nat.add_comm, Nat.add_mul_div_right _ _ (by omega), Nat.div_eq_of_lt hj, Nat.zero_add]

/-- **C71, force_color.** An image of one channel becomes an image of three channels which all hold what the one channel held. -/
theorem C71_color (dtype : Nat) (pre : List Nat) (data : List α) (f : List Nat → α) (fresh : Nat → List α) (ht : plainType dtype = true)
    (hx : Holds (pre ++ [1]) data f) (hf : ∀ n, (fresh n).length = n) :
    ∃ out, forceColorRun ⟨dtype, pre ++ [1], data⟩ fresh = .ok (pre ++ [3], out) ∧ Holds (pre ++ [3]) out fun c => f (c.dropLast ++ [0]) := by
  have hx' := (holds2.1 hx).2
  simp only [prod, Nat.mul_one] at hx'
  obtain ⟨out, e, el, ev⟩ := colorKernel_ok (x := data) (N := prod pre) (cout := 3) (out := fresh (prod (pre ++ [3]))) (fun i => f (unlin pre i ++ [0]))
    (fun i hi => by have := hx' i 0 hi (by omega); simpa [unlin, prod] using this) (by rw [hf, prod_append']; simp [prod])
  refine ⟨out, ?_, holds2.2 ⟨by rw [el]; simp [prod], fun n t hn ht => ?_⟩⟩
  · unfold forceColorRun
    simp only [getLast_append', withLast_append]
    rw [if_neg (by omega), if_neg (by omega), if_pos ht, List.dropLast_concat, e]
    rfl
  · simp only [prod, Nat.mul_one] at ht ⊢
    rw [ev n t hn ht, unlin_single, List.dropLast_concat]

example : forceColorRun ⟨2, [2, 1], [7, 9]⟩ (fun n => List.replicate n 0) = .ok ([2, 3], [7, 7, 7, 9, 9, 9]) := by decide

/-- **C71, force_color, the rest.** An image of three channels is returned as it is, of whatever type; one with another number of channels, without
dimensions, or to be extended and not of an integer or floating point type, is refused. -/
theorem C71_color_rest (x : Operand α) (fresh : Nat → List α) :
    (∀ pre, x.shape = pre ++ [3] → forceColorRun x fresh = .ok (x.shape, x.data)) ∧
      (∀ pre c, x.shape = pre ++ [c] → c ≠ 1 → c ≠ 3 → forceColorRun x fresh = .err) ∧
      (x.shape = [] → forceColorRun x fresh = .err) ∧
      (∀ pre, x.shape = pre ++ [1] → x.dtype ∉ [1, 2, 3, 4, 5, 6, 7, 8, 10, 11] → forceColorRun x fresh = .err) := by
  refine ⟨fun pre h => ?_, fun pre c h h1 h3 => ?_, fun h => ?_, fun pre h ht => ?_⟩
  · unfold forceColorRun
    rw [h, getLast_append']
    rfl
  · unfold forceColorRun
    rw [h, getLast_append']
    simp [h1, h3]
  · unfold forceColorRun
    rw [h]; rfl
  · unfold forceColorRun
    rw [h, getLast_append']
    simp [plainType, ht]

example : forceColorRun (⟨13, [1, 3], [1, 2, 3]⟩ : Operand Nat) (fun n => List.replicate n 0) = .ok ([1, 3], [1, 2, 3]) ∧
    forceColorRun (⟨2, [1, 4], [1, 2, 3, 4]⟩ : Operand Nat) (fun n => List.replicate n 0) = .err := by decide

/-! ## force_gray -/

/-- the weighted sum of the channels of a pixel, each operation rounded -/
def weighted (rnd : Rat → Rat) (ws : List Rat) (px : Nat → Rat) : Rat :=
  (List.range ws.length).foldl (fun p j => rnd (p + rnd (ws.getD j 0 * rnd (px j)))) 0

/-- the weights used: those given, one per channel, or else those of blue, green and red (as single precision numbers) -/
def GrayWeights (scale : List Rat) (c : Nat) (ws : List Rat) : Prop :=
  (scale = [] ∧ c = 3 ∧ ws = [15300821 / 134217728, 4924113 / 8388608, 10032775 / 33554432]) ∨ (scale ≠ [] ∧ scale.length = c ∧ ws = scale)

theorem grayScale_ok {scale ws : List Rat} {c : Nat} (h : GrayWeights scale c ws) : grayScale scale c = .ok ws ∧ ws.length = c := by
  unfold grayScale
  rcases h with ⟨h1, h2, h3⟩ | ⟨h1, h2, h3⟩
  · rw [if_pos h1, if_pos h2, h3, h2]; exact ⟨rfl, rfl⟩
  · rw [if_neg h1, if_pos h2.symm, h3]; exact ⟨rfl, h2⟩

theorem graySum_ok (rnd : Rat → Rat) (ws x : List Rat) (base : Nat) (px : Nat → Rat) (hx : ∀ j, j < ws.length → x[base + j]? = some (px j)) :
    graySum rnd ws x base ws.length = .ok (weighted rnd ws px) := by
  obtain ⟨s, e, h⟩ := loop_inv (f := fun p j => do
      let s ← rd ws j
      let v ← rd x (base + j)
      .ok (rnd (p + rnd (s * rnd v)))) (n := ws.length) (s := (0 : Rat))
    (fun k s => s = (List.range k).foldl (fun p j => rnd (p + rnd (ws.getD j 0 * rnd (px j)))) 0) rfl (by
      rintro i s hi rfl
      refine ⟨_, ?_, rfl⟩
      rw [foldl_range_succ, rd_ok (List.getElem?_eq_getElem hi), Res.bind_ok, rd_ok (hx i hi), Res.bind_ok]
      simp [List.getD_eq_getElem?_getD, hi])
  unfold graySum
  rw [e, h]
  rfl

theorem grayCell_ok {dtype : Nat} {d : NumTy} (hd : numTy dtype = some d) {p : Rat} (h : Castable .real d p) :
    ∃ w, grayCell dtype p = .ok w ∧ Converts (fun _ q => q) .real d dtype p w := by
  unfold grayCell
  rw [hd]
  cases d with
  | real => exact ⟨p, rfl, rfl⟩
  | int t =>
    have := truncQ_has (numTy_int hd) h
    exact ⟨_, if_pos this, _, rfl, this, truncQ_spec p⟩

/-- **C71, force_gray.** An image becomes an image of one channel, each pixel the weighted sum of its channels, computed in single precision (in double
precision for `double`s), and converted to the type of the image, towards zero for integers. The sums have to be in the range of the type. -/
theorem C71_gray (rnd : Nat → Rat → Rat) (scale ws : List Rat) (dtype : Nat) (d : NumTy) (pre : List Nat) (c : Nat) (data : List Rat)
    (f : List Nat → Rat) (fresh : Nat → List Rat) (hc : c ≠ 1) (hw : GrayWeights scale c ws) (ht : plainType dtype = true) (hd : numTy dtype = some d)
    (hx : Holds (pre ++ [c]) data f) (hf : ∀ n, (fresh n).length = n)
    (hr : ∀ u, InBounds pre u → Castable .real d (weighted (if dtype = 11 then rnd 11 else rnd 10) ws fun j => f (u ++ [j]))) :
    ∃ out g, forceGrayRun rnd scale ⟨dtype, pre ++ [c], data⟩ fresh = .ok (pre ++ [1], out) ∧ Holds (pre ++ [1]) out g ∧
      ∀ u, InBounds pre u →
        Converts (fun _ q => q) .real d dtype (weighted (if dtype = 11 then rnd 11 else rnd 10) ws fun j => f (u ++ [j])) (g (u ++ [0])) := by
  classical
  have hrnd : rnd (sumType dtype) = if dtype = 11 then rnd 11 else rnd 10 := by unfold sumType; split <;> rfl
  obtain ⟨hs, hl⟩ := grayScale_ok hw
  have hx' := (holds2.1 hx).2
  simp only [prod, Nat.mul_one] at hx'
  have key : ∀ i : Nat, ∃ w : Rat, i < prod pre → grayCell dtype (weighted (rnd (sumType dtype)) ws fun j => f (unlin pre i ++ [j])) = .ok w ∧
      Converts (fun _ q => q) .real d dtype (weighted (rnd (sumType dtype)) ws fun j => f (unlin pre i ++ [j])) w := by
    intro i
    by_cases hi : i < prod pre
    · obtain ⟨w, h1, h2⟩ := grayCell_ok hd (hr _ (unlin_inBounds hi))
      exact ⟨w, fun _ => by rw [hrnd]; exact ⟨h1, h2⟩⟩
    · exact ⟨0, fun h => absurd h hi⟩
  obtain ⟨w, hw'⟩ := Classical.axiomOfChoice key
  have he : Eff (prod pre) w (fun out => loop (fun out i => do
      let p ← graySum (rnd (sumType dtype)) ws data (i * c) c
      let v ← grayCell dtype p
      wr out (i * 1) v) (prod pre) out) (fun p => ∃ i, i < prod pre ∧ p = i) := by
    refine Eff.loop fun i hi => ?_
    refine (Eff.wr (v := w i) hi rfl).congr (fun out _ => ?_) (fun _ => Iff.rfl)
    have := graySum_ok (rnd (sumType dtype)) ws data (i * c) (fun j => f (unlin pre i ++ [j])) (fun j hj => by
      have := hx' i j hi (by omega); rwa [unlin_single] at this)
    rw [hl] at this
    rw [this, Res.bind_ok, (hw' i hi).1, Res.bind_ok, Nat.mul_one]
  obtain ⟨out, e, el, ev, -⟩ := he (fresh (prod (pre ++ [1]))) (by rw [hf, prod_append']; simp [prod])
  have hg : ∀ u, InBounds pre u → lin pre (u ++ [0]).dropLast = lin pre u := fun u _ => by rw [List.dropLast_concat]
  refine ⟨out, fun q => w (lin pre q.dropLast), ?_, holds2.2 ⟨by rw [el]; simp [prod], fun n t hn ht => ?_⟩, fun u hu => ?_⟩
  · unfold forceGrayRun
    simp only [getLast_append', withLast_append]
    rw [if_neg hc, hs, Res.bind_ok, if_pos ht, List.dropLast_concat]
    unfold grayKernel
    refine (congrArg (fun r => r >>= fun out => Res.ok (pre ++ [1], out)) e).trans rfl
  · simp only [prod, Nat.mul_one] at ht ⊢
    obtain rfl : t = 0 := by omega
    rw [unlin_single, List.dropLast_concat, lin_unlin hn, Nat.add_zero]
    exact ev n ⟨n, hn, rfl⟩
  · have := (hw' (lin pre u) (lin_lt hu)).2
    rw [unlin_lin hu, hrnd] at this
    simpa [List.dropLast_concat] using this

example : forceGrayRun (fun _ q => q) [1/2, 1/4] ⟨2, [2, 2], [10, 20, 31, 2]⟩ (fun n => List.replicate n 0) = .ok ([2, 1], [10, 16]) := by decide +kernel

/-- without rounding the sum is the sum -/
theorem C71_gray_exact (ws : List Rat) (px : Nat → Rat) :
    weighted (fun q => q) ws px = ((List.range ws.length).map fun j => ws.getD j 0 * px j).sum := by
  unfold weighted
  generalize ws.length = n
  induction n with
  | zero => rfl
  | succ n ih => rw [foldl_range_succ, ih, List.range_succ, List.map_append, List.sum_append]; simp

/-- **C71, force_gray, the rest.** An image of one channel is returned as it is, of whatever type and with whatever weights. An image without dimensions,
with a number of channels other than that of the weights, or with other than three and without weights, or to be converted and not of an integer or
floating point type, is refused. -/
theorem C71_gray_rest (rnd : Nat → Rat → Rat) (scale : List Rat) (x : Operand Rat) (fresh : Nat → List Rat) :
    (∀ pre, x.shape = pre ++ [1] → forceGrayRun rnd scale x fresh = .ok (x.shape, x.data)) ∧
      (∀ pre c, x.shape = pre ++ [c] → c ≠ 1 → (scale ≠ [] → scale.length ≠ c) → (scale = [] → c ≠ 3) → forceGrayRun rnd scale x fresh = .err) ∧
      (x.shape = [] → forceGrayRun rnd scale x fresh = .err) ∧
      (∀ pre c, x.shape = pre ++ [c] → c ≠ 1 → x.dtype ∉ [1, 2, 3, 4, 5, 6, 7, 8, 10, 11] → forceGrayRun rnd scale x fresh = .err) := by
  refine ⟨fun pre h => ?_, fun pre c h h1 h2 h3 => ?_, fun h => ?_, fun pre c h h1 ht => ?_⟩
  · unfold forceGrayRun
    rw [h, getLast_append']
    rfl
  · unfold forceGrayRun
    rw [h, getLast_append']
    simp only
    rw [if_neg h1]
    have : grayScale scale c = .err := by
      unfold grayScale
      by_cases hs : scale = []
      · rw [if_pos hs, if_neg (h3 hs)]
      · rw [if_neg hs, if_neg (fun e => h2 hs e.symm)]
    rw [this]; rfl
  · unfold forceGrayRun
    rw [h]; rfl
  · unfold forceGrayRun
    rw [h, getLast_append']
    simp only
    rw [if_neg h1]
    have : plainType x.dtype = false := by simp [plainType, ht]
    rw [this]
    unfold grayScale
    split <;> split <;> rfl

example : forceGrayRun (fun _ q => q) [] ⟨2, [1, 4], [1, 2, 3, 4]⟩ (fun n => List.replicate n 0) = .err ∧
    forceGrayRun (fun _ q => q) [1, 1] ⟨2, [1, 3], [1, 2, 3]⟩ (fun n => List.replicate n 0) = .err ∧
    forceGrayRun (fun _ q => q) [1, 1] ⟨13, [2, 1], [1, 2]⟩ (fun n => List.replicate n 0) = .ok ([2, 1], [1, 2]) := by decide +kernel

/-- no other result than an announced one: what `infer` says is the shape of what `run` returns -/
theorem C71_infer (rnd : Nat → Rat → Rat) (scale : List Rat) (x : Operand Rat) (fresh : Nat → List Rat) (s : List Nat) (out : List Rat) :
    (forceColorRun x fresh = .ok (s, out) → forceInfer 3 x.shape = .ok s) ∧
      (forceGrayRun rnd scale x fresh = .ok (s, out) → forceInfer 1 x.shape = .ok s) := by
  obtain ⟨dtype, shape, data⟩ := x
  rcases List.eq_nil_or_concat shape with rfl | ⟨pre, c, e⟩
  · exact ⟨fun h => by simp [forceColorRun] at h, fun h => by simp [forceGrayRun] at h⟩
  · rw [List.concat_eq_append] at e
    subst e
    have hi : ∀ n, forceInfer n (pre ++ [c]) = .ok (pre ++ [n]) := fun n => by simp [forceInfer, withLast]
    simp only [hi]
    constructor
    · intro h
      by_cases h3 : c = 3
      · subst h3
        have := (C71_color_rest ⟨dtype, pre ++ [3], data⟩ fresh).1 pre rfl
        rw [this] at h
        injection h with h; injection h with h1; exact congrArg Res.ok h1
      · by_cases h1 : c = 1
        · subst h1
          unfold forceColorRun at h
          simp only [getLast_append', withLast_append] at h
          rw [if_neg (by omega), if_neg (by omega)] at h
          split at h
          · rcases hk : colorKernel data (prod (pre ++ [1]).dropLast) 1 3 (fresh (prod (pre ++ [3]))) with o | _ | _
            · rw [hk] at h; injection h with h; injection h with h1; exact congrArg Res.ok h1
            · rw [hk] at h; cases h
            · rw [hk] at h; cases h
          · cases h
        · rw [(C71_color_rest ⟨dtype, pre ++ [c], data⟩ fresh).2.1 pre c rfl h1 h3] at h
          cases h
    · intro h
      by_cases h1 : c = 1
      · subst h1
        rw [(C71_gray_rest rnd scale ⟨dtype, pre ++ [1], data⟩ fresh).1 pre rfl] at h
        injection h with h; injection h with h1; exact congrArg Res.ok h1
      · unfold forceGrayRun at h
        simp only [getLast_append', withLast_append] at h
        rw [if_neg h1] at h
        rcases hg : grayScale scale c with ws | _ | _
        · rw [hg, Res.bind_ok] at h
          split at h
          · rcases hk : grayKernel rnd dtype ws data (prod (pre ++ [c]).dropLast) c 1 (fresh (prod (pre ++ [1]))) with o | _ | _
            · rw [hk] at h; injection h with h; injection h with h1; exact congrArg Res.ok h1
            · rw [hk] at h; cases h
            · rw [hk] at h; cases h
          · cases h
        · rw [hg] at h; cases h
        · rw [hg] at h; cases h

/-- what is announced: the last extent replaced, and nothing for a tensor without extents, which `infer` and `run` refuse -/
theorem C71_infer_shape (n : Nat) (shape s : List Nat) :
    (forceInfer n shape = .ok s ↔ ∃ pre c, shape = pre ++ [c] ∧ s = pre ++ [n]) ∧ (forceInfer n shape = .err ↔ shape = []) := by
  rcases List.eq_nil_or_concat shape with rfl | ⟨pre, c, e⟩
  · simp [forceInfer]
  · rw [List.concat_eq_append] at e
    subst e
    have hi : forceInfer n (pre ++ [c]) = .ok (pre ++ [n]) := by simp [forceInfer, withLast]
    rw [hi]
    refine ⟨⟨fun h => ⟨pre, c, rfl, by cases h; rfl⟩, ?_⟩, by simp⟩
    rintro ⟨p, c', h1, h2⟩
    rw [(List.append_inj' h1 rfl).1, h2]

example : forceInfer 3 [2, 5, 1] = .ok [2, 5, 3] ∧ forceInfer 3 [] = .err := by decide

/-- **C71, what is announced.** `infer` also announces a result for images that `run` refuses. -/
theorem C71_infer_false : ¬ ∀ (x : Operand Rat) (fresh : Nat → List Rat) (s : List Nat), forceInfer 3 x.shape = .ok s →
    ∃ out, forceColorRun x fresh = .ok (s, out) := by
  intro h
  obtain ⟨out, e⟩ := h ⟨2, [1, 4], [1, 2, 3, 4]⟩ (fun n => List.replicate n 0) [1, 3] rfl
  have : forceColorRun (⟨2, [1, 4], [1, 2, 3, 4]⟩ : Operand Rat) (fun n => List.replicate n 0) = .err := by decide +kernel
  rw [this] at e
  cases e

/-! ## force_gray of 8 bit images -/

theorem fl_near {fl : Rat → Rat} (h : Binary32 fl) {q b : Rat} (hq : |q| ≤ b) (hb : b ≤ 1024) : |fl q - q| ≤ 1 / 16384 := by
  refine (h.error q).trans ?_
  rw [div_le_div_iff₀ (by norm_num) (by norm_num)]
  nlinarith

/-- the sum of the default weights in single precision is close to the exact sum, for pixels of up to 8 bits -/
theorem weighted_near {fl : Rat → Rat} (h : Binary32 fl) (px : Nat → Rat) (hp : ∀ j, j < 3 → ∃ n : Int, px j = n ∧ |n| ≤ 255) :
    |weighted fl [15300821 / 134217728, 4924113 / 8388608, 10032775 / 33554432] px -
      (15300821 / 134217728 * px 0 + 4924113 / 8388608 * px 1 + 10032775 / 33554432 * px 2)| ≤ 1 / 2048 := by
  have hb : ∀ j, j < 3 → fl (px j) = px j ∧ |px j| ≤ 255 := by
    intro j hj
    obtain ⟨n, e, hn⟩ := hp j hj
    rw [e]
    exact ⟨h.exact n (by omega), by rw [← Int.cast_abs]; exact_mod_cast hn⟩
  have e0 := hb 0 (by omega)
  have e1 := hb 1 (by omega)
  have e2 := hb 2 (by omega)
  have b0 := abs_le.1 e0.2
  have b1 := abs_le.1 e1.2
  have b2 := abs_le.1 e2.2
  have key : weighted fl [15300821 / 134217728, 4924113 / 8388608, 10032775 / 33554432] px =
      fl (fl (fl (0 + fl (15300821 / 134217728 * fl (px 0))) + fl (4924113 / 8388608 * fl (px 1))) + fl (10032775 / 33554432 * fl (px 2))) := rfl
  rw [key, e0.1, e1.1, e2.1]
  have m0 := abs_le.1 (fl_near h (q := 15300821 / 134217728 * px 0) (b := 256) (by rw [abs_le]; constructor <;> linarith) (by norm_num))
  have m1 := abs_le.1 (fl_near h (q := 4924113 / 8388608 * px 1) (b := 256) (by rw [abs_le]; constructor <;> linarith) (by norm_num))
  have m2 := abs_le.1 (fl_near h (q := 10032775 / 33554432 * px 2) (b := 256) (by rw [abs_le]; constructor <;> linarith) (by norm_num))
  generalize fl (15300821 / 134217728 * px 0) = p0 at *
  generalize fl (4924113 / 8388608 * px 1) = p1 at *
  generalize fl (10032775 / 33554432 * px 2) = p2 at *
  have s0 := abs_le.1 (fl_near h (q := 0 + p0) (b := 512) (by rw [abs_le]; constructor <;> linarith) (by norm_num))
  generalize fl (0 + p0) = q0 at *
  have s1 := abs_le.1 (fl_near h (q := q0 + p1) (b := 1024) (by rw [abs_le]; constructor <;> linarith) (by norm_num))
  generalize fl (q0 + p1) = q1 at *
  have s2 := abs_le.1 (fl_near h (q := q1 + p2) (b := 1024) (by rw [abs_le]; constructor <;> linarith) (by norm_num))
  rw [abs_le]
  constructor <;> linarith

/-- **C71, force_gray of 8 bit images.** With the default weights, whatever the pixels, the result is defined: each pixel is an 8 bit number that is less than
1 + 1/1000 away from the weighted sum. -/
theorem C71_gray_bytes (rnd : Nat → Rat → Rat) (hfl : Binary32 (rnd 10)) (dtype : Nat) (hd : dtype = 1 ∨ dtype = 2) (pre : List Nat) (data : List Rat)
    (f : List Nat → Rat) (fresh : Nat → List Rat) (hx : Holds (pre ++ [3]) data f) (hf : ∀ n, (fresh n).length = n)
    (hv : ∀ u j, InBounds pre u → j < 3 → ∃ n : Int, f (u ++ [j]) = n ∧ (dtype = 1 → -128 ≤ n ∧ n ≤ 127) ∧ (dtype = 2 → 0 ≤ n ∧ n ≤ 255)) :
    ∃ out g, forceGrayRun rnd [] ⟨dtype, pre ++ [3], data⟩ fresh = .ok (pre ++ [1], out) ∧ Holds (pre ++ [1]) out g ∧
      ∀ u, InBounds pre u → ∃ n : Int, g (u ++ [0]) = n ∧ (dtype = 1 → -128 ≤ n ∧ n ≤ 127) ∧ (dtype = 2 → 0 ≤ n ∧ n ≤ 255) ∧
        |(n : Rat) - (0.114 * f (u ++ [0]) + 0.587 * f (u ++ [1]) + 0.299 * f (u ++ [2]))| < 1 + 1 / 1000 := by
  obtain ⟨t, ht, hlo, hhi⟩ : ∃ t : IntTy, numTy dtype = some (.int t) ∧ (dtype = 1 → t.lo = -128 ∧ t.hi = 128) ∧ (dtype = 2 → t.lo = 0 ∧ t.hi = 256) := by
    rcases hd with rfl | rfl
    · exact ⟨⟨true, 8⟩, rfl, fun _ => by decide, fun h => by omega⟩
    · exact ⟨⟨false, 8⟩, rfl, fun h => by omega, fun _ => by decide⟩
  have near : ∀ u, InBounds pre u → |weighted (rnd 10) [15300821 / 134217728, 4924113 / 8388608, 10032775 / 33554432] (fun j => f (u ++ [j])) -
      (15300821 / 134217728 * f (u ++ [0]) + 4924113 / 8388608 * f (u ++ [1]) + 10032775 / 33554432 * f (u ++ [2]))| ≤ 1 / 2048 := by
    intro u hu
    refine weighted_near hfl (fun j => f (u ++ [j])) fun j hj => ?_
    obtain ⟨n, e, h1, h2⟩ := hv u j hu hj
    refine ⟨n, e, ?_⟩
    rcases hd with rfl | rfl
    · have := h1 rfl; rw [abs_le]; omega
    · have := h2 rfl; rw [abs_le]; omega
  have range : ∀ u j, InBounds pre u → j < 3 → (dtype = 1 → -128 ≤ f (u ++ [j]) ∧ f (u ++ [j]) ≤ 127) ∧ (dtype = 2 → 0 ≤ f (u ++ [j]) ∧ f (u ++ [j]) ≤ 255) := by
    intro u j hu hj
    obtain ⟨n, e, h1, h2⟩ := hv u j hu hj
    rw [e]
    exact ⟨fun h => by have := h1 h; exact ⟨by exact_mod_cast this.1, by exact_mod_cast this.2⟩,
      fun h => by have := h2 h; exact ⟨by exact_mod_cast this.1, by exact_mod_cast this.2⟩⟩
  have h11 : dtype ≠ 11 := by omega
  obtain ⟨out, g, e, hg, hc⟩ := C71_gray rnd [] _ dtype (.int t) pre 3 data f fresh (by omega) (.inl ⟨rfl, rfl, rfl⟩)
    (by rcases hd with rfl | rfl <;> rfl) ht hx hf (fun u hu => by
      rw [if_neg h11]
      have n := abs_le.1 (near u hu)
      have r0 := range u 0 hu (by omega)
      have r1 := range u 1 hu (by omega)
      have r2 := range u 2 hu (by omega)
      show (t.lo : Rat) - 1 < _ ∧ _ < (t.hi : Rat)
      rcases hd with h | h
      · have := hlo h
        have r0 := r0.1 h
        have r1 := r1.1 h
        have r2 := r2.1 h
        rw [this.1, this.2]
        push_cast
        constructor <;> linarith
      · have := hhi h
        have r0 := r0.2 h
        have r1 := r1.2 h
        have r2 := r2.2 h
        rw [this.1, this.2]
        push_cast
        constructor <;> linarith)
  refine ⟨out, g, e, hg, fun u hu => ?_⟩
  obtain ⟨n, hn, hh, hp, hm⟩ := hc u hu
  rw [if_neg h11] at hp hm
  have nr := abs_le.1 (near u hu)
  have r0 := range u 0 hu (by omega)
  have r1 := range u 1 hu (by omega)
  have r2 := range u 2 hu (by omega)
  refine ⟨n, hn, fun h => ?_, fun h => ?_, ?_⟩
  · have := hlo h; unfold IntTy.has at hh; omega
  · have := hhi h; unfold IntTy.has at hh; omega
  · generalize weighted (rnd 10) [15300821 / 134217728, 4924113 / 8388608, 10032775 / 33554432] (fun j => f (u ++ [j])) = W at *
    have b0 : -128 ≤ f (u ++ [0]) ∧ f (u ++ [0]) ≤ 255 := by
      rcases hd with h | h
      · have := r0.1 h; constructor <;> linarith
      · have := r0.2 h; constructor <;> linarith
    have b1 : -128 ≤ f (u ++ [1]) ∧ f (u ++ [1]) ≤ 255 := by
      rcases hd with h | h
      · have := r1.1 h; constructor <;> linarith
      · have := r1.2 h; constructor <;> linarith
    have b2 : -128 ≤ f (u ++ [2]) ∧ f (u ++ [2]) ≤ 255 := by
      rcases hd with h | h
      · have := r2.1 h; constructor <;> linarith
      · have := r2.2 h; constructor <;> linarith
    rw [abs_lt]
    rcases le_total 0 W with h | h
    · have := hp h
      norm_num
      constructor <;> linarith
    · have := hm h
      norm_num
      constructor <;> linarith

example : Binary32 ((fun _ => f32) 10) := f32_binary32

theorem keeps_all (v : Nat) (hv : v ≤ 255) :
    grayCell 2 (weighted f32 [15300821 / 134217728, 4924113 / 8388608, 10032775 / 33554432] fun _ => v) = .ok v := by
  have : ∀ v : Fin 256, grayCell 2 (weighted f32 [15300821 / 134217728, 4924113 / 8388608, 10032775 / 33554432] fun _ => (v.val : Rat)) = .ok (v.val : Rat) := by
    decide +kernel
  exact this ⟨v, by omega⟩

/-- **C71, force_gray of gray images.** In a colour image of unsigned 8 bit numbers with the default weights, a pixel with three equal channels keeps its value
(with `float`s rounded to nearest, ties to even). -/
theorem C71_gray_keeps (rnd : Nat → Rat → Rat) (hfl : rnd 10 = f32) (pre : List Nat) (data : List Rat) (f : List Nat → Rat) (fresh : Nat → List Rat)
    (hx : Holds (pre ++ [3]) data f) (hf : ∀ n, (fresh n).length = n)
    (hv : ∀ u j, InBounds pre u → j < 3 → ∃ n : Nat, f (u ++ [j]) = n ∧ n ≤ 255) :
    ∃ out g, forceGrayRun rnd [] ⟨2, pre ++ [3], data⟩ fresh = .ok (pre ++ [1], out) ∧ Holds (pre ++ [1]) out g ∧
      ∀ u v, InBounds pre u → (∀ j, j < 3 → f (u ++ [j]) = v) → g (u ++ [0]) = v := by
  have hb : Binary32 (rnd 10) := hfl ▸ f32_binary32
  obtain ⟨out, g, e, hg, -⟩ := C71_gray_bytes rnd hb 2 (.inr rfl) pre data f fresh hx hf (fun u j hu hj => by
    obtain ⟨n, e, hn⟩ := hv u j hu hj
    exact ⟨n, by rw [e]; rfl, fun h => by omega, fun _ => by omega⟩)
  refine ⟨out, g, e, hg, fun u v hu hj => ?_⟩
  -- the image is also what the general theorem says
  have hcast : ∀ u, InBounds pre u → Castable .real (.int ⟨false, 8⟩)
      (weighted (rnd 10) [15300821 / 134217728, 4924113 / 8388608, 10032775 / 33554432] fun j => f (u ++ [j])) := by
    intro u hu
    have near := abs_le.1 (weighted_near hb (fun j => f (u ++ [j])) fun j hj => by
      obtain ⟨n, e, hn⟩ := hv u j hu hj
      exact ⟨n, by rw [e]; rfl, by rw [abs_le]; omega⟩)
    have r : ∀ j, j < 3 → 0 ≤ f (u ++ [j]) ∧ f (u ++ [j]) ≤ 255 := by
      intro j hj
      obtain ⟨n, e, hn⟩ := hv u j hu hj
      rw [e]
      exact ⟨by positivity, by exact_mod_cast hn⟩
    have r0 := r 0 (by omega)
    have r1 := r 1 (by omega)
    have r2 := r 2 (by omega)
    show (((⟨false, 8⟩ : IntTy).lo : Int) : Rat) - 1 < _ ∧ _ < (((⟨false, 8⟩ : IntTy).hi : Int) : Rat)
    rw [show (⟨false, 8⟩ : IntTy).lo = 0 from rfl, show (⟨false, 8⟩ : IntTy).hi = 256 from by decide]
    push_cast
    constructor <;> linarith
  obtain ⟨out', g', e', hg', hc⟩ := C71_gray rnd [] _ 2 (.int ⟨false, 8⟩) pre 3 data f fresh (by omega) (.inl ⟨rfl, rfl, rfl⟩) rfl rfl hx hf
    (fun u hu => by rw [if_neg (by omega)]; exact hcast u hu)
  rw [e] at e'
  injection e' with e'
  injection e' with _ e'
  subst e'
  have hin : InBounds (pre ++ [1]) (u ++ [0]) := (inBounds_append hu.length).2 ⟨hu, by omega, trivial⟩
  have same : g (u ++ [0]) = g' (u ++ [0]) := by
    have h1 := hg.2 _ hin
    rw [hg'.2 _ hin] at h1
    exact (Option.some.inj h1).symm
  obtain ⟨n, hn, -, hp, hm⟩ := hc u hu
  rw [if_neg (by omega), hfl] at hp hm
  obtain ⟨k, hk, hk'⟩ := hv u 0 hu (by omega)
  have hvk : v = k := by rw [← hj 0 (by omega), hk]
  have hw : weighted f32 [15300821 / 134217728, 4924113 / 8388608, 10032775 / 33554432] (fun j => f (u ++ [j])) =
      weighted f32 [15300821 / 134217728, 4924113 / 8388608, 10032775 / 33554432] fun _ => (k : Rat) := by
    show f32 (f32 (f32 (0 + f32 (_ * f32 (f (u ++ [0])))) + f32 (_ * f32 (f (u ++ [1])))) + f32 (_ * f32 (f (u ++ [2])))) = _
    rw [hj 0 (by omega), hj 1 (by omega), hj 2 (by omega), hvk]
    rfl
  rw [hw] at hp hm
  have hcell := keeps_all k hk'
  generalize weighted f32 [15300821 / 134217728, 4924113 / 8388608, 10032775 / 33554432] (fun _ => (k : Rat)) = W at *
  have ht : (truncQ W : Rat) = k := by
    unfold grayCell at hcell
    simp only [numTy] at hcell
    split at hcell
    · exact (Res.ok.inj hcell)
    · cases hcell
  have hts := truncQ_spec W
  rw [same, hn, hvk, ← ht]
  congr 1
  rcases le_total 0 W with h | h
  · have a := hp h
    have b := hts.1 h
    have h1 : (n : Rat) < truncQ W + 1 := by linarith
    have h2 : (truncQ W : Rat) < n + 1 := by linarith
    have h1 : n < truncQ W + 1 := by exact_mod_cast h1
    have h2 : truncQ W < n + 1 := by exact_mod_cast h2
    omega
  · have a := hm h
    have b := hts.2 h
    have h1 : (n : Rat) - 1 < truncQ W := by linarith
    have h2 : (truncQ W : Rat) - 1 < n := by linarith
    have h1 : n - 1 < truncQ W := by exact_mod_cast h1
    have h2 : truncQ W - 1 < n := by exact_mod_cast h2
    omega

/-- **C71, force_gray out of range.** A sum outside an integer type is undefined behaviour, for instance with the weights 1, 1 and 8 bit pixels. -/
theorem C71_gray_range_false : forceGrayRun (fun _ => f32) [1, 1] ⟨2, [1, 2], [200, 200]⟩ (fun n => List.replicate n 0) = .ub := by decide +kernel

end Verif.Props
