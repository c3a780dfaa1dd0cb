import Verif.Kernels.Conv
import Verif.Kernels.GemmLemmas
import Verif.Props.Geometry
import Mathlib.Algebra.Ring.Nat
import Mathlib.Algebra.Ring.Int.Defs
/-!
# C44: convolution computes its defining sum

Specification (`xpad`, `convSpec`): element arithmetic in any commutative semiring; sums are plain finite sums.
-/
namespace Verif.Props
open Verif.Core Verif.Kernels

variable {α : Type} [CommSemiring α]

/-- the padded input at image `n`, channel `c`, row `r`, column `q` (which may lie outside the image) -/
def xpad (g : ConvGeo) (padv : α) (x : List α) (n c : Nat) (r q : Int) : α :=
  if 0 ≤ r ∧ r < g.h ∧ 0 ≤ q ∧ q < g.w then x.getD (((n * g.c + c) * g.h + r.toNat) * g.w + q.toNat) 0 else padv

/-- the definition of convolution (cross-correlation) -/
def convSpec (g : ConvGeo) (padv : α) (x w : List α) (n o i j : Nat) : α :=
  ∑ c ∈ Finset.range g.c, ∑ kr ∈ Finset.range g.kh, ∑ kc ∈ Finset.range g.kw,
    w.getD (((o * g.c + c) * g.kh + kr) * g.kw + kc) 0 *
      xpad g padv x n c (i * g.sh + kr * g.dh - g.top) (j * g.sw + kc * g.dw - g.left)

theorem sum_range_mul (f : Nat → α) (a b : Nat) :
    ∑ k ∈ Finset.range (a * b), f k = ∑ i ∈ Finset.range a, ∑ j ∈ Finset.range b, f (i * b + j) := by
  induction a with
  | zero => simp
  | succ a ih => rw [Nat.succ_mul, Finset.sum_range_add, ih, Finset.sum_range_succ]

omit [CommSemiring α] in
theorem colLoops_get (g : ConvGeo) (oh ow : Nat) :
    (colLoops g oh ow).length = g.c * g.kh * g.kw * (oh * ow) ∧
    ∀ c kr kc i j, c < g.c → kr < g.kh → kc < g.kw → i < oh → j < ow →
      (colLoops g oh ow)[((c * g.kh + kr) * g.kw + kc) * (oh * ow) + (i * ow + j)]? = some (c, kr, kc, i, j) := by
  unfold colLoops
  have l1 : ∀ c kr kc : Nat, ((List.range oh).flatMap fun i => (List.range ow).map fun j => (c, kr, kc, i, j)).length =
      oh * ow := fun c kr kc => (flatMap_get ow oh _ (by simp)).1
  have l2 : ∀ c kr : Nat, ((List.range g.kw).flatMap fun kc => (List.range oh).flatMap fun i =>
      (List.range ow).map fun j => (c, kr, kc, i, j)).length = g.kw * (oh * ow) :=
    fun c kr => (flatMap_get (oh * ow) g.kw _ fun kc _ => l1 c kr kc).1
  have l3 : ∀ c : Nat, ((List.range g.kh).flatMap fun kr => (List.range g.kw).flatMap fun kc =>
      (List.range oh).flatMap fun i => (List.range ow).map fun j => (c, kr, kc, i, j)).length =
      g.kh * (g.kw * (oh * ow)) :=
    fun c => (flatMap_get _ g.kh _ fun kr _ => l2 c kr).1
  obtain ⟨h1, h2⟩ := flatMap_get _ g.c _ fun c _ => l3 c
  refine ⟨by rw [h1]; ring, ?_⟩
  intro c kr kc i j hc hkr hkc hi hj
  have e1 : i * ow + j < oh * ow := rc_lt hi hj
  have e2 : kc * (oh * ow) + (i * ow + j) < g.kw * (oh * ow) := rc_lt hkc e1
  have e3 : kr * (g.kw * (oh * ow)) + (kc * (oh * ow) + (i * ow + j)) < g.kh * (g.kw * (oh * ow)) := rc_lt hkr e2
  rw [show ((c * g.kh + kr) * g.kw + kc) * (oh * ow) + (i * ow + j) =
    c * (g.kh * (g.kw * (oh * ow))) + (kr * (g.kw * (oh * ow)) + (kc * (oh * ow) + (i * ow + j))) by ring,
    h2 c _ hc e3, (flatMap_get _ g.kh _ fun kr _ => l2 c kr).2 kr _ hkr e2,
    (flatMap_get (oh * ow) g.kw _ fun kc _ => l1 c kr kc).2 kc _ hkc e1,
    (flatMap_get ow oh _ (by simp)).2 i j hi hj]
  simp [hj]

/-- the columns of one image -/
theorem colAt_ok (g : ConvGeo) (padv : α) (x : List α) (n c kr kc i j : Nat) (hx : x.length = g.n * g.c * g.h * g.w)
    (hn : n < g.n) (hc : c < g.c) :
    colAt g padv (x.drop (n * (g.c * g.h * g.w))) c kr kc i j =
      .ok (xpad g padv x n c (i * g.sh + kr * g.dh - g.top) (j * g.sw + kc * g.dw - g.left)) := by
  unfold colAt xpad
  have er : -g.top + (kr : Int) * g.dh + i * g.sh = i * g.sh + kr * g.dh - g.top := by ring
  have eq : -g.left + (kc : Int) * g.dw + j * g.sw = j * g.sw + kc * g.dw - g.left := by ring
  simp only [er, eq]
  generalize (i : Int) * g.sh + kr * g.dh - g.top = r
  generalize (j : Int) * g.sw + kc * g.dw - g.left = q
  by_cases hr : 0 ≤ r ∧ r < g.h
  · by_cases hq : 0 ≤ q ∧ q < g.w
    · rw [if_pos hr, if_pos hq, if_pos ⟨hr.1, hr.2, hq.1, hq.2⟩]
      obtain ⟨r', rfl⟩ := Int.eq_ofNat_of_zero_le hr.1
      obtain ⟨q', rfl⟩ := Int.eq_ofNat_of_zero_le hq.1
      have hr' : r' < g.h := by have := hr.2; omega
      have hq' : q' < g.w := by have := hq.2; omega
      have b1 : ((n * g.c + c) * g.h + r') * g.w + q' < g.n * g.c * g.h * g.w :=
        rc_lt (rc_lt (rc_lt hn hc) hr') hq'
      have b2 : ((n * g.c + c) * g.h + r') * g.w + q' = n * (g.c * g.h * g.w) + (c * (g.h * g.w) + (r' * g.w + q')) := by
        ring
      have b3 : c * (g.h * g.w) + (r' * g.w + q') < (x.drop (n * (g.c * g.h * g.w))).length := by
        rw [List.length_drop, hx]; omega
      have := readAtInt_ok b3
      rw [show ((c : Int) * (g.h * g.w) + ((r' : Int) * g.w + q')) =
        ((c * (g.h * g.w) + (r' * g.w + q') : Nat) : Int) by push_cast; ring, this]
      congr 1
      rw [List.getElem_drop, Int.toNat_natCast, Int.toNat_natCast, b2]
      rw [List.getD_eq_getElem?_getD, List.getElem?_eq_getElem (by omega), Option.getD_some]
    · rw [if_pos hr, if_neg hq, if_neg (by tauto)]
  · rw [if_neg hr, if_neg (by tauto)]

/-- One image: the columns the product reads are the padded input cells, with or without unfolding. -/
theorem convCols (g : ConvGeo) (padv : α) (x : List α) (n oh ow : Nat) (hx : x.length = g.n * g.c * g.h * g.w)
    (hn : n < g.n)
    (hoh : convForward g.h g.top g.bottom g.kh g.sh g.dh = .ok (oh : Int))
    (how : convForward g.w g.left g.right g.kw g.sw g.dw = .ok (ow : Int)) :
    ∃ col : List α, convColumns g padv oh ow (x.drop (n * (g.c * g.h * g.w))) = .ok col ∧
      g.c * g.kh * g.kw * (oh * ow) ≤ col.length ∧
      ∀ c kr kc i j, c < g.c → kr < g.kh → kc < g.kw → i < oh → j < ow →
        col.getD (((c * g.kh + kr) * g.kw + kc) * (oh * ow) + (i * ow + j)) 0 =
          xpad g padv x n c (i * g.sh + kr * g.dh - g.top) (j * g.sw + kc * g.dw - g.left) := by
  unfold convColumns
  by_cases h1 : is1x1 g = true
  · rw [if_pos h1]
    refine ⟨_, rfl, ?_⟩
    simp only [is1x1, Bool.and_eq_true, beq_iff_eq] at h1
    obtain ⟨⟨⟨⟨⟨⟨⟨a1, a2⟩, a3⟩, a4⟩, a5⟩, a6⟩, a7⟩, a8⟩ := h1
    have unit : ∀ (y d : Nat) (r : Int), convForward y 0 0 1 1 d = .ok r → r = y := by
      intro y d r hr
      unfold convForward dilatedKernel div32 at hr
      simp only [Res.bind_eq_ok, int32_eq_ok, if_neg (by decide : ¬ (1 : Int) = 0)] at hr
      obtain ⟨_, ⟨_, rfl⟩, _, ⟨_, rfl⟩, _, ⟨_, ⟨_, rfl⟩, _, ⟨_, rfl⟩, _, rfl⟩, _, ⟨_, rfl⟩, _, ⟨_, rfl⟩, _, hr⟩ := hr
      rw [hr]; simp
    rw [a5, a6, a3, a1] at hoh
    rw [a7, a8, a4, a2] at how
    have ho : oh = g.h := by have := unit g.h g.dh _ hoh; omega
    have hw : ow = g.w := by have := unit g.w g.dw _ how; omega
    subst ho hw
    have hlen : g.c * g.h * g.w ≤ (x.drop (n * (g.c * g.h * g.w))).length := by
      rw [List.length_drop, hx]
      have : (n + 1) * (g.c * g.h * g.w) ≤ g.n * (g.c * g.h * g.w) := Nat.mul_le_mul_right _ hn
      have e : g.n * g.c * g.h * g.w = g.n * (g.c * g.h * g.w) := by ring
      rw [Nat.succ_mul] at this
      omega
    refine ⟨?_, ?_⟩
    · rw [a3, a4]
      calc g.c * 1 * 1 * (g.h * g.w) = g.c * g.h * g.w := by ring
        _ ≤ _ := hlen
    · intro c kr kc i j hc hkr hkc hi hj
      rw [a3] at hkr
      rw [a4] at hkc
      have : kr = 0 := by omega
      have : kc = 0 := by omega
      subst kr kc
      unfold xpad
      rw [a1, a2, a3, a4, a5, a7]
      rw [if_pos (by push_cast; omega)]
      have e1 : ((i : Int) * ((1 : Nat) : Int) + ((0 : Nat) : Int) * g.dh - 0).toNat = i := by simp
      have e2 : ((j : Int) * ((1 : Nat) : Int) + ((0 : Nat) : Int) * g.dw - 0).toNat = j := by simp
      rw [e1, e2]
      simp only [List.getD_eq_getElem?_getD, List.getElem?_drop]
      congr 2
      ring
  · rw [if_neg h1]
    obtain ⟨hl, hg⟩ := colLoops_get g oh ow
    have him : im2col g padv (x.drop (n * (g.c * g.h * g.w))) = .ok ((colLoops g oh ow).map fun (c, kr, kc, i, j) =>
        xpad g padv x n c (i * g.sh + kr * g.dh - g.top) (j * g.sw + kc * g.dw - g.left)) := by
      unfold im2col
      rw [hoh, Res.bind_ok, how, Res.bind_ok, if_neg (by omega), Int.toNat_natCast, Int.toNat_natCast]
      apply forEach_ok
      rintro ⟨c, kr, kc, i, j⟩ hm
      unfold colLoops at hm
      simp only [List.mem_flatMap, List.mem_map, List.mem_range, Prod.mk.injEq] at hm
      obtain ⟨c', hc', _, _, _, _, _, _, _, _, rfl, rfl, rfl, rfl, rfl⟩ := hm
      exact colAt_ok g padv x n _ _ _ _ _ hx hn hc'
    rw [him]
    simp only []
    rw [if_pos (by rw [List.length_map, hl]; apply le_of_eq; ring)]
    refine ⟨_, rfl, by rw [List.length_map, hl], ?_⟩
    intro c kr kc i j hc hkr hkc hi hj
    rw [List.getD_eq_getElem?_getD, List.getElem?_map, hg c kr kc i j hc hkr hkc hi hj]
    rfl

/-- C44. For every geometry on which the output size formulas succeed, running the convolution on `float` tensors of
the right sizes succeeds with the inferred extents, and every output element is the defining sum, whatever the output
buffer held before; and the same if the weights are passed already packed (the result of packing them). -/
theorem C44_convolution (g : ConvGeo) (padv : α) (x w : List α) (init : Nat → List α) (oh ow : Nat)
    (hx : x.length = g.n * g.c * g.h * g.w) (hw : w.length = g.o * g.c * g.kh * g.kw)
    (hoh : convForward g.h g.top g.bottom g.kh g.sh g.dh = .ok (oh : Int))
    (how : convForward g.w g.left g.right g.kw g.sw g.dw = .ok (ow : Int))
    (hinit : ∀ i, (init i).length = g.o * (oh * ow)) (packed : Bool) (w' : List α)
    (hw' : if packed then pack8A g.o (g.c * g.kh * g.kw) w (g.c * g.kh * g.kw) = .ok w' else w' = w) :
    ∃ out, conv2dRun true packed g padv x w' init = .ok ((oh, ow), out) ∧ out.length = g.n * g.o * oh * ow ∧
      ∀ n o i j, n < g.n → o < g.o → i < oh → j < ow →
        out[((n * g.o + o) * oh + i) * ow + j]? = some (convSpec g padv x w n o i j) := by
  have hpack : (bif !packed then pack8A g.o (g.c * g.kh * g.kw) w' (g.c * g.kh * g.kw) else .ok w') =
      .ok ((packAIdx g.o (g.c * g.kh * g.kw) (g.c * g.kh * g.kw)).map fun i => w.getD i 0) := by
    have h0 := pack8A_ok g.o (g.c * g.kh * g.kw) w (by rw [hw]; apply le_of_eq; ring)
    cases packed with
    | true =>
      simp only [if_true] at hw'
      rw [h0] at hw'
      cases hw'
      rfl
    | false =>
      simp only [Bool.false_eq_true, if_false] at hw'
      subst hw'
      exact h0
  have himg : ∀ n, n < g.n → ∃ out, convImage true packed g padv oh ow (x.drop (n * (g.c * g.h * g.w))) w' (init n) =
      .ok out ∧ out.length = g.o * (oh * ow) ∧ ∀ o i j, o < g.o → i < oh → j < ow →
        out[o * (oh * ow) + (i * ow + j)]? = some (convSpec g padv x w n o i j) := by
    intro n hn
    obtain ⟨col, e, hcl, hc⟩ := convCols g padv x n oh ow hx hn hoh how
    obtain ⟨out, e2, el, hout⟩ := gemmPacked_ok' g.o (oh * ow) (g.c * g.kh * g.kw) w' w col (init n) (!packed) hpack
      hcl (hinit n)
    refine ⟨out, ?_, el, ?_⟩
    · unfold convImage
      rw [e, Res.bind_ok]
      exact e2
    · intro o i j ho hi hj
      rw [hout o _ ho (rc_lt hi hj)]
      congr 1
      unfold convSpec
      rw [sum_range_mul, sum_range_mul]
      refine Finset.sum_congr rfl fun c hc' => Finset.sum_congr rfl fun kr hkr => Finset.sum_congr rfl fun kc hkc => ?_
      rw [Finset.mem_range] at hc' hkr hkc
      rw [hc c kr kc i j hc' hkr hkc hi hj]
      congr 2
      ring
  choose! f hf1 hf2 hf3 using himg
  refine ⟨((List.range g.n).flatMap f), ?_, ?_, ?_⟩
  · unfold conv2dRun
    rw [hoh, Res.bind_ok, how, Res.bind_ok, if_neg (by omega)]
    simp only [Int.toNat_natCast]
    rw [forEach_ok (g := f) (fun n hn => hf1 n (by simpa using hn)), Res.bind_ok, List.flatMap_def]
  · rw [(flatMap_get _ _ _ hf2).1]; ring
  · intro n o i j hn ho hi hj
    rw [show ((n * g.o + o) * oh + i) * ow + j = n * (g.o * (oh * ow)) + (o * (oh * ow) + (i * ow + j)) by ring,
      (flatMap_get _ _ _ hf2).2 n _ hn (rc_lt ho (rc_lt hi hj))]
    exact hf3 n hn o i j ho hi hj

/-- a 3x3 kernel with dilation, stride and padding on a 4x5 image, two channels, nine output channels -/
def convEx : ConvGeo := { n := 1, c := 2, h := 4, w := 5, o := 9, kh := 2, kw := 3, top := 1, bottom := 0, left := 1, right := 1, sh := 1, sw := 2, dh := 2, dw := 1 }

example : convForward convEx.h convEx.top convEx.bottom convEx.kh convEx.sh convEx.dh = .ok ((3 : Nat) : Int) ∧
    convForward convEx.w convEx.left convEx.right convEx.kw convEx.sw convEx.dw = .ok ((3 : Nat) : Int) := by decide

example : ∃ out, conv2dRun true false convEx (0 : Int) (List.replicate 40 1) (List.replicate 108 2)
    (fun _ => List.replicate 81 7) = .ok ((3, 3), out) := by
  obtain ⟨out, h, -⟩ := C44_convolution convEx (0 : Int) (List.replicate 40 1) (List.replicate 108 2)
    (fun _ => List.replicate 81 7) 3 3 (by decide) (by decide) (by decide) (by decide) (by intro; decide) false _ rfl
  exact ⟨out, h⟩

/-- `FLOAT64` without CBLAS: the multiplication kernel's body is empty for `double`, so the output is whatever the
buffer held. -/
theorem C44_float64_false : ∃ (g : ConvGeo) (x w : List Int), x.length = g.n * g.c * g.h * g.w ∧
    w.length = g.o * g.c * g.kh * g.kw ∧
    conv2dRun false false g 0 x w (fun _ => [42]) = .ok ((1, 1), [42]) ∧ convSpec g 0 x w 0 0 0 0 = 6 := by
  refine ⟨{ n := 1, c := 1, h := 1, w := 1, o := 1, kh := 1, kw := 1, top := 0, bottom := 0, left := 0, right := 0, sh := 1, sw := 1, dh := 1, dw := 1 }, [2], [3], rfl, rfl, by decide, by decide⟩

end Verif.Props
