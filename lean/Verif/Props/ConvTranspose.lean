import Verif.Kernels.ConvTranspose
import Verif.Kernels.WinogradLemmas
import Verif.Props.Conv
/-!
# C64: transposed convolution

Specification: `tconvSpec`.
-/
namespace Verif.Props
open Verif.Core Verif.Kernels

variable {α : Type} [CommSemiring α]

/-- the definition: input element (n, o, i, j), times the kernel cell (o, c, kr, kc), is added to the output row `i * stride + kr * dilation - padding`, and
column likewise -/
def tconvSpec (g : ConvGeo) (x w : List α) (n c r q : Nat) : α :=
  ∑ o ∈ Finset.range g.o, ∑ kr ∈ Finset.range g.kh, ∑ kc ∈ Finset.range g.kw, ∑ i ∈ Finset.range g.h, ∑ j ∈ Finset.range g.w,
    if (i : Int) * g.sh + kr * g.dh - g.top = r ∧ (j : Int) * g.sw + kc * g.dw - g.left = q then
      w.getD (((o * g.c + c) * g.kh + kr) * g.kw + kc) 0 * x.getD (((n * g.o + o) * g.h + i) * g.w + j) 0
    else 0

/-! ## loops that add -/

/-- `f` adds `δ p` to every element `p` -/
def EffAdd (n : Nat) (f : List α → Res (List α)) (δ : Nat → α) : Prop :=
  ∀ out, out.length = n → ∃ o, f out = .ok o ∧ o.length = n ∧ ∀ p, p < n → o.getD p 0 = out.getD p 0 + δ p

theorem EffAdd.loop {n m : Nat} {f : List α → Nat → Res (List α)} {δ : Nat → Nat → α} (h : ∀ k, k < m → EffAdd n (fun o => f o k) (δ k)) :
    EffAdd n (fun o => Verif.Kernels.loop f m o) (fun p => ∑ k ∈ Finset.range m, δ k p) := by
  induction m with
  | zero => exact fun out ho => ⟨out, rfl, ho, fun p _ => by simp⟩
  | succ m ih =>
    intro out ho
    obtain ⟨o1, e1, l1, v1⟩ := ih (fun k hk => h k (by omega)) out ho
    obtain ⟨o2, e2, l2, v2⟩ := h m (by omega) o1 l1
    beta_reduce at e1 e2
    refine ⟨o2, ?_, l2, fun p hp => ?_⟩
    · show (Verif.Kernels.loop f m out >>= fun s => f s m) = _
      rw [e1, Res.bind_ok, e2]
    · rw [v2 p hp, v1 p hp]
      show out.getD p 0 + ∑ k ∈ Finset.range m, δ k p + δ m p = out.getD p 0 + ∑ k ∈ Finset.range (m + 1), δ k p
      rw [Finset.sum_range_succ, add_assoc]

open Classical in
/-- the contribution of one column element to element `p` of the image -/
noncomputable def colDelta (g : ConvGeo) (height width : Nat) (col : List α) (c kr kc i j : Nat) (p : Nat) : α :=
  if ∃ r q : Nat, r < height ∧ q < width ∧ (i : Int) * g.sh + kr * g.dh - g.top = r ∧ (j : Int) * g.sw + kc * g.dw - g.left = q ∧
      p = (c * height + r) * width + q then
    col.getD (((c * g.kh + kr) * g.kw + kc) * (g.h * g.w) + (i * g.w + j)) 0
  else 0

theorem col2imStep_add {g : ConvGeo} {height width : Nat} {col : List α} (hcol : col.length = g.c * g.kh * g.kw * (g.h * g.w)) {c kr kc i j : Nat}
    (hc : c < g.c) (hkr : kr < g.kh) (hkc : kc < g.kw) (hi : i < g.h) (hj : j < g.w) :
    EffAdd (g.c * (height * width)) (fun im => col2imStep g height width g.h g.w col c kr kc i j im) (colDelta g height width col c kr kc i j) := by
  intro out ho
  unfold col2imStep colDelta
  simp only
  by_cases hin : (0 ≤ -g.top + (kr : Int) * g.dh + i * g.sh ∧ -g.top + (kr : Int) * g.dh + i * g.sh < height) ∧
      0 ≤ -g.left + (kc : Int) * g.dw + j * g.sw ∧ -g.left + (kc : Int) * g.dw + j * g.sw < width
  · rw [if_pos hin]
    obtain ⟨r, hr⟩ := Int.eq_ofNat_of_zero_le hin.1.1
    obtain ⟨q, hq⟩ := Int.eq_ofNat_of_zero_le hin.2.1
    rw [hr, hq] at hin ⊢
    have hr' : r < height := by omega
    have hq' : q < width := by omega
    have lt1 : ((c * g.kh + kr) * g.kw + kc) * (g.h * g.w) + (i * g.w + j) < col.length := by
      rw [hcol]; exact rc_lt (rc_lt (rc_lt hc hkr) hkc) (rc_lt hi hj)
    have lt2 : (c * height + r) * width + q < out.length := by
      rw [ho, ← mul_assoc]; exact rc_lt (rc_lt hc hr') hq'
    rw [rd_ok (v := col.getD (((c * g.kh + kr) * g.kw + kc) * (g.h * g.w) + (i * g.w + j)) 0)
      (by rw [List.getD_eq_getElem?_getD, List.getElem?_eq_getElem lt1, Option.getD_some]), Res.bind_ok,
      show (c : Int) * (height * width) + ((r : Int) * width + q) = (((c * height + r) * width + q : Nat) : Int) by push_cast; ring,
      rdI_ok (v := out.getD ((c * height + r) * width + q) 0) (by rw [List.getD_eq_getElem?_getD, List.getElem?_eq_getElem lt2, Option.getD_some]),
      Res.bind_ok, wrI_nat, wr_ok _ lt2]
    refine ⟨_, rfl, by simpa using ho, fun p hp => ?_⟩
    by_cases e : p = (c * height + r) * width + q
    · rw [if_pos ⟨r, q, hr', hq', by omega, by omega, e⟩, e, List.getD_eq_getElem?_getD, List.getElem?_set_self lt2, Option.getD_some]
    · rw [if_neg, add_zero, List.getD_eq_getElem?_getD, List.getElem?_set_ne (fun h => e h.symm), ← List.getD_eq_getElem?_getD]
      rintro ⟨r2, q2, h1, h2, h3, h4, h5⟩
      have : r2 = r := by omega
      have : q2 = q := by omega
      subst r2 q2
      exact e h5
  · rw [if_neg hin]
    refine ⟨out, rfl, ho, fun p hp => ?_⟩
    rw [if_neg, add_zero]
    rintro ⟨r, q, h1, h2, h3, h4, h5⟩
    exact hin ⟨⟨by omega, by omega⟩, by omega, by omega⟩

theorem convForward_backward {y p a k s d r : Int} (hs : s ≠ 0) (h : convBackward y p a k s d = .ok r) (fits : -2 ^ 31 ≤ r + p ∧ r + p < 2 ^ 31)
    (hy : -2 ^ 31 ≤ y ∧ y < 2 ^ 31) : convForward r p a k s d = .ok y := by
  unfold convBackward at h
  simp only [Res.bind_eq_ok, int32_eq_ok] at h
  obtain ⟨_, ⟨i1, rfl⟩, _, ⟨i2, rfl⟩, e, he, _, ⟨i3, rfl⟩, _, ⟨i4, rfl⟩, i5, rfl⟩ := h
  unfold convForward div32
  have q1 : I32 ((y - 1) * s + e - p - a + p) := by unfold I32 at *; omega
  have q2 : I32 ((y - 1) * s + e - p - a + p + a) := by
    rw [show (y - 1) * s + e - p - a + p + a = (y - 1) * s + e by ring]; exact i3
  have q3 : I32 ((y - 1) * s + e - p - a + p + a - e) := by
    rw [show (y - 1) * s + e - p - a + p + a - e = (y - 1) * s by ring]; exact i2
  rw [int32_eq_ok.2 ⟨q1, rfl⟩, Res.bind_ok, int32_eq_ok.2 ⟨q2, rfl⟩, Res.bind_ok, he, Res.bind_ok, int32_eq_ok.2 ⟨q3, rfl⟩, Res.bind_ok, if_neg hs,
    show (y - 1) * s + e - p - a + p + a - e = (y - 1) * s by ring, Int.mul_tdiv_cancel _ hs, int32_eq_ok.2 ⟨i1, rfl⟩, Res.bind_ok,
    show y - 1 + 1 = y by ring, int32_eq_ok.2 ⟨by unfold I32; omega, rfl⟩]

/-- what `col2im` makes of the columns of one image -/
theorem col2im_ok {g : ConvGeo} {yh yw : Nat} {col im : List α} (hcol : col.length = g.c * g.kh * g.kw * (g.h * g.w)) (him : im.length = g.c * (yh * yw))
    (h1 : convForward yh g.top g.bottom g.kh g.sh g.dh = .ok (g.h : Int)) (h2 : convForward yw g.left g.right g.kw g.sw g.dw = .ok (g.w : Int)) :
    ∃ out, col2im g yh yw col im = .ok out ∧ out.length = g.c * (yh * yw) ∧ ∀ c r q : Nat, c < g.c → r < yh → q < yw →
      out.getD ((c * yh + r) * yw + q) 0 = ∑ kr ∈ Finset.range g.kh, ∑ kc ∈ Finset.range g.kw, ∑ i ∈ Finset.range g.h, ∑ j ∈ Finset.range g.w,
        if (i : Int) * g.sh + kr * g.dh - g.top = r ∧ (j : Int) * g.sw + kc * g.dw - g.left = q then
          col.getD (((c * g.kh + kr) * g.kw + kc) * (g.h * g.w) + (i * g.w + j)) 0 else 0 := by
  have hz : loop (fun im i => wr im i (0 : α)) (yh * yw * g.c) im = .ok ((List.range (yh * yw * g.c)).map fun _ => 0) :=
    loop_fill (by rw [him]; ring) fun i d hi hd => wr_ok _ (by omega)
  have ea : EffAdd (g.c * (yh * yw)) (fun im => loop (fun im c => loop (fun im kr => loop (fun im kc => loop (fun im i => loop (fun im j =>
      col2imStep g yh yw g.h g.w col c kr kc i j im) g.w im) g.h im) g.kw im) g.kh im) g.c im) _ :=
    EffAdd.loop fun c hc => EffAdd.loop fun kr hkr => EffAdd.loop fun kc hkc => EffAdd.loop fun i hi => EffAdd.loop fun j hj =>
      col2imStep_add hcol hc hkr hkc hi hj
  obtain ⟨out, e, l, v⟩ := ea ((List.range (yh * yw * g.c)).map fun _ => 0) (by simp; ring)
  refine ⟨out, ?_, l, fun c r q hc hr hq => ?_⟩
  · unfold col2im
    rw [hz, Res.bind_ok, h1, Res.bind_ok, h2, Res.bind_ok, if_neg (by omega)]
    exact e
  · have lt : (c * yh + r) * yw + q < g.c * (yh * yw) := by rw [← mul_assoc]; exact rc_lt (rc_lt hc hr) hq
    rw [v _ lt]
    have z : ((List.range (yh * yw * g.c)).map fun _ => (0 : α)).getD ((c * yh + r) * yw + q) 0 = 0 := by
      rw [List.getD_eq_getElem?_getD, List.getElem?_map]
      cases (List.range (yh * yw * g.c))[(c * yh + r) * yw + q]? <;> rfl
    rw [z, zero_add]
    have other : ∀ c' kr kc i j : Nat, c' ≠ c → colDelta g yh yw col c' kr kc i j ((c * yh + r) * yw + q) = 0 := by
      intro c' kr kc i j hne
      unfold colDelta
      rw [if_neg]
      rintro ⟨r2, q2, a1, a2, -, -, a5⟩
      have b1 := (cell2_inj hq a2 a5).1
      exact hne (cell2_inj hr a1 b1).1.symm
    have own : ∀ kr kc i j : Nat, colDelta g yh yw col c kr kc i j ((c * yh + r) * yw + q) =
        if (i : Int) * g.sh + kr * g.dh - g.top = r ∧ (j : Int) * g.sw + kc * g.dw - g.left = q then
          col.getD (((c * g.kh + kr) * g.kw + kc) * (g.h * g.w) + (i * g.w + j)) 0 else 0 := by
      intro kr kc i j
      unfold colDelta
      by_cases hcond : (i : Int) * g.sh + kr * g.dh - g.top = r ∧ (j : Int) * g.sw + kc * g.dw - g.left = q
      · rw [if_pos hcond, if_pos ⟨r, q, hr, hq, hcond.1, hcond.2, rfl⟩]
      · rw [if_neg hcond, if_neg]
        rintro ⟨r2, q2, a1, a2, a3, a4, a5⟩
        obtain ⟨b1, b2⟩ := cell2_inj hq a2 a5
        obtain ⟨-, b3⟩ := cell2_inj hr a1 b1
        subst b2 b3
        exact hcond ⟨a3, a4⟩
    rw [Finset.sum_eq_single_of_mem c (Finset.mem_range.2 hc)]
    · exact Finset.sum_congr rfl fun kr _ => Finset.sum_congr rfl fun kc _ => Finset.sum_congr rfl fun i _ => Finset.sum_congr rfl fun j _ => own kr kc i j
    · intro c' _ hne
      exact Finset.sum_eq_zero fun kr _ => Finset.sum_eq_zero fun kc _ => Finset.sum_eq_zero fun i _ => Finset.sum_eq_zero fun j _ => other c' kr kc i j hne

theorem transposedWeights_ok {g : ConvGeo} {w : List α} (hw : w.length = g.o * (g.c * g.kh * g.kw)) :
    ∃ tw, transposedWeights g w = .ok tw ∧ tw.length = g.c * g.kh * g.kw * g.o ∧
      ∀ m o : Nat, m < g.c * g.kh * g.kw → o < g.o → tw.getD (m * g.o + o) 0 = w.getD (o * (g.c * g.kh * g.kw) + m) 0 := by
  have h : transposedWeights g w = .ok ((List.range (g.c * g.kh * g.kw * g.o)).map fun p => w.getD (p % g.o * (g.c * g.kh * g.kw) + p / g.o) 0) := by
    unfold transposedWeights
    refine forEach_ok fun p hp => ?_
    rw [List.mem_range] at hp
    have ho : 0 < g.o := by
      by_contra h0
      have : g.o = 0 := by omega
      rw [this] at hp
      omega
    have lt : p % g.o * (g.c * g.kh * g.kw) + p / g.o < w.length := by
      rw [hw]
      exact rc_lt (Nat.mod_lt _ ho) (Nat.div_lt_of_lt_mul (by rw [mul_comm]; exact hp))
    exact rd_ok (by rw [List.getD_eq_getElem?_getD, List.getElem?_eq_getElem lt, Option.getD_some])
  refine ⟨_, h, by simp, fun m o hm ho => ?_⟩
  rw [List.getD_eq_getElem?_getD, List.getElem?_map, List.getElem?_range (rc_lt hm ho), Option.map_some, Option.getD_some, mul_add_div' ho,
    mul_add_mod' ho]

/-- what is required of one call: the operands and new memory have their sizes; the strides are positive; the extents of the output, and they plus the
first padding, are `int`s -/
structure TconvValid (g : ConvGeo) (x w : List α) (fresh freshCol : Nat → Nat → List α) (yh yw : Nat) : Prop where
  xlen : x.length = g.n * g.o * g.h * g.w
  wlen : w.length = g.o * g.c * g.kh * g.kw
  fresh : ∀ i n, (fresh i n).length = n
  freshCol : ∀ i n, (freshCol i n).length = n
  strides : 0 < g.sh ∧ 0 < g.sw
  height : convBackward g.h g.top g.bottom g.kh g.sh g.dh = .ok (yh : Int)
  width : convBackward g.w g.left g.right g.kw g.sw g.dw = .ok (yw : Int)
  input : (g.h : Int) < 2 ^ 31 ∧ (g.w : Int) < 2 ^ 31
  fits : (-2 ^ 31 ≤ yh + g.top ∧ yh + g.top < 2 ^ 31) ∧ -2 ^ 31 ≤ yw + g.left ∧ yw + g.left < 2 ^ 31

/-- one image -/
theorem tconvImage_ok {g : ConvGeo} {x w tw : List α} {fresh freshCol : Nat → Nat → List α} {yh yw : Nat} (h : TconvValid g x w fresh freshCol yh yw)
    (htl : tw.length = g.c * g.kh * g.kw * g.o)
    (htw : ∀ m o : Nat, m < g.c * g.kh * g.kw → o < g.o → tw.getD (m * g.o + o) 0 = w.getD (o * (g.c * g.kh * g.kw) + m) 0) {n : Nat} (hn : n < g.n) :
    ∃ out, tconvImage true g yh yw tw (x.drop (n * (g.o * (g.h * g.w)))) (freshCol n (g.c * g.kh * g.kw * (g.h * g.w))) (fresh n (g.c * (yh * yw))) =
      .ok out ∧ out.length = g.c * (yh * yw) ∧ ∀ c r q, c < g.c → r < yh → q < yw → out.getD ((c * yh + r) * yw + q) 0 = tconvSpec g x w n c r q := by
  have xl : g.o * (g.h * g.w) ≤ (x.drop (n * (g.o * (g.h * g.w)))).length := by
    rw [List.length_drop, h.xlen]
    have := Nat.mul_le_mul_right (g.o * (g.h * g.w)) hn
    rw [Nat.succ_mul] at this
    rw [show g.n * g.o * g.h * g.w = g.n * (g.o * (g.h * g.w)) by ring]
    omega
  obtain ⟨col, e, cl, cv⟩ := gemmPacked_ok' (g.c * g.kh * g.kw) (g.h * g.w) g.o tw tw (x.drop (n * (g.o * (g.h * g.w))))
    (freshCol n (g.c * g.kh * g.kw * (g.h * g.w))) true (pack8A_ok _ _ tw (by rw [htl])) xl (h.freshCol _ _)
  have colv : ∀ c kr kc i j : Nat, c < g.c → kr < g.kh → kc < g.kw → i < g.h → j < g.w →
      col.getD (((c * g.kh + kr) * g.kw + kc) * (g.h * g.w) + (i * g.w + j)) 0 =
        ∑ o ∈ Finset.range g.o, w.getD (((o * g.c + c) * g.kh + kr) * g.kw + kc) 0 * x.getD (((n * g.o + o) * g.h + i) * g.w + j) 0 := by
    intro c kr kc i j hc hkr hkc hi hj
    have hm : (c * g.kh + kr) * g.kw + kc < g.c * g.kh * g.kw := rc_lt (rc_lt hc hkr) hkc
    rw [List.getD_eq_getElem?_getD, cv _ _ hm (rc_lt hi hj), Option.getD_some]
    refine Finset.sum_congr rfl fun o ho => ?_
    have ho := Finset.mem_range.1 ho
    rw [htw _ _ hm ho]
    congr 1
    · congr 1; ring
    · rw [List.getD_eq_getElem?_getD, List.getElem?_drop, ← List.getD_eq_getElem?_getD]
      congr 1; ring
  unfold tconvImage
  rw [e, Res.bind_ok]
  by_cases h1 : is1x1 g = true
  · rw [if_pos h1]
    simp only [is1x1, Bool.and_eq_true, beq_iff_eq] at h1
    obtain ⟨⟨⟨⟨⟨⟨⟨a1, a2⟩, a3⟩, a4⟩, a5⟩, a6⟩, a7⟩, a8⟩ := h1
    have unit : ∀ (y d : Nat) (r : Int), convBackward y 0 0 1 1 d = .ok r → r = y := by
      intro y d r hr
      unfold convBackward dilatedKernel at hr
      simp only [Res.bind_eq_ok, int32_eq_ok] at hr
      obtain ⟨_, ⟨_, rfl⟩, _, ⟨_, rfl⟩, _, ⟨_, ⟨_, rfl⟩, _, ⟨_, rfl⟩, _, rfl⟩, _, ⟨_, rfl⟩, _, ⟨_, rfl⟩, _, hr⟩ := hr
      rw [hr]
      ring
    have hH := h.height
    have hW := h.width
    rw [a5, a6, a3, a1] at hH
    rw [a7, a8, a4, a2] at hW
    have eh : yh = g.h := by have := unit _ _ _ hH; omega
    have ew : yw = g.w := by have := unit _ _ _ hW; omega
    subst eh ew
    have cl' : col.length = g.c * (g.h * g.w) := by rw [cl, a3, a4, mul_one, mul_one]
    have fl : (fresh n (g.c * (g.h * g.w))).length = g.c * (g.h * g.w) := h.fresh _ _
    rw [if_pos (by omega), List.drop_of_length_le (by omega), List.append_nil]
    refine ⟨col, rfl, cl', fun c r q hc hr hq => ?_⟩
    have := colv c 0 0 r q hc (by omega) (by omega) hr hq
    rw [a3, a4] at this
    rw [show (c * g.h + r) * g.w + q = ((c * 1 + 0) * 1 + 0) * (g.h * g.w) + (r * g.w + q) by ring, this]
    unfold tconvSpec
    refine Finset.sum_congr rfl fun o _ => ?_
    rw [a3, a4, Finset.sum_range_one, Finset.sum_range_one, a1, a2, a5, a7]
    rw [Finset.sum_eq_single_of_mem r (Finset.mem_range.2 hr)]
    · rw [Finset.sum_eq_single_of_mem q (Finset.mem_range.2 hq)]
      · rw [if_pos (by push_cast; omega)]
      · intro j _ hj
        rw [if_neg (by push_cast; omega)]
    · intro i _ hi
      exact Finset.sum_eq_zero fun j _ => if_neg (by push_cast; omega)
  · rw [if_neg h1]
    have hs := h.strides
    obtain ⟨out, e2, l2, v2⟩ := col2im_ok (g := g) (yh := yh) (yw := yw) (col := col) (im := fresh n (g.c * (yh * yw))) cl (h.fresh _ _)
      (convForward_backward (by omega) h.height h.fits.1 ⟨by omega, h.input.1⟩) (convForward_backward (by omega) h.width h.fits.2 ⟨by omega, h.input.2⟩)
    refine ⟨out, e2, l2, fun c r q hc hr hq => ?_⟩
    rw [v2 c r q hc hr hq]
    unfold tconvSpec
    refine Eq.trans ?_ Finset.sum_comm
    refine Finset.sum_congr rfl fun kr hkr => Eq.trans ?_ Finset.sum_comm
    refine Finset.sum_congr rfl fun kc hkc => Eq.trans ?_ Finset.sum_comm
    refine Finset.sum_congr rfl fun i hi => Eq.trans ?_ Finset.sum_comm
    refine Finset.sum_congr rfl fun j hj => ?_
    rw [colv c kr kc i j hc (Finset.mem_range.1 hkr) (Finset.mem_range.1 hkc) (Finset.mem_range.1 hi) (Finset.mem_range.1 hj)]
    split
    · rfl
    · simp

/-- **C64.** Missing: `FLOAT64` (see below), rounding. -/
theorem C64_transposed_partial (g : ConvGeo) (x w : List α) (fresh freshCol : Nat → Nat → List α) (yh yw : Nat)
    (h : TconvValid g x w fresh freshCol yh yw) :
    ∃ out, tconvRun 10 true true false g.o g x w fresh freshCol = .ok ((yh, yw), out) ∧ out.length = g.n * g.c * yh * yw ∧
      ∀ n c r q, n < g.n → c < g.c → r < yh → q < yw → out[((n * g.c + c) * yh + r) * yw + q]? = some (tconvSpec g x w n c r q) := by
  obtain ⟨tw, te, tl, tv⟩ := transposedWeights_ok (g := g) (w := w) (by rw [h.wlen]; ring)
  have himg := fun n (hn : n < g.n) => tconvImage_ok h tl tv hn
  choose! f hf1 hf2 hf3 using himg
  refine ⟨(List.range g.n).flatMap f, ?_, ?_, ?_⟩
  · unfold tconvRun
    rw [if_neg (by simp), h.height, Res.bind_ok, h.width, Res.bind_ok, if_neg (by omega), if_neg (by simp), te, Res.bind_ok]
    simp only [Int.toNat_natCast]
    have := forEach_ok (g := f) (l := List.range g.n) (fun n hn => hf1 n (List.mem_range.1 hn))
    rw [show ((10 : Nat) == 10) = true from rfl, this, Res.bind_ok, List.flatMap_def]
  · rw [(flatMap_get _ _ _ hf2).1]; ring
  · intro n c r q hn hc hr hq
    have lt : (c * yh + r) * yw + q < g.c * (yh * yw) := by rw [← mul_assoc]; exact rc_lt (rc_lt hc hr) hq
    rw [show ((n * g.c + c) * yh + r) * yw + q = n * (g.c * (yh * yw)) + ((c * yh + r) * yw + q) by ring, (flatMap_get _ _ _ hf2).2 n _ hn lt,
      List.getElem?_eq_getElem (by rw [hf2 n hn]; exact lt), ← hf3 n hn c r q hc hr hq, List.getD_eq_getElem?_getD,
      List.getElem?_eq_getElem (by rw [hf2 n hn]; exact lt), Option.getD_some]

/-- a 2x3 kernel with dilation, stride and padding on a 2x3 image, two channels to three -/
def tconvEx : ConvGeo := { n := 1, c := 3, h := 2, w := 3, o := 2, kh := 2, kw := 3, top := 1, bottom := 0, left := 0, right := 1, sh := 2, sw := 1, dh := 2, dw := 1 }

example : ∃ out, tconvRun 10 true true false 2 tconvEx (List.replicate 12 (1 : Int)) (List.replicate 36 2) (fun _ n => List.replicate n 7)
    (fun _ n => List.replicate n 7) = .ok ((4, 4), out) := by
  obtain ⟨out, h, -⟩ := C64_transposed_partial tconvEx (List.replicate 12 (1 : Int)) (List.replicate 36 2) (fun _ n => List.replicate n 7)
    (fun _ n => List.replicate n 7) 4 4 ⟨by decide, by decide, by simp, by simp, by decide, by decide, by decide, by decide, by decide⟩
  exact ⟨out, h⟩

theorem pair_sum_right {ι : Type} (A B : Nat) (s : Finset ι) (z : Nat → Nat → α) (f : ι → Nat → Nat → α) :
    ∑ r ∈ Finset.range A, ∑ q ∈ Finset.range B, z r q * ∑ k ∈ s, f k r q = ∑ k ∈ s, ∑ r ∈ Finset.range A, ∑ q ∈ Finset.range B, z r q * f k r q := by
  simp only [Finset.mul_sum]
  refine Eq.trans (Finset.sum_congr rfl fun r _ => Finset.sum_comm) Finset.sum_comm

theorem pair_sum_left {ι : Type} (A B : Nat) (s : Finset ι) (z : Nat → Nat → α) (f : ι → Nat → Nat → α) :
    ∑ r ∈ Finset.range A, ∑ q ∈ Finset.range B, (∑ k ∈ s, f k r q) * z r q = ∑ k ∈ s, ∑ r ∈ Finset.range A, ∑ q ∈ Finset.range B, f k r q * z r q := by
  simp only [Finset.sum_mul]
  refine Eq.trans (Finset.sum_congr rfl fun r _ => Finset.sum_comm) Finset.sum_comm

/-- the sum over all cells of an image picks the cell that is hit -/
theorem pick_cell (g : ConvGeo) (z : List α) (n c yh yw : Nat) (r q : Int) (v : α) :
    ∑ r' ∈ Finset.range yh, ∑ q' ∈ Finset.range yw, z.getD (((n * g.c + c) * yh + r') * yw + q') 0 * (if r = (r' : Int) ∧ q = (q' : Int) then v else 0) =
    xpad { g with h := yh, w := yw } 0 z n c r q * v := by
  unfold xpad
  simp only
  by_cases h : 0 ≤ r ∧ r < yh ∧ 0 ≤ q ∧ q < yw
  · rw [if_pos h]
    obtain ⟨r, rfl⟩ := Int.eq_ofNat_of_zero_le h.1
    obtain ⟨q, rfl⟩ := Int.eq_ofNat_of_zero_le h.2.2.1
    rw [Finset.sum_eq_single_of_mem r (Finset.mem_range.2 (by omega)), Finset.sum_eq_single_of_mem q (Finset.mem_range.2 (by omega))]
    · rw [if_pos ⟨rfl, rfl⟩, Int.toNat_natCast, Int.toNat_natCast]
    · intro q' _ hq
      rw [if_neg (by omega), mul_zero]
    · intro r' _ hr
      exact Finset.sum_eq_zero fun q' _ => by rw [if_neg (by omega), mul_zero]
  · rw [if_neg h, zero_mul]
    refine Finset.sum_eq_zero fun r' hr => Finset.sum_eq_zero fun q' hq => ?_
    have hr := Finset.mem_range.1 hr
    have hq := Finset.mem_range.1 hq
    rw [if_neg (by omega), mul_zero]

/-- **C64, duality**: transposed convolution of `x` is the adjoint of the convolution with the same weights and no padding value: for every image `z` of the
extents of the output, the products of `z` with the transposed convolution, and of the convolution of `z` with `x`, sum up to the same. -/
theorem C64_adjoint (g : ConvGeo) (x w z : List α) (n yh yw : Nat) :
    ∑ c ∈ Finset.range g.c, ∑ r ∈ Finset.range yh, ∑ q ∈ Finset.range yw, z.getD (((n * g.c + c) * yh + r) * yw + q) 0 * tconvSpec g x w n c r q =
    ∑ o ∈ Finset.range g.o, ∑ i ∈ Finset.range g.h, ∑ j ∈ Finset.range g.w,
      convSpec { g with h := yh, w := yw } 0 z w n o i j * x.getD (((n * g.o + o) * g.h + i) * g.w + j) 0 := by
  have l : ∀ c, ∑ r ∈ Finset.range yh, ∑ q ∈ Finset.range yw, z.getD (((n * g.c + c) * yh + r) * yw + q) 0 * tconvSpec g x w n c r q =
      ∑ o ∈ Finset.range g.o, ∑ kr ∈ Finset.range g.kh, ∑ kc ∈ Finset.range g.kw, ∑ i ∈ Finset.range g.h, ∑ j ∈ Finset.range g.w,
        xpad { g with h := yh, w := yw } 0 z n c (i * g.sh + kr * g.dh - g.top) (j * g.sw + kc * g.dw - g.left) *
          (w.getD (((o * g.c + c) * g.kh + kr) * g.kw + kc) 0 * x.getD (((n * g.o + o) * g.h + i) * g.w + j) 0) := by
    intro c
    unfold tconvSpec
    rw [pair_sum_right yh yw _ (fun r q => z.getD (((n * g.c + c) * yh + r) * yw + q) 0)]
    refine Finset.sum_congr rfl fun o _ => ?_
    rw [pair_sum_right yh yw _ (fun r q => z.getD (((n * g.c + c) * yh + r) * yw + q) 0)]
    refine Finset.sum_congr rfl fun kr _ => ?_
    rw [pair_sum_right yh yw _ (fun r q => z.getD (((n * g.c + c) * yh + r) * yw + q) 0)]
    refine Finset.sum_congr rfl fun kc _ => ?_
    rw [pair_sum_right yh yw _ (fun r q => z.getD (((n * g.c + c) * yh + r) * yw + q) 0)]
    refine Finset.sum_congr rfl fun i _ => ?_
    rw [pair_sum_right yh yw _ (fun r q => z.getD (((n * g.c + c) * yh + r) * yw + q) 0)]
    exact Finset.sum_congr rfl fun j _ => pick_cell g z n c yh yw _ _ _
  rw [Finset.sum_congr rfl fun c _ => l c, Finset.sum_comm]
  refine Finset.sum_congr rfl fun o _ => ?_
  unfold convSpec
  simp only
  rw [pair_sum_left g.h g.w _ (fun i j => x.getD (((n * g.o + o) * g.h + i) * g.w + j) 0)]
  refine Finset.sum_congr rfl fun c _ => ?_
  rw [pair_sum_left g.h g.w _ (fun i j => x.getD (((n * g.o + o) * g.h + i) * g.w + j) 0)]
  refine Finset.sum_congr rfl fun kr _ => ?_
  rw [pair_sum_left g.h g.w _ (fun i j => x.getD (((n * g.o + o) * g.h + i) * g.w + j) 0)]
  refine Finset.sum_congr rfl fun kc _ => Finset.sum_congr rfl fun i _ => Finset.sum_congr rfl fun j _ => ?_
  ring

/-- `FLOAT64` without CBLAS: the multiplication leaves the column buffer as it was, and the output is made of that. -/
theorem C64_float64_false : ∃ (g : ConvGeo) (x w : List Int), TconvValid g x w (fun _ n => List.replicate n 0) (fun _ n => List.replicate n 42) 1 1 ∧
    tconvRun 11 true true false g.o g x w (fun _ n => List.replicate n 0) (fun _ n => List.replicate n 42) = .ok ((1, 1), [42]) ∧ tconvSpec g x w 0 0 0 0 = 6 := by
  refine ⟨{ n := 1, c := 1, h := 1, w := 1, o := 1, kh := 1, kw := 1, top := 0, bottom := 0, left := 0, right := 0, sh := 1, sw := 1, dh := 1, dw := 1 }, [2], [3],
    ⟨rfl, rfl, by simp, by simp, by decide, by decide, by decide, by decide, by decide⟩, by decide, by decide⟩

/-- **C64, refusals**: weights of another type or for another number of channels, the NHWC layout, packed weights, other types. -/
theorem C64_rejects (dtype wo : Nat) (same nchw packed : Bool) (g : ConvGeo) (x w : List α) (fresh freshCol : Nat → Nat → List α) (yh yw : Nat)
    (hh : convBackward g.h g.top g.bottom g.kh g.sh g.dh = .ok (yh : Int)) (hw : convBackward g.w g.left g.right g.kw g.sw g.dw = .ok (yw : Int))
    (h : same = false ∨ wo ≠ g.o ∨ nchw = false ∨ packed = true ∨ (dtype ≠ 10 ∧ dtype ≠ 11)) :
    tconvRun dtype same nchw packed wo g x w fresh freshCol = .err := by
  unfold tconvRun
  by_cases h1 : (!same) = true ∨ wo ≠ g.o
  · rw [if_pos h1]
  · rw [if_neg h1, hh, Res.bind_ok, hw, Res.bind_ok, if_neg (by omega), if_pos]
    cases same <;> cases nchw <;> cases packed <;> simp_all

example : tconvRun 10 true false false 2 tconvEx (List.replicate 12 (1 : Int)) (List.replicate 36 2) (fun _ n => List.replicate n 7)
    (fun _ n => List.replicate n 7) = .err :=
  C64_rejects 10 2 true false false tconvEx _ _ _ _ 4 4 (by decide) (by decide) (.inr (.inr (.inl rfl)))

end Verif.Props
