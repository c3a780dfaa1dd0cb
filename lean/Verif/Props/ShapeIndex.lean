import Verif.Kernels.ShapeIndex
import Verif.Kernels.Eff
import Verif.Core.Holds
import Verif.Core.Float32
import Verif.Core.ShapeLemmas
/-!
# C80: shape_index_patch cuts a patch around every landmark

The positions are relative: 0 is the centre of the first row (column), 1 that of the last. A patch of `patch` rows around
`p` starts at `p * (feat - 1) - (patch - 1) / 2`, which has to be rounded to a row.
-/
namespace Verif.Props
open Verif.Core Verif.Spec Verif.Kernels

/-- where the patch around `p` starts, as a real number -/
def idealStart (p : Rat) (feat patch : Nat) : Rat := p * (feat - 1) - ((patch : Rat) - 1) / 2

/-- how far rounding can move it -/
def startSlack (p : Rat) (feat patch : Nat) : Rat := (|p| * feat + patch + 2) / 2097152

/-- `s` is a row nearest to the ideal start (up to the slack) -/
def NearestStart (p : Rat) (feat patch : Nat) (s : Int) : Prop :=
  |(s : Rat) - idealStart p feat patch| ≤ 1 / 2 + startSlack p feat patch

/-- the element of a patch starting at row `y` and column `x`: that of the image, zero outside of it -/
def PatchElement (H W : Nat) (X : List Nat → Rat) (y x : Int) (n c a b : Nat) (v : Rat) : Prop :=
  (∀ r s : Nat, r < H → s < W → (r : Int) = y + a → (s : Int) = x + b → v = X [n, c, r, s]) ∧
  ((∀ r s : Nat, r < H → s < W → ¬ ((r : Int) = y + a ∧ (s : Int) = x + b)) → v = 0)

/-- the extent of a patch is the scaled one, rounded -/
def ScaledExtent (patch feat origin : Int) (e : Nat) : Prop :=
  |(e : Rat) - patch * feat / origin| ≤ 1 / 2 + (patch * feat / origin + 1) / 4194304

theorem truncQ_sides (v : Rat) : (0 ≤ v → (truncQ v : Rat) ≤ v ∧ v < truncQ v + 1 ∧ 0 ≤ truncQ v) ∧ (v < 0 → v ≤ truncQ v ∧ (truncQ v : Rat) < v + 1 ∧ truncQ v ≤ 0) := by
  unfold truncQ
  constructor
  · intro h
    rw [if_pos h]
    exact ⟨Int.floor_le v, Int.lt_floor_add_one v, Int.floor_nonneg.2 h⟩
  · intro h
    rw [if_neg (by linarith)]
    refine ⟨Int.le_ceil v, Int.ceil_lt_add_one v, ?_⟩
    rw [Int.ceil_le]; push_cast; linarith

theorem patchExtent_ok {fl : Rat → Rat} (h : Binary32 fl) {patch feat origin : Int} (hp : 0 ≤ patch) (hf : 0 ≤ feat)
    (ho : 1 ≤ origin) (hb : patch * feat ≤ 1048576) (ho' : origin < 16777216) :
    ∃ e : Nat, patchExtent fl patch feat origin = .ok (e : Int) ∧ ScaledExtent patch feat origin e ∧ e ≤ 1048577 := by
  have h0 : 0 ≤ patch * feat := Int.mul_nonneg hp hf
  have e1 : fl ((patch * feat : Int) : Rat) = (patch * feat : Int) := h.exact _ (by rw [abs_lt]; omega)
  have e2 : fl (origin : Rat) = origin := h.exact _ (by rw [abs_lt]; omega)
  have hor : (1 : Rat) ≤ origin := by exact_mod_cast ho
  have hn0 : (0 : Rat) ≤ (patch * feat : Int) := by exact_mod_cast h0
  have hn1 : ((patch * feat : Int) : Rat) ≤ 1048576 := by exact_mod_cast hb
  generalize hq : ((patch * feat : Int) : Rat) / origin = q
  have hq0 : 0 ≤ q := by rw [← hq]; positivity
  have hq1 : q ≤ 1048576 := by
    rw [← hq]
    exact le_trans (div_le_self hn0 hor) hn1
  have b1 := h.error q
  rw [abs_of_nonneg hq0, abs_le] at b1
  generalize hfq : fl q = A at b1
  have b2 := h.error (A + 1 / 2)
  have hA : 0 ≤ A + 1 / 2 := by
    have : q / 16777216 ≤ 1 / 2 := by linarith
    linarith [b1.1]
  rw [abs_of_nonneg hA, abs_le] at b2
  have e3 : patchExtent fl patch feat origin = int32 (truncQ (fl (A + 1 / 2))) := by
    unfold patchExtent intOfReal
    rw [int32_ok (by unfold I32; omega), Res.bind_ok, if_neg (by omega), e1, e2, hq, hfq]
  generalize fl (A + 1 / 2) = D at b2 e3
  have hD : 0 ≤ D := by linarith [b2.1]
  obtain ⟨t1, t2, t3⟩ := (truncQ_sides D).1 hD
  obtain ⟨e, he⟩ := Int.eq_ofNat_of_zero_le t3
  rw [he] at t1 t2 e3
  have hle : (e : Rat) < 1048578 := by push_cast at t1; linarith [b1.2, b2.2]
  have hle' : e ≤ 1048577 := by
    have : e < 1048578 := by exact_mod_cast hle
    omega
  refine ⟨e, ?_, ?_, hle'⟩
  · rw [e3, int32_ok (by unfold I32; omega)]
  · unfold ScaledExtent
    rw [show (patch : Rat) * feat / origin = q by rw [← hq]; push_cast; rfl, abs_le]
    push_cast at t1 t2
    constructor <;> linarith [b1.1, b1.2, b2.1, b2.2]

theorem patchStart_ok {fl : Rat → Rat} (h : Binary32 fl) {p : Rat} {feat patch : Nat} (hp : |p| ≤ 16) (hf : 1 ≤ feat)
    (hf' : feat ≤ 1048576) (hpt : patch ≤ 1048577) :
    ∃ s : Int, patchStart fl p feat patch = .ok s ∧ |s| ≤ 33554432 ∧
      |(s : Rat) - idealStart p feat patch| ≤ 3 / 2 + startSlack p feat patch ∧
      (startSlack p feat patch - 1 / 2 ≤ idealStart p feat patch → NearestStart p feat patch s) := by
  have e1 : fl (((feat : Int) - 1 : Int) : Rat) = ((feat : Int) - 1 : Int) := h.exact _ (by rw [abs_lt]; omega)
  have e2 : fl (((patch : Int) - 1 : Int) : Rat) = ((patch : Int) - 1 : Int) := h.exact _ (by rw [abs_lt]; omega)
  have c1 : (((feat : Int) - 1 : Int) : Rat) = (feat : Rat) - 1 := by push_cast; rfl
  have c2 : (((patch : Int) - 1 : Int) : Rat) = (patch : Rat) - 1 := by push_cast; rfl
  have f1 : (1 : Rat) ≤ feat := by exact_mod_cast hf
  have f2 : (feat : Rat) ≤ 1048576 := by exact_mod_cast hf'
  have t1 : (0 : Rat) ≤ patch := by positivity
  have t2 : (patch : Rat) ≤ 1048577 := by exact_mod_cast hpt
  have hm : |p * ((feat : Rat) - 1)| ≤ |p| * feat := by
    rw [abs_mul, abs_of_nonneg (by linarith : (0 : Rat) ≤ (feat : Rat) - 1)]
    exact mul_le_mul_of_nonneg_left (by linarith) (abs_nonneg p)
  have hM : |p| * feat ≤ 16777216 := by
    calc |p| * feat ≤ 16 * 1048576 := mul_le_mul hp f2 (by linarith) (by norm_num)
      _ = 16777216 := by norm_num
  have hr : |((patch : Rat) - 1) / 2| ≤ ((patch : Rat) + 1) / 2 := by rw [abs_le]; constructor <;> linarith
  unfold NearestStart startSlack
  rw [show idealStart p feat patch = p * ((feat : Rat) - 1) - ((patch : Rat) - 1) / 2 from rfl]
  generalize hmm : p * ((feat : Rat) - 1) = m at hm ⊢
  generalize hrr : ((patch : Rat) - 1) / 2 = r at hr ⊢
  generalize hMM : |p| * (feat : Rat) = M at hm hM ⊢
  have b1 := h.error m
  have b2 := h.error r
  generalize hA : fl m = A at b1
  generalize hB : fl r = B at b2
  have b3 := h.error (A - B)
  generalize hC : fl (A - B) = C at b3
  have b4 := h.error (C + 1 / 2)
  generalize hDD : fl (C + 1 / 2) = D at b4
  have e3 : patchStart fl p feat patch = int32 (truncQ D) := by
    unfold patchStart intOfReal
    rw [e1, e2, c1, c2, hmm, hrr, hA, hB, hC, hDD]
  have hm0 := abs_le.1 hm
  have hr0 := abs_le.1 hr
  have b1' : |A - m| ≤ M / 16777216 := le_trans b1 (by linarith)
  have b2' : |B - r| ≤ (((patch : Rat) + 1) / 2) / 16777216 := le_trans b2 (by linarith)
  rw [abs_le] at b1' b2'
  have hAB : |A - B| ≤ 2 * M + ((patch : Rat) + 1) := by
    rw [abs_le]; constructor <;> linarith [b1'.1, b1'.2, b2'.1, b2'.2, hm0.1, hm0.2, hr0.1, hr0.2]
  have b3' : |C - (A - B)| ≤ (2 * M + ((patch : Rat) + 1)) / 16777216 := le_trans b3 (by linarith)
  have hAB' := abs_le.1 hAB
  rw [abs_le] at b3'
  have hM0 : 0 ≤ M := by rw [← hMM]; positivity
  have hC1 : |C + 1 / 2| ≤ 4 * M + 2 * (patch : Rat) + 5 / 2 := by
    rw [abs_le]; constructor <;> linarith [b3'.1, b3'.2, hAB'.1, hAB'.2]
  have b4' : |D - (C + 1 / 2)| ≤ (4 * M + 2 * (patch : Rat) + 5 / 2) / 16777216 := le_trans b4 (by linarith)
  rw [abs_le] at b4'
  have d1 : D - (m - r + 1 / 2) ≤ (M + patch + 2) / 2097152 := by linarith [b1'.1, b1'.2, b2'.1, b2'.2, b3'.1, b3'.2, b4'.1, b4'.2]
  have d2 : -((M + patch + 2) / 2097152) ≤ D - (m - r + 1 / 2) := by linarith [b1'.1, b1'.2, b2'.1, b2'.2, b3'.1, b3'.2, b4'.1, b4'.2]
  obtain ⟨u1, u2⟩ := truncQ_sides D
  generalize truncQ D = s at e3 u1 u2
  have big : |D| ≤ 33554430 := by rw [abs_le]; constructor <;> linarith
  rw [abs_le] at big
  have hs : |s| ≤ 33554432 := by
    have : |(s : Rat)| ≤ 33554432 := by
      rw [abs_le]
      by_cases hD : 0 ≤ D
      · obtain ⟨a, b, c⟩ := u1 hD; constructor <;> linarith
      · obtain ⟨a, b, c⟩ := u2 (by linarith); constructor <;> linarith
    rw [← Int.cast_abs] at this
    exact_mod_cast this
  refine ⟨s, ?_, hs, ?_, ?_⟩
  · rw [e3, int32_ok]; rw [abs_le] at hs; unfold I32; omega
  · rw [abs_le]
    by_cases hD : 0 ≤ D
    · obtain ⟨a, b, c⟩ := u1 hD; constructor <;> linarith
    · obtain ⟨a, b, c⟩ := u2 (by linarith); constructor <;> linarith
  · intro hv
    have hD : 0 ≤ D := by linarith
    obtain ⟨a, b, c⟩ := u1 hD
    rw [abs_le]; constructor <;> linarith

/-- the element as a function -/
def patchValue (H W : Nat) (X : List Nat → Rat) (y x : Int) (n c a b : Nat) : Rat :=
  if 0 ≤ y + a ∧ y + a < H ∧ 0 ≤ x + b ∧ x + b < W then X [n, c, (y + a).toNat, (x + b).toNat] else 0

theorem patchValue_element (H W : Nat) (X : List Nat → Rat) (y x : Int) (n c a b : Nat) :
    PatchElement H W X y x n c a b (patchValue H W X y x n c a b) := by
  unfold PatchElement patchValue
  constructor
  · intro r s hr hs e1 e2
    rw [if_pos (by omega), show (y + a).toNat = r by omega, show (x + b).toNat = s by omega]
  · intro hn
    rw [if_neg]
    intro h
    exact hn (y + a).toNat (x + b).toNat (by omega) (by omega) ⟨by omega, by omega⟩

theorem patchPixel_ok {N C H W PH L PW : Nat} {x : List Rat} {X : List Nat → Rat} (hX : Holds [N, C, H, W] x X)
    (hx : prod [N, C, H, W] ≤ 2147483647) (ho : prod [N, C, PH, L, PW] ≤ 2147483647) {n c a i b : Nat} (hn : n < N)
    (hc : c < C) (ha : a < PH) (hi : i < L) (hb : b < PW) {y x0 : Int} (hy : |y| ≤ 33554432) (hx0 : |x0| ≤ 33554432)
    (hPH : PH ≤ 1048577) (hPW : PW ≤ 1048577) (out : List Rat) :
    patchPixel x H W (ints (wts [N, C, H, W])) (ints (wts [N, C, PH, L, PW])) n c y x0 i a b out =
      wr out (lin [N, C, PH, L, PW] [n, c, a, i, b]) (patchValue H W X y x0 n c a b) := by
  rw [abs_le] at hy hx0
  have ib : InBounds [N, C, PH, L, PW] [n, c, a, i, b] := ⟨hn, hc, ha, hi, hb, trivial⟩
  have ek : toIndex (ints (wts [N, C, PH, L, PW])) [(n : Int), (c : Int), (a : Int), (i : Int), (b : Int)] =
      .ok ((lin [N, C, PH, L, PW] [n, c, a, i, b] : Nat) : Int) := toIndex_ok ib ho
  unfold patchPixel
  rw [int32_ok (by unfold I32; omega), Res.bind_ok, int32_ok (by unfold I32; omega), Res.bind_ok, ek, Res.bind_ok]
  unfold patchValue
  have hw : ∀ v, wrAtInt out ((lin [N, C, PH, L, PW] [n, c, a, i, b] : Nat) : Int) v = wr out (lin [N, C, PH, L, PW] [n, c, a, i, b]) v := by
    intro v; unfold wrAtInt; rw [if_pos (by omega), Int.toNat_natCast]
  by_cases hin : 0 ≤ y + a ∧ y + a < H ∧ 0 ≤ x0 + b ∧ x0 + b < W
  · rw [if_neg (by omega), if_pos hin]
    obtain ⟨r, hr⟩ := Int.eq_ofNat_of_zero_le hin.1
    obtain ⟨s, hs⟩ := Int.eq_ofNat_of_zero_le hin.2.2.1
    have ib' : InBounds [N, C, H, W] [n, c, r, s] := ⟨hn, hc, by omega, by omega, trivial⟩
    have ej : toIndex (ints (wts [N, C, H, W])) [(n : Int), (c : Int), (r : Int), (s : Int)] =
        .ok ((lin [N, C, H, W] [n, c, r, s] : Nat) : Int) := toIndex_ok ib' hx
    rw [hr, hs]
    simp only [Int.toNat_natCast]
    rw [ej, Res.bind_ok]
    have hv := hX.2 _ ib'
    have hlt : lin [N, C, H, W] [n, c, r, s] < x.length := by rw [hX.1]; exact lin_lt ib'
    rw [readAtInt_ok hlt, Res.bind_ok, hw]
    rw [List.getElem?_eq_getElem hlt] at hv
    rw [Option.some.inj hv]
  · rw [if_pos (by omega), if_neg hin, hw]

/-- the starts of all patches -/
def startsOf (fl : Rat → Rat) (pos : Nat → Nat → Rat) (feat patch : Nat) (n k : Nat) : Int :=
  match patchStart fl (pos n k) feat patch with
  | .ok s => s
  | _ => 0

theorem startsOf_ok {fl : Rat → Rat} {pos : Nat → Nat → Rat} {feat patch n k : Nat} {s : Int}
    (h : patchStart fl (pos n k) feat patch = .ok s) : startsOf fl pos feat patch n k = s := by unfold startsOf; rw [h]

theorem patchOne_eff {fl : Rat → Rat} (h : Binary32 fl) {N C H W PH L PW P : Nat} {x pos : List Rat} {X Pos : List Nat → Rat}
    (hX : Holds [N, C, H, W] x X) (hP : Holds [P, 2 * L, 1, 1] pos Pos) (hx : prod [N, C, H, W] ≤ 2147483647)
    (ho : prod [N, C, PH, L, PW] ≤ 2147483647) (hp : prod [P, 2 * L] ≤ 2147483647) (hNP : N ≤ P) (hH : 1 ≤ H ∧ H ≤ 1048576)
    (hW : 1 ≤ W ∧ W ≤ 1048576) (hPH : PH ≤ 1048577) (hPW : PW ≤ 1048577) {n i : Nat} (hn : n < N) (hi : i < L)
    (hpos : ∀ k, k < 2 * L → |Pos [n, k, 0, 0]| ≤ 16) (g : Nat → Rat)
    (hg : ∀ c a b, c < C → a < PH → b < PW → g (lin [N, C, PH, L, PW] [n, c, a, i, b]) =
      patchValue H W X (startsOf fl (fun n k => Pos [n, k, 0, 0]) H PH n (2 * i + 1))
        (startsOf fl (fun n k => Pos [n, k, 0, 0]) W PW n (2 * i)) n c a b) :
    Eff (prod [N, C, PH, L, PW]) g
      (fun out => patchOne fl x pos C H W PH PW (ints (wts [P, 2 * L])) (ints (wts [N, C, H, W]))
        (ints (wts [N, C, PH, L, PW])) i n out)
      (fun q => ∃ c, c < C ∧ ∃ a, a < PH ∧ ∃ b, b < PW ∧ q = lin [N, C, PH, L, PW] [n, c, a, i, b]) := by
  have rdp : ∀ k, k < 2 * L → ∃ j : Nat, toIndex (ints (wts [P, 2 * L])) [(n : Int), (k : Int)] = .ok (j : Int) ∧
      readAtInt pos j = .ok (Pos [n, k, 0, 0]) := by
    intro k hk
    have ib : InBounds [P, 2 * L] [n, k] := ⟨by omega, hk, trivial⟩
    have ib' : InBounds [P, 2 * L, 1, 1] [n, k, 0, 0] := ⟨by omega, hk, by decide, by decide, trivial⟩
    refine ⟨lin [P, 2 * L] [n, k], toIndex_ok ib hp, ?_⟩
    have el : lin [P, 2 * L] [n, k] = lin [P, 2 * L, 1, 1] [n, k, 0, 0] := by simp [lin, prod]
    have hv := hP.2 _ ib'
    have hlt : lin [P, 2 * L, 1, 1] [n, k, 0, 0] < pos.length := by rw [hP.1]; exact lin_lt ib'
    rw [el, readAtInt_ok hlt]
    rw [List.getElem?_eq_getElem hlt] at hv
    rw [Option.some.inj hv]
  obtain ⟨jy, ey, ry⟩ := rdp (2 * i + 1) (by omega)
  obtain ⟨jx, ex, rx⟩ := rdp (2 * i) (by omega)
  obtain ⟨y, sy, by', -⟩ := patchStart_ok h (hpos (2 * i + 1) (by omega)) hH.1 hH.2 hPH
  obtain ⟨x0, sx, bx', -⟩ := patchStart_ok h (hpos (2 * i) (by omega)) hW.1 hW.2 hPW
  rw [startsOf_ok (pos := fun n k => Pos [n, k, 0, 0]) sy, startsOf_ok (pos := fun n k => Pos [n, k, 0, 0]) sx] at hg
  have key : Eff (prod [N, C, PH, L, PW]) g
      (fun out => loop (fun out c => loop (fun out a => loop (fun out b =>
        patchPixel x H W (ints (wts [N, C, H, W])) (ints (wts [N, C, PH, L, PW])) n c y x0 i a b out) PW out) PH out) C out)
      (fun q => ∃ c, c < C ∧ ∃ a, a < PH ∧ ∃ b, b < PW ∧ q = lin [N, C, PH, L, PW] [n, c, a, i, b]) := by
    apply Eff.loop; intro c hc
    apply Eff.loop; intro a ha
    apply Eff.loop; intro b hb
    have hl : lin [N, C, PH, L, PW] [n, c, a, i, b] < prod [N, C, PH, L, PW] := lin_lt ⟨hn, hc, ha, hi, hb, trivial⟩
    exact (Eff.wr hl (hg c a b hc ha hb).symm).congr
      (fun out _ => patchPixel_ok hX hx ho hn hc ha hi hb by' bx' hPH hPW out) (fun q => Iff.rfl)
  apply key.congr _ (fun q => Iff.rfl)
  intro out _
  unfold patchOne
  rw [show ((2 * i + 1 : Nat) : Int) = 2 * (i : Int) + 1 by push_cast; rfl] at ey
  rw [show ((2 * i : Nat) : Int) = 2 * (i : Int) by push_cast; rfl] at ex
  rw [ey, Res.bind_ok, ry, Res.bind_ok, sy, Res.bind_ok, ex, Res.bind_ok, rx, Res.bind_ok, sx, Res.bind_ok]

/-- **C80.** Inference: as many patches as landmarks, of the size the parameters describe for the original image, scaled to
the feature map and rounded. -/
theorem C80_infer {fl : Rat → Rat} (h : Binary32 fl) (patch origin : Int × Int) (t : Nat) (N C H W P L p2 p3 : Nat)
    (hp : 0 ≤ patch.1 ∧ 0 ≤ patch.2) (ho : 1 ≤ origin.1 ∧ 1 ≤ origin.2) (ho' : origin.1 < 16777216 ∧ origin.2 < 16777216)
    (hb : patch.1 * H ≤ 1048576 ∧ patch.2 * W ≤ 1048576) :
    ∃ ph pw, patchInfer fl patch origin t t [N, C, H, W] [P, 2 * L, p2, p3] = .ok [N, C, ph, L, pw] ∧
      ScaledExtent patch.1 H origin.1 ph ∧ ScaledExtent patch.2 W origin.2 pw ∧ ph ≤ 1048577 ∧ pw ≤ 1048577 := by
  obtain ⟨ph, e1, s1, b1⟩ := patchExtent_ok h hp.1 (by omega : (0 : Int) ≤ H) ho.1 hb.1 ho'.1
  obtain ⟨pw, e2, s2, b2⟩ := patchExtent_ok h hp.2 (by omega : (0 : Int) ≤ W) ho.2 hb.2 ho'.2
  refine ⟨ph, pw, ?_, s1, s2, b1, b2⟩
  unfold patchInfer
  dsimp only
  rw [if_pos rfl, if_pos (by omega), e1, Res.bind_ok, e2, Res.bind_ok, if_neg (by omega)]
  simp

/-- when the scaled size is a whole number, that is the extent -/
theorem C80_extent_exact (patch feat origin : Int) (e k : Nat) (h0 : 0 < origin) (hk : patch * feat = k * origin)
    (hb : k ≤ 1048576) (h : ScaledExtent patch feat origin e) : e = k := by
  unfold ScaledExtent at h
  have hor : (0 : Rat) < origin := by exact_mod_cast h0
  have hq : (patch : Rat) * feat / origin = k := by
    rw [div_eq_iff (by linarith)]; exact_mod_cast hk
  rw [hq, abs_le] at h
  have hb' : (k : Rat) ≤ 1048576 := by exact_mod_cast hb
  have h1 : (e : Rat) < k + 1 := by linarith [h.2]
  have h2 : (k : Rat) < e + 1 := by linarith [h.1]
  have h1' : e < k + 1 := by exact_mod_cast h1
  have h2' : k < e + 1 := by exact_mod_cast h2
  omega

example : ∃ ph pw, patchInfer f32 (32, 32) (112, 112) 10 10 [1, 2, 14, 14] [1, 10, 1, 1] = .ok [1, 2, ph, 5, pw] ∧ ph = 4 ∧ pw = 4 := by
  obtain ⟨ph, pw, e, h1, h2, -, -⟩ := C80_infer f32_binary32 (32, 32) (112, 112) 10 1 2 14 14 1 5 1 1 (by decide) (by decide) (by decide) (by decide)
  exact ⟨ph, pw, e, C80_extent_exact _ _ _ _ _ (by decide) (by decide) (by decide) h1, C80_extent_exact _ _ _ _ _ (by decide) (by decide) (by decide) h2⟩

/-- **C80.** Every landmark of every image gets its patch: one start row and one start column per landmark, every element of
the patch in every channel is that of the image at the start plus the offset, zero outside of the image; and the start is a
row (column) nearest to the one that puts the landmark in the centre, if that is not before the image.
Missing for the full claim: patches that start before the image (`C80_border_false`) are only within 3/2. -/
theorem C80_patches_partial {fl : Rat → Rat} (h : Binary32 fl) (patch origin : Int × Int) (t N C H W P L ph pw : Nat)
    (x pos : List Rat) (X Pos : List Nat → Rat) (fresh : Nat → List Rat)
    (hX : Holds [N, C, H, W] x X) (hP : Holds [P, 2 * L, 1, 1] pos Pos) (hf : ∀ n, (fresh n).length = n)
    (hi : patchInfer fl patch origin t t [N, C, H, W] [P, 2 * L, 1, 1] = .ok [N, C, ph, L, pw])
    (h0 : 0 < N ∧ 0 < C ∧ 0 < L ∧ 0 < ph ∧ 0 < pw) (hNP : N ≤ P) (hH : 1 ≤ H ∧ H ≤ 1048576) (hW : 1 ≤ W ∧ W ≤ 1048576)
    (hph : ph ≤ 1048577) (hpw : pw ≤ 1048577) (hx : prod [N, C, H, W] ≤ 2147483647)
    (ho : prod [N, C, ph, L, pw] ≤ 2147483647) (hp : prod [P, 2 * L] ≤ 2147483647)
    (hpos : ∀ n k, n < N → k < 2 * L → |Pos [n, k, 0, 0]| ≤ 16) :
    ∃ out Y, patchRun fl patch origin ⟨t, [N, C, H, W], x⟩ ⟨t, [P, 2 * L, 1, 1], pos⟩ fresh = .ok ([N, C, ph, L, pw], out) ∧
      Holds [N, C, ph, L, pw] out Y ∧
      ∀ n i, n < N → i < L → ∃ y x0 : Int,
        (∀ c a b, c < C → a < ph → b < pw → PatchElement H W X y x0 n c a b (Y [n, c, a, i, b])) ∧
        |(y : Rat) - idealStart (Pos [n, 2 * i + 1, 0, 0]) H ph| ≤ 3 / 2 + startSlack (Pos [n, 2 * i + 1, 0, 0]) H ph ∧
        |(x0 : Rat) - idealStart (Pos [n, 2 * i, 0, 0]) W pw| ≤ 3 / 2 + startSlack (Pos [n, 2 * i, 0, 0]) W pw ∧
        (startSlack (Pos [n, 2 * i + 1, 0, 0]) H ph - 1 / 2 ≤ idealStart (Pos [n, 2 * i + 1, 0, 0]) H ph →
          NearestStart (Pos [n, 2 * i + 1, 0, 0]) H ph y) ∧
        (startSlack (Pos [n, 2 * i, 0, 0]) W pw - 1 / 2 ≤ idealStart (Pos [n, 2 * i, 0, 0]) W pw →
          NearestStart (Pos [n, 2 * i, 0, 0]) W pw x0) := by
  let ys : Nat → Nat → Int := fun n i => startsOf fl (fun n k => Pos [n, k, 0, 0]) H ph n (2 * i + 1)
  let xs : Nat → Nat → Int := fun n i => startsOf fl (fun n k => Pos [n, k, 0, 0]) W pw n (2 * i)
  let Y : List Nat → Rat := fun d => match d with
    | [n, c, a, i, b] => patchValue H W X (ys n i) (xs n i) n c a b
    | _ => 0
  let g : Nat → Rat := fun q => Y (unlin [N, C, ph, L, pw] q)
  have hg : ∀ n c a i b, n < N → c < C → a < ph → i < L → b < pw → g (lin [N, C, ph, L, pw] [n, c, a, i, b]) =
      patchValue H W X (ys n i) (xs n i) n c a b := by
    intro n c a i b hn hc ha hi hb
    show Y (unlin [N, C, ph, L, pw] (lin [N, C, ph, L, pw] [n, c, a, i, b])) = _
    rw [unlin_lin (s := [N, C, ph, L, pw]) (c := [n, c, a, i, b]) ⟨hn, hc, ha, hi, hb, trivial⟩]
  have hall : Eff (prod [N, C, ph, L, pw]) g
      (fun out => loop (fun out i => loop (fun out n => patchOne fl x pos C H W ph pw (ints (wts [P, 2 * L])) (ints (wts [N, C, H, W]))
        (ints (wts [N, C, ph, L, pw])) i n out) N out) L out)
      (fun q => ∃ i, i < L ∧ ∃ n, n < N ∧ ∃ c, c < C ∧ ∃ a, a < ph ∧ ∃ b, b < pw ∧ q = lin [N, C, ph, L, pw] [n, c, a, i, b]) := by
    apply Eff.loop; intro i hi
    apply Eff.loop; intro n hn
    exact patchOne_eff h hX hP hx ho hp hNP hH hW hph hpw hn hi (fun k hk => hpos n k hn hk) g
      (fun c a b hc ha hb => hg n c a i b hn hc ha hi hb)
  obtain ⟨out, e, hl, hw, -⟩ := hall (fresh (prod [N, C, ph, L, pw])) (hf _)
  refine ⟨out, Y, ?_, ?_, ?_⟩
  · unfold patchRun
    dsimp only
    rw [hi, Res.bind_ok]
    dsimp only
    have w1 : weights (([P, 2 * L, 1, 1].take 2).map Int.ofNat) = .ok (ints (wts [P, 2 * L])) :=
      weights_ok (s := [P, 2 * L]) (fits_of_pos (by simp; omega) hp)
    have w2 : weights [(N : Int), (C : Int), (H : Int), (W : Int)] = .ok (ints (wts [N, C, H, W])) :=
      weights_ok (s := [N, C, H, W]) (fits_of_pos (by simp; omega) hx)
    have w3 : weights [(N : Int), (C : Int), (ph : Int), (L : Int), (pw : Int)] = .ok (ints (wts [N, C, ph, L, pw])) :=
      weights_ok (s := [N, C, ph, L, pw]) (fits_of_pos (by simp; omega) ho)
    unfold patchSample
    rw [w1, Res.bind_ok, w2, Res.bind_ok, w3, Res.bind_ok]
    dsimp only at e
    rw [e, Res.bind_ok]
  · rw [holds_iff]
    refine ⟨hl, fun q hq => ?_⟩
    apply hw
    have ib := unlin_inBounds hq
    have hq' := lin_unlin hq
    match hu : unlin [N, C, ph, L, pw] q, ib with
    | [n, c, a, i, b], ⟨h1, h2, h3, h4, h5, _⟩ => exact ⟨i, h4, n, h1, c, h2, a, h3, b, h5, by rw [hu] at hq'; exact hq'.symm⟩
  · intro n i hn hi
    obtain ⟨y, sy, -, y1, y2⟩ := patchStart_ok h (hpos n (2 * i + 1) hn (by omega)) hH.1 hH.2 hph
    obtain ⟨x0, sx, -, x1, x2⟩ := patchStart_ok h (hpos n (2 * i) hn (by omega)) hW.1 hW.2 hpw
    refine ⟨y, x0, fun c a b hc ha hb => ?_, y1, x1, y2, x2⟩
    have : Y [n, c, a, i, b] = patchValue H W X y x0 n c a b := by
      show patchValue H W X (ys n i) (xs n i) n c a b = _
      rw [show ys n i = y from startsOf_ok (pos := fun n k => Pos [n, k, 0, 0]) sy,
        show xs n i = x0 from startsOf_ok (pos := fun n k => Pos [n, k, 0, 0]) sx]
    rw [this]
    exact patchValue_element ..

example : ∃ (X Pos : List Nat → Rat) (out : List Rat) (Y : List Nat → Rat), Holds [1, 1, 3, 3] [1, 2, 3, 4, 5, 6, 7, 8, 9] X ∧
    Holds [1, 2, 1, 1] [1 / 2, 1] Pos ∧
    patchRun f32 (2, 2) (3, 3) ⟨10, [1, 1, 3, 3], [1, 2, 3, 4, 5, 6, 7, 8, 9]⟩ ⟨10, [1, 2, 1, 1], [1 / 2, 1]⟩ (List.replicate · 0) =
      .ok ([1, 1, 2, 1, 2], out) ∧ Holds [1, 1, 2, 1, 2] out Y := by
  have hX := holds_exists (s := [1, 1, 3, 3]) (data := [(1 : Rat), 2, 3, 4, 5, 6, 7, 8, 9]) rfl
  have hP := holds_exists (s := [1, 2, 1, 1]) (data := [(1 / 2 : Rat), 1]) rfl
  obtain ⟨out, Y, e, h, -⟩ := C80_patches_partial f32_binary32 (2, 2) (3, 3) 10 1 1 3 3 1 1 2 2 _ _ _ _ (List.replicate · 0) hX hP (by simp)
    (by decide +kernel) (by decide) (by decide) (by decide) (by decide) (by decide) (by decide) (by decide) (by decide) (by decide)
    (by
      intro n k hn hk
      have : n = 0 := by omega
      subst this
      have : k = 0 ∨ k = 1 := by omega
      rcases this with rfl | rfl <;> decide +kernel)
  exact ⟨_, _, out, Y, hX, hP, e, h⟩

/-- such a result: the landmark (1/2, 1) of a 3 x 3 image is between columns, in the last row -/
example : patchRun f32 (2, 2) (3, 3) ⟨10, [1, 1, 3, 3], [1, 2, 3, 4, 5, 6, 7, 8, 9]⟩ ⟨10, [1, 2, 1, 1], [1 / 2, 1]⟩ (List.replicate · 7) =
    .ok ([1, 1, 2, 1, 2], [8, 9, 0, 0]) := by decide +kernel

/-- `float` has the halves of these numbers -/
theorem f32_half (k : Int) (hk : |k| ≤ 2097152) : f32 (k / 2) = k / 2 := by
  by_cases h0 : k = 0
  · subst h0; decide +kernel
  have hpos : (0 : Rat) < |(k : Rat) / 2| := by rw [abs_pos]; simpa using h0
  have hlog : Int.log 2 |(k : Rat) / 2| ≤ 20 := by
    have hle : |(k : Rat) / 2| ≤ ((2 : ℕ) : Rat) ^ (20 : ℤ) := by
      rw [abs_div, ← Int.cast_abs]
      have : ((|k| : Int) : Rat) ≤ 2097152 := by exact_mod_cast hk
      rw [abs_of_pos (by norm_num : (0 : Rat) < 2)]
      norm_num
      rw [Int.cast_abs] at this
      linarith
    calc Int.log 2 |(k : Rat) / 2| ≤ Int.log 2 (((2 : ℕ) : Rat) ^ (20 : ℤ)) := Int.log_mono_right hpos hle
      _ = 20 := Int.log_zpow (by norm_num) _
  obtain ⟨n, hn⟩ := Int.eq_ofNat_of_zero_le (show 0 ≤ 22 - Int.log 2 |(k : Rat) / 2| by omega)
  have hm := f32_nearest ((k : Rat) / 2) (k * 2 ^ n)
  have e : (((k * 2 ^ n : Int)) : Rat) * ulp ((k : Rat) / 2) = k / 2 := by
    unfold ulp
    rw [show Int.log 2 |(k : Rat) / 2| - 23 = -(n : Int) + -1 by omega, zpow_add₀ (by norm_num), zpow_neg, zpow_neg, zpow_natCast]
    push_cast
    have h2 : (2 : Rat) ^ n ≠ 0 := by positivity
    field_simp
  rw [e, sub_self, abs_zero] at hm
  have := abs_nonpos_iff.1 hm
  linarith

/-- **C80, false of the code.** A landmark in the first row is not in the centre of its patch: for every odd extent of the
patch from 3 on the ideal start is the whole number -(patch - 1) / 2, the code starts one row later. -/
theorem C80_border_false {fl : Rat → Rat} (hfl : ∀ k : Int, |k| ≤ 2097152 → fl (k / 2) = k / 2) (feat k : Nat) (hk : 1 ≤ k)
    (hk' : k ≤ 524288) :
    idealStart 0 feat (2 * k + 1) = ((-(k : Int) : Int) : Rat) ∧ patchStart fl 0 feat ((2 * k + 1 : Nat) : Int) = .ok (-(k : Int) + 1) := by
  constructor
  · unfold idealStart; push_cast; ring
  · have f0 : fl 0 = 0 := by have := hfl 0 (by decide); simpa using this
    have f1 : fl ((((2 * k + 1 : Nat) : Int) - 1 : Int) : Rat) = 2 * (k : Rat) := by
      have := hfl (4 * k) (by rw [abs_le]; omega)
      push_cast at this ⊢
      rw [show (4 * (k : Rat)) / 2 = 2 * k by ring] at this
      rw [show 2 * (k : Rat) + 1 - 1 = 2 * k by ring, this]
    have f2 : fl (2 * (k : Rat) / 2) = k := by
      have := hfl (2 * k) (by rw [abs_le]; omega)
      push_cast at this
      rw [this]; ring
    have f3 : fl (0 - (k : Rat)) = -(k : Rat) := by
      have := hfl (-(2 * k)) (by rw [abs_le]; omega)
      push_cast at this
      rw [show -(2 * (k : Rat)) / 2 = 0 - k by ring] at this
      rw [this]; ring
    have f4 : fl (-(k : Rat) + 1 / 2) = -(k : Rat) + 1 / 2 := by
      have := hfl (-(2 * k) + 1) (by rw [abs_le]; omega)
      push_cast at this
      rw [show (-(2 * (k : Rat)) + 1) / 2 = -(k : Rat) + 1 / 2 by ring] at this
      exact this
    unfold patchStart intOfReal
    rw [zero_mul, f0, f1, f2, f3, f4]
    have ht : truncQ (-(k : Rat) + 1 / 2) = -(k : Int) + 1 := by
      have hk1 : (1 : Rat) ≤ k := by exact_mod_cast hk
      unfold truncQ
      rw [if_neg (by linarith), Int.ceil_eq_iff]
      push_cast
      constructor <;> linarith
    rw [ht, int32_ok (by unfold I32; omega)]

example : patchStart f32 0 14 ((2 * 2 + 1 : Nat) : Int) = .ok (-((2 : Nat) : Int) + 1) := (C80_border_false f32_half 14 2 (by decide) (by decide)).2

/-- for `float`: a landmark in the corner of an image and a patch of 3 x 3: the landmark's pixel should be the one in the
middle, it is the first -/
theorem C80_corner_false : idealStart 0 3 3 = -1 ∧ patchStart f32 0 3 3 = .ok 0 ∧
    patchRun f32 (3, 3) (3, 3) ⟨10, [1, 1, 3, 3], [1, 2, 3, 4, 5, 6, 7, 8, 9]⟩ ⟨10, [1, 2, 1, 1], [0, 0]⟩ (List.replicate · 7) =
    .ok ([1, 1, 3, 1, 3], [1, 2, 3, 4, 5, 6, 7, 8, 9]) := by
  refine ⟨by decide +kernel, by decide +kernel, by decide +kernel⟩

/-- **C80, false of the code.** Nothing checks the positions: with fewer images in them than in the feature map they are read
beyond their end; with more than one number per landmark coordinate the wrong ones are read (the second landmark's are taken
from the first landmark's surplus); a far position is converted outside of `int`; a zero in the original size is undefined. -/
theorem C80_unchecked_false :
    patchRun f32 (1, 1) (1, 1) ⟨10, [2, 1, 1, 1], [1, 2]⟩ ⟨10, [1, 2, 1, 1], [0, 0]⟩ (List.replicate · 7) = .ub ∧
    patchRun f32 (1, 1) (2, 2) ⟨10, [1, 1, 2, 2], [1, 2, 3, 4]⟩ ⟨10, [1, 2, 1, 2], [0, 1, 0, 0]⟩ (List.replicate · 7) = .ok ([1, 1, 1, 1, 1], [3]) ∧
    patchRun f32 (1, 1) (2, 2) ⟨10, [1, 1, 2, 2], [1, 2, 3, 4]⟩ ⟨10, [1, 2, 1, 1], [4294967296, 0]⟩ (List.replicate · 7) = .ub ∧
    patchRun f32 (1, 1) (0, 2) ⟨10, [1, 1, 2, 2], [1, 2, 3, 4]⟩ ⟨10, [1, 2, 1, 1], [0, 0]⟩ (List.replicate · 7) = .ub := by
  refine ⟨by decide +kernel, by decide +kernel, by decide +kernel, by decide +kernel⟩

/-- **C80.** Operands of another rank, of different types and an odd number of coordinates are refused. -/
theorem C80_rejects (fl : Rat → Rat) (patch origin : Int × Int) (x pos : Operand Rat) (fresh : Nat → List Rat)
    (h : x.shape.length ≠ 4 ∨ pos.shape.length ≠ 4 ∨ x.dtype ≠ pos.dtype ∨ ∃ k, pos.shape[1]? = some k ∧ k % 2 = 1) :
    patchRun fl patch origin x pos fresh = .err := by
  have : patchInfer fl patch origin x.dtype pos.dtype x.shape pos.shape = .err := by
    unfold patchInfer
    split
    · rename_i N C H W p0 p1 p2 p3 hx hp
      rw [hx, hp] at h
      by_cases ht : x.dtype = pos.dtype
      · rw [if_pos ht, if_neg]
        rcases h with h | h | h | ⟨k, h, hk⟩
        · simp at h
        · simp at h
        · exact absurd ht h
        · simp only [List.getElem?_cons_succ, List.getElem?_cons_zero, Option.some.injEq] at h
          omega
      · rw [if_neg ht]
    · rfl
  unfold patchRun
  rw [this]
  rfl

example : patchRun f32 (1, 1) (1, 1) ⟨10, [1, 1, 1, 1], [1]⟩ ⟨10, [1, 3, 1, 1], [0, 0, 0]⟩ (List.replicate · 7) = .err :=
  C80_rejects _ _ _ _ _ _ (Or.inr (Or.inr (Or.inr ⟨3, rfl, rfl⟩)))

end Verif.Props
