import Verif.Kernels.RoiAlign
import Verif.Kernels.Eff
import Verif.Core.Holds
import Verif.Core.Float32
import Verif.Props.Resize
import Verif.Props.ShapeIndex
/-!
# C85: roi_align

Specification: the plane sampled at a place (`planeAt`, linear interpolation by tents, `Props/Resize`), the places of the samples of a bin and their
mean (`BinMean`).
-/
namespace Verif.Props
open Verif.Core Verif.Kernels Verif.Spec

/-! ## specification -/

/-- a plane of `H` rows and `W` columns at a place: linear between the pixels, the border goes on for one pixel, zero beyond -/
def planeAt (H W : Nat) (P : Nat → Nat → Rat) (y x : Rat) : Rat :=
  if -1 ≤ y ∧ y ≤ H ∧ -1 ≤ x ∧ x ≤ W then blend tent H W P (max 0 (min y ((H : Rat) - 1))) (max 0 (min x ((W : Rat) - 1))) else 0

/-- a region along one axis, in pixels of the plane: at least one pixel long -/
def sideLength (scale lo hi : Rat) : Rat := max (hi * scale - lo * scale) 1

/-- samples per bin along one axis -/
def samplesOf (sampling pool : Int) (len : Rat) : Nat := if 0 < sampling then sampling.toNat else ⌈len / pool⌉.toNat

/-- the place of sample `i` of `g` in bin `p` of `pool` -/
def placeOf (scale lo hi : Rat) (pool : Int) (g p i : Nat) : Rat := lo * scale + (p + (i + 1 / 2) / g) * (sideLength scale lo hi / pool)

/-- a region: image, left, top, right, bottom -/
structure Region where
  image : Rat
  x1 : Rat
  y1 : Rat
  x2 : Rat
  y2 : Rat

/-- the mean of the samples of the bin (i, j) of a region -/
def binMean (p : RoiParams) (H W : Nat) (P : Nat → Nat → Rat) (r : Region) (i j : Nat) : Rat :=
  let gy := samplesOf p.sampling p.poolH (sideLength p.scale r.y1 r.y2)
  let gx := samplesOf p.sampling p.poolW (sideLength p.scale r.x1 r.x2)
  (∑ a ∈ Finset.range gy, ∑ b ∈ Finset.range gx,
    planeAt H W P (placeOf p.scale r.y1 r.y2 p.poolH gy i a) (placeOf p.scale r.x1 r.x2 p.poolW gx j b)) / (gy * gx)

/-- row `n` of the operand with the regions -/
def regionOf (B : List Nat → Rat) (n : Nat) : Region := ⟨B [n, 0], B [n, 1], B [n, 2], B [n, 3], B [n, 4]⟩

/-! ## pure counterparts -/

theorem loop_fold {σ : Type} {f : σ → Nat → Res σ} {g : σ → Nat → σ} {n : Nat} {s : σ} (h : ∀ i s, i < n → f s i = .ok (g s i)) :
    loop f n s = .ok ((List.range n).foldl g s) := by
  induction n with
  | zero => rfl
  | succ n ih =>
    simp only [loop]
    rw [ih (fun i s hi => h i s (by omega)), Res.bind_ok, h n _ (by omega), List.range_succ, List.foldl_append]
    rfl

/-- the neighbours and the weight -/
def axisVal (fl : Rat → Rat) (n : Nat) (t : Rat) : Nat × Nat × Rat :=
  let t := if t ≤ 0 then 0 else t
  let low := (truncQ t).toNat
  if n - 1 ≤ low then (n - 1, n - 1, fl (fl ((n : Int) - 1 : Int) - fl ((n : Int) - 1 : Int))) else (low, low + 1, fl (t - fl low))

theorem roiAxis_ok {fl : Rat → Rat} {n : Nat} {t : Rat} (h0 : 0 < n) (hn : n ≤ 16777216) (ht : t ≤ n) :
    ∃ a b w, axisVal fl n t = (a, b, w) ∧ a < n ∧ b < n ∧ roiAxis fl n t = .ok ((a : Int), (b : Int), w) := by
  unfold axisVal roiAxis
  simp only
  generalize hu : (if t ≤ 0 then 0 else t) = u
  have u0 : 0 ≤ u := by rw [← hu]; split <;> linarith
  have un : u ≤ n := by
    rw [← hu]; split
    · exact_mod_cast Nat.zero_le n
    · exact ht
  obtain ⟨s1, s2, s3⟩ := (truncQ_sides u).1 u0
  have hle : truncQ u ≤ n := by
    have : (truncQ u : Rat) ≤ n := le_trans s1 un
    exact_mod_cast this
  have e : intOfReal u = .ok (truncQ u) := by
    unfold intOfReal
    rw [int32_ok]
    unfold I32
    omega
  rw [e, Res.bind_ok]
  obtain ⟨k, hk⟩ := Int.eq_ofNat_of_zero_le s3
  rw [hk]
  simp only [Int.toNat_natCast]
  by_cases hc : n - 1 ≤ k
  · rw [if_pos hc, if_pos (by omega)]
    refine ⟨_, _, _, rfl, by omega, by omega, ?_⟩
    rw [show ((n - 1 : Nat) : Int) = (n : Int) - 1 by omega]
  · rw [if_neg hc, if_neg (by omega)]
    refine ⟨_, _, _, rfl, by omega, by omega, ?_⟩
    simp

/-- `_ROIAlignInterpolate` on a plane -/
def interpVal (fl : Rat → Rat) (H W : Nat) (P : Nat → Nat → Rat) (ty tx : Rat) : Rat :=
  if ty < -1 ∨ fl H < ty ∨ tx < -1 ∨ fl W < tx then 0 else
    let a := axisVal fl H ty
    let b := axisVal fl W tx
    let hy := fl (1 - a.2.2)
    let hx := fl (1 - b.2.2)
    fl (fl (fl (fl (fl (hy * hx) * P a.1 b.1) + fl (fl (hy * b.2.2) * P a.1 b.2.1)) + fl (fl (a.2.2 * hx) * P a.2.1 b.1)) +
      fl (fl (a.2.2 * b.2.2) * P a.2.1 b.2.1))

/-- the platform has these whole numbers -/
def Whole (fl : Rat → Rat) : Prop := ∀ n : Nat, n ≤ 16777216 → fl n = n

theorem roiInterp_ok {fl : Rat → Rat} (hfl : Whole fl) {x : List Rat} {start H W : Nat} {P : Nat → Nat → Rat} (hH : 0 < H ∧ H ≤ 16777216)
    (hW : 0 < W ∧ W ≤ 16777216) (hP : ∀ r c, r < H → c < W → x[start + (r * W + c)]? = some (P r c)) (ty tx : Rat) :
    roiInterp fl x start H W ty tx = .ok (interpVal fl H W P ty tx) := by
  unfold roiInterp interpVal
  by_cases h : ty < -1 ∨ fl H < ty ∨ tx < -1 ∨ fl W < tx
  · rw [if_pos h, if_pos h]
  · rw [if_neg h, if_neg h]
    simp only [not_or, not_lt] at h
    obtain ⟨-, h2, -, h4⟩ := h
    rw [hfl H hH.2] at h2
    rw [hfl W hW.2] at h4
    obtain ⟨a, b, w, e1, a1, b1, e2⟩ := roiAxis_ok (fl := fl) hH.1 hH.2 h2
    obtain ⟨a', b', w', e1', a1', b1', e2'⟩ := roiAxis_ok (fl := fl) hW.1 hW.2 h4
    have rdx : ∀ r c, r < H → c < W → readAtInt x ((start : Int) + ((r : Int) * W + (c : Int))) = .ok (P r c) := by
      intro r c hr hc
      have := hP r c hr hc
      obtain ⟨hl, hv⟩ := List.getElem?_eq_some_iff.1 this
      have ei : ((start : Int) + ((r : Int) * W + (c : Int))) = ((start + (r * W + c) : Nat) : Int) := by push_cast; ring
      rw [ei, readAtInt_ok hl, hv]
    rw [e2, Res.bind_ok, e2', Res.bind_ok]
    simp only
    rw [rdx _ _ a1 a1', Res.bind_ok, rdx _ _ a1 b1', Res.bind_ok, rdx _ _ b1 a1', Res.bind_ok, rdx _ _ b1 b1', Res.bind_ok, e1, e1']

/-- one element -/
def cellVal (fl : Rat → Rat) (H W : Nat) (P : Nat → Nat → Rat) (sh sw : RoiSide) (ph pw : Nat) : Rat :=
  fl ((List.range sh.grid.toNat).foldl (fun s iy => (List.range sw.grid.toNat).foldl (fun s ix =>
    fl (s + interpVal fl H W P (roiPlace fl sh.start sh.bin sh.grid ph iy) (roiPlace fl sw.start sw.bin sw.grid pw ix))) s) 0 /
    fl (fl sh.grid * fl sw.grid))

theorem roiCell_ok {fl : Rat → Rat} (hfl : Whole fl) {x : List Rat} {start H W : Nat} {P : Nat → Nat → Rat} (hH : 0 < H ∧ H ≤ 16777216)
    (hW : 0 < W ∧ W ≤ 16777216) (hP : ∀ r c, r < H → c < W → x[start + (r * W + c)]? = some (P r c)) (sh sw : RoiSide) (ph pw : Nat) :
    roiCell fl x start H W sh sw ph pw = .ok (cellVal fl H W P sh sw ph pw) := by
  unfold roiCell
  rw [loop_fold (g := fun s iy => (List.range sw.grid.toNat).foldl (fun s ix =>
    fl (s + interpVal fl H W P (roiPlace fl sh.start sh.bin sh.grid ph iy) (roiPlace fl sw.start sw.bin sw.grid pw ix))) s), Res.bind_ok]
  · rfl
  · intro iy s _
    apply loop_fold
    intro ix s _
    rw [roiInterp_ok hfl hH hW hP, Res.bind_ok]

/-- the side of a region as the code computes it, if the number of samples is an `int` -/
def sideVal (fl : Rat → Rat) (scale : Rat) (sampling pool : Int) (lo hi : Rat) : RoiSide :=
  let size := if fl (fl (hi * scale) - fl (lo * scale)) < 1 then 1 else fl (fl (hi * scale) - fl (lo * scale))
  ⟨fl (lo * scale), fl (size / fl pool), if sampling > 0 then sampling else ⌈fl (size / fl pool)⌉⟩

theorem roiSide_ok {fl : Rat → Rat} {scale : Rat} {sampling pool : Int} {lo hi : Rat}
    (h : sampling > 0 ∨ I32 ⌈(sideVal fl scale sampling pool lo hi).bin⌉) :
    roiSide fl scale sampling pool lo hi = .ok (sideVal fl scale sampling pool lo hi) := by
  unfold roiSide sideVal
  simp only
  by_cases hs : sampling > 0
  · rw [if_pos hs, Res.bind_ok, if_pos hs]
  · have h := h.resolve_left hs
    unfold sideVal at h
    simp only at h
    rw [if_neg hs, int32_ok h, Res.bind_ok, if_neg hs]

/-- the value of an element as a function of parameters, extents, plane and region -/
def roiVal (fl : Rat → Rat) (p : RoiParams) (H W : Nat) (P : Nat → Nat → Rat) (r : Region) (i j : Nat) : Rat :=
  cellVal fl H W P (sideVal fl p.scale p.sampling p.poolH r.y1 r.y2) (sideVal fl p.scale p.sampling p.poolW r.x1 r.x2) i j

/-- element by element -/
def roiOut (fl : Rat → Rat) (p : RoiParams) (H W : Nat) (X B : List Nat → Rat) : List Nat → Rat
  | [n, c, i, j] => if B [n, 0] ≤ -1 then 0 else roiVal fl p H W (fun r q => X [(truncQ (B [n, 0])).toNat, c, r, q]) (regionOf B n) i j
  | _ => 0

theorem truncQ_neg (v : Rat) : truncQ v < 0 ↔ v ≤ -1 := by
  obtain ⟨h1, h2⟩ := truncQ_sides v
  by_cases h : 0 ≤ v
  · obtain ⟨-, -, c⟩ := h1 h
    constructor
    · intro; omega
    · intro; linarith
  · obtain ⟨a, b, c⟩ := h2 (by linarith)
    constructor
    · intro hc
      have : (truncQ v : Rat) ≤ -1 := by exact_mod_cast (show truncQ v ≤ -1 by omega)
      linarith
    · intro hc
      have : (truncQ v : Rat) < 0 := by linarith
      exact_mod_cast this

/-- the number of samples of a region is an `int` -/
def GridFits (fl : Rat → Rat) (p : RoiParams) (r : Region) : Prop :=
  p.sampling > 0 ∨ (I32 ⌈(sideVal fl p.scale p.sampling p.poolH r.y1 r.y2).bin⌉ ∧ I32 ⌈(sideVal fl p.scale p.sampling p.poolW r.x1 r.x2).bin⌉)

theorem roiOne_eff {fl : Rat → Rat} (hfl : Whole fl) {p : RoiParams} {PH PW : Nat} {x rois : List Rat} {X B : List Nat → Rat} {N C H W R n : Nat}
    (hX : Holds [N, C, H, W] x X) (hB : Holds [R, 5] rois B) (hH : 0 < H ∧ H ≤ 16777216) (hW : 0 < W ∧ W ≤ 16777216) (hn : n < R)
    (hb : B [n, 0] < N) (hlo : -2147483649 < B [n, 0]) (hN : 0 < N ∧ N ≤ 2147483647) (hs : -1 < B [n, 0] → GridFits fl p (regionOf B n))
    (g : Nat → Rat) (hg : ∀ c i j, c < C → i < PH → j < PW → g (lin [R, C, PH, PW] [n, c, i, j]) = roiOut fl p H W X B [n, c, i, j]) :
    Eff (prod [R, C, PH, PW]) g (fun out => roiOne fl p PH PW x rois C H W n out)
      (fun q => ∃ c, c < C ∧ ∃ i, i < PH ∧ ∃ j, j < PW ∧ q = lin [R, C, PH, PW] [n, c, i, j]) := by
  have rdb : ∀ k, k < 5 → rd rois (n * 5 + k) = .ok (B [n, k]) := by
    intro k hk
    have := hB.2 [n, k] ⟨hn, hk, trivial⟩
    rw [show lin [R, 5] [n, k] = n * 5 + k by simp [lin, prod]] at this
    exact rd_ok this
  have hlin : ∀ c i j, lin [R, C, PH, PW] [n, c, i, j] = n * (C * (PH * PW)) + c * (PH * PW) + (i * PW + j) := by
    intro c i j; simp only [lin, prod]; ring
  obtain ⟨t1, t2⟩ := truncQ_sides (B [n, 0])
  have hlo' : -2147483648 ≤ truncQ (B [n, 0]) := by
    by_cases h0 : 0 ≤ B [n, 0]
    · have := (t1 h0).2.2; omega
    · have := (t2 (by linarith)).1
      have : (-2147483649 : Rat) < truncQ (B [n, 0]) := by linarith
      have : (-2147483649 : Int) < truncQ (B [n, 0]) := by exact_mod_cast this
      omega
  have hhi' : truncQ (B [n, 0]) < N ∨ truncQ (B [n, 0]) < 1 := by
    by_cases h0 : 0 ≤ B [n, 0]
    · have := (t1 h0).1
      have : (truncQ (B [n, 0]) : Rat) < N := by linarith
      left; exact_mod_cast this
    · have := (t2 (by linarith)).2.2
      omega
  have ei : intOfReal (B [n, 0]) = .ok (truncQ (B [n, 0])) := by
    unfold intOfReal
    rw [int32_ok]
    unfold I32
    omega
  have start : ∀ out, roiOne fl p PH PW x rois C H W n out = (if truncQ (B [n, 0]) < 0 then loop (fun out i => wr out (n * (C * (PH * PW)) + i) 0) (C * (PH * PW)) out
      else do
        let sh ← roiSide fl p.scale p.sampling p.poolH (B [n, 2]) (B [n, 4])
        let sw ← roiSide fl p.scale p.sampling p.poolW (B [n, 1]) (B [n, 3])
        loop (fun out c => loop (fun out ph => loop (fun out pw => do
          let v ← roiCell fl x ((truncQ (B [n, 0])).toNat * (C * (H * W)) + c * (H * W)) H W sh sw ph pw
          wr out (n * (C * (PH * PW)) + c * (PH * PW) + (ph * PW + pw)) v) PW out) PH out) C out) := by
    intro out
    unfold roiOne
    have r0 := rdb 0 (by decide)
    rw [Nat.add_zero] at r0
    rw [r0, Res.bind_ok, ei, Res.bind_ok, rdb 1 (by decide), Res.bind_ok, rdb 2 (by decide), Res.bind_ok, rdb 3 (by decide), Res.bind_ok, rdb 4 (by decide), Res.bind_ok]
  by_cases hneg : truncQ (B [n, 0]) < 0
  · have hz : Eff (prod [R, C, PH, PW]) g (fun out => loop (fun out i => wr out (n * (C * (PH * PW)) + i) 0) (C * (PH * PW)) out)
        (fun q => ∃ k, k < C * (PH * PW) ∧ q = n * (C * (PH * PW)) + k) := by
      apply Eff.loop
      intro k hk
      have hk' : k < prod [C, PH, PW] := by simpa [prod] using hk
      have ib := unlin_inBounds hk'
      have hq := lin_unlin hk'
      match hu : unlin [C, PH, PW] k, ib with
      | [c, i, j], ⟨h1, h2, h3, _⟩ =>
        rw [hu] at hq
        have ek : n * (C * (PH * PW)) + k = lin [R, C, PH, PW] [n, c, i, j] := by
          rw [hlin, ← hq]; simp only [lin, prod]; ring
        rw [ek]
        apply Eff.wr
        · exact lin_lt ⟨hn, h1, h2, h3, trivial⟩
        · rw [hg c i j h1 h2 h3]
          show 0 = if B [n, 0] ≤ -1 then 0 else _
          rw [if_pos ((truncQ_neg _).1 hneg)]
    apply hz.congr
    · intro out _
      rw [start, if_pos hneg]
    · intro q
      constructor
      · rintro ⟨c, hc, i, hi, j, hj, rfl⟩
        refine ⟨c * (PH * PW) + (i * PW + j), ?_, by rw [hlin]; ring⟩
        exact cell2_lt hc (cell2_lt hi hj)
      · rintro ⟨k, hk, rfl⟩
        have hk' : k < prod [C, PH, PW] := by simpa [prod] using hk
        have ib := unlin_inBounds hk'
        have hq := lin_unlin hk'
        match hu : unlin [C, PH, PW] k, ib with
        | [c, i, j], ⟨h1, h2, h3, _⟩ =>
          rw [hu] at hq
          refine ⟨c, h1, i, h2, j, h3, ?_⟩
          rw [hlin, ← hq]; simp only [lin, prod]; ring
  · have hpos : -1 < B [n, 0] := by
      by_contra hc
      exact hneg ((truncQ_neg _).2 (by linarith))
    obtain ⟨b, hbn⟩ := Int.eq_ofNat_of_zero_le (show 0 ≤ truncQ (B [n, 0]) by omega)
    have hbN : b < N := by omega
    have hP : ∀ c, c < C → ∀ r q, r < H → q < W → x[b * (C * (H * W)) + c * (H * W) + (r * W + q)]? = some (X [b, c, r, q]) := by
      intro c hc r q hr hq
      have := hX.2 [b, c, r, q] ⟨hbN, hc, hr, hq, trivial⟩
      rw [← this]
      congr 1
      simp only [lin, prod]; ring
    have hgf := hs hpos
    have e1 : roiSide fl p.scale p.sampling p.poolH (B [n, 2]) (B [n, 4]) = .ok (sideVal fl p.scale p.sampling p.poolH (B [n, 2]) (B [n, 4])) :=
      roiSide_ok (hgf.imp id (·.1))
    have e2 : roiSide fl p.scale p.sampling p.poolW (B [n, 1]) (B [n, 3]) = .ok (sideVal fl p.scale p.sampling p.poolW (B [n, 1]) (B [n, 3])) :=
      roiSide_ok (hgf.imp id (·.2))
    have key : Eff (prod [R, C, PH, PW]) g (fun out => loop (fun out c => loop (fun out ph => loop (fun out pw => do
          let v ← roiCell fl x (b * (C * (H * W)) + c * (H * W)) H W (sideVal fl p.scale p.sampling p.poolH (B [n, 2]) (B [n, 4]))
            (sideVal fl p.scale p.sampling p.poolW (B [n, 1]) (B [n, 3])) ph pw
          wr out (n * (C * (PH * PW)) + c * (PH * PW) + (ph * PW + pw)) v) PW out) PH out) C out)
        (fun q => ∃ c, c < C ∧ ∃ i, i < PH ∧ ∃ j, j < PW ∧ q = lin [R, C, PH, PW] [n, c, i, j]) := by
      apply Eff.loop; intro c hc
      apply Eff.loop; intro i hi
      apply Eff.loop; intro j hj
      have hl : lin [R, C, PH, PW] [n, c, i, j] < prod [R, C, PH, PW] := lin_lt ⟨hn, hc, hi, hj, trivial⟩
      refine (Eff.wr hl (v := roiOut fl p H W X B [n, c, i, j]) (hg c i j hc hi hj).symm).congr (fun out _ => ?_) (fun q => Iff.rfl)
      rw [roiCell_ok hfl hH hW (hP c hc), Res.bind_ok, ← hlin]
      congr 1
      show _ = if B [n, 0] ≤ -1 then 0 else _
      rw [if_neg (by linarith), hbn, Int.toNat_natCast]
      rfl
    apply key.congr _ (fun q => Iff.rfl)
    intro out _
    rw [start, if_neg hneg, e1, Res.bind_ok, e2, Res.bind_ok, hbn, Int.toNat_natCast]

/-- all regions -/
theorem roiRun_ok {fl : Rat → Rat} (hfl : Whole fl) {p : RoiParams} {x rois : List Rat} {X B : List Nat → Rat} {N C H W R : Nat} {fresh : Nat → List Rat}
    (hX : Holds [N, C, H, W] x X) (hB : Holds [R, 5] rois B) (hf : ∀ k, (fresh k).length = k) (hH : 0 < H ∧ H ≤ 16777216) (hW : 0 < W ∧ W ≤ 16777216)
    (hN : 0 < N ∧ N ≤ 2147483647) (hb : ∀ n, n < R → -2147483649 < B [n, 0] ∧ B [n, 0] < N)
    (hs : ∀ n, n < R → -1 < B [n, 0] → GridFits fl p (regionOf B n)) :
    ∃ out, roiRun fl p ⟨10, [N, C, H, W], x⟩ ⟨10, [R, 5], rois⟩ fresh = .ok ([R, C, p.poolH.toNat, p.poolW.toNat], out) ∧
      Holds [R, C, p.poolH.toNat, p.poolW.toNat] out (roiOut fl p H W X B) := by
  generalize hPH : p.poolH.toNat = PH
  generalize hPW : p.poolW.toNat = PW
  let g : Nat → Rat := fun q => roiOut fl p H W X B (unlin [R, C, PH, PW] q)
  have hall : Eff (prod [R, C, PH, PW]) g (fun out => loop (fun out n => roiOne fl p PH PW x rois C H W n out) R out)
      (fun q => ∃ n, n < R ∧ ∃ c, c < C ∧ ∃ i, i < PH ∧ ∃ j, j < PW ∧ q = lin [R, C, PH, PW] [n, c, i, j]) := by
    apply Eff.loop
    intro n hn
    apply roiOne_eff hfl hX hB hH hW hn (hb n hn).2 (hb n hn).1 hN (hs n hn)
    intro c i j hc hi hj
    show roiOut fl p H W X B (unlin _ _) = _
    rw [unlin_lin (s := [R, C, PH, PW]) (c := [n, c, i, j]) ⟨hn, hc, hi, hj, trivial⟩]
  obtain ⟨out, e, hl, hw, -⟩ := hall (fresh (prod [R, C, PH, PW])) (hf _)
  refine ⟨out, ?_, ?_⟩
  · unfold roiRun
    simp only [List.length_cons, List.length_nil, List.getD_cons_zero, List.getD_cons_succ, hPH, hPW]
    rw [if_neg (by omega), if_pos trivial, if_pos trivial, if_neg (by omega)]
    unfold roiKernel
    rw [hPH, hPW]
    dsimp only at e
    rw [e, Res.bind_ok]
  · rw [holds_iff]
    refine ⟨hl, fun q hq => ?_⟩
    apply hw
    have ib := unlin_inBounds hq
    have hq' := lin_unlin hq
    match hu : unlin [R, C, PH, PW] q, ib with
    | [n, c, i, j], ⟨h1, h2, h3, h4, _⟩ => exact ⟨n, h1, c, h2, i, h3, j, h4, by rw [hu] at hq'; exact hq'.symm⟩

/-! ## exact arithmetic -/

theorem tent_last {n : Nat} (h : 0 < n) (X : Nat → Rat) : ∑ i ∈ Finset.range n, tent (((n - 1 : Nat) : Rat) - i) * X i = X (n - 1) := by
  rw [Finset.sum_eq_single (n - 1)]
  · simp [tent]
  · intro i hi hne
    have : 1 ≤ |((n - 1 : Nat) : Rat) - i| := by
      have hi := Finset.mem_range.1 hi
      have : (1 : Rat) ≤ ((n - 1 : Nat) : Rat) - i := by
        have : i + 1 ≤ n - 1 := by omega
        have : ((i + 1 : Nat) : Rat) ≤ ((n - 1 : Nat) : Rat) := by exact_mod_cast this
        push_cast at this ⊢
        linarith
      exact le_trans this (le_abs_self _)
    rw [tent_far this, zero_mul]
  · intro hc
    exact absurd (Finset.mem_range.2 (by omega)) hc

theorem axisVal_exact {n : Nat} {t : Rat} (h0 : 0 < n) (X : Nat → Rat) :
    (1 - (axisVal id n t).2.2) * X (axisVal id n t).1 + (axisVal id n t).2.2 * X (axisVal id n t).2.1 =
      ∑ i ∈ Finset.range n, tent (max 0 (min t ((n : Rat) - 1)) - i) * X i := by
  have hn1 : ((n : Rat) - 1) = ((n - 1 : Nat) : Rat) := by
    rw [Nat.cast_sub (by omega)]; simp
  unfold axisVal
  simp only [id]
  generalize hu : (if t ≤ 0 then 0 else t) = u
  have u0 : 0 ≤ u := by rw [← hu]; split <;> linarith
  have hcl : max 0 (min t ((n : Rat) - 1)) = min u ((n : Rat) - 1) := by
    have : (0 : Rat) ≤ (n : Rat) - 1 := by rw [hn1]; exact_mod_cast Nat.zero_le _
    rw [← hu]
    split
    · rename_i h
      rw [min_eq_left this]
      exact max_eq_left (le_trans (min_le_left _ _) h)
    · rename_i h
      exact max_eq_right (le_min (by linarith) this)
  rw [hcl]
  obtain ⟨s1, s2, s3⟩ := (truncQ_sides u).1 u0
  obtain ⟨k, hk⟩ := Int.eq_ofNat_of_zero_le s3
  rw [hk] at s1 s2
  rw [hk]
  simp only [Int.toNat_natCast]
  push_cast at s1 s2
  by_cases hc : n - 1 ≤ k
  · rw [if_pos hc]
    have : ((n - 1 : Nat) : Rat) ≤ k := by exact_mod_cast hc
    rw [min_eq_right (by rw [hn1]; linarith), hn1, tent_last h0]
    simp
  · rw [if_neg hc]
    have hlt : u < (n : Rat) - 1 := by
      have : k + 1 ≤ n - 1 := by omega
      have : ((k + 1 : Nat) : Rat) ≤ ((n - 1 : Nat) : Rat) := by exact_mod_cast this
      push_cast at this
      rw [hn1]; linarith
    rw [min_eq_left (le_of_lt hlt)]
    have := tent_sum (n := n) (k := k) (f := u - k) (by linarith) (by linarith) (by omega) X
    rw [show (k : Rat) + (u - k) = u by ring] at this
    rw [this]

theorem interpVal_exact {H W : Nat} (hH : 0 < H) (hW : 0 < W) (P : Nat → Nat → Rat) (y x : Rat) : interpVal id H W P y x = planeAt H W P y x := by
  unfold interpVal planeAt
  by_cases h : y < -1 ∨ id (H : Rat) < y ∨ x < -1 ∨ id (W : Rat) < x
  · rw [if_pos h, if_neg]
    simp only [id] at h
    rintro ⟨a, b, c, d⟩
    rcases h with h | h | h | h <;> linarith
  · rw [if_neg h, if_pos]
    · unfold blend
      rw [← axisVal_exact hH]
      rw [← axisVal_exact hW, ← axisVal_exact hW]
      simp only [id]
      ring
    · simp only [id, not_or, not_lt] at h
      exact h

theorem foldl_range_sum {n : Nat} {f : Nat → Rat} {s : Rat} : (List.range n).foldl (fun s i => s + f i) s = s + ∑ i ∈ Finset.range n, f i := by
  induction n with
  | zero => simp
  | succ n ih => rw [List.range_succ, List.foldl_append, ih, Finset.sum_range_succ]; simp [add_assoc]

theorem sideVal_exact {scale : Rat} {sampling pool : Int} {lo hi : Rat} (hp : 0 < pool) :
    sideVal id scale sampling pool lo hi =
      ⟨lo * scale, sideLength scale lo hi / pool, (samplesOf sampling pool (sideLength scale lo hi) : Nat)⟩ ∧
    0 < samplesOf sampling pool (sideLength scale lo hi) := by
  have hsz : (if id (id (hi * scale) - id (lo * scale)) < 1 then (1 : Rat) else id (id (hi * scale) - id (lo * scale))) = sideLength scale lo hi := by
    unfold sideLength
    simp only [id]
    split
    · rw [max_eq_right (by linarith)]
    · rw [max_eq_left (by linarith)]
  have hpos : 0 < ⌈sideLength scale lo hi / pool⌉ := by
    rw [Int.ceil_pos]
    have : (1 : Rat) ≤ sideLength scale lo hi := le_max_right _ _
    have : (0 : Rat) < pool := by exact_mod_cast hp
    positivity
  unfold sideVal samplesOf
  simp only [hsz]
  simp only [id]
  by_cases hs : sampling > 0
  · rw [if_pos hs, if_pos hs]
    exact ⟨by rw [Int.toNat_of_nonneg (by omega)], by omega⟩
  · rw [if_neg hs, if_neg hs]
    exact ⟨by rw [Int.toNat_of_nonneg (by omega)], by omega⟩

theorem roiVal_exact {p : RoiParams} {H W : Nat} (hH : 0 < H) (hW : 0 < W) (hp : 0 < p.poolH ∧ 0 < p.poolW) (P : Nat → Nat → Rat) (r : Region) (i j : Nat) :
    roiVal id p H W P r i j = binMean p H W P r i j := by
  unfold roiVal binMean cellVal
  rw [(sideVal_exact hp.1).1, (sideVal_exact hp.2).1]
  have gy0 := (sideVal_exact (scale := p.scale) (sampling := p.sampling) (lo := r.y1) (hi := r.y2) hp.1).2
  have gx0 := (sideVal_exact (scale := p.scale) (sampling := p.sampling) (lo := r.x1) (hi := r.x2) hp.2).2
  generalize samplesOf p.sampling p.poolH (sideLength p.scale r.y1 r.y2) = gy at *
  generalize samplesOf p.sampling p.poolW (sideLength p.scale r.x1 r.x2) = gx at *
  simp only [Int.toNat_natCast, interpVal_exact hH hW]
  have pl : ∀ (lo hi : Rat) (pool : Int) (g p' k : Nat), roiPlace id (lo * p.scale) (sideLength p.scale lo hi / pool) (g : Int) p' k = placeOf p.scale lo hi pool g p' k := by
    intro lo hi pool g p' k
    unfold roiPlace placeOf
    simp only [id]
    push_cast
    ring
  simp only [pl]
  simp only [id]
  simp only [foldl_range_sum, zero_add]
  push_cast
  rfl

/-! ## properties -/

/-- **C85.** With exact arithmetic every element of the result is the mean of the samples of its bin in the plane of its image and channel; a region of a
negative image gives zeros. The image of a region is a whole number below the number of images.
Missing for the full claim: rounding (`C85_local` holds for any), and images that do not exist, which the code does not refuse (`C85_image_false`). -/
theorem C85_mean_partial (p : RoiParams) (x rois : List Rat) (X B : List Nat → Rat) (N C H W R : Nat) (fresh : Nat → List Rat)
    (hp : 0 < p.poolH ∧ 0 < p.poolW) (hX : Holds [N, C, H, W] x X) (hB : Holds [R, 5] rois B) (hf : ∀ k, (fresh k).length = k)
    (hN : 0 < N ∧ N ≤ 2147483647) (hH : 0 < H ∧ H ≤ 16777216) (hW : 0 < W ∧ W ≤ 16777216)
    (hb : ∀ n, n < R → ∃ b : Int, B [n, 0] = b ∧ -2147483648 ≤ b ∧ b < N)
    (hs : 0 < p.sampling ∨ ∀ n, n < R → sideLength p.scale (B [n, 2]) (B [n, 4]) ≤ 2147483647 ∧ sideLength p.scale (B [n, 1]) (B [n, 3]) ≤ 2147483647) :
    ∃ out Y, roiRun id p ⟨10, [N, C, H, W], x⟩ ⟨10, [R, 5], rois⟩ fresh = .ok ([R, C, p.poolH.toNat, p.poolW.toNat], out) ∧
      Holds [R, C, p.poolH.toNat, p.poolW.toNat] out Y ∧
      ∀ n c i j : Nat, n < R → c < C → (i : Int) < p.poolH → (j : Int) < p.poolW →
        (B [n, 0] < 0 → Y [n, c, i, j] = 0) ∧
        ∀ b : Nat, B [n, 0] = b → Y [n, c, i, j] = binMean p H W (fun r q => X [b, c, r, q]) (regionOf B n) i j := by
  have fits : ∀ n, n < R → GridFits id p (regionOf B n) := by
    intro n hn
    rcases hs with h | h
    · exact Or.inl h
    · right
      obtain ⟨h1, h2⟩ := h n hn
      have aux : ∀ (lo hi : Rat) (pool : Int), 0 < pool → sideLength p.scale lo hi ≤ 2147483647 → I32 ⌈(sideVal id p.scale p.sampling pool lo hi).bin⌉ := by
        intro lo hi pool hpool hl
        rw [(sideVal_exact hpool).1]
        simp only
        have h1 : (1 : Rat) ≤ sideLength p.scale lo hi := le_max_right _ _
        have hq : (1 : Rat) ≤ pool := by exact_mod_cast hpool
        have hle : sideLength p.scale lo hi / pool ≤ 2147483647 := le_trans (div_le_self (by linarith) hq) hl
        have h0 : 0 < sideLength p.scale lo hi / pool := by positivity
        have c1 : ⌈sideLength p.scale lo hi / pool⌉ ≤ 2147483647 := by rw [Int.ceil_le]; exact_mod_cast hle
        have c2 : 0 < ⌈sideLength p.scale lo hi / pool⌉ := Int.ceil_pos.2 h0
        unfold I32
        omega
      exact ⟨aux _ _ _ hp.1 h1, aux _ _ _ hp.2 h2⟩
  obtain ⟨out, e, hY⟩ := roiRun_ok (fl := id) (fun _ _ => rfl) (p := p) hX hB hf hH hW hN (by
    intro n hn
    obtain ⟨b, e, b1, b2⟩ := hb n hn
    rw [e]
    constructor
    · have : (-2147483649 : Int) < b := by omega
      exact_mod_cast this
    · exact_mod_cast b2) (fun n hn _ => fits n hn)
  refine ⟨out, _, e, hY, ?_⟩
  intro n c i j hn hc hi hj
  have eY : roiOut id p H W X B [n, c, i, j] = if B [n, 0] ≤ -1 then 0 else
      roiVal id p H W (fun r q => X [(truncQ (B [n, 0])).toNat, c, r, q]) (regionOf B n) i j := rfl
  constructor
  · intro hneg
    rw [eY, if_pos]
    obtain ⟨b, e, -⟩ := hb n hn
    rw [e] at hneg ⊢
    have : b < 0 := by exact_mod_cast hneg
    exact_mod_cast (show b ≤ -1 by omega)
  · intro b hbn
    have : (0 : Rat) ≤ b := by exact_mod_cast Nat.zero_le b
    rw [eY, hbn, if_neg (by linarith), roiVal_exact hH.1 hW.1 hp]
    have : truncQ ((b : Nat) : Rat) = b := by exact_mod_cast truncQ_int (b : Int)
    rw [this, Int.toNat_natCast]

/-- `float` has these whole numbers -/
theorem f32_whole : Whole f32 := by
  intro n hn
  by_cases h : n = 16777216
  · subst h; decide +kernel
  · have := f32_binary32.exact n (by rw [abs_of_nonneg (by omega)]; omega)
    exact_mod_cast this

example : ∃ X B : List Nat → Rat, Holds [2, 1, 2, 2] [1, 2, 3, 4, 5, 6, 7, 8] X ∧ Holds [2, 5] [1, 0, 0, 1, 1, -1, 0, 0, 1, 1] B ∧
    ∃ out Y, roiRun id ⟨1, 1, 1, 1⟩ ⟨10, [2, 1, 2, 2], [1, 2, 3, 4, 5, 6, 7, 8]⟩ ⟨10, [2, 5], [1, 0, 0, 1, 1, -1, 0, 0, 1, 1]⟩ (List.replicate · 7) =
      .ok ([2, 1, 1, 1], out) ∧ Holds [2, 1, 1, 1] out Y := by
  have hX := holds_exists (s := [2, 1, 2, 2]) (data := [(1 : Rat), 2, 3, 4, 5, 6, 7, 8]) rfl
  have hB := holds_exists (s := [2, 5]) (data := [(1 : Rat), 0, 0, 1, 1, -1, 0, 0, 1, 1]) rfl
  refine ⟨_, _, hX, hB, ?_⟩
  obtain ⟨out, Y, e, h, -⟩ := C85_mean_partial ⟨1, 1, 1, 1⟩ _ _ _ _ 2 1 2 2 2 (List.replicate · 7) (by decide) hX hB (by simp) (by decide) (by decide) (by decide)
    (by
      intro n hn
      have : n = 0 ∨ n = 1 := by omega
      rcases this with rfl | rfl
      · exact ⟨1, by simp [lin, prod], by decide, by decide⟩
      · exact ⟨-1, by simp [lin, prod], by decide, by decide⟩) (Or.inl (by decide))
  exact ⟨out, Y, e, h⟩

/-- such results: the centre of the second image; a region of no image -/
example : roiRun id ⟨1, 1, 1, 1⟩ ⟨10, [2, 1, 2, 2], [1, 2, 3, 4, 5, 6, 7, 8]⟩ ⟨10, [2, 5], [1, 0, 0, 1, 1, -1, 0, 0, 1, 1]⟩ (List.replicate · 7) =
    .ok ([2, 1, 1, 1], [13 / 2, 0]) := by decide +kernel

/-- as `float`s, two samples per bin and axis: the sample at (-1/2, -1/2) has the value of the corner -/
example : roiRun f32 ⟨1, 1, 1, 2⟩ ⟨10, [1, 1, 2, 2], [1, 2, 3, 4]⟩ ⟨10, [1, 5], [0, -1, -1, 1, 1]⟩ (List.replicate · 7) =
    .ok ([1, 1, 1, 1], [7 / 4]) := by decide +kernel

/-- **C85.** Whatever the rounding: the run succeeds, and every element is a function of the parameters, the extents of a plane, the plane of its image and
channel and the row of its region alone, not of the other regions, images and channels, nor of what the new memory held. The number of samples is given (by
default it is 2). -/
theorem C85_local {fl : Rat → Rat} (hfl : Whole fl) (p : RoiParams) (H W : Nat) (hsm : 0 < p.sampling)
    (hH : 0 < H ∧ H ≤ 16777216) (hW : 0 < W ∧ W ≤ 16777216) :
    ∃ F : (Nat → Nat → Rat) → Region → Nat → Nat → Rat,
      ∀ (x rois : List Rat) (X B : List Nat → Rat) (N C R : Nat) (fresh : Nat → List Rat), Holds [N, C, H, W] x X → Holds [R, 5] rois B →
        (∀ k, (fresh k).length = k) → 0 < N ∧ N ≤ 2147483647 → (∀ n, n < R → ∃ b : Int, B [n, 0] = b ∧ -2147483648 ≤ b ∧ b < N) →
        ∃ out Y, roiRun fl p ⟨10, [N, C, H, W], x⟩ ⟨10, [R, 5], rois⟩ fresh = .ok ([R, C, p.poolH.toNat, p.poolW.toNat], out) ∧
          Holds [R, C, p.poolH.toNat, p.poolW.toNat] out Y ∧
          ∀ n c i j : Nat, n < R → c < C → (i : Int) < p.poolH → (j : Int) < p.poolW →
            (B [n, 0] < 0 → Y [n, c, i, j] = 0) ∧ ∀ b : Nat, B [n, 0] = b → Y [n, c, i, j] = F (fun r q => X [b, c, r, q]) (regionOf B n) i j := by
  refine ⟨roiVal fl p H W, ?_⟩
  intro x rois X B N C R fresh hX hB hf hN hb
  obtain ⟨out, e, hY⟩ := roiRun_ok hfl (p := p) hX hB hf hH hW hN (by
    intro n hn
    obtain ⟨b, e, b1, b2⟩ := hb n hn
    rw [e]
    constructor
    · have : (-2147483649 : Int) < b := by omega
      exact_mod_cast this
    · exact_mod_cast b2) (fun n hn _ => Or.inl hsm)
  refine ⟨out, _, e, hY, ?_⟩
  intro n c i j hn hc hi hj
  have eY : roiOut fl p H W X B [n, c, i, j] = if B [n, 0] ≤ -1 then 0 else
      roiVal fl p H W (fun r q => X [(truncQ (B [n, 0])).toNat, c, r, q]) (regionOf B n) i j := rfl
  constructor
  · intro hneg
    rw [eY, if_pos]
    obtain ⟨b, e, -⟩ := hb n hn
    rw [e] at hneg ⊢
    have : b < 0 := by exact_mod_cast hneg
    exact_mod_cast (show b ≤ -1 by omega)
  · intro b hbn
    have : (0 : Rat) ≤ b := by exact_mod_cast Nat.zero_le b
    rw [eY, hbn, if_neg (by linarith)]
    have : truncQ ((b : Nat) : Rat) = b := by exact_mod_cast truncQ_int (b : Int)
    rw [this, Int.toNat_natCast]

/-- `float` and the default number of samples -/
example : ∃ F : (Nat → Nat → Rat) → Region → Nat → Nat → Rat, ∀ x : List Rat, x.length = 4 → ∃ X out Y, Holds [1, 1, 2, 2] x X ∧
    roiRun f32 ⟨7, 7, 1 / 16, 2⟩ ⟨10, [1, 1, 2, 2], x⟩ ⟨10, [1, 5], [0, 3, 5, 20, 24]⟩ (List.replicate · 7) = .ok ([1, 1, 7, 7], out) ∧
    Holds [1, 1, 7, 7] out Y ∧ Y [0, 0, 6, 3] = F (fun r q => X [0, 0, r, q]) ⟨0, 3, 5, 20, 24⟩ 6 3 := by
  obtain ⟨F, h⟩ := C85_local f32_whole ⟨7, 7, 1 / 16, 2⟩ 2 2 (by decide) (by decide) (by decide)
  refine ⟨F, fun x hx => ?_⟩
  have hX := holds_exists (s := [1, 1, 2, 2]) (data := x) hx
  have hB := holds_exists (s := [1, 5]) (data := [(0 : Rat), 3, 5, 20, 24]) rfl
  obtain ⟨out, Y, e, hY, hv⟩ := h x _ _ _ 1 1 1 (List.replicate · 7) hX hB (by simp) (by decide) (by
    intro n hn
    have : n = 0 := by omega
    subst this
    exact ⟨0, by simp [lin], by decide, by decide⟩)
  refine ⟨_, out, Y, hX, e, hY, ?_⟩
  have := (hv 0 0 6 3 (by decide) (by decide) (by decide) (by decide)).2 0 (by simp [lin])
  rw [this]
  congr 1

/-- **C85.** Setting up succeeds exactly for positive pool extents. -/
theorem C85_init (p : RoiParams) : (roiInit p = .ok p ↔ 0 < p.poolH ∧ 0 < p.poolW) ∧ (roiInit p = .err ↔ p.poolH ≤ 0 ∨ p.poolW ≤ 0) := by
  unfold roiInit
  by_cases h1 : p.poolH > 0
  · by_cases h2 : p.poolW > 0
    · rw [if_pos h1, if_pos h2]; simp; omega
    · rw [if_pos h1, if_neg h2]; simp; omega
  · rw [if_neg h1]; simp; omega

/-- **C85.** Operands of another element type than FLOAT32 are refused. -/
theorem C85_rejects (fl : Rat → Rat) (p : RoiParams) (x rois : Operand Rat) (fresh : Nat → List Rat) (h1 : 2 ≤ x.shape.length) (h2 : 1 ≤ rois.shape.length)
    (h : x.dtype ≠ 10 ∨ rois.dtype ≠ 10) : roiRun fl p x rois fresh = .err := by
  unfold roiRun
  rw [if_neg (by omega)]
  by_cases hx : x.dtype = 10
  · rw [if_pos hx, if_neg (h.resolve_left (fun hc => hc hx))]
  · rw [if_neg hx]

example : roiRun f32 ⟨1, 1, 1, 2⟩ ⟨11, [1, 1, 2, 2], [1, 2, 3, 4]⟩ ⟨11, [1, 5], [0, 0, 0, 1, 1]⟩ (List.replicate · 7) = .err := by decide +kernel

/-- **C85, false of the code.** The shape announced is not that of the result: it has empty planes, whatever the pool extents. -/
theorem C85_infer_false (p : RoiParams) (N C H W R : Nat) (hp : 0 < p.poolH ∧ 0 < p.poolW) :
    roiInit p = .ok p ∧ roiInfer (10, [N, C, H, W]) (10, [R, 5]) = .ok (10, [R, C, 0, 0]) ∧ [R, C, p.poolH.toNat, p.poolW.toNat] ≠ [R, C, 0, 0] := by
  refine ⟨((C85_init p).1).2 hp, rfl, ?_⟩
  simp only [ne_eq, List.cons.injEq]
  omega

/-- **C85, false of the code.** A region of an image that does not exist is not refused: the features are read past their end. -/
theorem C85_image_false : roiRun f32 ⟨1, 1, 1, 2⟩ ⟨10, [1, 1, 2, 2], [1, 2, 3, 4]⟩ ⟨10, [1, 5], [1, 0, 0, 1, 1]⟩ (List.replicate · 7) = .ub := by
  decide +kernel

/-- **C85, false of the code.** The rows of the regions are taken to have five elements whatever their extent: of rows of four the second begins in the
third element of the second, and the last is read past the end. -/
theorem C85_rows_false : roiRun f32 ⟨1, 1, 1, 2⟩ ⟨10, [1, 1, 2, 2], [1, 2, 3, 4]⟩ ⟨10, [1, 4], [0, 0, 1, 1]⟩ (List.replicate · 7) = .ub ∧
    roiRun f32 ⟨1, 1, 1, 2⟩ ⟨10, [1, 1, 2, 2], [1, 2, 3, 4]⟩ ⟨10, [2, 4], [0, 0, 0, 1, 1, 0, 0, 1]⟩ (List.replicate · 7) = .ub := by
  constructor <;> decide +kernel

end Verif.Props
