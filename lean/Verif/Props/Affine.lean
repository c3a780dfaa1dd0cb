import Verif.Props.Resize
/-!
# C66: affine_sample2d and sample2d

Specification: what an element sampled at a place of the source is (`Resampled`, with `blend` from C65), and where a place counts as outside (`Inner`).
-/
namespace Verif.Props
open Verif.Core Verif.Kernels

/-! ## specification -/

/-- the value nearest to `v` in a type -/
def clipped (d : NumTy) (v : Rat) : Rat :=
  match d with
  | .real => v
  | .int t => max t.lo (min ((t.hi : Rat) - 1) v)

/-- `j` is the row (of `n`) nearest to the place `t` -/
def NearestRow (n : Nat) (t : Rat) (j : Nat) : Prop := j < n ∧ ∀ j' : Nat, j' < n → |(j : Rat) - t| ≤ |(j' : Rat) - t|

/-- `j` is the last row (of `n`) that is not behind the place `t`, or the first one if there is none -/
def RowBelow (n : Nat) (t : Rat) (j : Nat) : Prop := j < n ∧ ((j : Rat) ≤ t ∨ j = 0) ∧ ∀ j' : Nat, j' < n → (j' : Rat) ≤ t → j' ≤ j

/-- the place where the linear interpolation looks -/
def insideLast (last : Rat) (s : Nat) (t : Rat) : Rat := if t < 0 then 0 else if t < (s : Rat) - 1 then t else last

/-- `e` is the image `X` with `h` rows and `w` columns, sampled at row `y` and column `x` -/
def Resampled (rnd : Nat → Rat → Rat) (d : NumTy) (dtype : Nat) (k : Sampling) (last : Nat → Rat) (h w : Nat) (X : Nat → Nat → Rat) (y x e : Rat) : Prop :=
  match k with
  | .linear => Converts rnd .real d dtype (clipped d (blend tent h w X (insideLast (last h) h y) (insideLast (last w) w x))) e
  | .cubic => Converts rnd .real d dtype (clipped d (blend keys h w X (cubicPlace h y) (cubicPlace w x))) e
  | .nearest => ∃ j i : Nat, NearestRow h y j ∧ NearestRow w x i ∧ e = X j i
  | .hard => ∃ j i : Nat, RowBelow h y j ∧ RowBelow w x i ∧ e = X j i

/-- how many rows and columns a kind of sampling needs -/
def least : Sampling → Nat
  | .linear => 2
  | .cubic => 4
  | _ => 1

/-- `last n` is between the last row but one and the last of `n` -/
def LastRow (last : Nat → Rat) : Prop := ∀ n : Nat, 2 ≤ n → (n : Rat) - 2 ≤ last n ∧ last n < (n : Rat) - 1

/-- where a place counts as inside the source if there is a value for outside -/
def Inner (k : Sampling) (n : Nat) (t : Rat) : Prop :=
  match k with
  | .linear => 0 ≤ t ∧ t < (n : Rat) - 1
  | .cubic => 1 ≤ t ∧ t < (n : Rat) - 3
  | .nearest => -1 / 2 < t ∧ t < (n : Rat) - 3 / 2
  | .hard => -1 < t ∧ t < (n : Rat) - 1 ∧ 2 ≤ n

/-- an `int` holds the place -/
def IntPlace (t : Rat) : Prop := -2147483648 ≤ t ∧ t < 2147483647

/-! ## sampling -/

theorem clampTo_ok (rnd : Nat → Rat → Rat) {d : NumTy} {dtype : Nat} (hd : numTy dtype = some d) {v : Rat} (h : ∀ t, d = .int t → t.bits = 64 → v ≤ (t.hi : Rat) - 1) :
    ∃ e, clampTo rnd d dtype v = .ok e ∧ Converts rnd .real d dtype (clipped d v) e := by
  cases d with
  | real => exact ⟨_, rfl, rfl⟩
  | int t =>
    have ht := numTy_int hd
    have lh : (t.lo : Rat) ≤ (t.hi : Rat) - 1 := by
      have := has_zero ht
      have : t.lo ≤ t.hi - 1 := by unfold IntTy.has at this; omega
      exact_mod_cast this
    have e : clampTo rnd (.int t) dtype v = castCell rnd .real (.int t) dtype (clipped (.int t) v) := by
      unfold clampTo clipped
      simp only
      congr 2
      split
      · rename_i h64
        have := h t rfl h64
        rw [min_eq_right this, min_eq_right (by linarith)]
      · rfl
    rw [e]
    apply castCell_ok rnd (sd := 10) hd rfl
    show (t.lo : Rat) - 1 < clipped (.int t) v ∧ clipped (.int t) v < t.hi
    unfold clipped
    simp only
    have a : (t.lo : Rat) ≤ max (t.lo : Rat) (min ((t.hi : Rat) - 1) v) := le_max_left _ _
    have b : max (t.lo : Rat) (min ((t.hi : Rat) - 1) v) ≤ (t.hi : Rat) - 1 := max_le lh (min_le_left _ _)
    constructor <;> linarith

theorem clampIdx_low {n : Nat} (hn : 0 < n) {i : Int} (h : i < 0) : clampIdx n i = 0 := by
  unfold clampIdx
  have : (if i ≥ 0 then i else 0) = 0 := if_neg (by omega)
  simp only [this]
  split <;> omega

theorem clampIdx_high {n : Nat} {i : Int} (hn : 0 < n) (h : (n : Int) ≤ i) : clampIdx n i = (n : Int) - 1 := by
  unfold clampIdx
  have : (if i ≥ 0 then i else 0) = i := if_pos (by omega)
  simp only [this]
  split <;> omega

theorem nearestRow_ok {n : Nat} (hn : 0 < n) {t : Rat} (ht : IntPlace t) : ∃ i : Int, pickIdx .nearest t = .ok i ∧ NearestRow n t (clampIdx n i).toNat := by
  obtain ⟨m, hm, hd⟩ := roundQ_near t
  rw [abs_le] at hd
  obtain ⟨h1, h2⟩ := ht
  refine ⟨m, ?_, ?_⟩
  · unfold pickIdx
    rw [if_pos rfl, hm, toI_ok ⟨by linarith, by linarith⟩, truncQ_int]
  · have cr := clampIdx_range hn m
    obtain ⟨j, hj⟩ := Int.eq_ofNat_of_zero_le cr.1
    rw [hj, Int.toNat_natCast]
    refine ⟨by omega, ?_⟩
    intro j' hj'
    have hc : ((j : Int) = m) ∨ (m < 0 ∧ j = 0) ∨ ((n : Int) ≤ m ∧ j = n - 1) := by
      rw [hj] at cr
      rcases lt_or_ge m 0 with a | a
      · right; left
        refine ⟨a, ?_⟩
        rw [clampIdx_low hn a] at hj
        omega
      · rcases lt_or_ge m n with b | b
        · left; rw [← hj]; exact clampIdx_id ⟨a, b⟩
        · right; right
          refine ⟨b, ?_⟩
          rw [clampIdx_high hn b] at hj
          omega
    rcases hc with c | ⟨c, rfl⟩ | ⟨c, rfl⟩
    · have c' : (j : Rat) = m := by exact_mod_cast c
      rcases lt_trichotomy j' j with l | l | l
      · have : (j' : Rat) + 1 ≤ j := by exact_mod_cast l
        rw [abs_le]
        have := neg_abs_le ((j' : Rat) - t)
        constructor <;> linarith
      · rw [l]
      · have : (j : Rat) + 1 ≤ j' := by exact_mod_cast l
        rw [abs_le]
        have := le_abs_self ((j' : Rat) - t)
        constructor <;> linarith
    · have m1 : ((m : Int) : Rat) ≤ -1 := by exact_mod_cast (by omega : m ≤ -1)
      have p : (0 : Rat) ≤ j' := by exact_mod_cast Nat.zero_le j'
      rw [abs_of_nonneg (by push_cast; linarith), abs_of_nonneg (by linarith)]
      push_cast
      linarith
    · have m1 : (n : Rat) ≤ ((m : Int) : Rat) := by exact_mod_cast c
      have p : (j' : Rat) ≤ ((n - 1 : Nat) : Rat) := by exact_mod_cast (by omega : j' ≤ n - 1)
      have q : ((n - 1 : Nat) : Rat) + 1 = n := by exact_mod_cast (by omega : n - 1 + 1 = n)
      rw [abs_of_nonpos (by linarith), abs_of_nonpos (by linarith)]
      linarith

theorem rowBelow_ok {n : Nat} (hn : 0 < n) {t : Rat} (ht : IntPlace t) : ∃ i : Int, pickIdx .hard t = .ok i ∧ RowBelow n t (clampIdx n i).toNat := by
  obtain ⟨h1, h2⟩ := ht
  refine ⟨truncQ t, ?_, ?_⟩
  · unfold pickIdx
    rw [if_neg (by decide), toI_ok ⟨by linarith, by linarith⟩]
  · have cr := clampIdx_range hn (truncQ t)
    obtain ⟨j, hj⟩ := Int.eq_ofNat_of_zero_le cr.1
    rw [hj, Int.toNat_natCast]
    rw [hj] at cr
    refine ⟨by omega, ?_⟩
    by_cases t0 : 0 ≤ t
    · have e : truncQ t = ⌊t⌋ := by unfold truncQ; exact if_pos t0
      have f0 : 0 ≤ ⌊t⌋ := Int.floor_nonneg.2 t0
      rw [e] at hj
      have hj2 : (j : Int) = ⌊t⌋ ∨ (n : Int) ≤ ⌊t⌋ ∧ (j : Int) = n - 1 := by
        rcases lt_or_ge ⌊t⌋ n with b | b
        · left; rw [← hj, clampIdx_id ⟨f0, b⟩]
        · right; exact ⟨b, by rw [← hj, clampIdx_high hn b]⟩
      have le : (j : Int) ≤ ⌊t⌋ := by omega
      constructor
      · left
        exact_mod_cast Int.le_floor.1 le
      · intro j' a b
        have : (j' : Int) ≤ ⌊t⌋ := Int.le_floor.2 (by exact_mod_cast b)
        omega
    · have e : truncQ t = ⌈t⌉ := by unfold truncQ; exact if_neg t0
      have f0 : ⌈t⌉ ≤ 0 := Int.ceil_le.2 (by push_cast; linarith)
      rw [e] at hj
      have z : j = 0 := by
        unfold clampIdx at hj
        simp only at hj
        generalize hk : (if ⌈t⌉ ≥ 0 then ⌈t⌉ else 0) = k at hj
        have : k = 0 := by rw [← hk]; split <;> omega
        split at hj <;> omega
      refine ⟨.inr z, ?_⟩
      intro j' a b
      exfalso
      have : (0 : Rat) ≤ j' := by exact_mod_cast Nat.zero_le j'
      linarith

theorem sampleAt_ok (rnd : Nat → Rat → Rat) {d : NumTy} {dtype : Nat} (hd : numTy dtype = some d) (k : Sampling) {last : Nat → Rat} {h w number ch b c : Nat} {x : List Rat}
    (hx : x.length = number * h * w * ch) (hb : b < number) (hc : c < ch) (hh : least k ≤ h) (hw : least k ≤ w)
    (hl : LastRow last) {y z : Rat}
    (hp : k ≠ .linear → IntPlace y ∧ IntPlace z) (hX : k = .linear → ∀ v ∈ x, InType d v)
    (hcub : k = .cubic → ∀ t, d = .int t → t.bits = 64 → blend keys h w (source x h w ch b c) (cubicPlace h y) (cubicPlace w z) ≤ (t.hi : Rat) - 1) :
    ∃ e, sampleAt k (clampTo rnd d dtype) (batchImage x h w ch b) (last h, last w) y z c = .ok e ∧
      Resampled rnd d dtype k last h w (source x h w ch b c) y z e := by
  have e1 : (batchImage x h w ch b).h = h := rfl
  have e2 : (batchImage x h w ch b).w = w := rfl
  have pix : Image.pixel (batchImage x h w ch b) c = source x h w ch b c := by
    funext j i
    exact batchImage_pixel x h w ch b c j i
  have copy : ∀ jy jz : Int, 0 < h → 0 < w → (batchImage x h w ch b).at_ (clampIdx h jy) (clampIdx w jz) c =
      .ok (source x h w ch b c (clampIdx h jy).toNat (clampIdx w jz).toNat) := by
    intro jy jz h0 w0
    rw [Image.at_ok (batchImage_fits hx hb) (clampIdx_range h0 _) (clampIdx_range w0 _) hc]
    congr 1
    exact batchImage_pixel x h w ch b c _ _
  cases k with
  | linear =>
    have iy := inside_range ⟨fun _ _ _ _ => 0, last⟩ hh (hl h hh) y
    have iz := inside_range ⟨fun _ _ _ _ => 0, last⟩ hw (hl w hw) z
    unfold sampleAt
    simp only
    rw [e1, e2, show last h = (Coord.mk (fun _ _ _ _ => 0) last).last h from rfl, show last w = (Coord.mk (fun _ _ _ _ => 0) last).last w from rfl,
      clampPos_inside _ hh, clampPos_inside _ hw, linearAt_ok (batchImage_fits hx hb) iy iz hc, Res.bind_ok, e1, e2, pix]
    refine clampTo_ok rnd hd ?_
    intro t et _
    subst et
    have := C65_between (X := source x h w ch b c) (lo := t.lo) (hi := (t.hi : Rat) - 1) iy iz (by
      intro j i hj hi
      obtain ⟨n, e, a, b⟩ := hX rfl _ (source_mem hx hb hj hi hc)
      rw [e]
      constructor
      · exact_mod_cast a
      · have : n ≤ t.hi - 1 := by omega
        exact_mod_cast this)
    exact this.2
  | cubic =>
    obtain ⟨⟨a1, a2⟩, b1, b2⟩ := hp (by decide)
    obtain ⟨p, p0, p1, p2, p3, p4, p5⟩ := cubic_split hh (t := y) ⟨a1, by linarith⟩
    obtain ⟨q, q0, q1, q2, q3, q4, q5⟩ := cubic_split hw (t := z) ⟨b1, by linarith⟩
    unfold sampleAt
    simp only
    rw [p0, Res.bind_ok, q0, Res.bind_ok, e1, e2, cubicAt_ok (batchImage_fits hx hb) ⟨p1, p2⟩ ⟨q1, q2⟩ ⟨p3, p4⟩ ⟨q3, q4⟩ hc, Res.bind_ok, e1, e2, p5, q5, pix]
    exact clampTo_ok rnd hd (hcub rfl)
  | nearest =>
    obtain ⟨a, b'⟩ := hp (by decide)
    have h0 : 0 < h := hh
    have w0 : 0 < w := hw
    obtain ⟨jy, r1, r2⟩ := nearestRow_ok h0 a
    obtain ⟨jz, s1, s2⟩ := nearestRow_ok w0 b'
    unfold sampleAt
    simp only
    rw [r1, Res.bind_ok, s1, Res.bind_ok, e1, e2, copy jy jz h0 w0]
    exact ⟨_, rfl, _, _, r2, s2, rfl⟩
  | hard =>
    obtain ⟨a, b'⟩ := hp (by decide)
    have h0 : 0 < h := hh
    have w0 : 0 < w := hw
    obtain ⟨jy, r1, r2⟩ := rowBelow_ok h0 a
    obtain ⟨jz, s1, s2⟩ := rowBelow_ok w0 b'
    unfold sampleAt
    simp only
    rw [r1, Res.bind_ok, s1, Res.bind_ok, e1, e2, copy jy jz h0 w0]
    exact ⟨_, rfl, _, _, r2, s2, rfl⟩

/-! ## the operator -/

/-- the operator from its elements -/
theorem affine_each {loc : Nat → Nat → Rat × Rat} {last : Nat → Rat} {rnd : Nat → Rat → Rat} {type dim : Int} {outer ov : Option Rat} {dtype : Nat} {d : NumTy}
    {pre post : List Nat} {h w dh dw : Nat} {x : List Rat} {fresh : Nat → List Rat} (ht : 0 ≤ type ∧ type ≤ 3)
    (hdim : dim = pre.length ∨ dim = (pre.length : Int) - ((pre ++ h :: w :: post).length : Nat)) (hd : numTy dtype = some d) (hs : Arith dtype)
    (hov : outerIn rnd d dtype outer = .ok ov) (hf : ∀ n, (fresh n).length = n) {P : Nat → Nat → Nat → Nat → Rat → Prop}
    (hc : ∀ b y x' c, b < pre.prod → y < dh → x' < dw → c < post.prod → ∃ e,
      affineCell (affineType type) (clampTo rnd d dtype) ov (batchImage x h w post.prod b) (last h, last w) (loc y x').1 (loc y x').2 c = .ok e ∧ P b y x' c e) :
    ∃ out, affineRun loc last rnd type dim outer true dtype (pre ++ h :: w :: post) dh dw x fresh = .ok (pre ++ dh :: dw :: post, out) ∧
      EachPixel pre.prod dh dw post.prod out P := by
  obtain ⟨V, hV⟩ := choose4 hc
  refine ⟨(List.range (pre.prod * dh * dw * post.prod)).map (dec4 dh dw post.prod V), ?_, eachPixel_of fun b y x' c hb hy hx h => (hV b y x' c hb hy hx h).2⟩
  unfold affineRun
  rw [if_neg (by omega)]
  have ed : (if dim < 0 then ((pre ++ h :: w :: post).length : Int) + dim else dim) = (pre.length : Nat) := by
    have : (pre ++ h :: w :: post).length = pre.length + (post.length + 2) := by simp
    split <;> omega
  simp only [ed]
  rw [if_neg (by simp only [List.length_append, List.length_cons]; omega), if_neg (by omega), if_neg (by simp)]
  have t0 : ((pre ++ h :: w :: post).set pre.length dh).set (pre.length + 1) dw = pre ++ dh :: dw :: post := by
    rw [List.set_append, if_neg (by omega), Nat.sub_self, List.set_cons_zero, List.set_append, if_neg (by omega), show pre.length + 1 - pre.length = 1 by omega]
    rfl
  simp only [Int.toNat_natCast]
  rw [t0]
  unfold affineCompute
  rw [hd]
  simp only
  rw [if_pos (arith_iff.1 hs), hov, Res.bind_ok]
  have t1 : (pre ++ dh :: dw :: post).take pre.length = pre := by simp
  have t2 : (pre ++ dh :: dw :: post).drop (pre.length + 2) = post := by
    rw [List.drop_append]; simp
  have g : ∀ a b : Nat, (pre ++ a :: b :: post).getD pre.length 0 = a ∧ (pre ++ a :: b :: post).getD (pre.length + 1) 0 = b := by
    intro a b
    constructor <;> simp [List.getD_eq_getElem?_getD, List.getElem?_append_right]
  rw [t1, t2, (g h w).1, (g h w).2, (g dh dw).1, (g dh dw).2, extents_prod, extents_prod, extents_prod]
  unfold affineBatch
  have key := writeBatch_ok (number := pre.prod) (dh := dh) (dw := dw) (ch := post.prod) (out := fresh (pre ++ dh :: dw :: post).prod)
    (cell := fun b y x' c => affineCell (affineType type) (clampTo rnd d dtype) ov (batchImage x h w post.prod b) (last h, last w) (loc y x').1 (loc y x').2 c)
    (V := V) (by rw [hf, List.prod_append, List.prod_cons, List.prod_cons]; ring) (fun b y x' c hb hy hx h => (hV b y x' c hb hy hx h).1)
  refine (congrArg (· >>= _) key).trans ?_
  rw [Res.bind_ok]

/-- **C66, without a value for outside.** Whatever the matrix is and however the places are rounded (`loc`), every element is the source sampled at its place, moved
inside if it is outside. Missing: too few rows or columns (`C66_small_false`), places that do not fit `int`, 64-bit cubic overflow (`C66_clamp_false`); the
rounding of sums and weights. -/
theorem C66_sampled_partial (loc : Nat → Nat → Rat × Rat) (last : Nat → Rat) (hl : LastRow last) (rnd : Nat → Rat → Rat) (type dim : Int) (k : Sampling)
    (ht : (type, k) ∈ [((0 : Int), Sampling.linear), (1, .cubic), (2, .nearest), (3, .hard)]) (dtype : Nat) (d : NumTy) (hd : numTy dtype = some d)
    (hs : Arith dtype) (pre post : List Nat) (h w dh dw : Nat)
    (hdim : dim = pre.length ∨ dim = (pre.length : Int) - ((pre ++ h :: w :: post).length : Nat)) (hh : least k ≤ h) (hw : least k ≤ w)
    (hp : k ≠ .linear → ∀ r q, r < dh → q < dw → IntPlace (loc r q).1 ∧ IntPlace (loc r q).2)
    (x : List Rat) (hx : x.length = pre.prod * h * w * post.prod) (hX : k = .linear → ∀ v ∈ x, InType d v)
    (hcub : k = .cubic → ∀ t, d = .int t → t.bits = 64 → ∀ b r q c, b < pre.prod → r < dh → q < dw → c < post.prod →
      blend keys h w (source x h w post.prod b c) (cubicPlace h (loc r q).1) (cubicPlace w (loc r q).2) ≤ (t.hi : Rat) - 1)
    (fresh : Nat → List Rat) (hf : ∀ n, (fresh n).length = n) :
    ∃ out, affineRun loc last rnd type dim none true dtype (pre ++ h :: w :: post) dh dw x fresh = .ok (pre ++ dh :: dw :: post, out) ∧
      EachPixel pre.prod dh dw post.prod out fun b r q c e =>
        Resampled rnd d dtype k last h w (source x h w post.prod b c) (loc r q).1 (loc r q).2 e := by
  have tk : (0 ≤ type ∧ type ≤ 3) ∧ affineType type = k := by
    simp only [List.mem_cons, Prod.mk.injEq, List.not_mem_nil, or_false] at ht
    rcases ht with ⟨rfl, rfl⟩ | ⟨rfl, rfl⟩ | ⟨rfl, rfl⟩ | ⟨rfl, rfl⟩ <;> decide
  refine affine_each tk.1 hdim hd hs (ov := none) rfl hf ?_
  intro b r q c hb hr hq hc
  rw [tk.2]
  exact sampleAt_ok rnd hd k hx hb hc hh hw hl (fun e => hp e r q hr hq) hX (fun e t et e64 => hcub e t et e64 b r q c hb hr hq hc)

theorem roundQ_range {t : Rat} {n : Nat} {m : Int} (hm : roundQ t = m) : (0 ≤ m ∧ m < (n : Int) - 1) ↔ (-1 / 2 < t ∧ t < (n : Rat) - 3 / 2) := by
  unfold roundQ at hm
  split at hm
  · rename_i t0
    have hm' : ⌊t + 1 / 2⌋ = m := by exact_mod_cast hm
    have a : 0 ≤ m := by rw [← hm']; exact Int.floor_nonneg.2 (by linarith)
    constructor
    · rintro ⟨-, b⟩
      rw [← hm', Int.floor_lt] at b
      push_cast at b
      exact ⟨by linarith, by linarith⟩
    · rintro ⟨-, b⟩
      refine ⟨a, ?_⟩
      rw [← hm', Int.floor_lt]
      push_cast
      linarith
  · rename_i t0
    have hm' : ⌈t - 1 / 2⌉ = m := by exact_mod_cast hm
    have a : m ≤ 0 := by rw [← hm']; exact Int.ceil_le.2 (by push_cast; linarith)
    constructor
    · rintro ⟨b, b2⟩
      have m0 : m = 0 := by omega
      rw [m0, Int.ceil_eq_iff] at hm'
      have : (2 : Rat) ≤ n := by exact_mod_cast (by omega : 2 ≤ n)
      push_cast at hm'
      exact ⟨by linarith, by linarith⟩
    · rintro ⟨b, b2⟩
      have m0 : m = 0 := by
        rw [← hm', Int.ceil_eq_iff]
        push_cast
        constructor <;> linarith
      have n1 : (1 : Rat) < n := by linarith
      have : 1 < n := by exact_mod_cast n1
      omega

theorem truncQ_range {t : Rat} {n : Nat} : (0 ≤ truncQ t ∧ truncQ t < (n : Int) - 1) ↔ (-1 < t ∧ t < (n : Rat) - 1 ∧ 2 ≤ n) := by
  unfold truncQ
  split
  · rename_i t0
    constructor
    · rintro ⟨-, b⟩
      rw [Int.floor_lt] at b
      push_cast at b
      have n1 : (1 : Rat) < n := by linarith
      exact ⟨by linarith, by linarith, by exact_mod_cast n1⟩
    · rintro ⟨-, b, -⟩
      refine ⟨Int.floor_nonneg.2 t0, ?_⟩
      rw [Int.floor_lt]
      push_cast
      linarith
  · rename_i t0
    have a : ⌈t⌉ ≤ 0 := Int.ceil_le.2 (by push_cast; linarith)
    constructor
    · rintro ⟨b, b2⟩
      have m0 : ⌈t⌉ = 0 := by omega
      rw [Int.ceil_eq_iff] at m0
      have : (2 : Rat) ≤ n := by exact_mod_cast (by omega : 2 ≤ n)
      push_cast at m0
      exact ⟨by linarith, by linarith, by omega⟩
    · rintro ⟨b, b2, b3⟩
      have m0 : ⌈t⌉ = 0 := by
        rw [Int.ceil_eq_iff]
        push_cast
        constructor <;> linarith
      omega

theorem cubic_range {t : Rat} {n : Nat} : (¬ (⌊t⌋ < 1) ∧ ¬ (⌊t⌋ ≥ (n : Int) - 3)) ↔ (1 ≤ t ∧ t < (n : Rat) - 3) := by
  constructor
  · rintro ⟨a, b⟩
    have a' : (1 : Int) ≤ ⌊t⌋ := by omega
    have b' : ⌊t⌋ < (n : Int) - 3 := by omega
    rw [Int.le_floor] at a'
    rw [Int.floor_lt] at b'
    push_cast at a' b'
    exact ⟨a', b'⟩
  · rintro ⟨a, b⟩
    have a' : (1 : Int) ≤ ⌊t⌋ := Int.le_floor.2 (by push_cast; exact a)
    have b' : ⌊t⌋ < (n : Int) - 3 := Int.floor_lt.2 (by push_cast; exact b)
    omega

/-- **C66, with a value for outside.** For every number of rows and columns, every element is the source sampled at its place if that is inside (`Inner`), and
the value otherwise. What counts as inside leaves out the last row and column: `C66_border_false`. -/
theorem C66_outer_partial (loc : Nat → Nat → Rat × Rat) (last : Nat → Rat) (hl : LastRow last) (rnd : Nat → Rat → Rat) (type dim : Int) (k : Sampling)
    (ht : (type, k) ∈ [((0 : Int), Sampling.linear), (1, .cubic), (2, .nearest), (3, .hard)]) (dtype : Nat) (d : NumTy) (hd : numTy dtype = some d)
    (hs : Arith dtype) (pre post : List Nat) (h w dh dw : Nat)
    (hdim : dim = pre.length ∨ dim = (pre.length : Int) - ((pre ++ h :: w :: post).length : Nat))
    (hp : k ≠ .linear → ∀ r q, r < dh → q < dw → IntPlace (loc r q).1 ∧ IntPlace (loc r q).2)
    (x : List Rat) (hx : x.length = pre.prod * h * w * post.prod) (hX : k = .linear → ∀ v ∈ x, InType d v)
    (hcub : k = .cubic → ∀ t, d = .int t → t.bits = 64 → ∀ b r q c, b < pre.prod → r < dh → q < dw → c < post.prod →
      blend keys h w (source x h w post.prod b c) (cubicPlace h (loc r q).1) (cubicPlace w (loc r q).2) ≤ (t.hi : Rat) - 1)
    (outer : Rat) (ho : Castable .real d outer) (fresh : Nat → List Rat) (hf : ∀ n, (fresh n).length = n) :
    ∃ out, affineRun loc last rnd type dim (some outer) true dtype (pre ++ h :: w :: post) dh dw x fresh = .ok (pre ++ dh :: dw :: post, out) ∧
      EachPixel pre.prod dh dw post.prod out fun b r q c e =>
        (Inner k h (loc r q).1 ∧ Inner k w (loc r q).2 → Resampled rnd d dtype k last h w (source x h w post.prod b c) (loc r q).1 (loc r q).2 e) ∧
        (¬ (Inner k h (loc r q).1 ∧ Inner k w (loc r q).2) → Converts rnd .real d dtype outer e) := by
  have tk : (0 ≤ type ∧ type ≤ 3) ∧ affineType type = k := by
    simp only [List.mem_cons, Prod.mk.injEq, List.not_mem_nil, or_false] at ht
    rcases ht with ⟨rfl, rfl⟩ | ⟨rfl, rfl⟩ | ⟨rfl, rfl⟩ | ⟨rfl, rfl⟩ <;> decide
  obtain ⟨v, hv, cv⟩ := castCell_ok rnd (sd := 10) hd (rfl : numTy 10 = some .real) ho
  refine affine_each tk.1 hdim hd hs (ov := some v) ?_ hf ?_
  · unfold outerIn
    simp only
    rw [hv, Res.bind_ok]
  intro b r q c hb hr hq hc
  rw [tk.2]
  have least_ok : ∀ n t, Inner k n t → least k ≤ n := by
    intro n t hi
    cases k <;> simp only [Inner, least] at hi ⊢
    · have : (1 : Rat) < n := by linarith
      exact_mod_cast this
    · have : (4 : Rat) < n := by linarith
      exact le_of_lt (by exact_mod_cast this)
    · have : (1 : Rat) < n := by linarith
      exact le_of_lt (by exact_mod_cast this)
    · omega
  classical
  have key : affineCell k (clampTo rnd d dtype) (some v) (batchImage x h w post.prod b) (last h, last w) (loc r q).1 (loc r q).2 c =
      if Inner k h (loc r q).1 ∧ Inner k w (loc r q).2 then
        sampleAt k (clampTo rnd d dtype) (batchImage x h w post.prod b) (last h, last w) (loc r q).1 (loc r q).2 c else .ok v := by
    have e1 : (batchImage x h w post.prod b).h = h := rfl
    have e2 : (batchImage x h w post.prod b).w = w := rfl
    have ite : ∀ {p p' : Prop} [Decidable p] [Decidable p'] {a a' b b' : Res Rat}, (p ↔ p') → a = a' → b = b' → (if p then a else b) = if p' then a' else b' := by
      intro p p' _ _ a a' b b' e ea eb
      subst ea eb
      by_cases hp : p
      · rw [if_pos hp, if_pos (e.1 hp)]
      · rw [if_neg hp, if_neg (fun h => hp (e.2 h))]
    have ite' : ∀ {p p' : Prop} [Decidable p] [Decidable p'] {a a' b b' : Res Rat}, (¬ p ↔ p') → a = a' → b = b' → (if p then b else a) = if p' then a' else b' := by
      intro p p' _ _ a a' b b' e ea eb
      subst ea eb
      by_cases hp : p
      · rw [if_pos hp, if_neg (fun h => e.2 h hp)]
      · rw [if_neg hp, if_pos (e.1 hp)]
    unfold affineCell
    simp only
    rw [e1, e2]
    cases k with
    | linear => 
      refine ite ?_ rfl rfl
      unfold Inner
      simp only
      tauto
    | cubic =>
      obtain ⟨⟨a1, a2⟩, b1, b2⟩ := hp (by decide) r q hr hq
      have split : ∀ t : Rat, -2147483648 ≤ t → t < 2147483647 → cubicSplit t = .ok (⌊t⌋, t - ⌊t⌋) := by
        intro t h1 h2
        have f1 : (-2147483648 : Int) ≤ ⌊t⌋ := Int.le_floor.2 (by push_cast; exact h1)
        have g1 : (-2147483648 : Rat) ≤ (⌊t⌋ : Int) := by exact_mod_cast f1
        have g2 := Int.floor_le t
        unfold cubicSplit
        rw [toI_ok ⟨by linarith, by linarith⟩, truncQ_int, Res.bind_ok]
      simp only
      rw [split _ a1 a2, Res.bind_ok, split _ b1 b2, Res.bind_ok]
      refine ite' ?_ rfl rfl
      unfold Inner
      simp only
      rw [← cubic_range, ← cubic_range]
      tauto
    | nearest =>
      obtain ⟨⟨a1, a2⟩, b1, b2⟩ := hp (by decide) r q hr hq
      have pick : ∀ t : Rat, -2147483648 ≤ t → t < 2147483647 → ∃ m : Int, roundQ t = m ∧ pickIdx .nearest t = .ok m := by
        intro t h1 h2
        obtain ⟨m, hm, hd⟩ := roundQ_near t
        rw [abs_le] at hd
        refine ⟨m, hm, ?_⟩
        unfold pickIdx
        rw [if_pos rfl, hm, toI_ok ⟨by linarith, by linarith⟩, truncQ_int]
      obtain ⟨m, m1, m2⟩ := pick _ a1 a2
      obtain ⟨n, n1, n2⟩ := pick _ b1 b2
      simp only
      rw [m2, Res.bind_ok, n2, Res.bind_ok]
      refine ite ?_ rfl rfl
      unfold Inner
      simp only
      rw [← roundQ_range m1, ← roundQ_range n1]
      tauto
    | hard =>
      obtain ⟨⟨a1, a2⟩, b1, b2⟩ := hp (by decide) r q hr hq
      have pick : ∀ t : Rat, -2147483648 ≤ t → t < 2147483647 → pickIdx .hard t = .ok (truncQ t) := by
        intro t h1 h2
        unfold pickIdx
        rw [if_neg (by decide), toI_ok ⟨by linarith, by linarith⟩]
      simp only
      rw [pick _ a1 a2, Res.bind_ok, pick _ b1 b2, Res.bind_ok]
      refine ite ?_ rfl rfl
      unfold Inner
      simp only
      rw [← truncQ_range, ← truncQ_range]
      tauto
  rw [key]
  by_cases hi : Inner k h (loc r q).1 ∧ Inner k w (loc r q).2
  · rw [if_pos hi]
    obtain ⟨e, e1, e2⟩ := sampleAt_ok rnd hd k hx hb hc (least_ok _ _ hi.1) (least_ok _ _ hi.2) hl (fun e => hp e r q hr hq) hX
      (fun e t et e64 => hcub e t et e64 b r q c hb hr hq hc)
    exact ⟨e, e1, fun _ => e2, fun n => absurd hi n⟩
  · rw [if_neg hi]
    exact ⟨v, rfl, fun n => absurd n hi, fun _ => cv⟩

example : LastRow Coord.exact.last := fun n hn => (C65_places n 1 0 (by decide)).2.2 hn

example : ∃ out, affineRun (affineLoc [2, 0, 0, 0, 2, -1, 0, 0, 1]) Coord.exact.last (fun _ v => v) 0 (-2) (some 9) true 2 [2, 3] 4 5 (List.replicate 6 7)
    (fun n => List.replicate n 0) = .ok ([4, 5], out) := by
  obtain ⟨out, e, -⟩ := C66_outer_partial (affineLoc [2, 0, 0, 0, 2, -1, 0, 0, 1]) Coord.exact.last (fun n hn => (C65_places n 1 0 (by decide)).2.2 hn)
    (fun _ v => v) 0 (-2) .linear (by decide) 2 (.int ⟨false, 8⟩) rfl (by decide) [] [] 2 3 4 5 (by decide) (fun h => absurd rfl h) (List.replicate 6 7) (by simp)
    (fun _ v hv => by rw [List.eq_of_mem_replicate hv]; exact ⟨7, rfl, by decide⟩) (fun h => absurd h (by decide)) 9
    (by simp only [Castable, IntTy.lo, IntTy.hi]; norm_num) (fun n => List.replicate n 0) (by simp)
  exact ⟨out, e⟩

example : ∃ out, affineRun (affineLoc [1, 0, 0, 0, 1, 0, 0, 0, 1]) Coord.exact.last (fun _ v => v) 0 0 none true 2 [2, 3] 4 5 (List.replicate 6 7)
    (fun n => List.replicate n 0) = .ok ([4, 5], out) := by
  obtain ⟨out, e, -⟩ := C66_sampled_partial (affineLoc [1, 0, 0, 0, 1, 0, 0, 0, 1]) Coord.exact.last (fun n hn => (C65_places n 1 0 (by decide)).2.2 hn)
    (fun _ v => v) 0 0 .linear (by decide) 2 (.int ⟨false, 8⟩) rfl (by decide) [] [] 2 3 4 5 (by decide) (by decide) (by decide) (fun h => absurd rfl h)
    (List.replicate 6 7) (by simp)
    (fun _ v hv => by rw [List.eq_of_mem_replicate hv]; exact ⟨7, rfl, by decide⟩) (fun h => absurd h (by decide)) (fun n => List.replicate n 0) (by simp)
  exact ⟨out, e⟩

/-- **C66, the matrix**: the place of a row and column is the affine map of the first two rows of the matrix, in exact arithmetic; the third row is not used. -/
theorem C66_matrix (a b c d e f g h i : Rat) (row col : Nat) :
    affineLoc [a, b, c, d, e, f, g, h, i] row col = (d * col + e * row + f, a * col + b * row + c) := by
  unfold affineLoc
  simp [List.getD_cons_succ]

/-! ## sample2d -/

/-- **C66, sample2d**, in exact arithmetic: both extents are those of the source times the factor, rounded down, and every element is the source sampled at its
place divided by the factor if that counts as inside, and zero otherwise. -/
theorem C66_sample2d_partial (last : Nat → Rat) (hl : LastRow last) (rnd : Nat → Rat → Rat) (scale : Rat) (h1 : 1 / 100000 ≤ scale) (type dim : Int) (k : Sampling)
    (ht : (type, k) ∈ [((0 : Int), Sampling.linear), (1, .cubic), (2, .nearest), (3, .hard)]) (dtype : Nat) (d : NumTy) (hd : numTy dtype = some d)
    (hs : Arith dtype) (pre post : List Nat) (h w : Nat) (hh : h < 2147483648) (hw : w < 2147483648)
    (hdim : dim = pre.length ∨ dim = (pre.length : Int) - ((pre ++ h :: w :: post).length : Nat))
    (x : List Rat) (hx : x.length = pre.prod * h * w * post.prod) (hX : k = .linear → ∀ v ∈ x, InType d v)
    (hcub : k = .cubic → ∀ t, d = .int t → t.bits < 64) (fresh : Nat → List Rat) (hf : ∀ n, (fresh n).length = n) :
    ∃ out, sampleRun (affineLoc [1 / scale, 0, 0, 0, 1 / scale, 0, 0, 0, 1]) last rnd (fun n s => n * s) scale type dim dtype (pre ++ h :: w :: post) x fresh =
        .ok (pre ++ ⌊(h : Rat) * scale⌋.toNat :: ⌊(w : Rat) * scale⌋.toNat :: post, out) ∧
      EachPixel pre.prod ⌊(h : Rat) * scale⌋.toNat ⌊(w : Rat) * scale⌋.toNat post.prod out fun b r q c e =>
        (Inner k h (r / scale) ∧ Inner k w (q / scale) → Resampled rnd d dtype k last h w (source x h w post.prod b c) (r / scale) (q / scale) e) ∧
        (¬ (Inner k h (r / scale) ∧ Inner k w (q / scale)) → Converts rnd .real d dtype 0 e) := by
  have s0 : 0 < scale := by linarith
  have fl : ∀ n : Nat, 0 ≤ ⌊(n : Rat) * scale⌋ := fun n => Int.floor_nonneg.2 (by positivity)
  have loc : ∀ r q : Nat, affineLoc [1 / scale, 0, 0, 0, 1 / scale, 0, 0, 0, 1] r q = ((r : Rat) / scale, (q : Rat) / scale) := by
    intro r q
    rw [C66_matrix]
    ext <;> simp <;> ring
  have place : ∀ n r : Nat, n < 2147483648 → r < ⌊(n : Rat) * scale⌋.toNat → IntPlace ((r : Rat) / scale) := by
    intro n r hn hr
    have nn : (n : Rat) ≤ 2147483647 := by exact_mod_cast (by omega : n ≤ 2147483647)
    constructor
    · have : (0 : Rat) ≤ (r : Rat) / scale := by positivity
      linarith
    · have a : (r : Int) < ⌊(n : Rat) * scale⌋ := by omega
      have a1 : ((r : Int) + 1 : Int) ≤ ⌊(n : Rat) * scale⌋ := a
      rw [Int.le_floor] at a1
      push_cast at a1
      rw [div_lt_iff₀ s0]
      have : (n : Rat) * scale ≤ 2147483647 * scale := mul_le_mul_of_nonneg_right nn (le_of_lt s0)
      linarith
  obtain ⟨out, e, p⟩ := C66_outer_partial (affineLoc [1 / scale, 0, 0, 0, 1 / scale, 0, 0, 0, 1]) last hl rnd type dim k ht dtype d hd hs pre post h w
    ⌊(h : Rat) * scale⌋.toNat ⌊(w : Rat) * scale⌋.toNat hdim (fun _ r q hr hq => by rw [loc]; exact ⟨place h r hh hr, place w q hw hq⟩) x hx hX
    (fun e t et e64 => absurd (hcub e t et) (by omega)) 0 (by
      cases d with
      | real => trivial
      | int t =>
        have := has_zero (numTy_int hd)
        unfold IntTy.has at this
        have a : ((t.lo : Int) : Rat) ≤ 0 := by exact_mod_cast this.1
        have b : (0 : Rat) < ((t.hi : Int) : Rat) := by exact_mod_cast this.2
        exact ⟨by linarith, b⟩) fresh hf
  refine ⟨out, ?_, ?_⟩
  · unfold sampleRun
    rw [if_neg (by linarith)]
    have ed : (if dim < 0 then ((pre ++ h :: w :: post).length : Int) + dim else dim) = (pre.length : Nat) := by
      have : (pre ++ h :: w :: post).length = pre.length + (post.length + 2) := by simp
      split <;> omega
    simp only [ed]
    rw [if_neg (by simp only [List.length_append, List.length_cons]; omega)]
    have g : (pre ++ h :: w :: post).getD pre.length 0 = h ∧ (pre ++ h :: w :: post).getD (pre.length + 1) 0 = w := by
      constructor <;> simp [List.getD_eq_getElem?_getD, List.getElem?_append_right]
    simp only [Int.toNat_natCast]
    rw [g.1, g.2]
    rw [Int.toNat_of_nonneg (fl h), Int.toNat_of_nonneg (fl w)] at e
    exact e
  · refine ⟨p.1, fun b r q c hb hr hq hc => ?_⟩
    obtain ⟨v, hv, hP⟩ := p.2 b r q c hb hr hq hc
    rw [loc] at hP
    exact ⟨v, hv, hP⟩

/-- **What counts as inside leaves out the last row and column:** sample2d with the factor 1 does not return its operand. For every image, the last row and
column become zero. -/
theorem C66_border_false (last : Nat → Rat) (hl : LastRow last) (rnd : Nat → Rat → Rat) (dtype : Nat) (d : NumTy) (hd : numTy dtype = some d)
    (hs : Arith dtype) (h0 : rnd dtype 0 = 0) (pre post : List Nat) (h w : Nat) (hh : h < 2147483648) (hw : w < 2147483648)
    (x : List Rat) (hx : x.length = pre.prod * h * w * post.prod) (fresh : Nat → List Rat) (hf : ∀ n, (fresh n).length = n) :
    ∃ out, sampleRun (affineLoc [1, 0, 0, 0, 1, 0, 0, 0, 1]) last rnd (fun n s => n * s) 1 2 pre.length dtype (pre ++ h :: w :: post) x fresh =
        .ok (pre ++ h :: w :: post, out) ∧
      EachPixel pre.prod h w post.prod out fun b r q c e => e = if r + 1 < h ∧ q + 1 < w then source x h w post.prod b c r q else 0 := by
  obtain ⟨out, e, p⟩ := C66_sample2d_partial last hl rnd 1 (by norm_num) 2 pre.length .nearest (by decide) dtype d hd hs pre post h w hh hw (.inl rfl) x hx
    (fun h => absurd h (by decide)) (fun h => absurd h (by decide)) fresh hf
  simp only [mul_one, Int.floor_natCast, Int.toNat_natCast, div_one] at e p
  refine ⟨out, e, p.1, fun b r q c hb hr hq hc => ?_⟩
  obtain ⟨v, hv, hi, ho⟩ := p.2 b r q c hb hr hq hc
  refine ⟨v, hv, ?_⟩
  show v = if r + 1 < h ∧ q + 1 < w then source x h w post.prod b c r q else 0
  have inner : ∀ n t : Nat, Inner .nearest n (t : Rat) ↔ t + 1 < n := by
    intro n t
    unfold Inner
    simp only
    have t0 : (0 : Rat) ≤ t := by exact_mod_cast Nat.zero_le t
    constructor
    · rintro ⟨-, a⟩
      by_contra hcon
      have : (n : Rat) ≤ t + 1 := by exact_mod_cast (by omega : n ≤ t + 1)
      linarith
    · intro a
      have : (t : Rat) + 2 ≤ n := by exact_mod_cast (by omega : t + 2 ≤ n)
      constructor <;> linarith
  rw [inner, inner] at hi ho
  by_cases c1 : r + 1 < h ∧ q + 1 < w
  · rw [if_pos c1]
    obtain ⟨j, i, ⟨a1, a2⟩, ⟨b1, b2⟩, ev⟩ := hi c1
    have same : ∀ {n j t : Nat}, t < n → (∀ j' : Nat, j' < n → |(j : Rat) - t| ≤ |(j' : Rat) - t|) → j = t := by
      intro n j t ht hm
      have := hm t ht
      rw [sub_self, abs_zero] at this
      have := abs_nonpos_iff.1 this
      have : (j : Rat) = t := by linarith
      exact_mod_cast this
    rw [ev, same hr a2, same hq b2]
  · rw [if_neg c1]
    have := ho c1
    cases d with
    | real => rw [this, h0]
    | int t =>
      obtain ⟨n, e1, -, e2, e3⟩ := this
      have a := e2 (le_refl _)
      have b := e3 (le_refl _)
      have n0 : n = 0 := by
        have a1 : ((n : Int) : Rat) ≤ 0 := a.1
        have b1 : (0 : Rat) ≤ ((n : Int) : Rat) := b.2
        have a2 : n ≤ 0 := by exact_mod_cast a1
        have b2 : 0 ≤ n := by exact_mod_cast b1
        omega
      rw [e1, n0]
      rfl

/-- a concrete case: -/
example : sampleRun (affineLoc [1, 0, 0, 0, 1, 0, 0, 0, 1]) Coord.exact.last (fun _ v => v) (fun n s => n * s) 1 2 (-2) 2 [2, 3] [1, 2, 3, 4, 5, 6]
    (fun n => List.replicate n 0) = .ok ([2, 3], [1, 2, 0, 0, 0, 0]) := by decide +kernel

/-! ## what goes wrong, and refusals -/

/-- Without a value for outside, linear sampling of one row reads behind the tensor and cubic sampling of three rows before it. -/
theorem C66_small_false :
    affineRun (affineLoc [1, 0, 0, 0, 1, 0, 0, 0, 1]) Coord.exact.last (fun _ v => v) 0 0 none true 2 [1, 3] 1 3 [1, 2, 3] (fun n => List.replicate n 0) = .ub ∧
    affineRun (affineLoc [1, 0, 0, 0, 1, 0, 0, 0, 1]) Coord.exact.last (fun _ v => v) 1 0 none true 2 [3, 3] 1 1 (List.replicate 9 7) (fun n => List.replicate n 0) = .ub := by
  constructor <;> decide +kernel

/-- Places that do not fit `int` are undefined for nearest, even if there is a value for outside. -/
theorem C66_far_false :
    affineRun (affineLoc [1, 0, 2147483648, 0, 1, 0, 0, 0, 1]) Coord.exact.last (fun _ v => v) 2 0 (some 0) true 2 [2, 2] 1 1 [1, 2, 3, 4] (fun n => List.replicate n 0) = .ub := by
  decide +kernel

/-- The largest 64-bit integers are not representable in `double`: a cubic interpolation that exceeds them is not clamped but undefined. -/
theorem C66_clamp_false :
    affineRun (affineLoc [1, 0, 3 / 2, 0, 1, 3 / 2, 0, 0, 1]) Coord.exact.last (fun _ v => v) 1 0 none true 8 [6, 6] 1 1
      [0, 0, 0, 0, 0, 0, 0, 18446744073709551615, 18446744073709551615, 0, 0, 0, 0, 18446744073709551615, 18446744073709551615, 0, 0, 0, 0, 0, 0, 0, 0, 0,
       0, 0, 0, 0, 0, 0, 0, 0, 0, 0, 0, 0] (fun n => List.replicate n 0) = .ub := by
  decide +kernel

/-- **C66, refusals**: unknown kinds of sampling, impossible dimensions, matrices that are not 3x3, types without arithmetic. -/
theorem C66_rejects (loc : Nat → Nat → Rat × Rat) (last : Nat → Rat) (rnd : Nat → Rat → Rat) (type dim : Int) (outer : Option Rat) (a33 : Bool) (dtype : Nat)
    (shape : List Nat) (h w : Nat) (x : List Rat) (fresh : Nat → List Rat)
    (hbad : (type < 0 ∨ 3 < type) ∨ (shape.length : Int) ≤ dim + 1 ∨ (dim < 0 ∧ (shape.length + dim < 0 ∨ dim = -1)) ∨ a33 = false ∨ ¬ Arith dtype) :
    affineRun loc last rnd type dim outer a33 dtype shape h w x fresh = .err := by
  unfold affineRun
  split
  · rfl
  rename_i t0
  simp only
  generalize hk : (if dim < 0 then (shape.length : Int) + dim else dim) = dm
  split
  · rfl
  rename_i d0
  rw [if_neg (by omega)]
  split
  · rfl
  rename_i a0
  have : ¬ Arith dtype := by
    rcases hbad with h | h | h | h | h
    · exact absurd h t0
    · exfalso; split at hk <;> omega
    · exfalso; split at hk <;> omega
    · rw [h] at a0; simp at a0
    · exact h
  unfold affineCompute
  split
  · rfl
  · rw [if_neg (fun e => this (arith_iff.2 e))]; rfl

end Verif.Props
