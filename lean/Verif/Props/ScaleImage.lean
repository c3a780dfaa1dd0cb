import Verif.Kernels.ScaleImage
import Verif.Props.Affine
/-!
# C70: nhwc_scale_resize2d and nhwc_letterbox

Specification: `ScaledTo` (which size an image is scaled to), and the resampling of C65 and C66.
-/
namespace Verif.Props
open Verif.Core Verif.Kernels

/-- `h` rows and `w` columns are scaled to `th` and `tw`: the shorter side becomes `s`, the other side keeps the ratio, rounded down -/
structure ScaledTo (s h w th tw : Nat) : Prop where
  tall : w < h → tw = s ∧ th * w ≤ s * h ∧ s * h < (th + 1) * w
  wide : h ≤ w → th = s ∧ tw * h ≤ s * w ∧ s * w < (tw + 1) * h

theorem scaledSize_short {s h w : Nat} (h0 : 0 < h) (w0 : 0 < w) (hb : s * max h w ≤ 2147483647) :
    ∃ th tw : Nat, scaledSize h w [(s : Int)] = .ok ((th : Int), (tw : Int)) ∧ ScaledTo s h w th tw := by
  have div : ∀ a b : Nat, 0 < b → s * a ≤ 2147483647 → (do let m ← int32 ((s : Int) * a); div32 m b) = .ok (((s * a / b : Nat)) : Int) := by
    intro a b hb h
    have e : (s : Int) * a = ((s * a : Nat) : Int) := by push_cast; rfl
    have e1 : I32 ((s * a : Nat) : Int) := by unfold I32; omega
    have e2 : I32 ((s * a / b : Nat) : Int) := by
      have := Nat.div_le_self (s * a) b
      unfold I32
      generalize s * a / b = g at this
      omega
    rw [e, int32_ok e1, Res.bind_ok]
    unfold div32
    rw [if_neg (by omega), ← Int.ofNat_tdiv, int32_ok e2]
  have spec : ∀ a b : Nat, 0 < b → s * a / b * b ≤ s * a ∧ s * a < (s * a / b + 1) * b := by
    intro a b hb
    have h1 := Nat.div_add_mod (s * a) b
    have h2 := Nat.mod_lt (s * a) hb
    have h3 : s * a / b * b = b * (s * a / b) := Nat.mul_comm _ _
    rw [Nat.add_mul]
    omega
  have bh : s * h ≤ 2147483647 := Nat.le_trans (Nat.mul_le_mul_left _ (Nat.le_max_left _ _)) hb
  have bw : s * w ≤ 2147483647 := Nat.le_trans (Nat.mul_le_mul_left _ (Nat.le_max_right _ _)) hb
  unfold scaledSize
  simp only
  by_cases hw : w < h
  · refine ⟨s * h / w, s, ?_, fun _ => ⟨rfl, spec h w w0⟩, fun h => by omega⟩
    rw [if_pos hw]
    have := div h w w0 bh
    rw [Res.bind_eq_ok] at this
    obtain ⟨m, m1, m2⟩ := this
    rw [m1, Res.bind_ok, m2, Res.bind_ok]
  · refine ⟨s, s * w / h, ?_, fun h => by omega, fun _ => ⟨rfl, spec w h h0⟩⟩
    rw [if_neg hw]
    have := div w h h0 bw
    rw [Res.bind_eq_ok] at this
    obtain ⟨m, m1, m2⟩ := this
    rw [m1, Res.bind_ok, m2, Res.bind_ok]

/-- the parameter `size` asks for `th` rows and `tw` columns of an image with `h` and `w`: by both (width first), or by the length of the shorter side (whose
product with the longer one has to be an `int`) -/
def TargetSize (size : List Int) (h w th tw : Nat) : Prop :=
  size = [(tw : Int), (th : Int)] ∨ ∃ s : Nat, size = [(s : Int)] ∧ s * max h w ≤ 2147483647 ∧ ScaledTo s h w th tw

theorem scaledTo_unique {s h w a b a' b' : Nat} (h1 : ScaledTo s h w a b) (h2 : ScaledTo s h w a' b') : a = a' ∧ b = b' := by
  have u : ∀ p q k m : Nat, p * k ≤ m → m < (p + 1) * k → q * k ≤ m → m < (q + 1) * k → p = q := by
    intro p q k m a1 a2 b1 b2
    have e1 : p < q + 1 := Nat.lt_of_mul_lt_mul_right (Nat.lt_of_le_of_lt a1 b2)
    have e2 : q < p + 1 := Nat.lt_of_mul_lt_mul_right (Nat.lt_of_le_of_lt b1 a2)
    omega
  by_cases hw : w < h
  · obtain ⟨e1, e2, e3⟩ := h1.tall hw
    obtain ⟨f1, f2, f3⟩ := h2.tall hw
    exact ⟨u _ _ _ _ e2 e3 f2 f3, by omega⟩
  · obtain ⟨e1, e2, e3⟩ := h1.wide (by omega)
    obtain ⟨f1, f2, f3⟩ := h2.wide (by omega)
    exact ⟨by omega, u _ _ _ _ e2 e3 f2 f3⟩

theorem target_ok {size : List Int} {h w th tw : Nat} (h0 : 0 < h) (w0 : 0 < w) (ht : TargetSize size h w th tw) :
    scaledSize h w size = .ok ((th : Int), (tw : Int)) := by
  rcases ht with rfl | ⟨s, rfl, hb, hS⟩
  · rfl
  · obtain ⟨a, b, e, hS'⟩ := scaledSize_short h0 w0 hb
    obtain ⟨rfl, rfl⟩ := scaledTo_unique hS hS'
    exact e

/-- a positive request is accepted as the second and third dimension -/
theorem request_mid (n h w c th tw : Nat) (h1 : 0 < th) (w1 : 0 < tw) :
    resizeCheck [n, h, w, c] [-1, (th : Int), (tw : Int), -1] = .ok (1, [n, th, tw, c]) := by
  unfold resizeCheck
  rw [if_neg (by simp)]
  have : findDim (List.zip [n, h, w, c] [-1, (th : Int), (tw : Int), -1]) = some 1 := by
    have t0 : ¬ (th : Int) = 0 := by omega
    have t1 : ¬ (th : Int) < 0 := by omega
    have t2 : ¬ (tw : Int) ≤ 0 := by omega
    have t3 : ¬ th = 0 := by omega
    have t4 : ¬ tw = 0 := by omega
    simp [findDim, findRows, tailFits, t0, t1, t2, t3, t4]
  rw [this]
  simp

theorem scaleRun_eq {fp : Coord} {rnd : Nat → Rat → Rat} {size : List Int} {type : Int} {dtype n h w c : Nat} {t : Int × Int} {x : List Rat} {fresh : Nat → List Rat}
    (ht : scaledSize h w size = .ok t) :
    scaleResizeRun fp rnd size type dtype [n, h, w, c] x fresh = resizeRun fp rnd (resizeType type) dtype [n, h, w, c] [-1, t.1, t.2, -1] x fresh := by
  unfold scaleResizeRun
  simp only
  rw [ht, Res.bind_ok]
  rfl

/-- **C70, the size.** Scaling an image gives the two extents asked for (width, height), or, for one number, makes the shorter side that long and keeps the
ratio, rounding the other side down. (If the longer side times the number is no `int`: `C70_overflow_false`.) -/
theorem C70_scaled_size_partial (fp : Coord) (rnd : Nat → Rat → Rat) (type : Int) (dtype n h w c : Nat) (x : List Rat) (fresh : Nat → List Rat) (r : List Nat × List Rat)
    (h0 : 0 < h) (w0 : 0 < w) :
    (∀ tw th : Nat, 0 < tw → 0 < th → scaleResizeRun fp rnd [(tw : Int), (th : Int)] type dtype [n, h, w, c] x fresh = .ok r → r.1 = [n, th, tw, c]) ∧
    (∀ s : Nat, 0 < s → s * max h w ≤ 2147483647 → scaleResizeRun fp rnd [(s : Int)] type dtype [n, h, w, c] x fresh = .ok r →
      ∃ th tw, ScaledTo s h w th tw ∧ 0 < th ∧ 0 < tw ∧ r.1 = [n, th, tw, c]) := by
  have key : ∀ (t : Int × Int) (th tw : Nat), t = ((th : Int), (tw : Int)) → 0 < th → 0 < tw → ∀ size, scaledSize h w size = .ok t →
      scaleResizeRun fp rnd size type dtype [n, h, w, c] x fresh = .ok r → r.1 = [n, th, tw, c] := by
    intro t th tw e h1 w1 size hsz hr
    subst e
    rw [scaleRun_eq hsz] at hr
    unfold resizeRun at hr
    rw [request_mid n h w c th tw h1 w1, Res.bind_ok] at hr
    simp only at hr
    split at hr
    · rename_i he
      injection hr with hr
      subst hr
      exact he
    · rw [Res.bind_eq_ok] at hr
      obtain ⟨o, -, e⟩ := hr
      injection e with e
      subst e
      rfl
  constructor
  · intro tw th h1 h2 hr
    exact key _ th tw rfl h2 h1 _ rfl hr
  · intro s s0 hb hr
    obtain ⟨th, tw, e, hS⟩ := scaledSize_short h0 w0 hb
    have pos : 0 < th ∧ 0 < tw := by
      by_cases hw : w < h
      · obtain ⟨a, b, d⟩ := hS.tall hw
        refine ⟨?_, by omega⟩
        by_contra hc
        have : th = 0 := by omega
        subst this
        have : w * 1 ≤ h * s := Nat.mul_le_mul (by omega) s0
        rw [Nat.mul_comm h s] at this
        omega
      · obtain ⟨a, b, d⟩ := hS.wide (by omega)
        refine ⟨by omega, ?_⟩
        by_contra hc
        have : tw = 0 := by omega
        subst this
        have : h * 1 ≤ w * s := Nat.mul_le_mul (by omega) s0
        rw [Nat.mul_comm w s] at this
        omega
    exact ⟨th, tw, hS, pos.1, pos.2, key _ th tw rfl pos.1 pos.2 _ e hr⟩

/-- 640x480 with the shorter side 300 -/
example : scaledSize 480 640 [300] = .ok (300, 400) ∧ scaledSize 640 480 [300] = .ok (400, 300) ∧ ScaledTo 300 480 640 300 400 :=
  ⟨by decide, by decide, fun h => by omega, fun _ => by omega⟩

/-- **C70, the pixels, linear.** Every pixel of the scaled image is interpolated linearly around a place inside the source. Missing: as in C65. -/
theorem C70_scaled_linear_partial (fp : Coord) (rnd : Nat → Rat → Rat) (dtype : Nat) (d : NumTy) (hd : numTy dtype = some d) (hs : Arith dtype)
    (n h w c th tw : Nat) (size : List Int) (hsz : TargetSize size h w th tw) (h1 : 0 < th) (w1 : 0 < tw)
    (hne : ¬ (h = th ∧ w = tw)) (h2 : 2 ≤ h) (w2 : 2 ≤ w) (lh : (h : Rat) - 2 ≤ fp.last h ∧ fp.last h < (h : Rat) - 1)
    (lw : (w : Rat) - 2 ≤ fp.last w ∧ fp.last w < (w : Rat) - 1) (x : List Rat) (hx : x.length = n * h * w * c) (hX : ∀ v ∈ x, InType d v)
    (fresh : Nat → List Rat) (hf : ∀ n, (fresh n).length = n) :
    ∃ out, scaleResizeRun fp rnd size 0 dtype [n, h, w, c] x fresh = .ok ([n, th, tw, c], out) ∧
      EachPixel n th tw c out fun b y x' k e => Converts rnd .real d dtype
        (blend tent h w (source x h w c b k) (inside fp h (fp.pos .linear h th y)) (inside fp w (fp.pos .linear w tw x'))) e := by
  have := C65_linear_partial fp rnd dtype d hd hs [n] [c] h w th tw [-1, (th : Int), (tw : Int), -1] (request_mid n h w c th tw h1 w1) hne h2 w2 lh lw x
    (by simpa using hx) hX fresh hf
  simp only [List.prod_cons, List.prod_nil, mul_one] at this
  rw [scaleRun_eq (target_ok (by omega) (by omega) hsz)]
  exact this

/-- **C70, the pixels, nearest**: every pixel is the nearest one of the source, in exact arithmetic. -/
theorem C70_scaled_nearest (rnd : Nat → Rat → Rat) (dtype : Nat) (d : NumTy) (hd : numTy dtype = some d) (hs : Arith dtype)
    (n h w c th tw : Nat) (size : List Int) (hsz : TargetSize size h w th tw) (h1 : 0 < th) (w1 : 0 < tw)
    (hne : ¬ (h = th ∧ w = tw)) (h0 : 0 < h) (w0 : 0 < w) (h31 : h < 2147483648) (w31 : w < 2147483648)
    (x : List Rat) (hx : x.length = n * h * w * c) (fresh : Nat → List Rat) (hf : ∀ n, (fresh n).length = n) :
    ∃ (out : List Rat) (R Q : Nat → Nat), scaleResizeRun Coord.exact rnd size 2 dtype [n, h, w, c] x fresh = .ok ([n, th, tw, c], out) ∧
      (∀ y, y < th → R y < h ∧ |(R y : Rat) - centreAt h th y| ≤ 1 / 2) ∧ (∀ y, y < tw → Q y < w ∧ |(Q y : Rat) - centreAt w tw y| ≤ 1 / 2) ∧
      EachPixel n th tw c out fun b y x' k e => e = source x h w c b k (R y) (Q x') := by
  have := C65_nearest rnd dtype d hd hs [n] [c] h w th tw [-1, (th : Int), (tw : Int), -1] (request_mid n h w c th tw h1 w1) hne h0 w0 h31 w31 x
    (by simpa using hx) fresh hf
  simp only [List.prod_cons, List.prod_nil, mul_one] at this
  rw [scaleRun_eq (target_ok h0 w0 hsz)]
  exact this

example : scaleResizeRun Coord.exact (fun _ v => v) [1] 2 2 [1, 2, 4, 1] [1, 2, 3, 4, 5, 6, 7, 8] (fun n => List.replicate n 0) = .ok ([1, 1, 2, 1], [6, 8]) := by
  decide +kernel

/-- **C70, same size**: an image that has the size already is returned as it is. -/
theorem C70_scaled_same (fp : Coord) (rnd : Nat → Rat → Rat) (type : Int) (dtype n h w c : Nat) (size : List Int)
    (hsz : TargetSize size h w h w) (h0 : 0 < h) (w0 : 0 < w) (x : List Rat) (fresh : Nat → List Rat) :
    scaleResizeRun fp rnd size type dtype [n, h, w, c] x fresh = .ok ([n, h, w, c], x) := by
  rw [scaleRun_eq (target_ok h0 w0 hsz)]
  unfold resizeRun
  rw [request_mid n h w c h w h0 w0, Res.bind_ok]
  simp

/-- **C70, overflow.** The product of the number and the longer side is computed in an `int`: scaling the shorter side of a 50000x60000 image to 40000 is undefined. -/
theorem C70_overflow_false (fp : Coord) (rnd : Nat → Rat → Rat) (x : List Rat) (fresh : Nat → List Rat) :
    scaleResizeRun fp rnd [40000] 0 2 [1, 50000, 60000, 1] x fresh = .ub ∧ ScaledTo 40000 50000 60000 40000 48000 := by
  refine ⟨?_, fun h => by omega, fun _ => by omega⟩
  unfold scaleResizeRun
  simp only
  rw [show scaledSize 50000 60000 [40000] = .ub by decide]
  rfl

/-- **C70, the announced shape** is not the shape of the result: batch and channels are given as -1. -/
theorem C70_infer_false : scaleResizeInfer [2, 2] [1, 2, 2, 3] = .ok [-1, 2, 2, -1] ∧ letterboxInfer [2, 2] [1, 2, 2, 3] = .ok [-1, 2, 2, -1] ∧
    (scaleResizeRun Coord.exact (fun _ v => v) [2, 2] 2 2 [1, 2, 2, 1] [1, 2, 3, 4] (fun n => List.replicate n 0)) = .ok ([1, 2, 2, 1], [1, 2, 3, 4]) := by
  decide +kernel

/-- **C70, refusals**: images have four dimensions, sizes are one or two numbers, and sizes that are not positive are refused. -/
theorem C70_rejects (fp : Coord) (rnd : Nat → Rat → Rat) (type : Int) (dtype : Nat) (x : List Rat) (fresh : Nat → List Rat) :
    (∀ size shape, shape.length ≠ 4 → scaleResizeRun fp rnd size type dtype shape x fresh = .err ∧ scaleResizeInfer size shape = .err) ∧
    (∀ size shape, size.length ≠ 1 → size.length ≠ 2 → scaleResizeRun fp rnd size type dtype shape x fresh = .err) ∧
    (∀ (tw th : Int) n h w c, tw ≤ 0 ∨ th ≤ 0 → scaleResizeRun fp rnd [tw, th] type dtype [n, h, w, c] x fresh = .err) := by
  refine ⟨fun size shape hl => ?_, fun size shape h1 h2 => ?_, fun tw th n h w c hle => ?_⟩
  · unfold scaleResizeRun scaleResizeInfer
    constructor
    · split
      · simp at hl
      · rfl
    · split
      · simp at hl
      · rfl
  · unfold scaleResizeRun
    split
    · unfold scaledSize
      split
      · simp at h2
      · simp at h1
      · rfl
    · rfl
  · rw [scaleRun_eq (t := (th, tw)) rfl]
    refine (C65_rejects fp rnd _ dtype _ _ x fresh).2.1 ?_
    intro i o hw
    obtain ⟨s, a1, a2, -⟩ := hw.rows
    obtain ⟨t, b1, b2, -⟩ := hw.cols
    have := hw.two
    simp only [List.length_cons, List.length_nil] at this
    have : i = 0 ∨ i = 1 ∨ i = 2 := by omega
    rcases this with rfl | rfl | rfl <;> simp at a1 b1 <;> subst a1 b1 <;> omega

/-! ## letterbox -/

/-- **C70, letterbox.** Whatever the rounding of the places is: the result has the size asked for (one number: a square), and every pixel is the image sampled
at its place if that counts as inside, and the value for outside otherwise. -/
theorem C70_letterbox_partial (loc : Nat → Nat → Int → Int → Nat → Nat → Rat × Rat) (last : Nat → Rat) (hl : LastRow last) (rnd : Nat → Rat → Rat) (type : Int) (k : Sampling)
    (ht : (type, k) ∈ [((0 : Int), Sampling.linear), (1, .cubic), (2, .nearest), (3, .hard)]) (dtype : Nat) (d : NumTy) (hd : numTy dtype = some d)
    (hs : Arith dtype) (n h w c th tw : Nat) (size : List Int) (hsize : size = [(tw : Int), (th : Int)] ∨ (tw = th ∧ size = [(tw : Int)]))
    (hp : k ≠ .linear → ∀ r q, r < th → q < tw → IntPlace (loc h w th tw r q).1 ∧ IntPlace (loc h w th tw r q).2)
    (x : List Rat) (hx : x.length = n * h * w * c) (hX : k = .linear → ∀ v ∈ x, InType d v) (hcub : k = .cubic → ∀ t, d = .int t → t.bits < 64)
    (outer : Rat) (ho : Castable .real d outer) (fresh : Nat → List Rat) (hf : ∀ n, (fresh n).length = n) :
    ∃ out, letterboxRun loc last rnd size type outer dtype [n, h, w, c] x fresh = .ok ([n, th, tw, c], out) ∧
      EachPixel n th tw c out fun b r q m e =>
        (Inner k h (loc h w th tw r q).1 ∧ Inner k w (loc h w th tw r q).2 →
          Resampled rnd d dtype k last h w (source x h w c b m) (loc h w th tw r q).1 (loc h w th tw r q).2 e) ∧
        (¬ (Inner k h (loc h w th tw r q).1 ∧ Inner k w (loc h w th tw r q).2) → Converts rnd .real d dtype outer e) := by
  have := C66_outer_partial (loc h w th tw) last hl rnd type 1 k ht dtype d hd hs [n] [c] h w th tw (.inl rfl) hp x (by simpa using hx) hX
    (fun e t et e64 => absurd (hcub e t et) (by omega)) outer ho fresh hf
  simp only [List.prod_cons, List.prod_nil, mul_one] at this
  have hb : boxSize size = .ok ((th : Int), (tw : Int)) := by
    rcases hsize with rfl | ⟨rfl, rfl⟩ <;> rfl
  unfold letterboxRun
  simp only
  rw [hb, Res.bind_ok]
  exact this

/-- **C70, the place**, in exact arithmetic: rows and columns are divided by the same factor, the largest with which the whole image fits. -/
theorem C70_letterbox_place (h w th tw : Nat) (h0 : 0 < h) (w0 : 0 < w) :
    ∃ s : Rat, (∀ r q, letterLoc h w th tw r q = ((r : Rat) / s, (q : Rat) / s)) ∧ s * h ≤ th ∧ s * w ≤ tw ∧
      ∀ s' : Rat, s' * h ≤ th → s' * w ≤ tw → s' ≤ s := by
  have hq : (0 : Rat) < h := by exact_mod_cast h0
  have wq : (0 : Rat) < w := by exact_mod_cast w0
  refine ⟨min ((tw : Rat) / w) ((th : Rat) / h), fun r q => ?_, ?_, ?_, fun s' a b => ?_⟩
  · unfold letterLoc
    simp only [Int.cast_natCast]
    rw [C66_matrix]
    ext <;> simp <;> ring
  · rw [← le_div_iff₀ hq]; exact min_le_right _ _
  · rw [← le_div_iff₀ wq]; exact min_le_left _ _
  · exact le_min ((le_div_iff₀ wq).2 b) ((le_div_iff₀ hq).2 a)

/-- a 2x4 image in a square of four: the two lower rows are filled, and so are the last column and the second row of pairs, see the next theorem -/
example : letterboxRun letterLoc (fun n => (n : Rat) - 1 - 1 / 100000) (fun _ v => v) [4] 2 9 2 [1, 2, 4, 1] [1, 2, 3, 4, 5, 6, 7, 8] (fun n => List.replicate n 0) =
    .ok ([1, 4, 4, 1], [1, 2, 3, 9, 9, 9, 9, 9, 9, 9, 9, 9, 9, 9, 9, 9]) := by decide +kernel

/-- **The last row and column are lost:** an image put in a box of its own size is not returned; for every image, the last row and column are replaced by the
value for outside. -/
theorem C70_letterbox_border_false (last : Nat → Rat) (hl : LastRow last) (rnd : Nat → Rat → Rat) (dtype : Nat) (d : NumTy) (hd : numTy dtype = some d)
    (hs : Arith dtype) (n h w c : Nat) (h0 : 0 < h) (w0 : 0 < w) (hh : h < 2147483648) (hw : w < 2147483648)
    (x : List Rat) (hx : x.length = n * h * w * c) (outer : Rat) (ho : Castable .real d outer) (fresh : Nat → List Rat) (hf : ∀ n, (fresh n).length = n) :
    ∃ out, letterboxRun letterLoc last rnd [(w : Int), (h : Int)] 2 outer dtype [n, h, w, c] x fresh = .ok ([n, h, w, c], out) ∧
      EachPixel n h w c out fun b r q m e =>
        (r + 1 < h ∧ q + 1 < w → e = source x h w c b m r q) ∧ (r + 1 = h ∨ q + 1 = w → Converts rnd .real d dtype outer e) := by
  have hq : (0 : Rat) < h := by exact_mod_cast h0
  have wq : (0 : Rat) < w := by exact_mod_cast w0
  have loc : ∀ r q : Nat, letterLoc h w h w r q = ((r : Rat), (q : Rat)) := by
    intro r q
    unfold letterLoc
    simp only [Int.cast_natCast, div_self (ne_of_gt hq), div_self (ne_of_gt wq), min_self]
    rw [C66_matrix]
    ext <;> simp
  have place : ∀ m r : Nat, m < 2147483648 → r < m → IntPlace (r : Rat) := by
    intro m r hm hr
    constructor
    · have : (0 : Rat) ≤ r := by exact_mod_cast Nat.zero_le r
      linarith
    · exact_mod_cast (by omega : r < 2147483647)
  obtain ⟨out, e, p⟩ := C70_letterbox_partial letterLoc last hl rnd 2 .nearest (by decide) dtype d hd hs n h w c h w [(w : Int), (h : Int)] (.inl rfl)
    (fun _ r q hr hq => by rw [loc]; exact ⟨place h r hh hr, place w q hw hq⟩) x hx (fun h => absurd h (by decide)) (fun h => absurd h (by decide)) outer ho fresh hf
  refine ⟨out, e, p.1, fun b r q m hb hr hq hm => ?_⟩
  obtain ⟨v, hv, hi, ho⟩ := p.2 b r q m hb hr hq hm
  rw [loc] at hi ho
  refine ⟨v, hv, ?_⟩
  have inner : ∀ n t : Nat, Inner .nearest n (t : Rat) ↔ t + 1 < n := by
    intro n t
    unfold Inner
    simp only
    have t0 : (0 : Rat) ≤ t := by exact_mod_cast Nat.zero_le t
    constructor
    · rintro ⟨-, a⟩
      have : (t : Rat) + 1 < n := by
        have : (2 * t + 3 : Nat) < 2 * n := by
          have : ((2 * t + 3 : Nat) : Rat) < ((2 * n : Nat) : Rat) := by push_cast; linarith
          exact_mod_cast this
        have : t + 1 < n := by omega
        exact_mod_cast this
      exact_mod_cast this
    · intro a
      have : (t : Rat) + 2 ≤ n := by exact_mod_cast a
      exact ⟨by linarith, by linarith⟩
  have self : ∀ n t j : Nat, t < n → NearestRow n (t : Rat) j → j = t := by
    intro n t j ht hj
    have := hj.2 t ht
    simp only [sub_self, abs_zero, abs_nonpos_iff, sub_eq_zero] at this
    exact_mod_cast this
  constructor
  · intro hin
    obtain ⟨j, i, h1, h2, h3⟩ := hi ⟨(inner h r).2 hin.1, (inner w q).2 hin.2⟩
    rw [h3, self h r j hr h1, self w q i hq h2]
  · intro hout
    exact ho fun hc => by
      have a := (inner h r).1 hc.1
      have b := (inner w q).1 hc.2
      omega

/-- **C70, refusals of letterbox**: other ranks, other numbers of sizes, unknown kinds of sampling, types without arithmetic. -/
theorem C70_letterbox_rejects (loc : Nat → Nat → Int → Int → Nat → Nat → Rat × Rat) (last : Nat → Rat) (rnd : Nat → Rat → Rat) (size : List Int) (type : Int) (outer : Rat)
    (dtype : Nat) (shape : List Nat) (x : List Rat) (fresh : Nat → List Rat) :
    (shape.length ≠ 4 → letterboxRun loc last rnd size type outer dtype shape x fresh = .err) ∧
    (size.length ≠ 1 → size.length ≠ 2 → letterboxRun loc last rnd size type outer dtype shape x fresh = .err) ∧
    (∀ tw th : Nat, shape.length = 4 → size = [(tw : Int), (th : Int)] → (type < 0 ∨ 3 < type) ∨ ¬ Arith dtype →
      letterboxRun loc last rnd size type outer dtype shape x fresh = .err) := by
  refine ⟨fun hl => ?_, fun h1 h2 => ?_, fun tw th hl hs hb => ?_⟩
  · unfold letterboxRun
    split
    · simp at hl
    · rfl
  · unfold letterboxRun
    split
    · unfold boxSize
      split
      · simp at h2
      · simp at h1
      · rfl
    · rfl
  · subst hs
    match shape, hl with
    | [n, h, w, c], _ =>
      refine C66_rejects (loc h w th tw) last rnd type 1 (some outer) true dtype [n, h, w, c] th tw x fresh ?_
      rcases hb with hb | hb
      · exact .inl hb
      · exact .inr (.inr (.inr (.inr hb)))

end Verif.Props
