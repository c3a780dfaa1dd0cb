import Verif.Kernels.Crop
import Verif.Core.Float32
import Verif.Props.Pad
/-!
# C69: center crop, crop_nd, limit, divided

Specification: `Even` (how much is added or cut on the two sides of an axis), `EachAxis`, `upTo` (the next multiple), `MovedTo` of
`Kernels/PadSpec`.
-/
namespace Verif.Props
open Verif.Core Verif.Spec Verif.Kernels

variable {α : Type}

/-! ## specification -/

/-- the amounts `p` (before, after; negative: cut) bring the extent `s` to `o`, shared as equally as possible by both sides; an odd one
is at the end -/
structure Even (s o : Nat) (p : Int × Int) : Prop where
  sum : p.1 + p.2 = (o : Int) - s
  sign : (0 ≤ p.1 ∧ 0 ≤ p.2) ∨ (p.1 ≤ 0 ∧ p.2 ≤ 0)
  half : p.1.natAbs ≤ p.2.natAbs ∧ p.2.natAbs ≤ p.1.natAbs + 1

/-- `P` for every axis -/
def EachAxis (P : Nat → Nat → Int × Int → Prop) : List Nat → List Nat → List (Int × Int) → Prop
  | s :: ss, o :: os, p :: ps => P s o p ∧ EachAxis P ss os ps
  | [], [], [] => True
  | _, _, _ => False

/-- the result `Y` of shape `o` has the elements of `X` where the amounts `ps` move them, and `v` elsewhere -/
def PaddedBy (s o : List Nat) (ps : List (Int × Int)) (v : α) (X Y : List Nat → α) : Prop :=
  (∀ d c, InBounds s d → InBounds o c → MovedTo ps d c → Y c = X d) ∧
  (∀ c, InBounds o c → (∀ d, InBounds s d → ¬ MovedTo ps d c) → Y c = v)

/-- the extent under a limit; limits that are not positive do not limit -/
def limited (l : Int) (s : Nat) : Nat := if 0 < l then min s l.toNat else s

/-- `d = c + t` -/
def ShiftedBy : List Int → List Nat → List Nat → Prop
  | t :: ts, c :: cs, d :: ds => (d : Int) = c + t ∧ ShiftedBy ts cs ds
  | [], [], [] => True
  | _, _, _ => False

/-- the extent asked for; requests that are not positive keep the extent -/
def asked1 (want : Int) (s : Nat) : Nat := if 0 < want then want.toNat else s

/-- the smallest multiple of `k` that is at least `s` -/
def upTo (s k : Nat) : Nat := (s + k - 1) / k * k

theorem upTo_spec (s k : Nat) (hk : 0 < k) : k ∣ upTo s k ∧ s ≤ upTo s k ∧ ∀ m, k ∣ m → s ≤ m → upTo s k ≤ m := by
  unfold upTo
  have h1 := Nat.div_add_mod (s + k - 1) k
  have h2 := Nat.mod_lt (s + k - 1) hk
  have h3 : (s + k - 1) / k * k = k * ((s + k - 1) / k) := Nat.mul_comm _ _
  refine ⟨⟨_, h3⟩, by omega, ?_⟩
  rintro m ⟨j, rfl⟩ hm
  have : (s + k - 1) / k < j + 1 := by
    rw [Nat.div_lt_iff_lt_mul hk, Nat.add_mul]
    rw [Nat.mul_comm] at hm
    omega
  rw [h3]
  exact Nat.mul_le_mul_left _ (by omega)

/-! ## lemmas -/

theorem tdiv_two (d : Int) : (0 ≤ d → 0 ≤ d.tdiv 2 ∧ d.tdiv 2 ≤ d - d.tdiv 2 ∧ d - d.tdiv 2 ≤ d.tdiv 2 + 1) ∧
    (d ≤ 0 → d.tdiv 2 ≤ 0 ∧ d - d.tdiv 2 ≤ d.tdiv 2 ∧ d.tdiv 2 - 1 ≤ d - d.tdiv 2) := by
  constructor
  · intro h
    rw [Int.tdiv_eq_ediv_of_nonneg h]
    omega
  · intro h
    have : d.tdiv 2 = -((-d).tdiv 2) := by rw [Int.neg_tdiv]; omega
    rw [this, Int.tdiv_eq_ediv_of_nonneg (by omega)]
    omega

theorem centred_ok {s o : Nat} (hs : s ≤ 2147483647) (ho : o ≤ 2147483647) : ∃ p, centred o s = .ok p ∧ Even s o p := by
  have h1 := tdiv_two ((o : Int) - s)
  have i1 : I32 ((o : Int) - s) := by unfold I32; omega
  refine ⟨(((o : Int) - s).tdiv 2, (o : Int) - s - ((o : Int) - s).tdiv 2), ?_, ?_, ?_, ?_⟩
  · unfold centred
    rw [int32_ok i1, Res.bind_ok, int32_ok, Res.bind_ok]
    unfold I32
    rcases Int.le_total 0 ((o : Int) - s) with h | h
    · have := h1.1 h; omega
    · have := h1.2 h; omega
  · simp only; omega
  · simp only
    rcases Int.le_total 0 ((o : Int) - s) with h | h
    · have := h1.1 h; omega
    · have := h1.2 h; omega
  · simp only
    rcases Int.le_total 0 ((o : Int) - s) with h | h
    · have := h1.1 h; omega
    · have := h1.2 h; omega

theorem even_fits {s o : Nat} {p : Int × Int} (h : Even s o p) (hs : s ≤ 2147483647) (ho : o ≤ 2147483647) (ho' : 1 ≤ o) :
    (o : Int) = s + p.1 + p.2 ∧ 1 ≤ o ∧ I32 (p.1 + p.2) ∧ I32 (-p.1) ∧ I32 (s + p.1 + p.2) ∧ I32 (s + p.2) := by
  obtain ⟨a, b, c⟩ := h
  unfold I32
  omega

theorem even_self {s : Nat} {p : Int × Int} (h : Even s s p) : p = (0, 0) := by
  obtain ⟨a, b, c⟩ := h
  obtain ⟨p, q⟩ := p
  simp only at *
  ext <;> simp only <;> omega

theorem each_fits {s o : List Nat} {ps : List (Int × Int)} (h : EachAxis Even s o ps) (hs : ∀ a ∈ s, a ≤ 2147483647)
    (ho : ∀ a ∈ o, 1 ≤ a ∧ a ≤ 2147483647) : PadFits s ps o := by
  induction s generalizing o ps with
  | nil => cases o <;> cases ps <;> simp_all [EachAxis, PadFits]
  | cons a s ih =>
    cases o with
    | nil => cases ps <;> simp [EachAxis] at h
    | cons b o =>
      cases ps with
      | nil => simp [EachAxis] at h
      | cons p ps =>
        obtain ⟨h1, h2⟩ := h
        obtain ⟨e1, e2, e3, e4, e5, e6⟩ := even_fits h1 (hs a (by simp)) (ho b (by simp)).2 (ho b (by simp)).1
        exact ⟨e1, e2, e3, e4, e5, e6, ih h2 (fun a h => hs a (by simp [h])) (fun a h => ho a (by simp [h]))⟩

theorem mem_le_prod {s : List Nat} (hs : ∀ a ∈ s, 0 < a) : ∀ a ∈ s, a ≤ prod s := by
  induction s with
  | nil => simp
  | cons b s ih =>
    have hp : 0 < prod s := prod_pos fun a h => hs a (by simp [h])
    have hb : 0 < b := hs b (by simp)
    intro a ha
    rcases List.mem_cons.1 ha with rfl | ha
    · exact Nat.le_mul_of_pos_right _ hp
    · exact Nat.le_trans (ih (fun a h => hs a (by simp [h])) a ha) (Nat.le_mul_of_pos_left _ hb)

/-- a result that is at most as large as the operand has only elements of the operand -/
theorem moved_back {s o : List Nat} {ps : List (Int × Int)} (h : EachAxis Even s o ps) (hle : ∀ (i : Nat) a b, s[i]? = some a → o[i]? = some b → b ≤ a)
    {c : List Nat} (hc : InBounds o c) : ∃ d, InBounds s d ∧ MovedTo ps d c := by
  induction s generalizing o ps c with
  | nil =>
    cases o <;> cases ps <;> simp [EachAxis] at h
    cases c <;> simp [InBounds] at hc
    exact ⟨[], by simp [InBounds, MovedTo]⟩
  | cons a s ih =>
    cases o with
    | nil => cases ps <;> simp [EachAxis] at h
    | cons b o =>
      cases ps with
      | nil => simp [EachAxis] at h
      | cons p ps =>
        cases c with
        | nil => simp [InBounds] at hc
        | cons c cs =>
          obtain ⟨⟨e1, e2, e3⟩, h2⟩ := h
          obtain ⟨d, hd, hm⟩ := ih h2 (fun i a b h1 h2 => hle (i + 1) a b (by simpa using h1) (by simpa using h2)) hc.2
          have := hle 0 a b rfl rfl
          have := hc.1
          exact ⟨((c : Int) - p.1).toNat :: d, ⟨by omega, hd⟩, by omega, hm⟩

/-! ## center crop -/

/-- **C69, center crop.** The result has the rows and columns asked for; rows and columns are cut or added on both sides equally (an odd one
below and on the right), pixels keep their batch, their channel and their place relative to the centre, and what was not in the image is
the padding value (zero). -/
theorem C69_center_crop (v : α) (n sh sw k w h dt : Nat) (data : List α) (X : List Nat → α) (fresh : Nat → List α)
    (hX : Holds [n, sh, sw, k] data X) (hs : 0 < n ∧ 0 < sh ∧ 0 < sw ∧ 0 < k) (hb : prod [n, sh, sw, k] ≤ 2147483647) (ht : plainType dt)
    (hf : ∀ n, (fresh n).length = n) (hw : 1 ≤ w ∧ w ≤ 2147483647) (hh : 1 ≤ h ∧ h ≤ 2147483647) :
    ∃ out Y rows cols, centerCropRun v w h ⟨dt, [n, sh, sw, k], data⟩ fresh = .ok ([n, h, w, k], out) ∧
      centerCropInfer w h [n, sh, sw, k] = .ok [(n : Int), h, w, k] ∧
      Holds [n, h, w, k] out Y ∧ Even sh h rows ∧ Even sw w cols ∧
      ∀ b y x c, b < n → y < h → x < w → c < k →
        (∀ y' x', y' < sh → x' < sw → (y : Int) = y' + rows.1 → (x : Int) = x' + cols.1 → Y [b, y, x, c] = X [b, y', x', c]) ∧
        ((y : Int) < rows.1 ∨ sh + rows.1 ≤ y ∨ (x : Int) < cols.1 ∨ sw + cols.1 ≤ x → Y [b, y, x, c] = v) := by
  have hle := mem_le_prod (s := [n, sh, sw, k]) (by simp [hs])
  have b1 : sh ≤ 2147483647 := Nat.le_trans (hle sh (by simp)) hb
  have b2 : sw ≤ 2147483647 := Nat.le_trans (hle sw (by simp)) hb
  have b0 : n ≤ 2147483647 := Nat.le_trans (hle n (by simp)) hb
  have b3 : k ≤ 2147483647 := Nat.le_trans (hle k (by simp)) hb
  obtain ⟨rows, r1, r2⟩ := centred_ok b1 hh.2
  obtain ⟨cols, c1, c2⟩ := centred_ok b2 hw.2
  have ez : ∀ a : Nat, Even a a (0, 0) := fun a => ⟨by simp, by simp, by simp⟩
  have hax : EachAxis Even [n, sh, sw, k] [n, h, w, k] [(0, 0), rows, cols, (0, 0)] := ⟨ez n, r2, c2, ez k, trivial⟩
  have hfit := each_fits hax (by simp; omega) (by simp; omega)
  obtain ⟨out, Y, e, hY, m1, m2⟩ := C55_pad_partial v ⟨dt, [n, sh, sw, k], data⟩ X _ _ fresh hX (by simp [hs]) hb ht hf hfit (by simp)
  refine ⟨out, Y, rows, cols, ?_, rfl, hY, r2, c2, ?_⟩
  · unfold centerCropRun
    simp only
    rw [r1, Res.bind_ok, c1, Res.bind_ok, e]
  · intro b y x c hb hy hx hc
    constructor
    · intro y' x' hy' hx' ey ex
      exact m1 [b, y', x', c] [b, y, x, c] (by simp [InBounds, *]) (by simp [InBounds, *]) (by simp [MovedTo, *])
    · intro hout
      refine m2 _ (by simp [InBounds, *]) ?_
      intro d hd hm
      match d, hd, hm with
      | [d0, d1, d2, d3], hd, hm =>
        simp only [InBounds, MovedTo] at hd hm
        omega

/-- a row of three pixels in the middle of five, and cut to two -/
example : centerCropRun (0 : Int) 5 1 ⟨10, [1, 1, 3, 1], [7, 8, 9]⟩ (fun n => List.replicate n 99) = .ok ([1, 1, 5, 1], [0, 7, 8, 9, 0]) ∧
    centerCropRun (0 : Int) 2 1 ⟨10, [1, 1, 3, 1], [7, 8, 9]⟩ (fun n => List.replicate n 99) = .ok ([1, 1, 2, 1], [7, 8]) := by decide
example : Even 3 2 (0, -1) ∧ ¬ Even 3 2 (-1, 0) ∧ Even 3 5 (1, 1) := ⟨⟨by decide, by decide, by decide⟩, fun h => absurd h.half (by decide), ⟨by decide, by decide, by decide⟩⟩

/-- A size of zero is not refused: one row is produced where the announced result has none. -/
theorem C69_center_zero_false : centerCropRun (0 : Int) 1 0 ⟨10, [1, 2, 1, 1], [7, 8]⟩ (fun n => List.replicate n 99) = .ok ([1, 1, 1, 1], [0]) ∧
    centerCropInfer 1 0 [1, 2, 1, 1] = .ok [1, 0, 1, 1] := by decide

/-- **C69, refusals of center crop**: images have four dimensions. -/
theorem C69_center_rejects (v : α) (w h : Int) (x : Operand α) (fresh : Nat → List α) (hr : x.shape.length ≠ 4) :
    centerCropRun v w h x fresh = .err ∧ centerCropInfer w h x.shape = .err := by
  unfold centerCropRun centerCropInfer
  constructor
  · split
    · rename_i hx; rw [hx] at hr; simp at hr
    · rfl
  · split
    · rename_i hx; rw [hx] at hr; simp at hr
    · rfl

/-! ## limit -/

/-- the limits for all axes: missing ones are for the first axes and do not limit -/
def fullLimits (limit : List Int) (s : List Nat) : List Int := List.replicate (s.length - limit.length) (-1) ++ limit

theorem limitLoop_eq {s : List Nat} {ls : List Int} (h : ls.length = s.length) :
    (limitLoop s ls).1 = ints (List.zipWith limited ls s) ∧
    ((limitLoop s ls).2 = false → List.zipWith limited ls s = s) := by
  induction s generalizing ls with
  | nil => cases ls <;> simp_all [limitLoop]
  | cons a s ih =>
    cases ls with
    | nil => simp at h
    | cons l ls =>
      obtain ⟨i1, i2⟩ := ih (ls := ls) (by simpa using h)
      unfold limitLoop limited
      simp only [List.zipWith_cons_cons]
      split
      · rename_i hl
        simp only [i1]
        have : (if 0 < l then min a l.toNat else a) = a := by
          split
          · rw [Nat.min_def]; split <;> omega
          · rfl
        refine ⟨?_, fun e => ?_⟩
        · simp only [ints, List.map_cons, this]
          rfl
        · rw [this]; congr 1; exact i2 e
      · rename_i hl
        have : (if 0 < l then min a l.toNat else a) = l.toNat := by
          rw [if_pos (by omega), Nat.min_def]; split <;> omega
        refine ⟨?_, fun e => absurd e (by simp)⟩
        simp only [ints, List.map_cons, this, i1]
        congr 1
        show l = ((l.toNat : Nat) : Int)
        omega

theorem limitPads_ok {s o : List Nat} (hl : o.length = s.length) (hs : ∀ a ∈ s, a ≤ 2147483647) (ho : ∀ a ∈ o, a ≤ 2147483647) :
    ∃ ps, limitPads (ints o) s = .ok ps ∧ EachAxis Even s o ps := by
  induction s generalizing o with
  | nil => cases o <;> simp_all [limitPads, EachAxis]
  | cons a s ih =>
    cases o with
    | nil => simp at hl
    | cons b o =>
      obtain ⟨p, e1, e2⟩ := centred_ok (hs a (by simp)) (ho b (by simp))
      obtain ⟨ps, e3, e4⟩ := ih (o := o) (by simpa using hl) (fun a h => hs a (by simp [h])) (fun a h => ho a (by simp [h]))
      refine ⟨p :: ps, ?_, e2, e4⟩
      show (do let p ← centred (b : Int) a; let r ← limitPads (ints o) s; Res.ok (p :: r)) = _
      rw [e1, Res.bind_ok, e3, Res.bind_ok]

theorem zipWith_limited_mem {ls : List Int} {s : List Nat} (hs : ∀ a ∈ s, 0 < a ∧ a ≤ 2147483647) :
    ∀ a ∈ List.zipWith limited ls s, 1 ≤ a ∧ a ≤ 2147483647 := by
  intro a ha
  rw [List.mem_iff_getElem?] at ha
  obtain ⟨i, hi⟩ := ha
  rw [List.getElem?_zipWith] at hi
  split at hi
  · rename_i l b h1 h2
    have := hs b (List.mem_of_getElem? h2)
    injection hi with hi
    subst hi
    unfold limited
    split
    · rw [Nat.min_def]; split <;> omega
    · omega
  · simp at hi

theorem even_zero (a : Nat) : Even a a (0, 0) := ⟨by simp, by simp, by simp⟩

theorem each_zero (s : List Nat) : EachAxis Even s s (s.map fun _ => (0, 0)) := by
  induction s with
  | nil => trivial
  | cons a s ih => exact ⟨even_zero a, ih⟩

theorem moved_zero {s : List Nat} {c d : List Nat} (h : MovedTo (s.map fun _ => (0, 0)) d c) : d = c := by
  induction s generalizing c d with
  | nil => cases c <;> cases d <;> simp_all [MovedTo]
  | cons a s ih =>
    cases c with
    | nil => cases d <;> simp [MovedTo] at h
    | cons c cs =>
      cases d with
      | nil => simp [MovedTo] at h
      | cons d ds =>
        obtain ⟨h1, h2⟩ := h
        simp only at h1
        rw [ih h2]
        congr 1
        omega

/-- **C69, limit.** No extent of the result is over its limit, extents within their limits stay as they are, what is over is cut from both
sides equally (an odd one at the end), and the elements that stay are those of the operand, in their order. The announced shape is this
one. Missing: limits on the first axis of tensors of rank 4 (`C69_limit_batch_false`). -/
theorem C69_limit_partial (v : α) (limit : List Int) (x : Operand α) (X : List Nat → α) (fresh : Nat → List α)
    (hX : Holds x.shape x.data X) (hs : ∀ a ∈ x.shape, 0 < a) (hb : prod x.shape ≤ 2147483647) (ht : plainType x.dtype)
    (hf : ∀ n, (fresh n).length = n) (hl : limit.length ≤ x.shape.length)
    (h4 : x.shape.length = 4 → (List.zipWith limited (fullLimits limit x.shape) x.shape).head? = x.shape.head?) :
    ∃ out Y ps, limitRun v limit x fresh = .ok (List.zipWith limited (fullLimits limit x.shape) x.shape, out) ∧
      limitInfer limit x.shape = .ok (ints (List.zipWith limited (fullLimits limit x.shape) x.shape)) ∧
      Holds (List.zipWith limited (fullLimits limit x.shape) x.shape) out Y ∧
      EachAxis Even x.shape (List.zipWith limited (fullLimits limit x.shape) x.shape) ps ∧
      ∀ c, InBounds (List.zipWith limited (fullLimits limit x.shape) x.shape) c → ∃ d, InBounds x.shape d ∧ MovedTo ps d c ∧ Y c = X d := by
  have hlen : (fullLimits limit x.shape).length = x.shape.length := by simp [fullLimits]; omega
  obtain ⟨l1, l2⟩ := limitLoop_eq hlen
  have hov : ifOverflow limit x.shape = .ok (limitLoop x.shape (fullLimits limit x.shape)) := by
    unfold ifOverflow
    rw [if_pos hl]
    rfl
  have hinf : limitInfer limit x.shape = .ok (ints (List.zipWith limited (fullLimits limit x.shape) x.shape)) := by
    unfold limitInfer
    rw [hov, Res.bind_ok, ← l1]
  have hsm : ∀ a ∈ x.shape, 0 < a ∧ a ≤ 2147483647 := fun a h => ⟨hs a h, Nat.le_trans (mem_le_prod hs a h) hb⟩
  have hom := zipWith_limited_mem (ls := fullLimits limit x.shape) hsm
  have hol : (List.zipWith limited (fullLimits limit x.shape) x.shape).length = x.shape.length := by simp [hlen]
  cases hover : (limitLoop x.shape (fullLimits limit x.shape)).2 with
  | false =>
    have ho := l2 hover
    refine ⟨x.data, X, x.shape.map fun _ => (0, 0), ?_, hinf, ?_, ?_, ?_⟩
    · unfold limitRun
      rw [hov, Res.bind_ok]
      simp only [hover, Bool.false_eq_true, if_false, ho]
    · rw [ho]; exact hX
    · rw [ho]; exact each_zero _
    · intro c hc
      obtain ⟨d, hd, hm⟩ := moved_back (by rw [ho]; exact each_zero x.shape) (fun i a b h1 h2 => by rw [ho, h1] at h2; injection h2 with h2; omega) hc
      exact ⟨d, hd, hm, by rw [moved_zero hm]⟩
  | true =>
    obtain ⟨ps, p1, p2⟩ := limitPads_ok hol (fun a h => (hsm a h).2) (fun a h => (hom a h).2)
    have hfit := each_fits p2 (fun a h => (hsm a h).2) hom
    obtain ⟨out, Y, e, hY, m1, -⟩ := C55_pad_partial v x X ps _ fresh hX hs hb ht hf hfit (by
      intro hr p hp
      have := h4 hr
      revert p2 this
      generalize List.zipWith limited (fullLimits limit x.shape) x.shape = o
      intro p2 this
      cases hsh : x.shape with
      | nil => rw [hsh] at hr; simp at hr
      | cons a s =>
        cases ps with
        | nil => simp at hp
        | cons q ps =>
          rw [hsh] at this p2
          cases o with
          | nil => simp at this
          | cons b o =>
            simp only [List.head?_cons, Option.some.injEq] at this hp
            subst this hp
            rw [even_self p2.1]
            simp)
    refine ⟨out, Y, ps, ?_, hinf, hY, p2, ?_⟩
    · unfold limitRun
      rw [hov, Res.bind_ok]
      simp only [hover, if_true, l1]
      rw [p1, Res.bind_ok, e]
    · intro c hc
      obtain ⟨d, hd, hm⟩ := moved_back p2 (fun i a b h1 h2 => by
        rw [List.getElem?_zipWith, h1] at h2
        split at h2
        · rename_i l b' h3 h4
          injection h4 with h4
          injection h2 with h2
          subst h2 h4
          unfold limited
          split
          · exact Nat.min_le_left _ _
          · exact Nat.le_refl _
        · simp at h2) hc
      exact ⟨d, hd, hm, m1 d c hd hc hm⟩

/-- seven columns limited to four: two are cut on the left, ... -/
example : limitRun (0 : Int) [-1, 4] ⟨10, [2, 7], [1, 2, 3, 4, 5, 6, 7, 11, 12, 13, 14, 15, 16, 17]⟩ (fun n => List.replicate n 99) =
    .ok ([2, 4], [2, 3, 4, 5, 12, 13, 14, 15]) := by decide
example : List.zipWith limited (fullLimits [4] [2, 7]) [2, 7] = [2, 4] := by decide

/-- **C69, limiting the batch.** A limit on the first axis of a tensor of rank 4, if it is over, has the kernel of `pad` read outside the operand
or write outside the result, whatever the elements are. -/
theorem C69_limit_batch_false (v : α) (l0 : Nat) (l1 l2 l3 : Int) (dt s0 s1 s2 s3 : Nat) (data : List α) (fresh : Nat → List α)
    (hd : data.length = prod [s0, s1, s2, s3]) (ht : plainType dt) (hl : 0 < l0) (hover : l0 < s0) (hs : 0 < s1 ∧ 0 < s2 ∧ 0 < s3)
    (hb : prod [s0, s1, s2, s3] ≤ 2147483647) :
    limitRun v [(l0 : Int), l1, l2, l3] ⟨dt, [s0, s1, s2, s3], data⟩ fresh = .ub := by
  have hpos : ∀ a ∈ [s0, s1, s2, s3], 0 < a := by simp; omega
  have hsm : ∀ a ∈ [s0, s1, s2, s3], 0 < a ∧ a ≤ 2147483647 := fun a h => ⟨hpos a h, Nat.le_trans (mem_le_prod hpos a h) hb⟩
  obtain ⟨e1, e2⟩ := limitLoop_eq (s := [s0, s1, s2, s3]) (ls := [(l0 : Int), l1, l2, l3]) rfl
  have hom := zipWith_limited_mem (ls := [(l0 : Int), l1, l2, l3]) hsm
  obtain ⟨ps, p1, p2⟩ := limitPads_ok (s := [s0, s1, s2, s3]) (o := List.zipWith limited [(l0 : Int), l1, l2, l3] [s0, s1, s2, s3]) rfl
    (fun a h => (hsm a h).2) (fun a h => (hom a h).2)
  have hfit := each_fits p2 (fun a h => (hsm a h).2) hom
  have hov : (limitLoop [s0, s1, s2, s3] [(l0 : Int), l1, l2, l3]).2 = true := by
    unfold limitLoop
    rw [if_neg (by omega)]
  unfold limitRun
  rw [show ifOverflow [(l0 : Int), l1, l2, l3] [s0, s1, s2, s3] = .ok (limitLoop [s0, s1, s2, s3] [(l0 : Int), l1, l2, l3]) from rfl, Res.bind_ok]
  simp only [hov, if_true]
  rw [e1, p1, Res.bind_ok]
  match ps, p2, hfit with
  | [q0, q1, q2, q3], p2, hfit =>
    simp only [List.zipWith_cons_cons, List.zipWith_nil_left, EachAxis] at p2 hfit
    obtain ⟨a0, a1, a2, a3, -⟩ := p2
    have h0 : limited l0 s0 = l0 := by unfold limited; rw [if_pos (by omega), Nat.min_def]; split <;> omega
    have le : ∀ (l : Int) (s : Nat), limited l s ≤ s := by
      intro l s; unfold limited; split
      · exact Nat.min_le_left _ _
      · exact Nat.le_refl _
    have ge : ∀ (l : Int) (s : Nat), 0 < s → 0 < limited l s := by
      intro l s h; unfold limited; split
      · rw [Nat.min_def]; split <;> omega
      · exact h
    have cut : ∀ (l : Int) (s : Nat) (p : Int × Int), 0 < s → Even s (limited l s) p → 0 < (s : Int) + min p.1 0 + min p.2 0 := by
      rintro l s p h ⟨x, y, z⟩
      have := le l s
      have := ge l s h
      omega
    refine C55_batch_false v dt s0 s1 s2 s3 _ _ _ _ data q0 q1 q2 q3 fresh hd ht (by omega) hfit ?_ ?_
    · intro q hq
      simp only [List.mem_cons, List.not_mem_nil, or_false] at hq
      rcases hq with rfl | rfl | rfl
      · exact cut l1 s1 q1 hs.1 a1
      · exact cut l2 s2 q2 hs.2.1 a2
      · exact cut l3 s3 q3 hs.2.2 a3
    · obtain ⟨x, y, z⟩ := a0
      rw [h0] at x
      omega

/-- the smallest case: two images limited to one -/
example : limitRun (0 : Int) [1, 1, 1, 1] ⟨10, [2, 1, 1, 1], [7, 8]⟩ (fun n => List.replicate n 99) = .ub := by decide

/-- **C69, refusals of limit**: more limits than axes. -/
theorem C69_limit_rejects (v : α) (limit : List Int) (x : Operand α) (fresh : Nat → List α) (hl : x.shape.length < limit.length) :
    limitRun v limit x fresh = .err ∧ limitInfer limit x.shape = .err := by
  unfold limitRun limitInfer ifOverflow
  rw [if_neg (by omega)]
  exact ⟨rfl, rfl⟩

/-! ## crop_nd -/

theorem cropPads_ok {s : List Nat} {ws : List Int} (hl : ws.length = s.length) (hs : ∀ a ∈ s, a ≤ 2147483647) (hw : ∀ w ∈ ws, w ≤ 2147483647) :
    ∃ ps, cropPads ws s = .ok ps ∧ EachAxis Even s (List.zipWith asked1 ws s) ps := by
  induction s generalizing ws with
  | nil => cases ws <;> simp_all [cropPads, EachAxis]
  | cons a s ih =>
    cases ws with
    | nil => simp at hl
    | cons w ws =>
      obtain ⟨ps, e3, e4⟩ := ih (ws := ws) (by simpa using hl) (fun a h => hs a (by simp [h])) (fun a h => hw a (by simp [h]))
      have : ∃ p, cropPad w a = .ok p ∧ Even a (asked1 w a) p := by
        unfold asked1 cropPad
        split
        · rw [if_neg (by omega)]; exact ⟨_, rfl, even_zero a⟩
        · rw [if_pos (by omega)]
          obtain ⟨p, e1, e2⟩ := centred_ok (o := w.toNat) (hs a (by simp)) (by have := hw w (by simp); omega)
          rw [Int.toNat_of_nonneg (by omega)] at e1
          exact ⟨p, e1, e2⟩
      obtain ⟨p, e1, e2⟩ := this
      refine ⟨p :: ps, ?_, e2, e4⟩
      unfold cropPads
      rw [e1, Res.bind_ok, e3, Res.bind_ok]

theorem asked1_mem {ws : List Int} {s : List Nat} (hs : ∀ a ∈ s, 0 < a ∧ a ≤ 2147483647) (hw : ∀ w ∈ ws, w ≤ 2147483647) :
    ∀ a ∈ List.zipWith asked1 ws s, 1 ≤ a ∧ a ≤ 2147483647 := by
  intro a ha
  rw [List.mem_iff_getElem?] at ha
  obtain ⟨i, hi⟩ := ha
  rw [List.getElem?_zipWith] at hi
  split at hi
  · rename_i l b h1 h2
    have := hs b (List.mem_of_getElem? h2)
    have := hw l (List.mem_of_getElem? h1)
    injection hi with hi
    subst hi
    unfold asked1
    split <;> omega
  · simp at hi

/-- **C69, crop_nd without a shift.** Every axis has the extent asked for, or its own where that is not positive, cut or extended on both sides
equally. Missing: cutting the first axis of tensors of rank 4 (`C69_crop_batch_false`). -/
theorem C69_crop_nd_partial (v : α) (wants : List Int) (x : Operand α) (X : List Nat → α) (fresh : Nat → List α)
    (hX : Holds x.shape x.data X) (hs : ∀ a ∈ x.shape, 0 < a) (hb : prod x.shape ≤ 2147483647) (ht : plainType x.dtype)
    (hf : ∀ n, (fresh n).length = n) (hl : wants.length = x.shape.length) (h0 : 0 < x.shape.length) (hw : ∀ w ∈ wants, w ≤ 2147483647)
    (h4 : x.shape.length = 4 → ∀ a w, x.shape.head? = some a → wants.head? = some w → a ≤ asked1 w a) :
    ∃ out Y ps, cropNdRun v [] wants x fresh = .ok (List.zipWith asked1 wants x.shape, out) ∧
      Holds (List.zipWith asked1 wants x.shape) out Y ∧ EachAxis Even x.shape (List.zipWith asked1 wants x.shape) ps ∧
      PaddedBy x.shape (List.zipWith asked1 wants x.shape) ps v X Y := by
  have hsm : ∀ a ∈ x.shape, 0 < a ∧ a ≤ 2147483647 := fun a h => ⟨hs a h, Nat.le_trans (mem_le_prod hs a h) hb⟩
  have hom := asked1_mem hsm hw
  obtain ⟨ps, p1, p2⟩ := cropPads_ok hl (fun a h => (hsm a h).2) hw
  have hfit := each_fits p2 (fun a h => (hsm a h).2) hom
  have hps : ps ≠ [] := by
    rintro rfl
    cases hsh : x.shape with
    | nil => rw [hsh] at h0; simp at h0
    | cons a s => rw [hsh] at p2; cases hz : List.zipWith asked1 wants (a :: s) <;> rw [hz] at p2 <;> simp [EachAxis] at p2
  obtain ⟨out, Y, e, hY, m1, m2⟩ := C55_pad_partial v x X ps _ fresh hX hs hb ht hf hfit (by
    intro hr p hp
    have := h4 hr
    cases hsh : x.shape with
    | nil => rw [hsh] at hr; simp at hr
    | cons a s =>
      cases ps with
      | nil => simp at hp
      | cons q ps =>
        cases wants with
        | nil => rw [hsh] at hl; simp at hl
        | cons w ws =>
          rw [hsh] at this p2
          have := this a w rfl rfl
          simp only [List.head?_cons, Option.some.injEq] at hp
          subst hp
          obtain ⟨⟨x1, x2, x3⟩, -⟩ := p2
          omega)
  refine ⟨out, Y, ps, ?_, hY, p2, m1, m2⟩
  unfold cropNdRun cropAmounts
  rw [if_pos ⟨.inl rfl, hl⟩, if_pos rfl, p1]
  simp only [Res.bind_ok]
  rw [if_neg hps, Res.bind_ok, e]

example : cropNdRun (0 : Int) [] [-1, 5] ⟨10, [2, 2], [1, 2, 3, 4]⟩ (fun n => List.replicate n 99) = .ok ([2, 5], [0, 1, 2, 0, 0, 0, 3, 4, 0, 0]) := by decide

theorem shiftPads_ok {s : List Nat} {ts ws : List Int} (hl : ws.length = s.length) (htl : ts.length = s.length) (hs : ∀ a ∈ s, 0 < a ∧ a ≤ 2147483647)
    (hw : ∀ w ∈ ws, w ≤ 2147483647)
    (ht : ∀ (i : Nat) t o a, ts[i]? = some t → (List.zipWith asked1 ws s)[i]? = some o → s[i]? = some a →
      -2147483648 < t ∧ I32 (t + o) ∧ I32 (t + o - a)) :
    ∃ ps, shiftPads ts ws s = .ok ps ∧ PadFits s ps (List.zipWith asked1 ws s) ∧ (∀ d c, MovedTo ps d c ↔ ShiftedBy ts c d) ∧
      (∀ (t : Int) (o a : Nat), ts.head? = some t → (List.zipWith asked1 ws s).head? = some o → s.head? = some a → ps.head? = some (-t, t + o - a)) := by
  induction s generalizing ws ts with
  | nil =>
    cases ws with
    | cons w ws => simp at hl
    | nil =>
      cases ts with
      | cons t ts => simp at htl
      | nil =>
        refine ⟨[], rfl, trivial, ?_, by simp⟩
        intro d c
        cases d <;> cases c <;> simp [MovedTo, ShiftedBy]
  | cons a s ih =>
    cases ws with
    | nil => simp at hl
    | cons w ws =>
      cases ts with
      | nil => simp at htl
      | cons t ts =>
        obtain ⟨ps, e1, e2, e3, -⟩ := ih (ws := ws) (ts := ts) (by simpa using hl) (by simpa using htl) (fun a h => hs a (by simp [h]))
          (fun a h => hw a (by simp [h])) (fun i t o a h1 h2 h3 => ht (i + 1) t o a (by simpa using h1) (by simpa using h2) (by simpa using h3))
        obtain ⟨t1, t2, t3⟩ := ht 0 t (asked1 w a) a rfl rfl rfl
        have ha := hs a (by simp)
        have hw' := hw w (by simp)
        have hsp : shiftPad t w a = .ok (-t, t + asked1 w a - a) := by
          unfold shiftPad
          have it : I32 (-t) := by unfold I32 at *; omega
          unfold asked1 at *
          split
          · rename_i hw0
            rw [if_neg (by omega), int32_ok it, Res.bind_ok]
            congr 2
            omega
          · rename_i hw0
            rw [if_pos (by omega)] at *
            rw [show ((w.toNat : Nat) : Int) = w by omega] at *
            rw [int32_ok it, Res.bind_ok, int32_ok t2, Res.bind_ok, int32_ok t3, Res.bind_ok]
        have ho : 1 ≤ asked1 w a ∧ asked1 w a ≤ 2147483647 := by unfold asked1; split <;> omega
        refine ⟨(-t, t + asked1 w a - a) :: ps, ?_, ?_, ?_, ?_⟩
        · unfold shiftPads
          rw [hsp, Res.bind_ok, e1, Res.bind_ok]
        · refine ⟨?_, ho.1, ?_, ?_, ?_, ?_, e2⟩
          · simp only; omega
          all_goals (unfold I32 at *; simp only; omega)
        · intro d c
          cases d with
          | nil => cases c <;> simp [MovedTo, ShiftedBy]
          | cons d ds =>
            cases c with
            | nil => simp [MovedTo, ShiftedBy]
            | cons c cs =>
              simp only [MovedTo, ShiftedBy, e3]
              constructor <;> rintro ⟨h1, h2⟩ <;> exact ⟨by omega, h2⟩
        · intro t' o' a' h1 h2 h3
          simp only [List.head?_cons, List.zipWith_cons_cons, Option.some.injEq] at *
          subst h1 h2 h3
          rfl

/-- **C69, crop_nd with a shift.** The cell `c` of the result is the element at `c + shift` of the operand, or the padding value if there is none.
Missing: as before. -/
theorem C69_crop_shift_partial (v : α) (shift wants : List Int) (x : Operand α) (X : List Nat → α) (fresh : Nat → List α)
    (hX : Holds x.shape x.data X) (hs : ∀ a ∈ x.shape, 0 < a) (hb : prod x.shape ≤ 2147483647) (ht : plainType x.dtype)
    (hf : ∀ n, (fresh n).length = n) (hl : wants.length = x.shape.length) (hl' : shift.length = x.shape.length) (h0 : 0 < x.shape.length)
    (hw : ∀ w ∈ wants, w ≤ 2147483647)
    (hr : ∀ (i : Nat) t o a, shift[i]? = some t → (List.zipWith asked1 wants x.shape)[i]? = some o → x.shape[i]? = some a →
      -2147483648 < t ∧ I32 (t + o) ∧ I32 (t + o - a))
    (h4 : x.shape.length = 4 → ∀ (t : Int) (o a : Nat), shift.head? = some t → (List.zipWith asked1 wants x.shape).head? = some o → x.shape.head? = some a →
      t ≤ 0 ∧ (a : Int) ≤ t + o) :
    ∃ out Y, cropNdRun v shift wants x fresh = .ok (List.zipWith asked1 wants x.shape, out) ∧
      Holds (List.zipWith asked1 wants x.shape) out Y ∧
      ∀ c, InBounds (List.zipWith asked1 wants x.shape) c →
        (∀ d, InBounds x.shape d → ShiftedBy shift c d → Y c = X d) ∧ ((∀ d, InBounds x.shape d → ¬ ShiftedBy shift c d) → Y c = v) := by
  have hsm : ∀ a ∈ x.shape, 0 < a ∧ a ≤ 2147483647 := fun a h => ⟨hs a h, Nat.le_trans (mem_le_prod hs a h) hb⟩
  obtain ⟨ps, e1, e2, e3, e4⟩ := shiftPads_ok hl hl' hsm hw hr
  have hps : ps ≠ [] := by
    rintro rfl
    have := (padFits_lengths e2).1
    simp at this
    omega
  obtain ⟨out, Y, e, hY, m1, m2⟩ := C55_pad_partial v x X ps _ fresh hX hs hb ht hf e2 (by
    intro hr4 p hp
    have h4 := h4 hr4
    cases hsh : x.shape with
    | nil => rw [hsh] at hr4; simp at hr4
    | cons a s =>
      cases wants with
      | nil => rw [hsh] at hl; simp at hl
      | cons w ws =>
        cases shift with
        | nil => rw [hsh] at hl'; simp at hl'
        | cons t ts =>
          rw [hsh] at e4 h4
          have q1 := e4 t (asked1 w a) a rfl rfl rfl
          have q2 := h4 t (asked1 w a) a rfl rfl rfl
          rw [hp] at q1
          injection q1 with q1
          subst q1
          simp only
          omega)
  refine ⟨out, Y, ?_, hY, fun c hc => ⟨fun d hd hm => m1 d c hd hc ((e3 d c).2 hm), fun h => m2 c hc fun d hd hm => h d hd ((e3 d c).1 hm)⟩⟩
  have hne : shift ≠ [] := by rintro rfl; simp at hl'; omega
  unfold cropNdRun cropAmounts
  rw [if_pos ⟨.inr hl', hl⟩, if_neg hne, e1]
  simp only [Res.bind_ok]
  rw [if_neg hps, Res.bind_ok, e]

/-- the second and third column, and one after the last -/
example : cropNdRun (0 : Int) [0, 1] [-1, 3] ⟨10, [2, 3], [1, 2, 3, 4, 5, 6]⟩ (fun n => List.replicate n 99) = .ok ([2, 3], [2, 3, 0, 5, 6, 0]) := by decide
example : ShiftedBy [0, 1] [1, 1] [1, 2] := by simp [ShiftedBy]

/-- **C69, cropping the batch.** Cutting the first axis of a tensor of rank 4 (here with the other extents kept) is undefined. -/
theorem C69_crop_batch_false (v : α) (w0 dt s0 s1 s2 s3 : Nat) (data : List α) (fresh : Nat → List α)
    (hd : data.length = prod [s0, s1, s2, s3]) (ht : plainType dt) (hl : 0 < w0) (hover : w0 < s0) (hs : 0 < s1 ∧ 0 < s2 ∧ 0 < s3)
    (hb : prod [s0, s1, s2, s3] ≤ 2147483647) :
    cropNdRun v [] [(w0 : Int), -1, -1, -1] ⟨dt, [s0, s1, s2, s3], data⟩ fresh = .ub := by
  have hpos : ∀ a ∈ [s0, s1, s2, s3], 0 < a := by simp; omega
  have hsm : ∀ a ∈ [s0, s1, s2, s3], 0 < a ∧ a ≤ 2147483647 := fun a h => ⟨hpos a h, Nat.le_trans (mem_le_prod hpos a h) hb⟩
  have hs0 := (hsm s0 (by simp)).2
  have hw : ∀ w ∈ [(w0 : Int), -1, -1, -1], w ≤ 2147483647 := by simp; omega
  obtain ⟨ps, p1, p2⟩ := cropPads_ok (s := [s0, s1, s2, s3]) (ws := [(w0 : Int), -1, -1, -1]) rfl (fun a h => (hsm a h).2) hw
  have hfit := each_fits p2 (fun a h => (hsm a h).2) (asked1_mem hsm hw)
  unfold cropNdRun cropAmounts
  rw [if_pos ⟨.inl rfl, rfl⟩, if_pos rfl, p1]
  match ps, p2, hfit with
  | [q0, q1, q2, q3], p2, hfit =>
    simp only [Res.bind_ok, reduceCtorEq, if_false]
    have k : ∀ a : Nat, asked1 (-1) a = a := fun a => rfl
    have k0 : asked1 (w0 : Int) s0 = w0 := by unfold asked1; rw [if_pos (by omega)]; omega
    simp only [List.zipWith_cons_cons, List.zipWith_nil_left, EachAxis, k, k0] at p2 hfit
    obtain ⟨a0, a1, a2, a3, -⟩ := p2
    have := even_self a1
    have := even_self a2
    have := even_self a3
    subst q1 q2 q3
    refine C55_batch_false v dt s0 s1 s2 s3 _ _ _ _ data q0 _ _ _ fresh hd ht (by omega) hfit ?_ ?_
    · intro q hq
      simp only [List.mem_cons, List.not_mem_nil, or_false] at hq
      rcases hq with rfl | rfl | rfl <;> simp only <;> omega
    · obtain ⟨x, y, z⟩ := a0
      omega

example : cropNdRun (0 : Int) [] [1, -1, -1, -1] ⟨10, [2, 1, 1, 1], [7, 8]⟩ (fun n => List.replicate n 99) = .ub := by decide

/-- The announced shape of crop_nd is the request itself, with extents that are not positive where the result keeps those of the operand. -/
theorem C69_crop_infer_false : cropNdInfer [-1, 5] = .ok [-1, 5] ∧
    cropNdRun (0 : Int) [] [-1, 5] ⟨10, [2, 2], [1, 2, 3, 4]⟩ (fun n => List.replicate n 99) = .ok ([2, 5], [0, 1, 2, 0, 0, 0, 3, 4, 0, 0]) := by decide

/-- **C69, refusals of crop_nd**: one request, and one shift or none, for each axis. -/
theorem C69_crop_rejects (v : α) (shift wants : List Int) (x : Operand α) (fresh : Nat → List α)
    (h : wants.length ≠ x.shape.length ∨ (shift ≠ [] ∧ shift.length ≠ x.shape.length)) : cropNdRun v shift wants x fresh = .err := by
  unfold cropNdRun cropAmounts
  rw [if_neg (by rintro ⟨h1, h2⟩; rcases h with h | ⟨h, h'⟩; · exact h h2
                 · rcases h1 with h1 | h1; · exact h h1
                   · exact h' h1)]
  rfl

/-! ## divided -/

/-- rounding up in `float`s is exact for extents below 2^24 -/
theorem dividedExtent_ok {fl : Rat → Rat} (hfl : Binary32 fl) {y k : Nat} (hy : 0 < y) (hy' : y < 16777216) (hk : 0 < k) (hk' : k < 16777216) :
    dividedExtent fl y k = .ok (upTo y k) := by
  have hup := upTo_spec y k hk
  unfold dividedExtent
  split
  · rename_i h1
    have : k = 1 := by omega
    subst this
    unfold upTo
    simp
  rw [if_neg (by omega)]
  have ey : fl ((y : Nat) : Rat) = y := by exact_mod_cast hfl.exact (y : Int) (by rw [abs_lt]; omega)
  have ek : fl (((k : Nat) : Int) : Rat) = k := by exact_mod_cast hfl.exact (k : Int) (by rw [abs_lt]; omega)
  rw [ey, ek]
  -- the exact quotient
  obtain ⟨⟨j, hj⟩, hge, hmin⟩ := hup
  have hj0 : 0 < j := by
    rcases Nat.eq_zero_or_pos j with h | h
    · subst h; omega
    · exact h
  have hlt : k * (j - 1) < y := by
    by_contra hc
    have := hmin (k * (j - 1)) ⟨_, rfl⟩ (by omega)
    rw [hj] at this
    have := Nat.le_of_mul_le_mul_left this hk
    omega
  have hjy : j ≤ y := by
    have : j - 1 ≤ k * (j - 1) := Nat.le_mul_of_pos_left _ hk
    omega
  have kq : (0 : Rat) < k := by exact_mod_cast hk
  have yq : (0 : Rat) < y := by exact_mod_cast hy
  have q1 : (y : Rat) / k ≤ j := by
    rw [div_le_iff₀ kq]
    have : y ≤ j * k := by rw [Nat.mul_comm, ← hj]; exact hge
    exact_mod_cast this
  have q2 : (y : Rat) ≥ k * ((j : Rat) - 1) + 1 := by
    have : k * (j - 1) + 1 ≤ y := hlt
    have h : ((k * (j - 1) + 1 : Nat) : Rat) ≤ y := by exact_mod_cast this
    push_cast [Nat.cast_sub hj0] at h
    exact h
  have q0 : 0 < (y : Rat) / k := by positivity
  have qy : (y : Rat) / k ≤ y := by
    rw [div_le_iff₀ kq]
    have : (1 : Rat) ≤ k := by exact_mod_cast hk
    nlinarith
  have hyr : (y : Rat) < 16777216 := by exact_mod_cast hy'
  have herr := hfl.error ((y : Rat) / k)
  have hnear := hfl.nearest ((y : Rat) / k) j (by rw [abs_of_pos q0]; linarith) (by rw [abs_le]; omega)
  rw [abs_of_pos q0] at herr
  have hc : ⌈fl ((y : Rat) / k)⌉ = (j : Int) := by
    rw [Int.ceil_eq_iff]
    push_cast
    constructor
    · have h1 := (abs_le.1 herr).1
      have h2 : (y : Rat) / k / 16777216 < 1 / k := by
        rw [div_div, div_lt_div_iff₀ (by positivity) kq]
        nlinarith
      have h3 : (j : Rat) - 1 + 1 / k ≤ y / k := by
        rw [le_div_iff₀ kq, add_mul, one_div, inv_mul_cancel₀ (ne_of_gt kq)]
        nlinarith
      linarith
    · by_contra hgt
      push Not at hgt
      push_cast at hnear
      rw [abs_of_pos (by linarith), abs_of_nonneg (by linarith)] at hnear
      linarith
  rw [hc]
  have b1 : k * j < 33554432 := by
    have : k * j = k * (j - 1) + k := by
      conv_lhs => rw [show j = (j - 1) + 1 by omega, Nat.mul_add, Nat.mul_one]
    omega
  have i1 : I32 (j : Int) := by unfold I32; omega
  have i2 : I32 ((j : Int) * k) := by
    have : (j : Int) * k = ((k * j : Nat) : Int) := by push_cast; ring
    rw [this]
    unfold I32
    omega
  rw [int32_ok i1, Res.bind_ok, int32_ok i2, hj]
  congr 1
  push_cast
  ring

/-- one step of the specification for `divided`, over the last axes -/
theorem dividedLoop_ok {fl : Rat → Rat} (hfl : Binary32 fl) {ks ys : List Nat} (h : ks.length ≤ ys.length) (hk : ∀ k ∈ ks, 0 < k ∧ k < 16777216)
    (hy : ∀ y ∈ ys, 0 < y ∧ y < 16777216) :
    dividedLoop fl (ints ks) ys = .ok (ints (List.zipWith upTo ys (ks ++ List.replicate (ys.length - ks.length) 1))) := by
  induction ks generalizing ys with
  | nil =>
    have : dividedLoop fl (ints []) ys = .ok (ints ys) := by unfold dividedLoop; rfl
    rw [this]
    congr 2
    clear h hy this
    induction ys with
    | nil => rfl
    | cons y ys ih =>
      simp only [List.nil_append, List.length_nil, Nat.sub_zero, List.length_cons, List.replicate_succ, List.zipWith_cons_cons] at *
      rw [← ih]
      congr 1
      unfold upTo
      simp
  | cons k ks ih =>
    cases ys with
    | nil => simp at h
    | cons y ys =>
      have e := ih (ys := ys) (by simpa using h) (fun a h => hk a (by simp [h])) (fun a h => hy a (by simp [h]))
      have d := dividedExtent_ok hfl (hy y (by simp)).1 (hy y (by simp)).2 (hk k (by simp)).1 (hk k (by simp)).2
      show (do let e ← dividedExtent fl y (k : Int); let r ← dividedLoop fl (ints ks) ys; Res.ok (e :: r)) = _
      rw [d, Res.bind_ok, e, Res.bind_ok]
      simp [ints]

/-- the extents of the result: the last axes are brought to multiples of the sizes, the others stay -/
def dividedTo (ks s : List Nat) : List Nat := List.zipWith upTo s (List.replicate (s.length - ks.length) 1 ++ ks)

theorem dividedShape_ok {fl : Rat → Rat} (hfl : Binary32 fl) {ks s : List Nat} (h : ks.length ≤ s.length) (hk : ∀ k ∈ ks, 0 < k ∧ k < 16777216)
    (hs : ∀ y ∈ s, 0 < y ∧ y < 16777216) : dividedShape fl (ints ks) s = .ok (ints (dividedTo ks s)) := by
  unfold dividedShape
  rw [if_neg (by simp [ints]; omega)]
  have : (ints ks).reverse = ints ks.reverse := by simp [ints]
  rw [this, dividedLoop_ok hfl (by simpa using h) (by simpa using hk) (by simpa using hs), Res.bind_ok]
  congr 1
  rw [ints, ← List.map_reverse, ← ints]
  congr 1
  unfold dividedTo
  rw [List.reverse_zipWith (by simp; omega)]
  simp

theorem dividedPads_ok {s o : List Nat} (hl : o.length = s.length) (hs : ∀ a ∈ s, a ≤ 2147483647)
    (ho : ∀ (i : Nat) a b, s[i]? = some a → o[i]? = some b → 0 < a ∧ a ≤ b ∧ b ≤ 2147483647) :
    ∃ ps, dividedPads (ints o) s = .ok ps ∧ PadFits s ps o ∧ (∀ d c, MovedTo ps d c → d = c) ∧ (∀ c, c.length = s.length → MovedTo ps c c) ∧
      ∀ p ∈ ps, 0 ≤ p.1 ∧ 0 ≤ p.2 := by
  induction s generalizing o with
  | nil =>
    cases o <;> simp_all [dividedPads, PadFits]
    constructor
    · intro d c; cases d <;> cases c <;> simp [MovedTo]
    · trivial
  | cons a s ih =>
    cases o with
    | nil => simp at hl
    | cons b o =>
      obtain ⟨ps, e1, e2, e3, e4, e5⟩ := ih (o := o) (by simpa using hl) (fun a h => hs a (by simp [h]))
        (fun i a b h1 h2 => ho (i + 1) a b (by simpa using h1) (by simpa using h2))
      obtain ⟨h1, h2, h3⟩ := ho 0 a b rfl rfl
      refine ⟨(0, (b : Int) - a) :: ps, ?_, ?_, ?_, ?_, ?_⟩
      · show (do let d ← int32 ((b : Int) - a); let r ← dividedPads (ints o) s; Res.ok ((0, d) :: r)) = _
        rw [int32_ok (by unfold I32; omega), Res.bind_ok, e1, Res.bind_ok]
      · refine ⟨by simp only; omega, by omega, ?_, ?_, ?_, ?_, e2⟩
        all_goals (unfold I32; simp only; omega)
      · intro d c h
        cases d with
        | nil => cases c <;> simp [MovedTo] at h
        | cons d ds =>
          cases c with
          | nil => simp [MovedTo] at h
          | cons c cs =>
            obtain ⟨x, y⟩ := h
            rw [e3 _ _ y]
            simp only at x
            congr 1
            omega
      · intro c hc
        cases c with
        | nil => simp at hc
        | cons c cs => exact ⟨by simp, e4 cs (by simpa using hc)⟩
      · intro p hp
        rcases List.mem_cons.1 hp with rfl | hp
        · simp only; omega
        · exact e5 p hp

theorem inBounds_len {s c : List Nat} (h : InBounds s c) : c.length = s.length := by
  induction s generalizing c with
  | nil => cases c <;> simp_all [InBounds]
  | cons a s ih =>
    cases c with
    | nil => simp [InBounds] at h
    | cons c cs => simp [ih h.2]

/-- **C69, divided.** The extents of the last axes become the smallest multiples of the sizes given that are not smaller; all elements stay at their
places and the rest is the padding value; the announced shape is this one. Extents and sizes below 2^24, where `float`s count exactly: missing are
larger ones (`C69_divided_large_false`). -/
theorem C69_divided_partial {fl : Rat → Rat} (hfl : Binary32 fl) (v : α) (ks : List Nat) (x : Operand α) (X : List Nat → α) (fresh : Nat → List α)
    (hX : Holds x.shape x.data X) (hs : ∀ a ∈ x.shape, 0 < a ∧ a < 16777216) (hb : prod x.shape ≤ 2147483647) (ht : plainType x.dtype)
    (hf : ∀ n, (fresh n).length = n) (hl : ks.length ≤ x.shape.length) (hk : ∀ k ∈ ks, 0 < k ∧ k < 16777216) :
    ∃ out Y, dividedRun fl v (ints ks) x fresh = .ok (dividedTo ks x.shape, out) ∧ dividedInfer fl (ints ks) x.shape = .ok (ints (dividedTo ks x.shape)) ∧
      Holds (dividedTo ks x.shape) out Y ∧
      ∀ c, InBounds (dividedTo ks x.shape) c → (InBounds x.shape c → Y c = X c) ∧ (¬ InBounds x.shape c → Y c = v) := by
  have hsh := dividedShape_ok hfl hl hk hs
  have hlen : (dividedTo ks x.shape).length = x.shape.length := by simp [dividedTo]; omega
  obtain ⟨ps, e1, e2, e3, e4, e5⟩ := dividedPads_ok (s := x.shape) (o := dividedTo ks x.shape) hlen (fun a h => by have := hs a h; omega) (by
    intro i a b h1 h2
    have ha := hs a (List.mem_of_getElem? h1)
    unfold dividedTo at h2
    rw [List.getElem?_zipWith, h1] at h2
    split at h2
    · rename_i a' k h3 h4
      injection h3 with h3
      injection h2 with h2
      subst h3 h2
      have hk' : 0 < k ∧ k < 16777216 := by
        rcases List.mem_append.1 (List.mem_of_getElem? h4) with h | h
        · have := List.eq_of_mem_replicate h; omega
        · exact hk k h
      have hu := upTo_spec a k hk'.1
      refine ⟨ha.1, hu.2.1, ?_⟩
      have : upTo a k ≤ a + k - 1 := Nat.div_mul_le_self _ _
      omega
    · simp at h2)
  obtain ⟨out, Y, e, hY, m1, m2⟩ := C55_pad_partial v x X ps _ fresh hX (fun a h => (hs a h).1) hb ht hf e2 (fun _ p hp => e5 p (List.mem_of_mem_head? hp))
  refine ⟨out, Y, ?_, hsh, hY, fun c hc => ⟨fun h => m1 c c h hc (e4 c (inBounds_len h)), fun h => m2 c hc fun d hd hm => h ?_⟩⟩
  · unfold dividedRun
    rw [hsh, Res.bind_ok, e1, Res.bind_ok, e]
  · rw [← e3 d c hm]; exact hd

example : upTo 5 4 = 8 ∧ upTo 8 4 = 8 ∧ dividedTo [4, 1] [3, 5, 7] = [3, 8, 7] := by decide
/-- the hypothesis about `float`s is met by rounding to nearest -/
example : ∃ out Y, dividedRun f32 (0 : Int) [4] ⟨10, [2, 3], [1, 2, 3, 4, 5, 6]⟩ (fun n => List.replicate n 99) = .ok ([2, 4], out) ∧
    Holds [2, 4] out Y ∧ Y [1, 2] = 6 ∧ Y [1, 3] = 0 := by
  obtain ⟨out, Y, h1, -, h2, h3⟩ := C69_divided_partial f32_binary32 (0 : Int) [4] ⟨10, [2, 3], [1, 2, 3, 4, 5, 6]⟩
    (fun c => ([1, 2, 3, 4, 5, 6] : List Int).getD (lin [2, 3] c) 0) (fun n => List.replicate n 99)
    ⟨rfl, by
      intro c hc
      match c, hc with
      | [a, b], hc =>
        simp only [InBounds] at hc
        obtain ⟨ha, hb, -⟩ := hc
        have : a = 0 ∨ a = 1 := by omega
        have : b = 0 ∨ b = 1 ∨ b = 2 := by omega
        rcases ‹a = 0 ∨ a = 1› with rfl | rfl <;> rcases ‹b = 0 ∨ b = 1 ∨ b = 2› with rfl | rfl | rfl <;> rfl⟩
    (by decide) (by decide) rfl (by simp) (by decide) (by decide)
  exact ⟨out, Y, h1, h2, (h3 [1, 2] (by decide)).1 (by decide), (h3 [1, 3] (by decide)).2 (by decide)⟩

/-- **C69, divided and large extents.** 2^24 + 1 rows, to be brought to a multiple of 16, become 2^24 rows: the last row is cut off. -/
theorem C69_divided_large_false {fl : Rat → Rat} (hfl : Binary32 fl) : dividedInfer fl [16] [16777217] = .ok [16777216] := by
  have e1 : fl (((16777217 : Nat) : Rat)) = 16777216 := by exact_mod_cast hfl.tie
  have e2 : fl (((16 : Int)) : Rat) = 16 := by exact_mod_cast hfl.exact 16 (by norm_num)
  have e3 : fl (16777216 / 16) = 1048576 := by
    rw [show (16777216 / 16 : Rat) = ((1048576 : Int) : Rat) by norm_num, hfl.exact 1048576 (by norm_num)]
    norm_num
  have c : ⌈(1048576 : Rat)⌉ = 1048576 := by
    rw [Int.ceil_eq_iff]; norm_num
  have : dividedExtent fl 16777217 16 = .ok 16777216 := by
    unfold dividedExtent
    rw [if_neg (by decide), if_neg (by decide), e1, e2, e3, c]
    decide
  unfold dividedInfer dividedShape
  rw [if_neg (by decide)]
  show (do let r ← (do let e ← dividedExtent fl 16777217 16; let r ← dividedLoop fl [] []; Res.ok (e :: r)); Res.ok r.reverse) = _
  rw [this]
  rfl

example : ∃ fl, Binary32 fl := ⟨f32, f32_binary32⟩

/-- **C69, refusals of divided**: more sizes than axes. -/
theorem C69_divided_rejects (fl : Rat → Rat) (v : α) (size : List Int) (x : Operand α) (fresh : Nat → List α) (hl : x.shape.length < size.length) :
    dividedRun fl v size x fresh = .err ∧ dividedInfer fl size x.shape = .err := by
  unfold dividedRun dividedInfer dividedShape
  rw [if_pos hl]
  exact ⟨rfl, rfl⟩

end Verif.Props
