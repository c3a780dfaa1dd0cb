import Verif.Kernels.PriorBox
import Verif.Core.Float32Mono
import Mathlib.Tactic.NormNum
/-!
# Lemmas on prior_box: steps that write the next elements
-/
namespace Verif.Kernels
open Verif.Core

/-- the step writes `vs` from the counter on -/
def Emits (f : List Rat × Nat → Res (List Rat × Nat)) (vs : List Rat) : Prop :=
  ∀ done rest, vs.length ≤ rest.length → f (done ++ rest, done.length) = .ok (done ++ vs ++ rest.drop vs.length, (done ++ vs).length)

theorem Emits.nil : Emits (fun st => .ok st) [] := by
  intro done rest _
  simp

theorem Emits.put (v : Rat) : Emits (putNext v) [v] := by
  intro done rest h
  match rest, h with
  | r :: rest, _ =>
    unfold putNext
    simp only
    rw [wr_ok _ (by simp), Res.bind_ok, List.set_append_right _ _ (Nat.le_refl _)]
    simp

theorem Emits.seq {f g : List Rat × Nat → Res (List Rat × Nat)} {us vs : List Rat} (hf : Emits f us) (hg : Emits g vs) :
    Emits (fun st => f st >>= g) (us ++ vs) := by
  intro done rest h
  rw [List.length_append] at h
  simp only
  rw [hf done rest (by omega), Res.bind_ok, hg (done ++ us) (rest.drop us.length) (by rw [List.length_drop]; omega)]
  simp [List.append_assoc, List.drop_drop]

theorem Emits.loop {f : List Rat × Nat → Nat → Res (List Rat × Nat)} {g : Nat → List Rat} {n : Nat}
    (h : ∀ i, i < n → Emits (fun st => f st i) (g i)) : Emits (fun st => loop f n st) ((List.range n).flatMap g) := by
  induction n with
  | zero => exact Emits.nil
  | succ n ih =>
    rw [List.range_succ, List.flatMap_append, List.flatMap_singleton]
    exact Emits.seq (ih fun i hi => h i (by omega)) (h n (by omega))

/-- the corners of a box -/
def fourOf (A : PriorArith) (v : PriorView) (cx cy : Rat) (q : Rat × Rat) : List Rat :=
  [cornerLo A cx q.1 v.imgW, cornerLo A cy q.2 v.imgH, cornerHi A cx q.1 v.imgW, cornerHi A cy q.2 v.imgH]

theorem putBox_emits (A : PriorArith) (v : PriorView) (cx cy bw bh : Rat) :
    Emits (putBox A v cx cy bw bh) (fourOf A v cx cy (bw, bh)) := by
  have := Emits.seq (Emits.put (cornerLo A cx bw v.imgW)) (Emits.seq (Emits.put (cornerLo A cy bh v.imgH))
    (Emits.seq (Emits.put (cornerHi A cx bw v.imgW)) (Emits.put (cornerHi A cy bh v.imgH))))
  exact this

/-- width and height of the box of a ratio -/
def ratioBox (A : PriorArith) (m : Int) (a : Rat) : Rat × Rat := (A.fl (A.fl m * A.sq a), A.fl (A.fl m / A.sq a))

theorem putRatios_emits (A : PriorArith) (v : PriorView) (cx cy : Rat) (m : Int) (rs : List Rat) :
    Emits (putRatios A v cx cy m rs)
      (((rs.filter fun a => !decide (|A.fd (a - 1)| < priorTol)).map (ratioBox A m)).flatMap (fourOf A v cx cy)) := by
  induction rs with
  | nil => exact Emits.nil
  | cons a rs ih =>
    by_cases h : |A.fd (a - 1)| < priorTol
    · intro done rest hl
      unfold putRatios
      rw [if_pos h]
      rw [List.filter_cons_of_neg (by simpa using h)] at hl ⊢
      exact ih done rest hl
    · rw [List.filter_cons_of_pos (by simpa using h), List.map_cons, List.flatMap_cons]
      intro done rest hl
      unfold putRatios
      rw [if_neg h]
      exact Emits.seq (putBox_emits A v cx cy _ _) ih done rest hl

/-- an element of a list of blocks of equal length -/
theorem block_get {β γ : Type} {g : β → List γ} {m : Nat} : ∀ {l : List β} {i r : Nat} {b : β}, (∀ b ∈ l, (g b).length = m) → l[i]? = some b → r < m →
    (l.flatMap g)[i * m + r]? = (g b)[r]?
  | [], i, r, b, _, h, _ => by simp at h
  | a :: l, 0, r, b, hl, h, hr => by
    simp only [List.getElem?_cons_zero, Option.some.injEq] at h
    subst h
    have := hl a (by simp)
    rw [List.flatMap_cons, Nat.zero_mul, Nat.zero_add, List.getElem?_append_left (by omega)]
  | a :: l, i + 1, r, b, hl, h, hr => by
    have ha := hl a (by simp)
    rw [List.getElem?_cons_succ] at h
    have e : (i + 1) * m + r = m + (i * m + r) := by ring
    rw [List.flatMap_cons, e, List.getElem?_append_right (by omega), ha, Nat.add_sub_cancel_left]
    exact block_get (fun b hb => hl b (by simp [hb])) h hr

theorem block_length {β γ : Type} {g : β → List γ} {m : Nat} : ∀ {l : List β}, (∀ b ∈ l, (g b).length = m) → (l.flatMap g).length = l.length * m
  | [], _ => by simp
  | a :: l, hl => by
    rw [List.flatMap_cons, List.length_append, hl a (by simp), block_length fun b hb => hl b (by simp [hb]), List.length_cons, Nat.add_mul]
    omega

theorem clipBoxes_ok {dim : Nat} {b : List Rat} (h : dim ≤ b.length) :
    ∃ b', clipBoxes dim b = .ok b' ∧ b'.length = b.length ∧ ∀ i, b'[i]? = (b[i]?).map fun v => if i < dim then clampUnit v else v := by
  unfold clipBoxes
  apply loop_inv (fun k (o : List Rat) => o.length = b.length ∧ ∀ i, o[i]? = (b[i]?).map fun v => if i < k then clampUnit v else v)
  · exact ⟨rfl, fun i => by simp⟩
  · rintro k o hk ⟨hl, ho⟩
    have hk' : k < b.length := by omega
    have e : o[k]? = some b[k] := by rw [ho k, List.getElem?_eq_getElem hk']; simp
    refine ⟨o.set k (clampUnit b[k]), ?_, by simp [hl], ?_⟩
    · rw [rd_ok e, Res.bind_ok, wr_ok _ (by omega)]
    · intro i
      by_cases hi : i = k
      · subst hi
        rw [set_eq (by omega), List.getElem?_eq_getElem hk']
        simp
      · rw [set_ne (Ne.symm hi), ho i]
        have : (i < k + 1) ↔ i < k := by omega
        simp only [this]

/-! ## the ratio 1 occurs once -/

theorem f32_at {q : Rat} {n k : Int} (hp : 0 < q) (h1 : (2 : Rat) ^ k ≤ q) (h2 : q < (2 : Rat) ^ (k + 1)) (hn : roundEven (q / (2 : Rat) ^ (k - 23)) = n) :
    f32 q = n * (2 : Rat) ^ (k - 23) := by
  have hl : Int.log 2 |q| = k := by
    rw [abs_of_pos hp]
    have a := (Int.zpow_le_iff_le_log (b := 2) (R := Rat) (by decide) (x := k) hp).1 (by exact_mod_cast h1)
    have b := (Int.lt_zpow_iff_log_lt (b := 2) (R := Rat) (by decide) (x := k + 1) hp).1 (by exact_mod_cast h2)
    omega
  unfold f32 ulp
  rw [hl, hn]

theorem roundEven_odd (t : Rat) : roundEven (-t) = - roundEven t := by
  by_cases hi : (⌊t⌋ : Rat) = t
  · rw [← hi, roundEven_int]
    have : (-(⌊t⌋ : Rat)) = ((-⌊t⌋ : Int) : Rat) := by push_cast; rfl
    rw [this, roundEven_int]
  · have h1 := Int.floor_le t
    have h2 := Int.lt_floor_add_one t
    have h1' : (⌊t⌋ : Rat) < t := lt_of_le_of_ne h1 hi
    have hf : ⌊-t⌋ = -⌊t⌋ - 1 := by
      rw [Int.floor_eq_iff]
      push_cast
      constructor <;> linarith
    unfold roundEven
    rw [hf]
    push_cast
    split_ifs <;> first | omega | (exfalso; linarith)

theorem f32_odd (q : Rat) : f32 (-q) = - f32 q := by
  have : ulp (-q) = ulp q := by unfold ulp; rw [abs_neg]
  unfold f32
  rw [this, neg_div, roundEven_odd]
  push_cast
  ring

theorem roundEven_eq {t : Rat} {n : Int} (h : |t - n| < 1 / 2) : roundEven t = n := by
  have a := roundEven_near t
  rw [abs_lt] at h
  rw [abs_le] at a
  have h1 : ((roundEven t : Int) : Rat) < n + 1 := by linarith
  have h2 : (n : Rat) < roundEven t + 1 := by linarith
  have h1' : roundEven t < n + 1 := by exact_mod_cast h1
  have h2' : n < roundEven t + 1 := by exact_mod_cast h2
  omega

/-- a `double` has 53 places -/
def Double (fd : Rat → Rat) : Prop := ∀ q, |fd q - q| ≤ |q| / 9007199254740992

theorem f32_tol : f32 (priorTol + 1 / 4503599627370496) < priorTol := by
  have : f32 (priorTol + 1 / 4503599627370496) = (8796093 : Int) * (2 : Rat) ^ (-20 - 23 : Int) := by
    apply f32_at
    · norm_num [priorTol]
    · norm_num [priorTol, zpow_neg]
    · norm_num [priorTol, zpow_neg]
    · apply roundEven_eq
      norm_num [priorTol, zpow_neg, abs_lt]
  rw [this]
  norm_num [priorTol, zpow_neg]

theorem Double.zero {fd : Rat → Rat} (h : Double fd) : fd 0 = 0 := by
  have := h 0
  rw [abs_zero, zero_div, sub_zero] at this
  exact abs_nonpos_iff.1 this

theorem f32_near {x : Rat} (h : |x| < priorTol + 1 / 4503599627370496) : |f32 x| < priorTol := by
  rw [abs_lt] at h
  have a := f32_mono (le_of_lt h.2)
  have b := f32_mono (show -x ≤ priorTol + 1 / 4503599627370496 by linarith)
  rw [f32_odd] at b
  have := f32_tol
  rw [abs_lt]
  constructor <;> linarith

theorem Double.near {fd : Rat → Rat} (hd : Double fd) {x : Rat} (h : |fd x| < priorTol) : |f32 x| < priorTol := by
  apply f32_near
  have a := hd x
  have b : |x| ≤ |fd x| + |fd x - x| := by
    have := abs_sub_abs_le_abs_sub x (fd x)
    rw [abs_sub_comm] at this
    linarith
  have c : priorTol < 1 / 100000 := by norm_num [priorTol]
  have := abs_nonneg x
  linarith

theorem Double.far_lo {fd : Rat → Rat} (hd : Double fd) {b : Rat} (h : b - 1 ≤ -(17 / 16777216)) : ¬ |fd (b - 1)| < priorTol := by
  intro hc
  have a := hd (b - 1)
  rw [abs_of_nonpos (show b - 1 ≤ 0 by linarith), abs_le] at a
  rw [abs_lt] at hc
  have c : priorTol < 17 / 16777216 * (1 - 1 / 9007199254740992) := by norm_num [priorTol]
  linarith [a.2, hc.1]

theorem Double.far_hi {fd : Rat → Rat} (hd : Double fd) {b : Rat} (h : 9 / 8388608 ≤ b - 1) : ¬ |fd (b - 1)| < priorTol := by
  intro hc
  have a := hd (b - 1)
  rw [abs_of_nonneg (show 0 ≤ b - 1 by linarith), abs_le] at a
  rw [abs_lt] at hc
  have c : priorTol < 9 / 8388608 * (1 - 1 / 9007199254740992) := by norm_num [priorTol]
  linarith [a.1, hc.2]

theorem f32_c1 : f32 (1 - 167 / 167772160) = 1 - 17 / 16777216 := by
  have : f32 (1 - 167 / 167772160) = (16777199 : Int) * (2 : Rat) ^ (-1 - 23 : Int) := by
    apply f32_at
    · norm_num
    · norm_num [zpow_neg]
    · norm_num [zpow_neg]
    · apply roundEven_eq
      norm_num [zpow_neg, abs_lt]
  rw [this]
  norm_num [zpow_neg]

theorem f32_c2 : f32 (1 + 17 / 16777216 + 100 / 281474976710656) = 1 + 9 / 8388608 := by
  have : f32 (1 + 17 / 16777216 + 100 / 281474976710656) = (8388617 : Int) * (2 : Rat) ^ (0 - 23 : Int) := by
    apply f32_at
    · norm_num
    · norm_num [zpow_neg]
    · norm_num [zpow_neg]
    · apply roundEven_eq
      norm_num [zpow_neg, abs_lt]
  rw [this]
  norm_num [zpow_neg]

/-- the inverse of a ratio that differs from 1 differs from 1 -/
theorem inverse_far {fd : Rat → Rat} (hd : Double fd) {a : Rat} (hp : 0 < a) (hf : f32 a = a) (h : ¬ |f32 (a - 1)| < priorTol) :
    ¬ |fd (f32 (fd (1 / a)) - 1)| < priorTol := by
  have h0 : (0 : Rat) < 1 / 4503599627370496 := by norm_num
  have h1 : ¬ |a - 1| < priorTol := fun hc => h (f32_near (by linarith))
  have hi : 0 < 1 / a := by positivity
  have e := hd (1 / a)
  rw [abs_of_pos hi, abs_le] at e
  rcases le_total 1 a with hge | hle
  · rw [abs_of_nonneg (by linarith), not_lt] at h1
    apply hd.far_lo
    have k : 1 / a ≤ 1 / (1 + priorTol) := by
      apply one_div_le_one_div_of_le
      · norm_num [priorTol]
      · linarith
    have k2 : 1 / (1 + priorTol) * (1 + 1 / 9007199254740992) ≤ 1 - 167 / 167772160 := by norm_num [priorTol]
    have k3 : fd (1 / a) ≤ 1 - 167 / 167772160 := by linarith [e.2]
    have := f32_mono k3
    rw [f32_c1] at this
    linarith
  · rw [abs_of_nonpos (by linarith), not_lt] at h1
    apply hd.far_hi
    have k0 : a ≤ 1 - 167 / 167772160 := by
      have : (167 / 167772160 : Rat) ≤ priorTol := by norm_num [priorTol]
      linarith
    have k1 := f32_mono k0
    rw [f32_c1, hf] at k1
    have k : 1 / (1 - 17 / 16777216) ≤ 1 / a := one_div_le_one_div_of_le hp k1
    have k2 : 1 + 17 / 16777216 + 100 / 281474976710656 ≤ 1 / (1 - 17 / 16777216) * (1 - 1 / 9007199254740992 : Rat) := by norm_num
    have k3 : 1 + 17 / 16777216 + 100 / 281474976710656 ≤ fd (1 / a) := by linarith [e.1]
    have := f32_mono k3
    rw [f32_c2] at this
    linarith

/-- only the first ratio is 1 -/
theorem ratios_ok {A : PriorArith} (hA : A.fl = f32) (hd : Double A.fd) (flip : Bool) (given : List Rat)
    (hg : ∀ a ∈ given, 0 < a ∧ f32 a = a) :
    ∀ tl, (∀ a ∈ tl, ¬ |A.fd (a - 1)| < priorTol) →
      ∃ tl', given.foldl (addRatio A flip) (1 :: tl) = 1 :: tl' ∧ ∀ a ∈ tl', ¬ |A.fd (a - 1)| < priorTol := by
  induction given with
  | nil => intro tl h; exact ⟨tl, rfl, h⟩
  | cons a given ih =>
    intro tl h
    have ih' := ih fun b hb => hg b (by simp [hb])
    obtain ⟨hp, hf⟩ := hg a (by simp)
    rw [List.foldl_cons]
    unfold addRatio
    by_cases hc : ((1 :: tl).any fun r => decide (|A.fl (a - r)| < priorTol)) = true
    · rw [if_pos hc]; exact ih' tl h
    · rw [if_neg hc]
      have hn : ¬ |f32 (a - 1)| < priorTol := by
        intro hx
        apply hc
        rw [hA, List.any_cons]
        simp [hx]
      have h1 : ¬ |A.fd (a - 1)| < priorTol := fun hx => hn (hd.near hx)
      have h2 := inverse_far hd hp hf hn
      rw [← hA] at h2
      cases flip with
      | true =>
        refine ih' (tl ++ [a, A.fl (A.fd (1 / a))]) ?_
        intro b hb
        simp only [List.mem_append, List.mem_cons, List.not_mem_nil, or_false] at hb
        rcases hb with hb | rfl | rfl
        · exact h b hb
        · exact h1
        · exact h2
      | false =>
        refine ih' (tl ++ [a]) ?_
        intro b hb
        simp only [List.mem_append, List.mem_cons, List.not_mem_nil, or_false] at hb
        rcases hb with hb | rfl
        · exact h b hb
        · exact h1

theorem filter_ratios {A : PriorArith} (hd : Double A.fd) {tl : List Rat} (h : ∀ a ∈ tl, ¬ |A.fd (a - 1)| < priorTol) :
    ((1 : Rat) :: tl).filter (fun a => !decide (|A.fd (a - 1)| < priorTol)) = tl := by
  rw [List.filter_cons_of_neg, List.filter_eq_self.2]
  · intro a ha; simpa using h a ha
  · rw [sub_self, hd.zero, abs_zero]; simp [priorTol]

end Verif.Kernels
