import Verif.Kernels.WinogradAlgebra
import Verif.Kernels.GemmLemmas
import Verif.Kernels.BroadcastLemmas
import Verif.Kernels.BatchLemmas
/-!
# Lemmas about the loops of the Winograd convolution
-/
namespace Verif.Kernels
open Verif.Core

variable {α : Type}

/-! ## positions of four coordinates -/

/-- the position of a cell -/
def enc4 (B C D a b c d : Nat) : Nat := ((a * B + b) * C + c) * D + d

/-- a function of four coordinates as a function of the position -/
def dec4 (B C D : Nat) (V : Nat → Nat → Nat → Nat → α) (p : Nat) : α := V (p / D / C / B) (p / D / C % B) (p / D % C) (p % D)

theorem mul_add_div' {a b D : Nat} (h : b < D) : (a * D + b) / D = a := by
  rw [Nat.add_comm, Nat.add_mul_div_right _ _ (by omega), Nat.div_eq_of_lt h, Nat.zero_add]
theorem mul_add_mod' {a b D : Nat} (h : b < D) : (a * D + b) % D = b := by
  rw [Nat.add_comm, Nat.add_mul_mod_self_right, Nat.mod_eq_of_lt h]

theorem dec4_enc {B C D a b c d : Nat} (V : Nat → Nat → Nat → Nat → α) (hb : b < B) (hc : c < C) (hd : d < D) :
    dec4 B C D V (enc4 B C D a b c d) = V a b c d := by
  simp only [dec4, enc4, mul_add_div' hd, mul_add_mod' hd, mul_add_div' hc, mul_add_mod' hc, mul_add_div' hb, mul_add_mod' hb]

theorem enc4_lt {A B C D a b c d : Nat} (ha : a < A) (hb : b < B) (hc : c < C) (hd : d < D) : enc4 B C D a b c d < A * B * C * D :=
  rc_lt (rc_lt (rc_lt ha hb) hc) hd

theorem enc4_cover {A B C D p : Nat} (h : p < A * B * C * D) :
    ∃ a b c d, a < A ∧ b < B ∧ c < C ∧ d < D ∧ p = enc4 B C D a b c d := by
  have hD : 0 < D := by rcases Nat.eq_zero_or_pos D with rfl | h'; · simp at h
                        · exact h'
  have h1 : p / D < A * B * C := by rw [Nat.div_lt_iff_lt_mul hD]; exact h
  have hC : 0 < C := by rcases Nat.eq_zero_or_pos C with rfl | h'; · simp at h1
                        · exact h'
  have h2 : p / D / C < A * B := by rw [Nat.div_lt_iff_lt_mul hC]; exact h1
  have hB : 0 < B := by rcases Nat.eq_zero_or_pos B with rfl | h'; · simp at h2
                        · exact h'
  have h3 : p / D / C / B < A := by rw [Nat.div_lt_iff_lt_mul hB]; exact h2
  refine ⟨_, _, _, _, h3, Nat.mod_lt (p / D / C) hB, Nat.mod_lt (p / D) hC, Nat.mod_lt p hD, ?_⟩
  unfold enc4
  rw [Nat.div_add_mod', Nat.div_add_mod', Nat.div_add_mod']

/-- a loop over consecutive blocks -/
theorem Eff.block {L base w n : Nat} {g : Nat → α} {f : List α → Nat → Res (List α)}
    (h : ∀ i, i < n → Eff L g (fun out => f out i) (fun p => base + i * w ≤ p ∧ p < base + (i + 1) * w)) :
    Eff L g (fun out => Verif.Kernels.loop f n out) (fun p => base ≤ p ∧ p < base + n * w) := by
  refine (Eff.loop h).congr (fun _ _ => rfl) ?_
  intro p
  constructor
  · rintro ⟨h1, h2⟩
    have hw : 0 < w := by rcases Nat.eq_zero_or_pos w with rfl | h'; · omega
                          · exact h'
    refine ⟨(p - base) / w, ?_, ?_, ?_⟩
    · rw [Nat.div_lt_iff_lt_mul hw]; omega
    · have := Nat.div_mul_le_self (p - base) w; omega
    · have := Nat.lt_div_mul_add hw (a := p - base); rw [Nat.add_mul]; omega
  · rintro ⟨i, hi, h1, h2⟩
    have : (i + 1) * w ≤ n * w := Nat.mul_le_mul_right _ hi
    omega

/-- a loop that writes consecutive cells -/
theorem Eff.cells {L base n : Nat} {g : Nat → α} {f : List α → Nat → Res (List α)}
    (h : ∀ i, i < n → Eff L g (fun out => f out i) (· = base + i)) :
    Eff L g (fun out => Verif.Kernels.loop f n out) (fun p => base ≤ p ∧ p < base + n) := by
  have := Eff.block (L := L) (base := base) (w := 1) (n := n) (g := g) (f := f)
    (fun i hi => (h i hi).congr (fun _ _ => rfl) (fun p => by omega))
  simpa using this

/-! ## padding and cutting -/

theorem fillRow_eff {L outW at_ : Nat} {g : Nat → α} {padv : α} (hL : at_ + outW ≤ L) (hg : ∀ w, w < outW → g (at_ + w) = padv) :
    Eff L g (fun dst => fillRow padv outW at_ dst) (fun p => at_ ≤ p ∧ p < at_ + outW) :=
  Eff.cells fun w hw => Eff.wr (by omega) (hg w hw).symm

theorem pad2dRow_eff {L outW at_ srcW src l : Nat} {g : Nat → α} {x : List α} {X : Nat → α} {padv : α} (hL : at_ + outW ≤ L)
    (hW : l + srcW ≤ outW) (hx : ∀ w, w < srcW → x[src + w]? = some (X w))
    (hg : ∀ w, w < outW → g (at_ + w) = if l ≤ w ∧ w < l + srcW then X (w - l) else padv) :
    Eff L g (fun dst => pad2dRow x padv (l : Int) srcW outW src at_ dst) (fun p => at_ ≤ p ∧ p < at_ + outW) := by
  have e1 : Eff L g (fun dst => loop (fun dst w => wr dst (at_ + w) padv) l dst) (fun p => at_ ≤ p ∧ p < at_ + l) :=
    Eff.cells fun w hw => Eff.wr (by omega) (by rw [hg w (by omega), if_neg (by omega)])
  have e3 : ∀ k, k = l + srcW → Eff L g (fun dst => loop (fun dst i => wr dst (at_ + (k + i)) padv) (outW - k) dst)
      (fun p => at_ + k ≤ p ∧ p < at_ + k + (outW - k)) := by
    rintro k rfl
    exact Eff.cells fun w hw => (Eff.wr (by omega) (by rw [hg _ (by omega), if_neg (by omega)])).congr (fun _ _ => rfl) (fun p => by omega)
  have e2 : Eff L g (fun dst => if srcW < 12 then
      loop (fun dst i => do
        let v ← rd x (src + (((l + i : Nat) : Int) - (l : Int)).toNat)
        wr dst (at_ + (l + i)) v) ((l : Int) + srcW - l).toNat dst
    else
      loop (fun dst i => do
        let v ← rd x (src + i)
        wrI dst (at_ + (l : Int) + i) v) srcW dst) (fun p => at_ + l ≤ p ∧ p < at_ + l + srcW) := by
    by_cases hs : srcW < 12
    · simp only [if_pos hs, show ((l : Int) + srcW - l).toNat = srcW by omega]
      refine Eff.cells fun i hi => ?_
      refine (Eff.wr (p := at_ + l + i) (v := X i) (by omega) ?_).congr ?_ (fun _ => Iff.rfl)
      · rw [Nat.add_assoc, hg _ (by omega), if_pos (by omega)]; congr 1; omega
      · intro out _
        rw [show (((l + i : Nat) : Int) - (l : Int)).toNat = i by omega, rd_ok (hx i hi), Res.bind_ok, Nat.add_assoc]
    · simp only [if_neg hs]
      refine Eff.cells fun i hi => ?_
      refine (Eff.wr (p := at_ + l + i) (v := X i) (by omega) ?_).congr ?_ (fun _ => Iff.rfl)
      · rw [Nat.add_assoc, hg _ (by omega), if_pos (by omega)]; congr 1; omega
      · intro out _
        rw [rd_ok (hx i hi), Res.bind_ok, show (at_ : Int) + l + i = ((at_ + l + i : Nat) : Int) by push_cast; ring, wrI_nat]
  have hk : (if srcW < 12 then l + ((l : Int) + srcW - l).toNat else l + srcW) = l + srcW := by split <;> omega
  refine ((e1.seq e2).seq (e3 _ hk)).congr ?_ ?_
  · intro out _
    unfold pad2dRow
    simp only [Int.toNat_natCast]
    rcases loop (fun dst w => wr dst (at_ + w) padv) l out with o | _ | _ <;> by_cases hs : srcW < 12 <;> simp only [if_pos, if_neg, hs, if_true, if_false] <;> rfl
  · intro p
    rw [hk]
    omega

theorem padChannel_eff {L srcH srcW outH outW src at_ t l : Nat} {g : Nat → α} {x : List α} {X : Nat → Nat → α} {padv : α}
    (hL : at_ + outH * outW ≤ L) (hH : t + srcH ≤ outH) (hW : l + srcW ≤ outW)
    (hx : ∀ h w, h < srcH → w < srcW → x[src + h * srcW + w]? = some (X h w))
    (hg : ∀ h w, h < outH → w < outW → g (at_ + h * outW + w) =
      if (t ≤ h ∧ h < t + srcH) ∧ l ≤ w ∧ w < l + srcW then X (h - t) (w - l) else padv) :
    Eff L g (fun dst => padChannel x padv (t : Int) (l : Int) srcH srcW outH outW src at_ dst)
      (fun p => at_ ≤ p ∧ p < at_ + outH * outW) := by
  have row : ∀ h, h < outH → at_ + h * outW + outW ≤ L := by
    intro h hh
    have : (h + 1) * outW ≤ outH * outW := Nat.mul_le_mul_right _ hh
    rw [Nat.add_mul] at this
    omega
  have e1 : Eff L g (fun dst => loop (fun dst h => fillRow padv outW (at_ + h * outW) dst) t dst) (fun p => at_ ≤ p ∧ p < at_ + t * outW) :=
    Eff.block fun h hh => (fillRow_eff (row h (by omega)) (fun w hw => by rw [hg h w (by omega) hw, if_neg (by omega)])).congr
      (fun _ _ => rfl) (fun p => by rw [Nat.add_mul]; omega)
  have e2 : Eff L g (fun dst => loop (fun dst i => pad2dRow x padv (l : Int) srcW outW (src + i * srcW) (at_ + (t + i) * outW) dst) srcH dst)
      (fun p => at_ + t * outW ≤ p ∧ p < at_ + t * outW + srcH * outW) :=
    Eff.block fun h hh => (pad2dRow_eff (X := X h) (row (t + h) (by omega)) hW (fun w hw => hx h w hh hw) (fun w hw => by
        rw [hg (t + h) w (by omega) hw, Nat.add_sub_cancel_left]
        by_cases hc : l ≤ w ∧ w < l + srcW
        · rw [if_pos hc, if_pos ⟨by omega, hc⟩]
        · rw [if_neg hc, if_neg (by tauto)])).congr
      (fun _ _ => rfl) (fun p => by rw [Nat.add_mul, Nat.add_mul]; omega)
  have e3 : Eff L g (fun dst => loop (fun dst i => fillRow padv outW (at_ + (t + srcH + i) * outW) dst) (outH - (t + srcH)) dst)
      (fun p => at_ + (t + srcH) * outW ≤ p ∧ p < at_ + (t + srcH) * outW + (outH - (t + srcH)) * outW) :=
    Eff.block fun h hh => (fillRow_eff (row (t + srcH + h) (by omega)) (fun w hw => by
        rw [hg _ w (by omega) hw, if_neg (by omega)])).congr
      (fun _ _ => rfl) (fun p => by rw [Nat.add_mul (t + srcH) h, Nat.add_mul h 1]; omega)
  have hk : ((t : Int) + srcH - t).toNat = srcH := by omega
  refine ((e1.seq e2).seq e3).congr ?_ ?_
  · intro out _
    unfold padChannel
    simp only [Int.toNat_natCast, hk]
    rcases loop (fun dst h => fillRow padv outW (at_ + h * outW) dst) t out with o | _ | _ <;> rfl
  · intro p
    have : outH * outW = t * outW + srcH * outW + (outH - (t + srcH)) * outW := by
      rw [← Nat.add_mul, ← Nat.add_mul]; congr 1; omega
    rw [Nat.add_mul]
    omega

theorem pad2d_ok {num ch srcH srcW outH outW t l : Nat} {x dst : List α} {X V : Nat → Nat → Nat → Nat → α} {padv : α}
    (hH : t + srcH ≤ outH) (hW : l + srcW ≤ outW) (hd : dst.length = num * ch * (outH * outW))
    (hx : ∀ n c h w, n < num → c < ch → h < srcH → w < srcW → x[enc4 ch srcH srcW n c h w]? = some (X n c h w))
    (hV : ∀ n c h w, n < num → c < ch → h < outH → w < outW → V n c h w =
      if (t ≤ h ∧ h < t + srcH) ∧ l ≤ w ∧ w < l + srcW then X n c (h - t) (w - l) else padv) :
    ∃ o, pad2d num ch srcH srcW outH outW (t : Int) (l : Int) padv x dst = .ok o ∧ o.length = num * ch * outH * outW ∧
      ∀ n c h w, n < num → c < ch → h < outH → w < outW → o[enc4 ch outH outW n c h w]? = some (V n c h w) := by
  have hlen : num * ch * (outH * outW) = num * ch * outH * outW := by ring
  have e : Eff (num * ch * outH * outW) (dec4 ch outH outW V)
      (fun dst => pad2d num ch srcH srcW outH outW (t : Int) (l : Int) padv x dst) (fun p => 0 ≤ p ∧ p < 0 + num * (ch * (outH * outW))) := by
    unfold pad2d
    refine Eff.block fun n hn => ?_
    refine (Eff.block (base := n * (ch * (outH * outW))) (w := outH * outW) fun c hc => ?_).congr (fun _ _ => rfl) ?_
    · refine (padChannel_eff (t := t) (l := l) (X := X n c) ?_ hH hW ?_ ?_).congr (fun _ _ => rfl) ?_
      · have := rc_lt hn hc
        have : (n * ch + c + 1) * (outH * outW) ≤ num * ch * (outH * outW) := Nat.mul_le_mul_right _ this
        rw [Nat.add_mul] at this
        rw [← hlen]
        omega
      · intro h w hh hw
        rw [← hx n c h w hn hc hh hw]
        congr 1
        unfold enc4; ring
      · intro h w hh hw
        rw [← hV n c h w hn hc hh hw, ← dec4_enc (a := n) V hc hh hw]
        congr 1
        unfold enc4; ring
      · intro p
        rw [Nat.add_mul c 1, Nat.add_mul (n * ch) c, Nat.mul_assoc n]
        omega
    · intro p
      rw [Nat.add_mul n 1]
      omega
  obtain ⟨o, ho, l1, l2, -⟩ := e dst (by rw [hd]; ring)
  refine ⟨o, ho, l1, ?_⟩
  intro n c h w hn hc hh hw
  rw [l2 _ ⟨Nat.zero_le _, ?_⟩, dec4_enc V hc hh hw]
  have := enc4_lt hn hc hh hw
  calc _ < _ := this
    _ = _ := by ring

theorem cut2d_ok {num ch srcH srcW outH outW : Nat} {x dst : List α} {X : Nat → Nat → Nat → Nat → α}
    (hH : outH ≤ srcH) (hW : outW ≤ srcW) (hd : dst.length = num * ch * (outH * outW))
    (hx : ∀ n c h w, n < num → c < ch → h < srcH → w < srcW → x[enc4 ch srcH srcW n c h w]? = some (X n c h w)) :
    ∃ o, cut2d num ch srcH srcW outH outW x dst = .ok o ∧ o.length = num * ch * outH * outW ∧
      ∀ n c h w, n < num → c < ch → h < outH → w < outW → o[enc4 ch outH outW n c h w]? = some (X n c h w) := by
  have e : Eff (num * ch * outH * outW) (dec4 ch outH outW X) (fun dst => cut2d num ch srcH srcW outH outW x dst)
      (fun p => ∃ n, n < num ∧ ∃ c, c < ch ∧ ∃ h, h < outH ∧ ∃ w, w < outW ∧ p = enc4 ch outH outW n c h w) := by
    unfold cut2d
    refine Eff.loop fun n hn => Eff.loop fun c hc => Eff.loop fun h hh => Eff.loop fun w hw => ?_
    refine (Eff.wr (p := enc4 ch outH outW n c h w) (v := X n c h w) (enc4_lt hn hc hh hw) (dec4_enc X hc hh hw).symm).congr ?_
      (fun _ => Iff.rfl)
    intro out _
    rw [show (n * ch + c) * (srcH * srcW) + h * srcW + w = enc4 ch srcH srcW n c h w by unfold enc4; ring,
      rd_ok (hx n c h w hn hc (by omega) (by omega)), Res.bind_ok,
      show (n * ch + c) * (outH * outW) + h * outW + w = enc4 ch outH outW n c h w by unfold enc4; ring]
  obtain ⟨o, ho, l1, l2, -⟩ := e dst (by rw [hd]; ring)
  refine ⟨o, ho, l1, ?_⟩
  intro n c h w hn hc hh hw
  rw [l2 _ ⟨n, hn, c, hc, h, hh, w, hw, rfl⟩, dec4_enc X hc hh hw]

/-! ## counted effects -/

theorem EffC.ofEff {L k : Nat} {g : Nat → α} {f : Nat × List α → Res (Nat × List α)} {e : List α → Res (List α)} {D : Nat → Prop}
    (h : Eff L g e D) (hf : ∀ out, f (k, out) = do let o ← e out; .ok (k + 1, o)) : EffC L g k 1 f D := by
  intro out hl
  obtain ⟨o, e1, l1, a1, b1⟩ := h out hl
  exact ⟨o, by rw [hf, e1, Res.bind_ok], l1, a1, b1⟩

theorem EffC.congr {L k m m' : Nat} {g : Nat → α} {f f' : Nat × List α → Res (Nat × List α)} {D D' : Nat → Prop} (h : EffC L g k m f D)
    (hf : ∀ out, f' (k, out) = f (k, out)) (hm : m' = m) (hD : ∀ p, D' p ↔ D p) : EffC L g k m' f' D' := by
  subst hm
  intro out hl
  obtain ⟨o, e1, l1, a1, b1⟩ := h out hl
  exact ⟨o, by rw [hf, e1], l1, fun p hp => a1 p ((hD p).1 hp), fun p hp => b1 p (fun hc => hp ((hD p).2 hc))⟩

theorem Eff.ofEffC {L m : Nat} {g : Nat → α} {f : Nat × List α → Res (Nat × List α)} {D : Nat → Prop} (h : EffC L g 0 m f D) :
    Eff L g (fun out => do let st ← f (0, out); .ok st.2) D := by
  intro out hl
  obtain ⟨o, e1, l1, a1, b1⟩ := h out hl
  exact ⟨o, by simp only [e1, Res.bind_ok], l1, a1, b1⟩

/-- two nested loops over `A` and `B` with a running number -/
theorem Eff.numbered {L A B : Nat} {g : Nat → α} {f : Nat → Nat → Nat × List α → Res (Nat × List α)} {D : Nat → Nat → Nat → Prop}
    (h : ∀ i j, i < A → j < B → EffC L g (i * B + j) 1 (f i j) (D i j)) :
    Eff L g (fun out => do
      let st ← Verif.Kernels.loop (fun st i => Verif.Kernels.loop (fun st j => f i j st) B st) A (0, out)
      .ok st.2) (fun p => ∃ i, i < A ∧ ∃ j, j < B ∧ D i j p) := by
  refine Eff.ofEffC (m := A * (B * 1)) (EffC.loop fun i hi => EffC.loop fun j hj => ?_)
  have := h i j hi hj
  simpa using this

/-! ## the kernel -/

theorem packAIdx_len (row col lda : Nat) : (packAIdx row col lda).length = row * col := by
  have inner : ∀ nn, ((List.range col).flatMap fun i => (List.range 8).map fun r => (nn * 8 + r) * lda + i).length =
      col * 8 := fun nn => (flatMap_get 8 col _ (by simp)).1
  unfold packAIdx
  rw [List.length_append, (flatMap_get (col * 8) (row / 8) _ fun nn _ => inner nn).1,
    (flatMap_get col (row % 8) _ (by simp)).1]
  have := Nat.div_add_mod row 8
  calc row / 8 * (col * 8) + row % 8 * col = (8 * (row / 8) + row % 8) * col := by ring
    _ = _ := by rw [this]

/-- parts of the same length, put one after the other -/
theorem flatten_part {β γ : Type} (f : β → List γ) (b : Nat) (l : List β) (hl : ∀ x ∈ l, (f x).length = b) (i : Nat) (x : β) (hi : l[i]? = some x) :
    ((l.map f).flatten.drop (i * b)).take b = f x := by
  induction l generalizing i with
  | nil => simp at hi
  | cons y t ih =>
    rw [List.map_cons, List.flatten_cons]
    cases i with
    | zero =>
      simp only [List.getElem?_cons_zero, Option.some.injEq] at hi
      subst hi
      have := hl y (by simp)
      rw [Nat.zero_mul, List.drop_zero, List.take_append_of_le_length (by omega), List.take_of_length_le (by omega)]
    | succ i =>
      have hy := hl y (by simp)
      rw [show (i + 1) * b = (f y).length + i * b by rw [Nat.add_mul, hy]; omega, List.drop_append, hy]
      simp only [List.getElem?_cons_succ] at hi
      rw [List.drop_of_length_le (by omega), List.nil_append, Nat.add_sub_cancel_left]
      exact ih (fun x hx => hl x (by simp [hx])) i hi

section
variable [CommSemiring α]

/-- a kernel as a function -/
def kernelAt (ic : Nat) (w : List α) (o c r q : Nat) : α := w.getD ((o * ic + c) * 9 + (r * 3 + q)) 0

theorem winoKernel_ok (a : WinoAlg α) (hk : ∀ k k' i j, (∀ r q, r < 3 → q < 3 → k r q = k' r q) → a.kern k i j = a.kern k' i j)
    (oc ic : Nat) (w fresh : List α) (hw : w.length = oc * ic * 9)
    (hf : fresh.length = a.cells * (oc * ic)) :
    ∃ ker, winoKernel a oc ic w fresh = .ok ker ∧ ∀ p, p < a.cells → ∃ Wp : List α,
      (ker.drop (p * (oc * ic))).take (oc * ic) = (packAIdx oc ic ic).map (fun i => Wp.getD i 0) ∧
      ∀ o c, o < oc → c < ic → Wp.getD (o * ic + c) 0 = a.kern (kernelAt ic w o c) (p / a.side) (p % a.side) := by
  have hlen : a.cells * (oc * ic) = a.side * a.side * oc * ic := by unfold WinoAlg.cells; ring
  let V : Nat → Nat → Nat → Nat → α := fun i j o c => a.kern (kernelAt ic w o c) i j
  have e : Eff (a.side * a.side * oc * ic) (dec4 a.side oc ic V)
      (fun dst => loop (fun dst p => loop (fun dst q => winoKernelCell a oc ic w p q dst) ic dst) oc dst)
      (fun p => ∃ o, o < oc ∧ ∃ c, c < ic ∧ ∃ i, i < a.side ∧ ∃ j, j < a.side ∧ p = enc4 a.side oc ic i j o c) := by
    refine Eff.loop fun o ho => Eff.loop fun c hc => ?_
    have hr : forEach (fun i => rd w (o * (ic * 9) + c * 9 + i)) (List.range 9) =
        .ok ((List.range 9).map fun i => w.getD ((o * ic + c) * 9 + i) 0) := by
      refine forEach_ok fun i hi => ?_
      have hi := List.mem_range.1 hi
      have : (o * ic + c) * 9 + i < w.length := by rw [hw]; exact rc_lt (rc_lt ho hc) hi
      rw [show o * (ic * 9) + c * 9 + i = (o * ic + c) * 9 + i by ring]
      apply rd_ok
      rw [List.getD_eq_getElem?_getD, List.getElem?_eq_getElem this, Option.getD_some]
    have e0 : Eff (a.side * a.side * oc * ic) (dec4 a.side oc ic V)
        (fun dst => loop (fun dst i => loop (fun dst j => wr dst (enc4 a.side oc ic i j o c) (V i j o c)) a.side dst) a.side dst)
        (fun p => ∃ i, i < a.side ∧ ∃ j, j < a.side ∧ p = enc4 a.side oc ic i j o c) :=
      Eff.loop fun i hi => Eff.loop fun j hj => Eff.wr (enc4_lt hi hj ho hc) (dec4_enc V hj ho hc).symm
    refine e0.congr (fun out _ => ?_) (fun _ => Iff.rfl)
    · unfold winoKernelCell
      rw [hr, Res.bind_ok]
      congr 1
      funext dst i
      congr 1
      funext dst j
      congr 1
      · unfold enc4; ring
      · apply hk
        intro r q hr hq
        unfold asMatrix kernelAt
        have : r * 3 + q < 9 := by omega
        rw [List.getD_eq_getElem?_getD, List.getElem?_map, List.getElem?_range this]
        rfl
  obtain ⟨tr, htr, l1, l2, -⟩ := e fresh (by rw [hf, hlen])
  beta_reduce at htr l2
  unfold winoKernel
  rw [htr, Res.bind_ok]
  have hp : forEach (fun i => pack8A oc ic (tr.drop (i * (oc * ic))) ic) (List.range a.cells) =
      .ok ((List.range a.cells).map fun i => (packAIdx oc ic ic).map fun p => (tr.drop (i * (oc * ic))).getD p 0) := by
    refine forEach_ok fun i hi => pack8A_ok _ _ _ ?_
    have hi := List.mem_range.1 hi
    have : (i + 1) * (oc * ic) ≤ a.cells * (oc * ic) := Nat.mul_le_mul_right _ hi
    rw [List.length_drop, l1, ← hlen]
    rw [Nat.add_mul] at this
    omega
  rw [hp, Res.bind_ok]
  refine ⟨_, rfl, ?_⟩
  intro p hp
  refine ⟨tr.drop (p * (oc * ic)), ?_, ?_⟩
  · exact flatten_part (fun i => (packAIdx oc ic ic).map fun q => (tr.drop (i * (oc * ic))).getD q 0) (oc * ic) _
      (fun i _ => by rw [List.length_map, packAIdx_len]) p p (by rw [List.getElem?_range hp])
  · intro o c ho hc
    have hs : 0 < a.side := by unfold WinoAlg.side; omega
    have h1 : p / a.side < a.side := by rw [Nat.div_lt_iff_lt_mul hs]; exact hp
    have h2 : p % a.side < a.side := Nat.mod_lt _ hs
    have := l2 (enc4 a.side oc ic (p / a.side) (p % a.side) o c) ⟨o, ho, c, hc, _, h1, _, h2, rfl⟩
    rw [dec4_enc V h2 ho hc] at this
    rw [List.getD_eq_getElem?_getD, List.getElem?_drop,
      show p * (oc * ic) + (o * ic + c) = enc4 a.side oc ic (p / a.side) (p % a.side) o c by
        unfold enc4; rw [Nat.div_add_mod']; ring, this, Option.getD_some]

/-! ## the input -/

theorem winoInput_ok (a : WinoAlg α)
    (hi : ∀ d d' i j, (∀ r q, r < a.side → q < a.side → d r q = d' r q) → a.inp d i j = a.inp d' i j)
    {num ic nH nW : Nat} {H W : Nat} {x dst : List α} {X : Nat → Nat → Nat → Nat → α} (ht : 0 < a.tile) (hH : H = nH * a.tile + 2) (hW : W = nW * a.tile + 2)
    (hd : dst.length = num * a.cells * (ic * (nH * nW)))
    (hx : ∀ n c h w, n < num → c < ic → h < H → w < W → x[enc4 ic H W n c h w]? = some (X n c h w)) :
    ∃ o, winoInput a num ic H W (nH * nW) x dst = .ok o ∧ o.length = num * a.cells * ic * (nH * nW) ∧
      ∀ n p c i j, n < num → p < a.cells → c < ic → i < nH → j < nW → o[enc4 a.cells ic (nH * nW) n p c (i * nW + j)]? =
        some (a.inp (fun r q => X n c (i * a.tile + r) (j * a.tile + q)) (p / a.side) (p % a.side)) := by
  have tiles : ∀ m, inputTiles a.tile (m * a.tile + 2) = m := by
    intro m
    unfold inputTiles
    rw [show m * a.tile + 2 - 2 + (a.tile - 1) = m * a.tile + (a.tile - 1) by omega]
    exact mul_add_div' (by omega)
  have hs : 0 < a.side := by unfold WinoAlg.side; omega
  let V : Nat → Nat → Nat → Nat → α := fun n p c k =>
    a.inp (fun r q => X n c (k / nW * a.tile + r) (k % nW * a.tile + q)) (p / a.side) (p % a.side)
  have e : Eff (num * a.cells * ic * (nH * nW)) (dec4 a.cells ic (nH * nW) V) (fun dst => winoInput a num ic H W (nH * nW) x dst)
      (fun q => ∃ n, n < num ∧ ∃ c, c < ic ∧ ∃ i, i < nH ∧ ∃ j, j < nW ∧ ∃ p, p < a.cells ∧ q = enc4 a.cells ic (nH * nW) n p c (i * nW + j)) := by
    unfold winoInput
    subst hH hW
    rw [tiles, tiles]
    refine Eff.loop fun n hn => Eff.loop fun c hc => Eff.numbered fun i j hi' hj' => ?_
    have hr : forEach (fun p => rd x (n * (ic * ((nH * a.tile + 2) * (nW * a.tile + 2))) + c * ((nH * a.tile + 2) * (nW * a.tile + 2)) +
        (i * a.tile + p / a.side) * (nW * a.tile + 2) + (j * a.tile + p % a.side))) (List.range a.cells) =
        .ok ((List.range a.cells).map fun p => X n c (i * a.tile + p / a.side) (j * a.tile + p % a.side)) := by
      refine forEach_ok fun p hp => ?_
      have hp := List.mem_range.1 hp
      have h1 : p / a.side < a.side := by rw [Nat.div_lt_iff_lt_mul hs]; exact hp
      have h2 : p % a.side < a.side := Nat.mod_lt _ hs
      have h3 : (i + 1) * a.tile ≤ nH * a.tile := Nat.mul_le_mul_right _ hi'
      have h4 : (j + 1) * a.tile ≤ nW * a.tile := Nat.mul_le_mul_right _ hj'
      rw [Nat.add_mul] at h3 h4
      have hside : a.side = a.tile + 2 := rfl
      apply rd_ok
      rw [← hx n c (i * a.tile + p / a.side) (j * a.tile + p % a.side) hn hc (by omega) (by omega)]
      congr 1
      unfold enc4
      ring
    have hk : i * nW + j < nH * nW := rc_lt hi' hj'
    refine EffC.ofEff (e := fun dst => loop (fun dst p => wr dst (enc4 a.cells ic (nH * nW) n p c (i * nW + j)) (V n p c (i * nW + j))) a.cells dst)
      (Eff.loop fun p hp => Eff.wr (enc4_lt hn hp hc hk) (dec4_enc V hp hc hk).symm) ?_
    intro out
    unfold winoInputTile
    rw [hr, Res.bind_ok]
    simp only
    congr 2
    funext dst p
    by_cases hp : p < a.cells
    · congr 1
      · unfold enc4; ring
      · simp only [V, mul_add_div' hj', mul_add_mod' hj']
        apply hi
        intro r q hr' hq'
        unfold asMatrix
        rw [List.getD_eq_getElem?_getD, List.getElem?_map, List.getElem?_range (by unfold WinoAlg.cells; exact rc_lt hr' hq')]
        simp only [Option.map_some, Option.getD_some, mul_add_div' hq', mul_add_mod' hq']
    · congr 1
      · unfold enc4; ring
      · simp only [V, mul_add_div' hj', mul_add_mod' hj']
        apply hi
        intro r q hr' hq'
        unfold asMatrix
        rw [List.getD_eq_getElem?_getD, List.getElem?_map, List.getElem?_range (by unfold WinoAlg.cells; exact rc_lt hr' hq')]
        simp only [Option.map_some, Option.getD_some, mul_add_div' hq', mul_add_mod' hq']
  obtain ⟨o, ho, l1, l2, -⟩ := e dst (by rw [hd]; ring)
  refine ⟨o, ho, l1, ?_⟩
  intro n p c i j hn hp hc hi' hj'
  rw [l2 _ ⟨n, hn, c, hc, i, hi', j, hj', p, hp, rfl⟩, dec4_enc V hp hc (rc_lt hi' hj')]
  simp only [V, mul_add_div' hj', mul_add_mod' hj']

/-! ## the products -/

theorem winoProducts_ok (a : WinoAlg α) {num oc ic tc : Nat} {ker inp : List α} {fresh : Nat → List α} {K : Nat → Nat → Nat → α}
    {V : Nat → Nat → Nat → Nat → α} (hf : ∀ p, (fresh p).length = oc * tc)
    (hker : ∀ p, p < a.cells → ∃ Wp : List α,
      (ker.drop (p * (oc * ic))).take (oc * ic) = (packAIdx oc ic ic).map (fun i => Wp.getD i 0) ∧
      ∀ o c, o < oc → c < ic → Wp.getD (o * ic + c) 0 = K p o c)
    (hl : inp.length = num * a.cells * ic * tc)
    (hinp : ∀ n p c k, n < num → p < a.cells → c < ic → k < tc → inp[enc4 a.cells ic tc n p c k]? = some (V n p c k)) :
    ∃ m, winoProducts a num oc ic tc ker inp fresh = .ok m ∧ m.length = num * a.cells * oc * tc ∧
      ∀ n p o k, n < num → p < a.cells → o < oc → k < tc → m[enc4 a.cells oc tc n p o k]? =
        some (∑ c ∈ Finset.range ic, K p o c * V n p c k) := by
  have hs : 0 < a.cells := by unfold WinoAlg.cells WinoAlg.side; positivity
  let g : Nat → Nat → Nat → α := fun p o k => ∑ c ∈ Finset.range ic, K (p % a.cells) o c * V (p / a.cells) (p % a.cells) c k
  have each : ∀ p, p < num * a.cells → ∃ out, gemmPacked true oc tc ic ((ker.drop (p % a.cells * (oc * ic))).take (oc * ic))
      (inp.drop (p * (ic * tc))) false true (fresh p) = .ok out ∧ out.length = oc * tc ∧
      ∀ o k, o < oc → k < tc → out[o * tc + k]? = some (g p o k) := by
    intro p hp
    have h1 : p / a.cells < num := by rw [Nat.div_lt_iff_lt_mul hs]; exact hp
    have h2 : p % a.cells < a.cells := Nat.mod_lt _ hs
    obtain ⟨Wp, e1, e2⟩ := hker (p % a.cells) h2
    have hb : ic * tc ≤ (inp.drop (p * (ic * tc))).length := by
      have : (p + 1) * (ic * tc) ≤ num * a.cells * (ic * tc) := Nat.mul_le_mul_right _ hp
      rw [List.length_drop, hl, Nat.mul_assoc]
      rw [Nat.add_mul] at this
      omega
    obtain ⟨out, e, l, v⟩ := gemmPacked_ok' oc tc ic ((ker.drop (p % a.cells * (oc * ic))).take (oc * ic)) Wp (inp.drop (p * (ic * tc))) (fresh p) false (by rw [cond_false, e1]) hb (hf p)
    refine ⟨out, e, l, ?_⟩
    intro o k ho hk
    rw [v o k ho hk]
    congr 1
    refine Finset.sum_congr rfl fun c hc => ?_
    have hc := Finset.mem_range.1 hc
    rw [e2 o c ho hc, List.getD_eq_getElem?_getD, List.getElem?_drop,
      show p * (ic * tc) + (c * tc + k) = enc4 a.cells ic tc (p / a.cells) (p % a.cells) c k by
        unfold enc4; rw [Nat.div_add_mod']; ring, hinp _ _ c k h1 h2 hc hk, Option.getD_some]
  choose! out h1 h2 h3 using each
  unfold winoProducts
  rw [forEach_ok (g := out) (fun p hp => h1 p (List.mem_range.1 hp)), Res.bind_ok]
  obtain ⟨f1, f2⟩ := flatMap_get (oc * tc) (num * a.cells) out h2
  rw [← List.flatMap_def]
  refine ⟨_, rfl, by rw [f1]; ring, ?_⟩
  intro n p o k hn hp ho hk
  rw [show enc4 a.cells oc tc n p o k = (n * a.cells + p) * (oc * tc) + (o * tc + k) by unfold enc4; ring,
    f2 _ _ (rc_lt hn hp) (rc_lt ho hk), h3 _ (rc_lt hn hp) o k ho hk]
  simp only [g, mul_add_div' hp, mul_add_mod' hp]

/-! ## the output -/

theorem winoOutput_ok (a : WinoAlg α)
    (hi : ∀ d d' i j, (∀ r q, r < a.side → q < a.side → d r q = d' r q) → a.outp d i j = a.outp d' i j)
    {num oc nH nW : Nat} {m dst : List α} {M : Nat → Nat → Nat → Nat → α} (ht : 0 < a.tile)
    (hd : dst.length = num * oc * (nH * a.tile * (nW * a.tile)))
    (hm : ∀ n p o k, n < num → p < a.cells → o < oc → k < nH * nW → m[enc4 a.cells oc (nH * nW) n p o k]? = some (M n p o k)) :
    ∃ r, winoOutput a num oc (nH * a.tile) (nW * a.tile) (nH * nW) m dst = .ok r ∧ r.length = num * oc * (nH * a.tile) * (nW * a.tile) ∧
      ∀ n o h w, n < num → o < oc → h < nH * a.tile → w < nW * a.tile → r[enc4 oc (nH * a.tile) (nW * a.tile) n o h w]? =
        some (a.outp (fun s t => M n (s * a.side + t) o (h / a.tile * nW + w / a.tile)) (h % a.tile) (w % a.tile)) := by
  have hs : 0 < a.side := by unfold WinoAlg.side; omega
  let V : Nat → Nat → Nat → Nat → α := fun n o h w =>
    a.outp (fun s t => M n (s * a.side + t) o (h / a.tile * nW + w / a.tile)) (h % a.tile) (w % a.tile)
  have e : Eff (num * oc * (nH * a.tile) * (nW * a.tile)) (dec4 oc (nH * a.tile) (nW * a.tile) V)
      (fun dst => winoOutput a num oc (nH * a.tile) (nW * a.tile) (nH * nW) m dst)
      (fun q => ∃ n, n < num ∧ ∃ o, o < oc ∧ ∃ i, i < nH ∧ ∃ j, j < nW ∧ ∃ u, u < a.tile ∧ ∃ v, v < a.tile ∧
        q = enc4 oc (nH * a.tile) (nW * a.tile) n o (i * a.tile + u) (j * a.tile + v)) := by
    unfold winoOutput
    rw [Nat.mul_div_cancel _ ht, Nat.mul_div_cancel _ ht]
    refine Eff.loop fun n hn => Eff.loop fun o ho => Eff.numbered fun i j hi' hj' => ?_
    have hk : i * nW + j < nH * nW := rc_lt hi' hj'
    have hr : forEach (fun p => rd m (n * (a.cells * (oc * (nH * nW))) + o * (nH * nW) + (i * nW + j) + p * (oc * (nH * nW)))) (List.range a.cells) =
        .ok ((List.range a.cells).map fun p => M n p o (i * nW + j)) := by
      refine forEach_ok fun p hp => ?_
      have hp := List.mem_range.1 hp
      apply rd_ok
      rw [← hm n p o (i * nW + j) hn hp ho hk]
      congr 1
      unfold enc4
      ring
    refine EffC.ofEff (e := fun dst => loop (fun dst u => loop (fun dst v =>
        wr dst (enc4 oc (nH * a.tile) (nW * a.tile) n o (i * a.tile + u) (j * a.tile + v))
          (a.outp (asMatrix a.side ((List.range a.cells).map fun p => M n p o (i * nW + j))) u v)) a.tile dst) a.tile dst)
      (Eff.loop fun u hu => Eff.loop fun v hv => Eff.wr (enc4_lt hn ho (rc_lt hi' hu) (rc_lt hj' hv)) ?_) ?_
    · rw [dec4_enc V ho (rc_lt hi' hu) (rc_lt hj' hv)]
      simp only [V, mul_add_div' hu, mul_add_mod' hu, mul_add_div' hv, mul_add_mod' hv]
      apply hi
      intro r q hr' hq'
      unfold asMatrix
      rw [List.getD_eq_getElem?_getD, List.getElem?_map, List.getElem?_range (by unfold WinoAlg.cells; exact rc_lt hr' hq')]
      simp only [Option.map_some, Option.getD_some]
    · intro out
      unfold winoOutputTile
      rw [hr, Res.bind_ok]
      simp only
      congr 2
      funext dst u
      congr 1
      funext dst v
      congr 1
      unfold enc4; ring
  obtain ⟨r, hr, l1, l2, -⟩ := e dst (by rw [hd]; ring)
  refine ⟨r, hr, l1, ?_⟩
  intro n o h w hn ho hh hw
  have h1 : h / a.tile < nH := by rw [Nat.div_lt_iff_lt_mul ht]; exact hh
  have h2 : w / a.tile < nW := by rw [Nat.div_lt_iff_lt_mul ht]; exact hw
  rw [l2 _ ⟨n, hn, o, ho, _, h1, _, h2, _, Nat.mod_lt h ht, _, Nat.mod_lt w ht, by rw [Nat.div_add_mod', Nat.div_add_mod']⟩,
    dec4_enc V ho hh hw]

end

end Verif.Kernels
