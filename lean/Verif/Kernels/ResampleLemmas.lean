import Verif.Kernels.Resample
import Verif.Kernels.WinogradLemmas
import Verif.Kernels.PadLemmas
import Mathlib.Algebra.BigOperators.Intervals
import Mathlib.Tactic.Ring
import Mathlib.Tactic.Linarith
/-!
# Lemmas about the loops of resampling
-/
namespace Verif.Kernels
open Verif.Core

theorem writeImage_eff {L start dh dw ch : Nat} {g : Nat → Rat} {cell : Nat → Nat → Nat → Res Rat} {V : Nat → Nat → Nat → Rat}
    (hL : start + dh * dw * ch ≤ L) (hc : ∀ y x c, y < dh → x < dw → c < ch → cell y x c = .ok (V y x c))
    (hg : ∀ y x c, y < dh → x < dw → c < ch → g (start + ((y * dw + x) * ch + c)) = V y x c) :
    Eff L g (fun out => writeImage cell start dh dw ch out) (fun p => start ≤ p ∧ p < start + dh * dw * ch) := by
  unfold writeImage
  have h := Eff.block (L := L) (base := start) (w := dw * ch) (n := dh) (g := g)
    (f := fun out y => loop (fun out x => loop (fun out c => do
      let v ← cell y x c
      wr out (start + ((y * dw + x) * ch + c)) v) ch out) dw out) (fun y hy => by
    have h2 := Eff.block (L := L) (base := start + y * (dw * ch)) (w := ch) (n := dw) (g := g)
      (f := fun out x => loop (fun out c => do
        let v ← cell y x c
        wr out (start + ((y * dw + x) * ch + c)) v) ch out) (fun x hx => by
      refine (Eff.cells (L := L) (base := start + y * (dw * ch) + x * ch) (n := ch) (g := g) ?_).congr (fun _ _ => rfl) (fun p => by rw [Nat.add_mul]; omega)
      intro c hcc
      have e : start + ((y * dw + x) * ch + c) = start + y * (dw * ch) + x * ch + c := by ring
      have lt : (y * dw + x) * ch + c < dh * dw * ch := rc_lt (rc_lt hy hx) hcc
      refine (Eff.wr (L := L) (g := g) (p := start + ((y * dw + x) * ch + c)) (v := V y x c) (by omega) (hg y x c hy hx hcc).symm).congr ?_ ?_
      · intro out _
        rw [hc y x c hy hx hcc, Res.bind_ok]
      · intro p; rw [e])
    refine h2.congr (fun _ _ => rfl) (fun p => ?_)
    have : start + (y + 1) * (dw * ch) = start + y * (dw * ch) + dw * ch := by ring
    rw [this])
  refine h.congr (fun _ _ => rfl) (fun p => ?_)
  rw [Nat.mul_assoc]

/-- all images of a batch -/
theorem writeBatch_ok {number dh dw ch : Nat} {cell : Nat → Nat → Nat → Nat → Res Rat} {V : Nat → Nat → Nat → Nat → Rat} {out : List Rat}
    (hl : out.length = number * dh * dw * ch)
    (hc : ∀ b y x c, b < number → y < dh → x < dw → c < ch → cell b y x c = .ok (V b y x c)) :
    loop (fun out b => writeImage (cell b) (b * (ch * dh * dw)) dh dw ch out) number out = .ok ((List.range (number * dh * dw * ch)).map (dec4 dh dw ch V)) := by
  have h := Eff.block (L := number * dh * dw * ch) (base := 0) (w := ch * dh * dw) (n := number) (g := dec4 dh dw ch V)
    (f := fun out b => writeImage (cell b) (b * (ch * dh * dw)) dh dw ch out) (fun b hb => by
      refine (writeImage_eff (V := V b) ?_ (fun y x c hy hx h => hc b y x c hb hy hx h) ?_).congr (fun _ _ => rfl) ?_
      · have : (b + 1) * (ch * dh * dw) ≤ number * (ch * dh * dw) := Nat.mul_le_mul_right _ hb
        calc b * (ch * dh * dw) + dh * dw * ch = (b + 1) * (ch * dh * dw) := by ring
          _ ≤ number * (ch * dh * dw) := this
          _ = number * dh * dw * ch := by ring
      · intro y x c hy hx hcc
        have e : b * (ch * dh * dw) + ((y * dw + x) * ch + c) = enc4 dh dw ch b y x c := by unfold enc4; ring
        rw [e, dec4_enc V hy hx hcc]
      · intro p
        have : (b + 1) * (ch * dh * dw) = b * (ch * dh * dw) + dh * dw * ch := by ring
        rw [this]
        omega)
  refine h.whole ?_ hl
  intro p hp
  refine ⟨Nat.zero_le _, ?_⟩
  have : number * (ch * dh * dw) = number * dh * dw * ch := by ring
  omega

theorem dec4_get {A B C D : Nat} (V : Nat → Nat → Nat → Nat → Rat) {a b c d : Nat} (ha : a < A) (hb : b < B) (hc : c < C) (hd : d < D) :
    ((List.range (A * B * C * D)).map (dec4 B C D V))[((a * B + b) * C + c) * D + d]? = some (V a b c d) := by
  have lt : ((a * B + b) * C + c) * D + d < A * B * C * D := enc4_lt ha hb hc hd
  rw [List.getElem?_map, List.getElem?_range lt]
  exact congrArg some (dec4_enc V hb hc hd)

/-- a pixel that is in the image is read -/
theorem Image.at_ok {m : Image} {y x : Int} {c : Nat} (hm : m.start + m.h * m.w * m.ch ≤ m.data.length) (hy : 0 ≤ y ∧ y < m.h) (hx : 0 ≤ x ∧ x < m.w)
    (hc : c < m.ch) : m.at_ y x c = .ok (m.data.getD (m.start + ((y.toNat * m.w + x.toNat) * m.ch + c)) 0) := by
  obtain ⟨y', rfl⟩ := Int.eq_ofNat_of_zero_le hy.1
  obtain ⟨x', rfl⟩ := Int.eq_ofNat_of_zero_le hx.1
  have h1 : y' < m.h := by omega
  have h2 : x' < m.w := by omega
  have lt : (y' * m.w + x') * m.ch + c < m.h * m.w * m.ch := rc_lt (rc_lt h1 h2) hc
  unfold Image.at_
  rw [show (m.start : Int) + ((y' : Int) * m.w + x') * m.ch + c = ((m.start + ((y' * m.w + x') * m.ch + c) : Nat) : Int) by push_cast; ring]
  apply rdI_ok
  simp only [Int.toNat_natCast]
  rw [List.getD_eq_getElem?_getD, List.getElem?_eq_getElem (by omega)]; rfl

/-- a sum whose terms are zero outside a window -/
theorem sum_window {n b L : Nat} (f : Nat → Rat) (h : b + L ≤ n) (hz : ∀ i, i < n → ¬ (b ≤ i ∧ i < b + L) → f i = 0) :
    ∑ i ∈ Finset.range n, f i = ∑ j ∈ Finset.range L, f (b + j) := by
  have : ∑ j ∈ Finset.range L, f (b + j) = ∑ i ∈ Finset.Ico b (b + L), f i := by
    rw [Finset.sum_Ico_eq_sum_range]
    congr 2
    omega
  rw [this]
  symm
  apply Finset.sum_subset
  · intro i hi
    simp at hi ⊢
    omega
  · intro i hi hn
    simp at hi hn
    exact hz i hi (by omega)

end Verif.Kernels
