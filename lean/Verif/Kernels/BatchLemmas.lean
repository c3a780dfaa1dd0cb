import Verif.Kernels.PadLemmas
/-!
# Lemmas about space_to_batch4d and batch_to_space4d
-/
namespace Verif.Kernels
open Verif.Core Verif.Spec

variable {α : Type}

theorem EffC.step {L : Nat} {g : Nat → α} {k p : Nat} {v : α} {f : Nat × List α → Res (Nat × List α)} (hp : p < L) (hv : v = g p)
    (hf : ∀ out, f (k, out) = do let o ← wr out p v; .ok (k + 1, o)) : EffC L g k 1 f (· = p) := by
  intro out hl
  refine ⟨out.set p v, ?_, by simp [hl], ?_, ?_⟩
  · rw [hf, wr_ok v (by omega), Res.bind_ok]
  · rintro q rfl; rw [set_eq (by omega), hv]
  · intro q hq; exact set_ne (fun h => hq h.symm)

/-- where (n, c, h, w) goes -/
def s2bDest (N pt pl bh bw : Nat) (n c h w : Nat) : List Nat :=
  [((h + pt) % bh * bw + (w + pl) % bw) * N + n, c, (h + pt) / bh, (w + pl) / bw]

/-- what a cell of the output holds -/
def s2bVal (N H W pt pl bh bw : Nat) (X : List Nat → α) (zero : α) : List Nat → α
  | [on, c, oh, ow] =>
    let hh := oh * bh + on / N / bw
    let ww := ow * bw + on / N % bw
    if pt ≤ hh ∧ hh < H + pt ∧ pl ≤ ww ∧ ww < W + pl then X [on % N, c, hh - pt, ww - pl] else zero
  | _ => zero

theorem s2b_dest_in {N C H W oH oW pt pb pl pr bh bw n c h w : Nat} (hbh : 0 < bh) (hbw : 0 < bw)
    (hH : oH * bh = H + pt + pb) (hW : oW * bw = W + pl + pr) (hn : n < N) (hc : c < C) (hh : h < H) (hw : w < W) :
    InBounds [N * bh * bw, C, oH, oW] (s2bDest N pt pl bh bw n c h w) := by
  refine ⟨?_, hc, ?_, ?_, trivial⟩
  · have h1 := cell2_lt (Nat.mod_lt (h + pt) hbh) (Nat.mod_lt (w + pl) hbw)
    have h2 := cell2_lt h1 hn
    calc _ < _ := h2
      _ = _ := by ring
  · rw [Nat.div_lt_iff_lt_mul hbh]; omega
  · rw [Nat.div_lt_iff_lt_mul hbw]; omega

theorem s2b_val_dest {N H W pt pl bh bw n c h w : Nat} {X : List Nat → α} {zero : α} (hbw : 0 < bw) (hn : n < N) (hh : h < H) (hw : w < W) :
    s2bVal N H W pt pl bh bw X zero (s2bDest N pt pl bh bw n c h w) = X [n, c, h, w] := by
  have hN : 0 < N := by omega
  have e1 : (((h + pt) % bh * bw + (w + pl) % bw) * N + n) / N = (h + pt) % bh * bw + (w + pl) % bw := by
    rw [Nat.add_comm, Nat.add_mul_div_right _ _ hN, Nat.div_eq_of_lt hn, Nat.zero_add]
  have e2 : (((h + pt) % bh * bw + (w + pl) % bw) * N + n) % N = n := by
    rw [Nat.add_comm, Nat.add_mul_mod_self_right, Nat.mod_eq_of_lt hn]
  have hm := Nat.mod_lt (w + pl) hbw
  have e3 : ((h + pt) % bh * bw + (w + pl) % bw) / bw = (h + pt) % bh := by
    rw [Nat.add_comm, Nat.add_mul_div_right _ _ hbw, Nat.div_eq_of_lt hm, Nat.zero_add]
  have e4 : ((h + pt) % bh * bw + (w + pl) % bw) % bw = (w + pl) % bw := by
    rw [Nat.add_comm, Nat.add_mul_mod_self_right, Nat.mod_eq_of_lt hm]
  have e5 : (h + pt) / bh * bh + (h + pt) % bh = h + pt := Nat.div_add_mod' _ _
  have e6 : (w + pl) / bw * bw + (w + pl) % bw = w + pl := Nat.div_add_mod' _ _
  simp only [s2bDest, s2bVal, e1, e2, e3, e4, e5, e6]
  rw [if_pos ⟨Nat.le_add_left _ _, by omega, Nat.le_add_left _ _, by omega⟩, Nat.add_sub_cancel, Nat.add_sub_cancel]

/-- a cell that holds an element is the destination of that element -/
theorem s2b_dest_of {N bh bw pt pl on c oh ow : Nat} (hbw : 0 < bw) (hon : on < N * bh * bw)
    (h1 : pt ≤ oh * bh + on / N / bw) (h2 : pl ≤ ow * bw + on / N % bw) :
    s2bDest N pt pl bh bw (on % N) c (oh * bh + on / N / bw - pt) (ow * bw + on / N % bw - pl) = [on, c, oh, ow] := by
  have hN : 0 < N := by rcases Nat.eq_zero_or_pos N with rfl | h; (simp at hon); exact h
  have hk : on / N < bh * bw := by rw [Nat.div_lt_iff_lt_mul hN]; calc _ < _ := hon
                                                                       _ = _ := by ring
  have hk2 : on / N / bw < bh := by rwa [Nat.div_lt_iff_lt_mul hbw]
  have hbh : 0 < bh := Nat.zero_lt_of_lt hk2
  have hk3 := Nat.mod_lt (on / N) hbw
  simp only [s2bDest]
  rw [Nat.sub_add_cancel h1, Nat.sub_add_cancel h2]
  have e1 : (oh * bh + on / N / bw) % bh = on / N / bw := by rw [Nat.add_comm, Nat.add_mul_mod_self_right, Nat.mod_eq_of_lt hk2]
  have e2 : (ow * bw + on / N % bw) % bw = on / N % bw := by rw [Nat.add_comm, Nat.add_mul_mod_self_right, Nat.mod_eq_of_lt hk3]
  have e3 : (oh * bh + on / N / bw) / bh = oh := by
    rw [Nat.add_comm, Nat.add_mul_div_right _ _ hbh, Nat.div_eq_of_lt hk2, Nat.zero_add]
  have e4 : (ow * bw + on / N % bw) / bw = ow := by
    rw [Nat.add_comm, Nat.add_mul_div_right _ _ hbw, Nat.div_eq_of_lt hk3, Nat.zero_add]
  rw [e1, e2, e3, e4, Nat.div_add_mod', Nat.div_add_mod']

theorem tmod_nat (a b : Nat) : ((a : Int) + (b : Int)) = ((a + b : Nat) : Int) := by push_cast; rfl

theorem s2bLoop_ok {N C H W oH oW pt pb pl pr bh bw : Nat} {x : List α} {X : List Nat → α} {zero : α} (hbh : 0 < bh) (hbw : 0 < bw)
    (hH : oH * bh = H + pt + pb) (hW : oW * bw = W + pl + pr) (hX : Holds [N, C, H, W] x X) :
    ∃ k out, s2bLoop x N C H W C oH oW pt pl bh bw (List.replicate (prod [N * bh * bw, C, oH, oW]) zero) = .ok (k, out) ∧
      Holds [N * bh * bw, C, oH, oW] out (s2bVal N H W pt pl bh bw X zero) := by
  have key : EffC (prod [N * bh * bw, C, oH, oW]) (fun q => s2bVal N H W pt pl bh bw X zero (unlin [N * bh * bw, C, oH, oW] q)) 0
      (N * (C * (H * (W * 1))))
      (fun st => loop (fun st n => loop (fun st c => loop (fun st h => loop (fun (st : Nat × List α) w => do
          let on := (((h : Int) + (pt : Int)).tmod bh * bw + ((w : Int) + (pl : Int)).tmod bw) * N + n
          let e ← rd x st.1
          let out ← wrI st.2 (on * (C * oH * oW) + c * (oH * oW) + ((h : Int) + (pt : Int)).tdiv bh * oW + ((w : Int) + (pl : Int)).tdiv bw) e
          .ok (st.1 + 1, out)) W st) H st) C st) N st)
      (fun q => ∃ n, n < N ∧ ∃ c, c < C ∧ ∃ h, h < H ∧ ∃ w, w < W ∧
        q = lin [N * bh * bw, C, oH, oW] (s2bDest N pt pl bh bw n c h w)) := by
    refine EffC.loop fun n hn => EffC.loop fun c hc => EffC.loop fun h hh => EffC.loop fun w hw => ?_
    have hin := s2b_dest_in (N := N) (C := C) hbh hbw hH hW hn hc hh hw
    refine EffC.step (v := X [n, c, h, w]) (lin_lt hin) ?_ ?_
    · rw [unlin_lin hin, s2b_val_dest hbw hn hh hw]
    · intro out
      have hxin : InBounds [N, C, H, W] [n, c, h, w] := ⟨hn, hc, hh, hw, trivial⟩
      have e1 := hX.2 _ hxin
      have i1 : 0 + n * (C * (H * (W * 1))) + c * (H * (W * 1)) + h * (W * 1) + w * 1 = lin [N, C, H, W] [n, c, h, w] := by
        simp only [lin, prod]; ring
      have i2 : ((((h : Int) + (pt : Int)).tmod bh * bw + ((w : Int) + (pl : Int)).tmod bw) * N + n) * (C * oH * oW) + c * (oH * oW) +
          ((h : Int) + (pt : Int)).tdiv bh * oW + ((w : Int) + (pl : Int)).tdiv bw =
          ((lin [N * bh * bw, C, oH, oW] (s2bDest N pt pl bh bw n c h w) : Nat) : Int) := by
        rw [tmod_nat, tmod_nat, ← Int.ofNat_tmod, ← Int.ofNat_tmod, ← Int.ofNat_tdiv, ← Int.ofNat_tdiv]
        simp only [lin, prod, s2bDest]; push_cast; ring
      simp only
      rw [i1, i2, rd_ok e1, Res.bind_ok, wrI_nat]
  obtain ⟨out, e, h1, h2, h3⟩ := key (List.replicate (prod [N * bh * bw, C, oH, oW]) zero) (by simp)
  refine ⟨_, out, e, holds_iff.2 ⟨h1, fun q hq => ?_⟩⟩
  by_cases hD : ∃ n, n < N ∧ ∃ c, c < C ∧ ∃ h, h < H ∧ ∃ w, w < W ∧ q = lin [N * bh * bw, C, oH, oW] (s2bDest N pt pl bh bw n c h w)
  · exact h2 q hD
  · rw [h3 q hD, List.getElem?_replicate, if_pos hq]
    congr 1
    have hin := unlin_inBounds hq
    have hlin := lin_unlin hq
    obtain ⟨on, c, oh, ow, hu⟩ : ∃ a b c d, unlin [N * bh * bw, C, oH, oW] q = [a, b, c, d] := ⟨_, _, _, _, rfl⟩
    rw [hu] at hin hlin
    rw [hu]
    obtain ⟨g0, g1, g2, g3, -⟩ := hin
    simp only [s2bVal]
    by_cases hc : pt ≤ oh * bh + on / N / bw ∧ oh * bh + on / N / bw < H + pt ∧ pl ≤ ow * bw + on / N % bw ∧ ow * bw + on / N % bw < W + pl
    · exfalso
      apply hD
      have hN : 0 < N := by rcases Nat.eq_zero_or_pos N with rfl | h; (simp at g0); exact h
      refine ⟨on % N, Nat.mod_lt _ hN, c, g1, oh * bh + on / N / bw - pt, by omega, ow * bw + on / N % bw - pl, by omega, ?_⟩
      rw [s2b_dest_of hbw g0 hc.1 hc.2.2.1, hlin]
    · rw [if_neg hc]

/-! ## batch_to_space4d -/

theorem b2sLoop_ok {N C H W oH oW ct cb cl cr bh bw : Nat} {x dst : List α} {X : List Nat → α} (hbh : 0 < bh) (hbw : 0 < bw)
    (hH : H * bh = oH + ct + cb) (hW : W * bw = oW + cl + cr) (hX : Holds [N * bh * bw, C, H, W] x X)
    (hd : dst.length = prod [N, C, oH, oW]) :
    ∃ k out, b2sLoop x C H W N C oH oW ct cl bh bw dst = .ok (k, out) ∧
      Holds [N, C, oH, oW] out (fun c => X (s2bDest N ct cl bh bw (c.getD 0 0) (c.getD 1 0) (c.getD 2 0) (c.getD 3 0))) := by
  have key : EffC (prod [N, C, oH, oW]) (fun q => (fun c => X (s2bDest N ct cl bh bw (c.getD 0 0) (c.getD 1 0) (c.getD 2 0) (c.getD 3 0)))
      (unlin [N, C, oH, oW] q)) 0 (N * (C * (oH * (oW * 1))))
      (fun st => loop (fun st n => loop (fun st c => loop (fun st h => loop (fun (st : Nat × List α) w => do
          let i := (((h : Int) + (ct : Int)).tmod bh * bw + ((w : Int) + (cl : Int)).tmod bw) * N + n
          let e ← rdI x (i * (C * H * W) + c * (H * W) + ((h : Int) + (ct : Int)).tdiv bh * W + ((w : Int) + (cl : Int)).tdiv bw)
          let out ← wr st.2 st.1 e
          .ok (st.1 + 1, out)) oW st) oH st) C st) N st)
      (fun q => ∃ n, n < N ∧ ∃ c, c < C ∧ ∃ h, h < oH ∧ ∃ w, w < oW ∧
        q = 0 + n * (C * (oH * (oW * 1))) + c * (oH * (oW * 1)) + h * (oW * 1) + w * 1) := by
    refine EffC.loop fun n hn => EffC.loop fun c hc => EffC.loop fun h hh => EffC.loop fun w hw => ?_
    have i1 : 0 + n * (C * (oH * (oW * 1))) + c * (oH * (oW * 1)) + h * (oW * 1) + w * 1 = lin [N, C, oH, oW] [n, c, h, w] := by
      simp only [lin, prod]; ring
    have hin : InBounds [N, C, oH, oW] [n, c, h, w] := ⟨hn, hc, hh, hw, trivial⟩
    have hxin := s2b_dest_in (N := N) (C := C) hbh hbw hH hW hn hc hh hw
    rw [i1]
    refine EffC.step (v := X (s2bDest N ct cl bh bw n c h w)) (lin_lt hin) ?_ ?_
    · rw [unlin_lin hin]; rfl
    · intro out
      have e1 := hX.2 _ hxin
      have i2 : ((((h : Int) + (ct : Int)).tmod bh * bw + ((w : Int) + (cl : Int)).tmod bw) * N + n) * (C * H * W) + c * (H * W) +
          ((h : Int) + (ct : Int)).tdiv bh * W + ((w : Int) + (cl : Int)).tdiv bw =
          ((lin [N * bh * bw, C, H, W] (s2bDest N ct cl bh bw n c h w) : Nat) : Int) := by
        rw [tmod_nat, tmod_nat, ← Int.ofNat_tmod, ← Int.ofNat_tmod, ← Int.ofNat_tdiv, ← Int.ofNat_tdiv]
        simp only [lin, prod, s2bDest]; push_cast; ring
      simp only
      rw [i2, rdI_ok e1, Res.bind_ok]
  obtain ⟨out, e, h1, h2, h3⟩ := key dst hd
  refine ⟨_, out, e, holds_iff.2 ⟨h1, fun q hq => h2 q ?_⟩⟩
  have hin := unlin_inBounds hq
  have hlin := lin_unlin hq
  obtain ⟨n, c, h, w, hu⟩ : ∃ a b c d, unlin [N, C, oH, oW] q = [a, b, c, d] := ⟨_, _, _, _, rfl⟩
  rw [hu] at hin hlin
  obtain ⟨g0, g1, g2, g3, -⟩ := hin
  refine ⟨n, g0, c, g1, h, g2, w, g3, ?_⟩
  rw [← hlin]; simp only [lin, prod]; ring

end Verif.Kernels
