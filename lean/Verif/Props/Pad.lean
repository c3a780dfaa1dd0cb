import Verif.Kernels.BatchLemmas
import Verif.Kernels.ConcatLemmas
/-!
# C55: pad; C56: space_to_batch4d and batch_to_space4d

A tensor is a shape with its elements in row-major order (`Holds`). `fresh n` is what a new buffer of `n` elements happens to hold.
-/
namespace Verif.Props
open Verif.Core Verif.Spec Verif.Kernels

variable {α : Type}

theorem not_padless {ps : List (Int × Int)} (h : ∃ p ∈ ps, p ≠ (0, 0)) : (ps.all fun p => decide (p = (0, 0))) = false := by
  obtain ⟨p, hp, hne⟩ := h
  cases hb : (ps.all fun p => decide (p = (0, 0)))
  · rfl
  · rw [List.all_eq_true] at hb
    exact absurd (by simpa using hb p hp) hne

/-- **C55, pad.** Every element of the operand is found where the padding moves it, if that is inside the output, and every other
cell holds the padding value. What is missing: a negative amount on the first axis of a tensor of rank 4 (`C55_batch_false`) and
amounts that cut everything (`C55_clamp_false`). -/
theorem C55_pad_partial (v : α) (x : Operand α) (X : List Nat → α) (ps : List (Int × Int)) (o : List Nat) (fresh : Nat → List α)
    (hX : Holds x.shape x.data X) (hs : ∀ a ∈ x.shape, 0 < a) (hb : prod x.shape ≤ 2147483647) (ht : plainType x.dtype)
    (hf : ∀ n, (fresh n).length = n) (hp : PadFits x.shape ps o)
    (h4 : x.shape.length = 4 → ∀ p, ps.head? = some p → 0 ≤ p.1 ∧ 0 ≤ p.2) :
    ∃ out Y, padRun v x ps fresh = .ok (o, out) ∧ Holds o out Y ∧
      (∀ d c, InBounds x.shape d → InBounds o c → MovedTo ps d c → Y c = X d) ∧
      (∀ c, InBounds o c → (∀ d, InBounds x.shape d → ¬ MovedTo ps d c) → Y c = v) := by
  obtain ⟨dt, s, data⟩ := x
  simp only at *
  have hl := padFits_lengths hp
  have hspec : (∀ d c, InBounds s d → InBounds o c → MovedTo ps d c → padVal s ps X v c = X d) ∧
      (∀ c, InBounds o c → (∀ d, InBounds s d → ¬ MovedTo ps d c) → padVal s ps X v c = v) := by
    constructor
    · intro d c hd hc hm
      unfold padVal
      rw [(padSource_iff (by rw [hc.length, hl.2]) hl.1).2 ⟨hd, hm⟩]
    · intro c hc hn
      unfold padVal
      cases hq : padSource s ps c with
      | none => rfl
      | some d =>
        have := (padSource_iff (by rw [hc.length, hl.2]) hl.1).1 hq
        exact absurd this.2 (hn d this.1)
  by_cases hz : (ps.all fun p => decide (p = (0, 0))) = true
  · -- nothing to do: the operand itself
    have hps : ∀ p ∈ ps, p = (0, 0) := by simpa using hz
    have ho : o = s := by
      clear hspec hX hs hb h4 hz
      induction s generalizing ps o with
      | nil => cases ps <;> cases o <;> simp_all [PadFits]
      | cons a s ih =>
        cases ps with
        | nil => cases o <;> simp [PadFits] at hp
        | cons p ps =>
          cases o with
          | nil => simp [PadFits] at hp
          | cons b o =>
            have h1 := hp.1
            rw [hps p List.mem_cons_self] at h1
            rw [ih ps o hp.2.2.2.2.2.2 (padFits_lengths hp.2.2.2.2.2.2) fun q hq => hps q (List.mem_cons_of_mem _ hq)]
            congr 1
            simp at h1; omega
    subst ho
    refine ⟨data, padVal o ps X v, ?_, ?_, hspec⟩
    · unfold padRun
      simp only
      rw [if_pos hl.1, padExtents_ok hp, Res.bind_ok, if_pos hz]
    · refine ⟨hX.1, fun c hc => ?_⟩
      have hm : MovedTo ps c c := by
        have hcl := hc.length
        clear hspec hX hb h4 hz hp hs
        induction o generalizing ps c with
        | nil => cases ps <;> cases c <;> simp_all [MovedTo]
        | cons a s ih =>
          cases ps with
          | nil => simp at hl
          | cons p ps =>
            cases c with
            | nil => simp at hcl
            | cons b c =>
              refine ⟨by rw [hps p List.mem_cons_self]; simp, ih ps (fun q hq => hps q (List.mem_cons_of_mem _ hq))
                (by simpa using hl) c hc.2 (by simpa using hcl)⟩
      rw [hspec.1 c c hc hc hm]
      exact hX.2 c hc
  · have key : ∃ out, padKernel v data s o ps (fresh (prod o)) = .ok out ∧ Holds o out (padVal s ps X v) := by
      by_cases hr : s.length = 4
      · match s, o, ps, hr, hl with
        | [s0, s1, s2, s3], [o0, o1, o2, o3], [p0, p1, p2, p3], _, _ =>
          exact padRank4_ok hp (h4 rfl p0 rfl) hX
      · have hk : padKernel v data s o ps (fresh (prod o)) = padGeneric v data s o ps (fresh (prod o)) := by
          unfold padKernel
          split
          · exact absurd rfl hr
          · rfl
        rw [hk]
        exact padGeneric_ok hp hs hb hX (hf _)
    obtain ⟨out, e, hh⟩ := key
    refine ⟨out, _, ?_, hh, hspec⟩
    unfold padRun
    simp only
    rw [if_pos hl.1, padExtents_ok hp, Res.bind_ok, if_neg hz, if_pos ht, e, Res.bind_ok]

example : padRun (0 : Int) ⟨10, [2, 3], [1, 2, 3, 4, 5, 6]⟩ [(1, 0), (-1, 2)] (fun n => List.replicate n 99) =
    .ok ([3, 4], [0, 0, 0, 0, 2, 3, 0, 0, 5, 6, 0, 0]) := by decide
example : padRun (0 : Int) ⟨10, [1, 2, 1, 3], [1, 2, 3, 4, 5, 6]⟩ [(0, 1), (-1, 0), (0, 0), (1, -1)] (fun n => List.replicate n 99) =
    .ok ([2, 1, 1, 3], [0, 4, 5, 0, 0, 0]) := by decide
example : PadFits [2, 3] [(1, 0), (-1, 2)] [3, 4] ∧ MovedTo [(1, 0), (-1, 2)] [0, 1] [1, 0] := by
  simp [PadFits, MovedTo, I32]

/-- **C55, cutting the batch.** On a tensor of rank 4 a negative amount on the first axis never cuts: the loop over that axis still runs
over the whole operand, and reads past the operand or writes past the output. -/
theorem C55_batch_false (v : α) (dt s0 s1 s2 s3 o0 o1 o2 o3 : Nat) (data : List α) (p0 p1 p2 p3 : Int × Int) (fresh : Nat → List α)
    (hd : data.length = prod [s0, s1, s2, s3]) (ht : plainType dt) (hs : 0 < s0)
    (hp : PadFits [s0, s1, s2, s3] [p0, p1, p2, p3] [o0, o1, o2, o3])
    (hcut : ∀ q ∈ [(s1, p1), (s2, p2), (s3, p3)], 0 < (q.1 : Int) + min q.2.1 0 + min q.2.2 0) (hneg : p0.1 < 0 ∨ p0.2 < 0) :
    padRun v ⟨dt, [s0, s1, s2, s3], data⟩ [p0, p1, p2, p3] fresh = .ub := by
  have hcut' : ∀ (s : Nat) (p : Int × Int), 0 < (s : Int) + min p.1 0 + min p.2 0 → 0 < cutExtent s p := by
    intro s p h
    unfold cutExtent
    simp only
    split <;> split <;> omega
  unfold padRun
  simp only
  rw [if_pos (show [p0, p1, p2, p3].length = [s0, s1, s2, s3].length from rfl), padExtents_ok hp, Res.bind_ok, not_padless ⟨p0, by simp, by rintro rfl; simp at hneg⟩, if_neg (by simp), if_pos ht]
  have : padKernel v data [s0, s1, s2, s3] [o0, o1, o2, o3] [p0, p1, p2, p3] (fresh (prod [o0, o1, o2, o3])) = .ub :=
    padRank4_ub hp.1 hs hneg (hcut' _ _ (hcut (s1, p1) (by simp))) (hcut' _ _ (hcut (s2, p2) (by simp)))
      (hcut' _ _ (hcut (s3, p3) (by simp))) hd
  rw [this]; rfl

example : padRun (0 : Int) ⟨10, [2, 1, 1, 1], [1, 2]⟩ [(-1, 0), (0, 0), (0, 0), (0, 0)] (fun n => List.replicate n 99) = .ub :=
  C55_batch_false _ _ _ _ _ _ 1 1 1 1 _ _ _ _ _ _ (by decide) (by decide) (by decide) (by simp [PadFits, I32]) (by simp)
    (by simp)
/-- the same amounts on a tensor of rank 3 cut -/
example : padRun (0 : Int) ⟨10, [2, 1, 1], [1, 2]⟩ [(-1, 0), (0, 0), (0, 0)] (fun n => List.replicate n 99) = .ok ([1, 1, 1], [2]) := by
  decide

/-- **C55, cutting everything.** An extent that would be zero or less becomes one; what that one cell holds depends on the rank: the
padding value at rank 4, an element of the operand, though it lies outside what was asked for, at rank 1. -/
theorem C55_clamp_false (v a b c : α) (fresh : Nat → List α) (hf : ∀ n, (fresh n).length = n) :
    padRun v ⟨10, [3], [a, b, c]⟩ [(0, -3)] fresh = .ok ([1], [a]) ∧
      padRun v ⟨10, [1, 1, 1, 3], [a, b, c]⟩ [(0, 0), (0, 0), (0, 0), (0, -3)] fresh = .ok ([1, 1, 1, 1], [v]) := by
  constructor
  · have : ∃ z, fresh 1 = [z] := List.length_eq_one_iff.1 (hf 1)
    obtain ⟨z, hz⟩ := this
    have e : padExtents [3] [(0, -3)] = .ok [1] := by decide
    have w : weights (ints [3]) = .ok [3] := by decide
    have t : transposePad (iterStart (ints [1])) [(0, -3)] (ints [3]) = .ok (some [0]) := by decide
    have i : toIndex [3] [0] = .ok 0 := by decide
    have hn : ([((0 : Int), (-3 : Int))].all fun p => decide (p = (0, 0))) = false := by decide
    have pr : prod [1] = 1 := rfl
    unfold padRun
    simp only [List.length_cons, List.length_nil, e, Res.bind_ok, hn, if_true, Bool.false_eq_true, if_false,
      show plainType 10 = true from rfl, padKernel, padGeneric, w, pr, hz, loop, padCell, t, i]
    simp [rdI, rd, wr]
  · have e : padExtents [1, 1, 1, 3] [(0, 0), (0, 0), (0, 0), (0, -3)] = .ok [1, 1, 1, 1] := by decide
    have hn : ([((0 : Int), (0 : Int)), (0, 0), (0, 0), (0, -3)].all fun p => decide (p = (0, 0))) = false := by decide
    unfold padRun
    simp only [List.length_cons, List.length_nil, e, Res.bind_ok, hn, if_true, Bool.false_eq_true, if_false,
      show plainType 10 = true from rfl, padKernel, padRank4, cutExtent]
    rfl

/-- **C55, refusals.** As many pairs as axes, or nothing; a type without arithmetic is refused unless there is nothing to pad. -/
theorem C55_rejects (v : α) (x : Operand α) (ps : List (Int × Int)) (fresh : Nat → List α) :
    (ps.length ≠ x.shape.length → padRun v x ps fresh = .err) ∧
    ((∃ o, PadFits x.shape ps o) → (∃ p ∈ ps, p ≠ (0, 0)) → plainType x.dtype = false → padRun v x ps fresh = .err) := by
  refine ⟨fun h => by unfold padRun; rw [if_neg h], ?_⟩
  rintro ⟨o, ho⟩ hp ht
  unfold padRun
  rw [if_pos (padFits_lengths ho).1, padExtents_ok ho, Res.bind_ok, not_padless hp, if_neg (by simp), if_neg (by simp [ht])]

example : padRun (0 : Int) ⟨0, [2, 2], [1, 2, 3, 4]⟩ [(1, 1), (0, 0)] (fun n => List.replicate n 99) = .err := by decide
example : padRun (0 : Int) ⟨10, [2, 2], [1, 2, 3, 4]⟩ [(1, 1)] (fun n => List.replicate n 99) = .err := by decide

/-! ## C56 -/

/-- the cell of the batched tensor that the element (n, c, h, w) of a batch of `N` belongs to: with (h, w) shifted by the padding, the
position inside a block of `bh` by `bw` selects the batch, the block selects the cell -/
def blockCell (N bh bw pt pl : Nat) (n c h w : Nat) : List Nat :=
  [((h + pt) % bh * bw + (w + pl) % bw) * N + n, c, (h + pt) / bh, (w + pl) / bw]

theorem spanS_ok {a p q : Nat} (h : a + p + q ≤ 2147483647) : spanS a p q = .ok (((a + p + q : Nat) : Int)) := by
  unfold spanS
  rw [tmod_nat, int32_ok (i32_nat (by omega)), Res.bind_ok, tmod_nat, int32_ok (i32_nat h)]

/-- **C56, space_to_batch4d.** With padding that makes both extents multiples of the block, each element of the operand is found in its
cell, distinct elements in distinct cells, and every other cell is zero. -/
theorem C56_space_to_batch_partial (zero : α) (dt N C H W oH oW pt pb pl pr bh bw : Nat) (data : List α) (X : List Nat → α)
    (hX : Holds [N, C, H, W] data X) (hbh : 0 < bh) (hbw : 0 < bw) (ht : plainType dt)
    (hH : oH * bh = H + pt + pb) (hW : oW * bw = W + pl + pr) (hhs : H + pt + pb ≤ 2147483647) (hws : W + pl + pr ≤ 2147483647)
    (hN : N * bh * bw ≤ 2147483647) :
    ∃ out Y, spaceToBatchRun zero ⟨dt, [N, C, H, W], data⟩ pt pb pl pr bh bw = .ok ([N * bh * bw, C, oH, oW], out) ∧
      Holds [N * bh * bw, C, oH, oW] out Y ∧
      (∀ n c h w, InBounds [N, C, H, W] [n, c, h, w] → InBounds [N * bh * bw, C, oH, oW] (blockCell N bh bw pt pl n c h w) ∧
        Y (blockCell N bh bw pt pl n c h w) = X [n, c, h, w]) ∧
      (∀ q, InBounds [N * bh * bw, C, oH, oW] q →
        (∀ n c h w, InBounds [N, C, H, W] [n, c, h, w] → q ≠ blockCell N bh bw pt pl n c h w) → Y q = zero) := by
  obtain ⟨k, out, e, hh⟩ := s2bLoop_ok (N := N) (C := C) (zero := zero) hbh hbw hH hW hX
  refine ⟨out, _, ?_, hh, ?_, ?_⟩
  · have hNb : N * bh ≤ 2147483647 := le_trans (Nat.le_mul_of_pos_right _ hbw) hN
    have c1 : ((N : Int) * (bh : Int)) = ((N * bh : Nat) : Int) := by push_cast; rfl
    have c2 : (((N * bh : Nat) : Int) * (bw : Int)) = ((N * bh * bw : Nat) : Int) := by push_cast; rfl
    have d1 : ((H + pt + pb : Nat) : Int).tdiv (bh : Int) = (oH : Int) := by
      rw [← hH, ← Int.ofNat_tdiv, Nat.mul_div_cancel _ hbh]
    have d2 : ((W + pl + pr : Nat) : Int).tdiv (bw : Int) = (oW : Int) := by
      rw [← hW, ← Int.ofNat_tdiv, Nat.mul_div_cancel _ hbw]
    have m1 : ((H + pt + pb : Nat) : Int).tmod (bh : Int) = 0 := by
      rw [← hH, ← Int.ofNat_tmod, Nat.mul_mod_left]; rfl
    have m2 : ((W + pl + pr : Nat) : Int).tmod (bw : Int) = 0 := by
      rw [← hW, ← Int.ofNat_tmod, Nat.mul_mod_left]; rfl
    have hsh : s2bShape N C ((H + pt + pb : Nat) : Int) ((W + pl + pr : Nat) : Int) bh bw = .ok [N * bh * bw, C, oH, oW] := by
      unfold s2bShape
      rw [c1, int32_ok (i32_nat hNb), Res.bind_ok, c2, int32_ok (i32_nat hN), Res.bind_ok, d1, d2, if_neg (by omega)]
      rfl
    unfold spaceToBatchRun
    simp only
    rw [if_pos (by omega), spanS_ok hhs, Res.bind_ok, if_neg (by rw [m1]; simp), spanS_ok hws, Res.bind_ok, if_neg (by rw [m2]; simp),
      hsh, Res.bind_ok, if_pos ht]
    simp only [List.getD_cons_zero, List.getD_cons_succ]
    rw [e, Res.bind_ok]
  · intro n c h w ⟨hn, hc, hh, hw, _⟩
    exact ⟨s2b_dest_in hbh hbw hH hW hn hc hh hw, s2b_val_dest hbw hn hh hw⟩
  · intro q hq hno
    match q, hq with
    | [on, c, oh, ow], hq =>
      obtain ⟨g0, g1, g2, g3, -⟩ := hq
      simp only [s2bVal]
      by_cases hc : pt ≤ oh * bh + on / N / bw ∧ oh * bh + on / N / bw < H + pt ∧ pl ≤ ow * bw + on / N % bw ∧ ow * bw + on / N % bw < W + pl
      · exfalso
        have hN : 0 < N := by rcases Nat.eq_zero_or_pos N with rfl | h; (simp at g0); exact h
        refine hno (on % N) c (oh * bh + on / N / bw - pt) (ow * bw + on / N % bw - pl) ⟨Nat.mod_lt _ hN, g1, by omega, by omega, trivial⟩ ?_
        exact (s2b_dest_of hbw g0 hc.1 hc.2.2.1).symm
      · rw [if_neg hc]

/-- distinct elements have distinct cells -/
theorem C56_block_cell_injective (N bh bw pt pl : Nat) (n c h w n' c' h' w' : Nat) (hn : n < N) (hn' : n' < N) (hbw : 0 < bw)
    (e : blockCell N bh bw pt pl n c h w = blockCell N bh bw pt pl n' c' h' w') : n = n' ∧ c = c' ∧ h = h' ∧ w = w' := by
  simp only [blockCell, List.cons.injEq, and_true] at e
  obtain ⟨e0, e1, e2, e3⟩ := e
  obtain ⟨a, b⟩ := cell2_inj hn hn' e0
  obtain ⟨a1, a2⟩ := cell2_inj (Nat.mod_lt _ hbw) (Nat.mod_lt _ hbw) a
  have h1 := Nat.div_add_mod (h + pt) bh
  have h2 := Nat.div_add_mod (h' + pt) bh
  have h3 := Nat.div_add_mod (w + pl) bw
  have h4 := Nat.div_add_mod (w' + pl) bw
  rw [e2, a1] at h1
  rw [e3, a2] at h3
  omega

example : spaceToBatchRun (0 : Int) ⟨10, [1, 1, 2, 3], [1, 2, 3, 4, 5, 6]⟩ 0 0 1 0 2 2 =
    .ok ([4, 1, 1, 2], [0, 2, 1, 3, 0, 5, 4, 6]) := by decide
example : blockCell 1 2 2 0 1 0 0 1 2 = [3, 0, 0, 1] := by decide

/-- **C56, batch_to_space4d.** The element (n, c, h, w) of the result is the element of the operand in its cell; cropping shifts (h, w)
as padding does. -/
theorem C56_batch_to_space_partial (dt N C H W oH oW ct cb cl cr bh bw : Nat) (data : List α) (X : List Nat → α) (fresh : Nat → List α)
    (hX : Holds [N * bh * bw, C, H, W] data X) (hf : ∀ n, (fresh n).length = n) (hN : 0 < N) (hbh : 0 < bh) (hbw : 0 < bw) (ht : plainType dt)
    (hH : H * bh = oH + ct + cb) (hW : W * bw = oW + cl + cr) (hhs : H * bh ≤ 2147483647) (hws : W * bw ≤ 2147483647)
    (hbb : bh * bw ≤ 2147483647) :
    ∃ out, batchToSpaceRun ⟨dt, [N * bh * bw, C, H, W], data⟩ ct cb cl cr bh bw fresh = .ok ([N, C, oH, oW], out) ∧
      Holds [N, C, oH, oW] out fun q => X (blockCell N bh bw ct cl (q.getD 0 0) (q.getD 1 0) (q.getD 2 0) (q.getD 3 0)) := by
  obtain ⟨k, out, e, hh⟩ := b2sLoop_ok (N := N) (C := C) hbh hbw hH hW hX (hf _)
  refine ⟨out, ?_, hh⟩
  have hspan : ∀ (a b p q r : Nat), a * b = r + p + q → a * b ≤ 2147483647 → spanB a b p q = .ok (r : Int) := by
    intro a b p q r h hb
    unfold spanB
    have c1 : ((a : Int) * (b : Int)) = ((a * b : Nat) : Int) := by push_cast; rfl
    have c2 : ((a * b : Nat) : Int) - (p : Int) = ((r + q : Nat) : Int) := by omega
    have c3 : ((r + q : Nat) : Int) - (q : Int) = (r : Int) := by omega
    rw [c1, int32_ok (i32_nat hb), Res.bind_ok, c2, int32_ok (i32_nat (by omega)), Res.bind_ok, c3, int32_ok (i32_nat (by omega))]
  have c1 : ((bh : Int) * (bw : Int)) = ((bh * bw : Nat) : Int) := by push_cast; rfl
  have hpos : 0 < bh * bw := Nat.mul_pos hbh hbw
  have m1 : ((N * bh * bw : Nat) : Int).tmod ((bh * bw : Nat) : Int) = 0 := by
    rw [← Int.ofNat_tmod, Nat.mul_assoc, Nat.mul_mod_left]; rfl
  have d1 : ((N * bh * bw : Nat) : Int).tdiv ((bh * bw : Nat) : Int) = (N : Int) := by
    rw [← Int.ofNat_tdiv, Nat.mul_assoc, Nat.mul_div_cancel _ hpos]
  have hsh : b2sShape (N * bh * bw) C H W ((bh * bw : Nat) : Int) ct cb cl cr bh bw = .ok [N, C, oH, oW] := by
    unfold b2sShape
    rw [hspan H bh ct cb oH hH hhs, Res.bind_ok, hspan W bw cl cr oW hW hws, Res.bind_ok, if_neg (by omega), d1]
    rfl
  have hn0 : N * bh * bw ≠ 0 := by positivity
  unfold batchToSpaceRun
  simp only
  rw [if_pos (by omega), if_neg hn0, c1, int32_ok (i32_nat hbb), Res.bind_ok, if_neg (by rw [m1]; simp), hsh, Res.bind_ok, if_pos ht]
  simp only [List.getD_cons_zero, List.getD_cons_succ]
  rw [e, Res.bind_ok]

example : batchToSpaceRun ⟨10, [4, 1, 1, 2], [0, 2, 1, 3, 0, 5, 4, 6]⟩ 0 0 1 0 2 2 (fun n => List.replicate n 99) =
    .ok ([1, 1, 2, 3], [1, 2, 3, 4, 5, 6]) := by decide

/-- **C56, inverse.** Batching a tensor and unbatching the result with the same block, cropping what was padded, gives the tensor back. -/
theorem C56_round_trip (zero : α) (dt N C H W oH oW pt pb pl pr bh bw : Nat) (data : List α) (X : List Nat → α) (fresh : Nat → List α)
    (hX : Holds [N, C, H, W] data X) (hf : ∀ n, (fresh n).length = n) (hN : 0 < N) (hbh : 0 < bh) (hbw : 0 < bw) (ht : plainType dt)
    (hH : oH * bh = H + pt + pb) (hW : oW * bw = W + pl + pr) (hhs : H + pt + pb ≤ 2147483647) (hws : W + pl + pr ≤ 2147483647)
    (hNb : N * bh * bw ≤ 2147483647) :
    ∃ s out, spaceToBatchRun zero ⟨dt, [N, C, H, W], data⟩ pt pb pl pr bh bw = .ok (s, out) ∧
      batchToSpaceRun ⟨dt, s, out⟩ pt pb pl pr bh bw fresh = .ok ([N, C, H, W], data) := by
  obtain ⟨out, Y, e1, hY, hin, -⟩ :=
    C56_space_to_batch_partial zero dt N C H W oH oW pt pb pl pr bh bw data X hX hbh hbw ht hH hW hhs hws hNb
  have hbb : bh * bw ≤ 2147483647 := by
    refine le_trans ?_ hNb
    rw [Nat.mul_assoc]
    exact Nat.le_mul_of_pos_left _ hN
  obtain ⟨back, e2, hb⟩ := C56_batch_to_space_partial dt N C oH oW H W pt pb pl pr bh bw out Y fresh hY hf hN hbh hbw ht hH hW
    (by omega) (by omega) hbb
  refine ⟨_, _, e1, ?_⟩
  rw [e2]
  congr 2
  have h1 : Holds [N, C, H, W] back X := by
    refine ⟨hb.1, fun c hc => ?_⟩
    rw [hb.2 c hc]
    match c, hc with
    | [n, c, h, w], hc => simpa using (hin n c h w hc).2
  rw [h1.eq_map, hX.eq_map]

example : spaceToBatchRun (0 : Int) ⟨10, [1, 1, 2, 3], [1, 2, 3, 4, 5, 6]⟩ 1 1 0 1 2 2 =
    .ok ([4, 1, 2, 2], [0, 0, 4, 6, 0, 0, 5, 0, 1, 3, 0, 0, 2, 0, 0, 0]) := by decide

/-- **C56, negative amounts.** Nothing refuses negative padding or cropping: the kernels then write before, or read behind, their
buffers. -/
theorem C56_negative_false (zero a b c d : α) (fresh : Nat → List α) (hf : ∀ n, (fresh n).length = n) :
    spaceToBatchRun zero ⟨10, [1, 1, 4, 1], [a, b, c, d]⟩ (-2) 0 0 0 2 1 = .ub ∧
      batchToSpaceRun ⟨10, [2, 1, 1, 1], [a, b]⟩ 0 (-2) 0 0 2 1 fresh = .ub := by
  constructor
  · rfl
  · have : ∃ z0 z1 z2 z3, fresh 4 = [z0, z1, z2, z3] := by
      have := hf 4
      match h : fresh 4, this with
      | [z0, z1, z2, z3], _ => exact ⟨z0, z1, z2, z3, rfl⟩
    obtain ⟨z0, z1, z2, z3, hz⟩ := this
    have e : b2sShape 2 1 1 1 2 0 (-2) 0 0 2 1 = .ok [1, 1, 4, 1] := by decide
    unfold batchToSpaceRun
    simp only [show int32 ((2 : Int) * 1) = .ok 2 from by decide, e, Res.bind_ok, show prod [1, 1, 4, 1] = 4 from rfl, hz]
    rfl

/-- **C56, refusals.** Blocks below one, a rank other than 4, extents the block does not divide. -/
theorem C56_rejects (zero : α) (x : Operand α) (pt pb pl pr bh bw : Int) (fresh : Nat → List α) :
    ((bh < 1 ∨ bw < 1 ∨ x.shape.length ≠ 4) → spaceToBatchRun zero x pt pb pl pr bh bw = .err ∧
      batchToSpaceRun x pt pb pl pr bh bw fresh = .err) ∧
    (∀ N C H W pt pb pl pr bh bw : Nat, x.shape = [N, C, H, W] → H + pt + pb ≤ 2147483647 → W + pl + pr ≤ 2147483647 →
      ¬ (bh ∣ H + pt + pb ∧ bw ∣ W + pl + pr) → spaceToBatchRun zero x pt pb pl pr bh bw = .err) ∧
    (∀ N C H W bh bw : Nat, x.shape = [N, C, H, W] → bh * bw ≤ 2147483647 → ¬ (0 < N ∧ bh * bw ∣ N) →
      batchToSpaceRun x pt pb pl pr bh bw fresh = .err) := by
  refine ⟨?_, ?_, ?_⟩
  · intro h
    unfold spaceToBatchRun batchToSpaceRun
    by_cases hb : 1 ≤ bh ∧ 1 ≤ bw
    · rw [if_pos hb, if_pos hb]
      have : x.shape.length ≠ 4 := by rcases h with h | h | h <;> omega
      constructor <;> (split <;> [(rename_i e; rw [e] at this; exact absurd rfl this); rfl])
    · rw [if_neg hb, if_neg hb]; exact ⟨rfl, rfl⟩
  · intro N C H W pt pb pl pr bh bw hs h1 h2 hd
    unfold spaceToBatchRun
    by_cases hb : (1 : Int) ≤ (bh : Int) ∧ (1 : Int) ≤ (bw : Int)
    · rw [if_pos hb, hs]
      simp only
      rw [spanS_ok h1, Res.bind_ok, spanS_ok h2]
      by_cases hm : bh ∣ H + pt + pb
      · have hm2 : ¬ bw ∣ W + pl + pr := fun h => hd ⟨hm, h⟩
        rw [if_neg, Res.bind_ok, if_pos]
        · rw [← Int.ofNat_tmod]; intro h; apply hm2; exact Nat.dvd_of_mod_eq_zero (by exact_mod_cast h)
        · rw [← Int.ofNat_tmod, Nat.mod_eq_zero_of_dvd hm]; simp
      · rw [if_pos]
        rw [← Int.ofNat_tmod]; intro h; apply hm; exact Nat.dvd_of_mod_eq_zero (by exact_mod_cast h)
    · rw [if_neg hb]
  · intro N C H W bh bw hs h1 hd
    unfold batchToSpaceRun
    by_cases hb : (1 : Int) ≤ (bh : Int) ∧ (1 : Int) ≤ (bw : Int)
    · rw [if_pos hb, hs]
      simp only
      by_cases hn : N = 0
      · rw [if_pos hn]
      · rw [if_neg hn]
        have c1 : ((bh : Int) * (bw : Int)) = ((bh * bw : Nat) : Int) := by push_cast; rfl
        rw [c1, int32_ok (i32_nat h1), Res.bind_ok, if_pos]
        rw [← Int.ofNat_tmod]; intro h; apply hd
        exact ⟨by omega, Nat.dvd_of_mod_eq_zero (by exact_mod_cast h)⟩
    · rw [if_neg hb]

example : spaceToBatchRun (0 : Int) ⟨10, [1, 1, 3, 2], [1, 2, 3, 4, 5, 6]⟩ 0 0 0 0 2 2 = .err := by decide
example : batchToSpaceRun ⟨10, [3, 1, 1, 1], [1, 2, 3]⟩ 0 0 0 0 2 1 (fun n => List.replicate n (0 : Int)) = .err := by decide

end Verif.Props
