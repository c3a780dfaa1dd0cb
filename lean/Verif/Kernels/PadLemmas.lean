import Verif.Kernels.Pad
import Verif.Kernels.Eff
import Verif.Kernels.PadSpec
import Verif.Core.Holds
import Mathlib.Tactic.Positivity
import Mathlib.Tactic.Linarith
import Mathlib.Tactic.Ring
/-!
# Lemmas about pad
-/
namespace Verif.Kernels
open Verif.Core Verif.Spec

variable {α : Type}

theorem rdI_ok {b : List α} {i : Nat} {v : α} (h : b[i]? = some v) : rdI b i = .ok v := by
  simp [rdI, rd_ok h]

theorem wrI_nat (b : List α) (i : Nat) (v : α) : wrI b i v = wr b i v := by simp [wrI]

/-- the coordinate of the operand that is moved to `c` -/
def padSource : List Nat → List (Int × Int) → List Nat → Option (List Nat)
  | s :: ss, p :: ps, c :: cs =>
    if 0 ≤ (c : Int) - p.1 ∧ (c : Int) - p.1 < s then (padSource ss ps cs).map (((c : Int) - p.1).toNat :: ·) else none
  | _, _, _ => some []

def padVal (s : List Nat) (ps : List (Int × Int)) (X : List Nat → α) (v : α) (c : List Nat) : α :=
  match padSource s ps c with
  | some d => X d
  | none => v

theorem padExtents_ok {s : List Nat} {ps : List (Int × Int)} {o : List Nat} (h : PadFits s ps o) : padExtents s ps = .ok o := by
  induction s generalizing ps o with
  | nil => cases ps <;> cases o <;> simp_all [PadFits, padExtents]
  | cons s ss ih =>
    cases ps with
    | nil => cases o <;> simp [PadFits] at h
    | cons p ps =>
      cases o with
      | nil => simp [PadFits] at h
      | cons o os =>
        obtain ⟨h1, h2, h3, h4, h5, h6, h7⟩ := h
        have e : (s : Int) + (p.1 + p.2) = o := by omega
        have hi : I32 (o : Int) := by rw [h1]; exact h5
        simp only [padExtents, int32_ok h3, Res.bind_ok, e, int32_ok hi, ih h7]
        congr 2
        rw [if_neg (by omega)]; rfl

theorem padSource_inBounds {s : List Nat} {ps : List (Int × Int)} {c d : List Nat} (h1 : c.length = s.length)
    (h2 : ps.length = s.length) (h : padSource s ps c = some d) : InBounds s d := by
  induction s generalizing ps c d with
  | nil => simp [padSource] at h; subst h; simp [InBounds]
  | cons s ss ih =>
    cases ps with
    | nil => simp at h2
    | cons p ps =>
      cases c with
      | nil => simp at h1
      | cons c cs =>
        simp only [padSource] at h
        split at h
        · rename_i hc
          rw [Option.map_eq_some_iff] at h
          obtain ⟨d', hd, rfl⟩ := h
          exact ⟨by omega, ih (by simpa using h1) (by simpa using h2) hd⟩
        · exact absurd h (by simp)

theorem transposePad_ok {s : List Nat} {ps : List (Int × Int)} {o c : List Nat} (h : PadFits s ps o) (hc : InBounds o c) :
    transposePad (ints c) ps (ints s) = .ok ((padSource s ps c).map ints) := by
  induction s generalizing ps o c with
  | nil =>
    cases ps <;> cases o <;> simp [PadFits] at h
    cases c <;> simp_all [transposePad, padSource, InBounds]
  | cons s ss ih =>
    cases ps with
    | nil => cases o <;> simp [PadFits] at h
    | cons p ps =>
      cases o with
      | nil => simp [PadFits] at h
      | cons o os =>
        cases c with
        | nil => simp [InBounds] at hc
        | cons c cs =>
          obtain ⟨h1, h2, h3, h4, h5, h6, h7⟩ := h
          obtain ⟨hc1, hc2⟩ := hc
          have hi : I32 ((c : Int) - p.1) := by unfold I32 at *; omega
          simp only [ints_cons, transposePad, int32_ok hi, Res.bind_ok, padSource]
          by_cases hx : 0 ≤ (c : Int) - p.1 ∧ (c : Int) - p.1 < s
          · rw [if_pos hx, if_neg (by omega), ih h7 hc2, Res.bind_ok, Option.map_map, Option.map_map]
            congr 2
            funext d
            simp only [Function.comp, ints_cons]
            congr 1
            omega
          · rw [if_neg hx, if_pos (by omega)]; rfl

theorem padFits_lengths {s : List Nat} {ps : List (Int × Int)} {o : List Nat} (h : PadFits s ps o) :
    ps.length = s.length ∧ o.length = s.length := by
  induction s generalizing ps o with
  | nil => cases ps <;> cases o <;> simp_all [PadFits]
  | cons s ss ih =>
    cases ps with
    | nil => cases o <;> simp [PadFits] at h
    | cons p ps =>
      cases o with
      | nil => simp [PadFits] at h
      | cons o os =>
        have := ih h.2.2.2.2.2.2
        simp; omega

theorem padFits_pos {s : List Nat} {ps : List (Int × Int)} {o : List Nat} (h : PadFits s ps o) : ∀ x ∈ o, 0 < x := by
  induction s generalizing ps o with
  | nil => cases ps <;> cases o <;> simp_all [PadFits]
  | cons s ss ih =>
    cases ps with
    | nil => cases o <;> simp [PadFits] at h
    | cons p ps =>
      cases o with
      | nil => simp [PadFits] at h
      | cons o os =>
        intro x hx
        rcases List.mem_cons.1 hx with rfl | hx
        · exact h.2.1
        · exact ih h.2.2.2.2.2.2 x hx

theorem padCell_ok {s : List Nat} {ps : List (Int × Int)} {o c : List Nat} {X : List Nat → α} {v : α} {x : List α}
    (h : PadFits s ps o) (hs : ∀ a ∈ s, 0 < a) (hb : prod s ≤ 2147483647) (hX : Holds s x X) (hc : InBounds o c) :
    padCell v x (ints s) (ints (wts s)) ps (ints c) = .ok (padVal s ps X v c) := by
  simp only [padCell, transposePad_ok h hc, Res.bind_ok, padVal]
  have hl := padFits_lengths h
  cases hd : padSource s ps c with
  | none => rfl
  | some d =>
    have hb' := padSource_inBounds (by rw [hc.length, hl.2]) hl.1 hd
    simp only [Option.map_some]
    rw [toIndex_ok hb' hb, Res.bind_ok]
    exact rdI_ok (hX.2 d hb')

theorem padGeneric_ok {s : List Nat} {ps : List (Int × Int)} {o : List Nat} {X : List Nat → α} {v : α} {x dst : List α}
    (h : PadFits s ps o) (hs : ∀ a ∈ s, 0 < a) (hb : prod s ≤ 2147483647) (hX : Holds s x X)
    (hd : dst.length = prod o) : ∃ out, padGeneric v x s o ps dst = .ok out ∧ Holds o out (padVal s ps X v) := by
  unfold padGeneric
  rw [weights_ok (fits_of_pos hs hb), Res.bind_ok]
  obtain ⟨st, e, h1, h2, h3⟩ := loop_inv (n := prod o) (s := (iterStart (ints o), dst))
    (f := fun (st : List Int × List α) i => do
      let e ← padCell v x (ints s) (ints (wts s)) ps st.1
      let out ← wr st.2 i e
      .ok (increase (ints o) st.1, out))
    (fun k st => st.1 = ints (unlin o (k % prod o)) ∧ st.2.length = prod o ∧ ∀ i, i < k → st.2[i]? = some (padVal s ps X v (unlin o i)))
    ⟨iterStart_unlin (padFits_pos h), hd, by intro i hi; omega⟩
    (by
      rintro k ⟨c, out⟩ hk ⟨a1, a2, a3⟩
      simp only at a1 a2 a3
      subst a1
      have hin := unlin_inBounds (s := o) (i := k) hk
      refine ⟨(increase (ints o) (ints (unlin o k)), out.set k (padVal s ps X v (unlin o k))), ?_, ?_⟩
      · rw [Nat.mod_eq_of_lt hk, padCell_ok h hs hb hX hin, Res.bind_ok, wr_ok _ (by rw [a2]; exact hk), Res.bind_ok]
      · refine ⟨?_, by simpa using a2, ?_⟩
        · simp only
          have := increase_unlin (padFits_pos h) k
          rw [Nat.mod_eq_of_lt hk] at this
          exact this
        · intro i hi
          simp only
          by_cases hik : k = i
          · subst hik; exact set_eq (by omega)
          · rw [set_ne hik]; exact a3 i (by omega))
  rw [e, Res.bind_ok]
  exact ⟨_, rfl, holds_iff.2 ⟨h2, h3⟩⟩

/-- the source of `c` is the coordinate moved to `c` -/
theorem padSource_iff {s : List Nat} {ps : List (Int × Int)} {c d : List Nat} (h1 : c.length = s.length) (h2 : ps.length = s.length) :
    padSource s ps c = some d ↔ InBounds s d ∧ MovedTo ps d c := by
  induction s generalizing ps c d with
  | nil =>
    cases ps <;> simp at h2
    cases c <;> simp at h1
    cases d <;> simp [padSource, MovedTo, InBounds]
  | cons s ss ih =>
    cases ps with
    | nil => simp at h2
    | cons p ps =>
      cases c with
      | nil => simp at h1
      | cons c cs =>
        simp only [padSource]
        cases d with
        | nil => split <;> simp [InBounds]
        | cons d ds =>
          have := ih (ps := ps) (c := cs) (d := ds) (by simpa using h1) (by simpa using h2)
          simp only [InBounds, MovedTo]
          by_cases hc : 0 ≤ (c : Int) - p.1 ∧ (c : Int) - p.1 < s
          · rw [if_pos hc, Option.map_eq_some_iff]
            constructor
            · rintro ⟨d', hd, e⟩
              simp only [List.cons.injEq] at e
              obtain ⟨e1, rfl⟩ := e
              obtain ⟨a, b⟩ := this.1 hd
              exact ⟨⟨by omega, a⟩, by omega, b⟩
            · rintro ⟨⟨a, b⟩, e, f⟩
              exact ⟨ds, this.2 ⟨b, f⟩, by simp only [List.cons.injEq, and_true]; omega⟩
          · rw [if_neg hc]
            constructor
            · intro h; cases h
            · rintro ⟨⟨a, b⟩, e, f⟩; omega

/-! ## rank 4 -/

/-- one axis: `k` counts the extent after cutting -/
theorem pad_axis {s o : Nat} {p : Int × Int} (h : (o : Int) = s + p.1 + p.2) {k : Nat} (hk : k < (cutExtent s p).toNat) :
    k + p.1.toNat < o ∧ k + (-p.1).toNat < s ∧ ((k + p.1.toNat : Nat) : Int) - p.1 = ((k + (-p.1).toNat : Nat) : Int) := by
  unfold cutExtent at hk
  simp only at hk
  split at hk <;> split at hk <;> omega

theorem pad_axis_inv {s o : Nat} {p : Int × Int} (h : (o : Int) = s + p.1 + p.2) {c : Nat} (hc : c < o)
    (hd : 0 ≤ (c : Int) - p.1 ∧ (c : Int) - p.1 < s) : ∃ k, k < (cutExtent s p).toNat ∧ c = k + p.1.toNat := by
  refine ⟨c - p.1.toNat, ?_, by omega⟩
  unfold cutExtent
  simp only
  split <;> split <;> omega

theorem inOff_eq (p : Int × Int) : (if p.1 ≥ 0 then (0 : Int) else -p.1) = ((-p.1).toNat : Int) := by split <;> omega
theorem outOff_eq (p : Int × Int) : (if p.1 < 0 then (0 : Int) else p.1) = (p.1.toNat : Int) := by split <;> omega

theorem padRank4_ok {s0 s1 s2 s3 o0 o1 o2 o3 : Nat} {p0 p1 p2 p3 : Int × Int} {X : List Nat → α} {v : α} {x : List α}
    (h : PadFits [s0, s1, s2, s3] [p0, p1, p2, p3] [o0, o1, o2, o3]) (hp : 0 ≤ p0.1 ∧ 0 ≤ p0.2)
    (hX : Holds [s0, s1, s2, s3] x X) :
    ∃ out, padRank4 v x s0 s1 s2 s3 o0 o1 o2 o3 p0 p1 p2 p3 = .ok out ∧
      Holds [o0, o1, o2, o3] out (padVal [s0, s1, s2, s3] [p0, p1, p2, p3] X v) := by
  obtain ⟨a0, -, -, -, -, -, a1, -, -, -, -, -, a2, -, -, -, -, -, a3, -, -, -, -, -, -⟩ := h
  have hcut : (cutExtent s0 p0).toNat = s0 := by unfold cutExtent; simp only; split <;> split <;> omega
  have key : Eff (prod [o0, o1, o2, o3]) (fun q => padVal [s0, s1, s2, s3] [p0, p1, p2, p3] X v (unlin [o0, o1, o2, o3] q))
      (fun out => loop (fun out n => loop (fun out i => loop (fun out j => padRow x
          ((n + ((-p0.1).toNat : Int)) * (s1 * (s2 * s3)) + (i + ((-p1.1).toNat : Int)) * (s2 * s3) + (j + ((-p2.1).toNat : Int)) * s3 + ((-p3.1).toNat : Int))
          ((n + (p0.1.toNat : Int)) * (o1 * (o2 * o3)) + (i + (p1.1.toNat : Int)) * (o2 * o3) + (j + (p2.1.toNat : Int)) * o3 + (p3.1.toNat : Int))
          (cutExtent s3 p3).toNat out) (cutExtent s2 p2).toNat out) (cutExtent s1 p1).toNat out) s0 out)
      (fun q => ∃ n, n < s0 ∧ ∃ i, i < (cutExtent s1 p1).toNat ∧ ∃ j, j < (cutExtent s2 p2).toNat ∧ ∃ l, l < (cutExtent s3 p3).toNat ∧
        q = lin [o0, o1, o2, o3] [n + p0.1.toNat, i + p1.1.toNat, j + p2.1.toNat, l + p3.1.toNat]) := by
    refine Eff.loop fun n hn => Eff.loop fun i hi => Eff.loop fun j hj => Eff.loop fun l hl => ?_
    have b0 := pad_axis a0 (k := n) (by rw [hcut]; exact hn)
    have b1 := pad_axis a1 hi
    have b2 := pad_axis a2 hj
    have b3 := pad_axis a3 hl
    have hin : InBounds [o0, o1, o2, o3] [n + p0.1.toNat, i + p1.1.toNat, j + p2.1.toNat, l + p3.1.toNat] :=
      ⟨b0.1, b1.1, b2.1, b3.1, trivial⟩
    have hxin : InBounds [s0, s1, s2, s3] [n + (-p0.1).toNat, i + (-p1.1).toNat, j + (-p2.1).toNat, l + (-p3.1).toNat] :=
      ⟨b0.2.1, b1.2.1, b2.2.1, b3.2.1, trivial⟩
    refine (Eff.wr (v := X [n + (-p0.1).toNat, i + (-p1.1).toNat, j + (-p2.1).toNat, l + (-p3.1).toNat]) (lin_lt hin) ?_).congr ?_
      fun q => Iff.rfl
    · rw [unlin_lin hin]
      simp only [padVal, padSource]
      rw [if_pos ⟨by omega, by omega⟩, if_pos ⟨by omega, by omega⟩, if_pos ⟨by omega, by omega⟩, if_pos ⟨by omega, by omega⟩,
        b0.2.2, b1.2.2, b2.2.2, b3.2.2]
      rfl
    · intro out ho
      have e1 := hX.2 _ hxin
      have i1 : ((n : Int) + ((-p0.1).toNat : Int)) * (s1 * (s2 * s3)) + (i + ((-p1.1).toNat : Int)) * (s2 * s3) + (j + ((-p2.1).toNat : Int)) * s3 + ((-p3.1).toNat : Int) + l
          = ((lin [s0, s1, s2, s3] [n + (-p0.1).toNat, i + (-p1.1).toNat, j + (-p2.1).toNat, l + (-p3.1).toNat] : Nat) : Int) := by
        simp only [lin, prod]; push_cast; ring
      have i2 : ((n : Int) + (p0.1.toNat : Int)) * (o1 * (o2 * o3)) + (i + (p1.1.toNat : Int)) * (o2 * o3) + (j + (p2.1.toNat : Int)) * o3 + (p3.1.toNat : Int) + l
          = ((lin [o0, o1, o2, o3] [n + p0.1.toNat, i + p1.1.toNat, j + p2.1.toNat, l + p3.1.toNat] : Nat) : Int) := by
        simp only [lin, prod]; push_cast; ring
      rw [i1, i2, rdI_ok e1, Res.bind_ok, wrI_nat]
  obtain ⟨out, e, h1, h2, h3⟩ := key (List.replicate (o0 * (o1 * (o2 * o3))) v) (by simp [prod])
  refine ⟨out, ?_, holds_iff.2 ⟨h1, fun q hq => ?_⟩⟩
  · unfold padRank4
    simp only [inOff_eq, outOff_eq]
    exact e
  · by_cases hD : ∃ n, n < s0 ∧ ∃ i, i < (cutExtent s1 p1).toNat ∧ ∃ j, j < (cutExtent s2 p2).toNat ∧ ∃ l, l < (cutExtent s3 p3).toNat ∧
        q = lin [o0, o1, o2, o3] [n + p0.1.toNat, i + p1.1.toNat, j + p2.1.toNat, l + p3.1.toNat]
    · exact h2 q hD
    · rw [h3 q hD, List.getElem?_replicate]
      have hq' : q < o0 * (o1 * (o2 * o3)) := by simpa [prod] using hq
      rw [if_pos hq']
      congr 1
      unfold padVal
      cases hd : padSource [s0, s1, s2, s3] [p0, p1, p2, p3] (unlin [o0, o1, o2, o3] q) with
      | none => rfl
      | some d =>
        exfalso
        apply hD
        have hin := unlin_inBounds hq
        have hlin := lin_unlin hq
        obtain ⟨c0, c1, c2, c3, hc⟩ : ∃ c0 c1 c2 c3, unlin [o0, o1, o2, o3] q = [c0, c1, c2, c3] := ⟨_, _, _, _, rfl⟩
        rw [hc] at hin hd hlin
        obtain ⟨g0, g1, g2, g3, -⟩ := hin
        simp only [padSource] at hd
        by_cases k0 : 0 ≤ (c0 : Int) - p0.1 ∧ (c0 : Int) - p0.1 < s0
        on_goal 2 => rw [if_neg k0] at hd; cases hd
        by_cases k1 : 0 ≤ (c1 : Int) - p1.1 ∧ (c1 : Int) - p1.1 < s1
        on_goal 2 => rw [if_pos k0, if_neg k1] at hd; cases hd
        by_cases k2 : 0 ≤ (c2 : Int) - p2.1 ∧ (c2 : Int) - p2.1 < s2
        on_goal 2 => rw [if_pos k0, if_pos k1, if_neg k2] at hd; cases hd
        by_cases k3 : 0 ≤ (c3 : Int) - p3.1 ∧ (c3 : Int) - p3.1 < s3
        on_goal 2 => rw [if_pos k0, if_pos k1, if_pos k2, if_neg k3] at hd; cases hd
        obtain ⟨n, hn, rfl⟩ := pad_axis_inv a0 g0 k0
        obtain ⟨i, hi, rfl⟩ := pad_axis_inv a1 g1 k1
        obtain ⟨j, hj, rfl⟩ := pad_axis_inv a2 g2 k2
        obtain ⟨l, hl, rfl⟩ := pad_axis_inv a3 g3 k3
        exact ⟨n, by omega, i, hi, j, hj, l, hl, hlin.symm⟩

/-! ## outside the buffers -/

/-- a step that never refuses and keeps an invariant -/
def Keeps {σ : Type} (I : σ → Prop) (f : σ → Res σ) : Prop := ∀ s, I s → f s ≠ .err ∧ ∀ s', f s = .ok s' → I s'

theorem Keeps.loop {σ : Type} {I : σ → Prop} {f : σ → Nat → Res σ} {n : Nat} (h : ∀ i, i < n → Keeps I (fun s => f s i)) :
    Keeps I (fun s => loop f n s) := by
  intro s hs
  induction n with
  | zero => exact ⟨by simp [Verif.Kernels.loop], by rintro s' h; simp only [Verif.Kernels.loop] at h; cases h; exact hs⟩
  | succ n ih =>
    obtain ⟨a, b⟩ := ih fun i hi => h i (by omega)
    simp only [Verif.Kernels.loop] at *
    rcases hl : Verif.Kernels.loop f n s with s1 | _ | _
    · have := h n (by omega) s1 (b s1 hl)
      simpa using this
    · exact absurd hl a
    · exact ⟨by simp, by intro s' h; cases h⟩

/-- one step of a loop is undefined whenever it is reached -/
theorem loop_ub_keeps {σ : Type} {I : σ → Prop} {f : σ → Nat → Res σ} {n k : Nat} (hk : k < n) (h : ∀ i, i < n → Keeps I (fun s => f s i))
    (hu : ∀ s, I s → f s k = .ub) : ∀ s, I s → loop f n s = .ub := by
  intro s hs
  obtain ⟨d, rfl⟩ : ∃ d, n = k + 1 + d := ⟨n - (k + 1), by omega⟩
  have h1 : Verif.Kernels.loop f (k + 1) s = .ub := by
    obtain ⟨a, b⟩ := Keeps.loop (n := k) (fun i hi => h i (by omega)) s hs
    simp only [Verif.Kernels.loop]
    rcases hl : Verif.Kernels.loop f k s with s1 | _ | _
    · exact hu s1 (b s1 hl)
    · exact absurd hl a
    · rfl
  clear h hk
  induction d with
  | zero => exact h1
  | succ d ih => show (Verif.Kernels.loop f (k + 1 + d) s >>= fun s' => f s' (k + 1 + d)) = _; rw [ih]; rfl

theorem move_keeps (x : List α) (L : Nat) (i j : Int) :
    Keeps (fun out : List α => out.length = L) (fun out => do let e ← rdI x i; wrI out j e) := by
  intro out hl
  have hw : ∀ (e : α), wrI out j e ≠ .err ∧ ∀ s', wrI out j e = .ok s' → s'.length = L := by
    intro e
    unfold wrI wr
    split
    · split
      · exact ⟨by simp, by intro s' h; cases h; simpa using hl⟩
      · exact ⟨by simp, by intro s' h; cases h⟩
    · exact ⟨by simp, by intro s' h; cases h⟩
  rcases h : rdI x i with e | _ | _
  · simpa [h] using hw e
  · exfalso
    unfold rdI rd at h
    split at h
    · split at h <;> cases h
    · cases h
  · exact ⟨by simp, by intro s' h; cases h⟩

theorem move_ub_src {x : List α} {i j : Int} (h : (x.length : Int) ≤ i) (out : List α) : (do let e ← rdI x i; wrI out j e) = Res.ub := by
  unfold rdI
  rw [if_pos (by omega), rd_ub (by omega)]; rfl

theorem move_ub_dst {x : List α} {i j : Int} {out : List α} (h : (out.length : Int) ≤ j) : (do let e ← rdI x i; wrI out j e) = Res.ub := by
  rcases hr : rdI x i with e | _ | _
  · rw [Res.bind_ok]
    unfold wrI
    rw [if_pos (by omega), wr_ub _ (by omega)]
  · exfalso
    unfold rdI rd at hr
    split at hr
    · split at hr <;> cases hr
    · cases hr
  · rfl

/-- with a negative padding of the first axis the last step of the outer loop leaves the operand or the output -/
theorem padRank4_ub {s0 s1 s2 s3 o0 o1 o2 o3 : Nat} {p0 p1 p2 p3 : Int × Int} {v : α} {x : List α}
    (h0 : (o0 : Int) = s0 + p0.1 + p0.2) (hs : 0 < s0) (hp : p0.1 < 0 ∨ p0.2 < 0)
    (h1 : 0 < cutExtent s1 p1) (h2 : 0 < cutExtent s2 p2) (h3 : 0 < cutExtent s3 p3)
    (hx : x.length = prod [s0, s1, s2, s3]) : padRank4 v x s0 s1 s2 s3 o0 o1 o2 o3 p0 p1 p2 p3 = .ub := by
  unfold padRank4
  simp only [inOff_eq, outOff_eq]
  refine loop_ub_keeps (I := fun out : List α => out.length = o0 * (o1 * (o2 * o3))) (k := s0 - 1) (by omega)
    (fun n _ => Keeps.loop fun i _ => Keeps.loop fun j _ => Keeps.loop fun l _ => move_keeps _ _ _ _) ?_ _ (by simp)
  refine loop_ub_keeps (k := 0) (by omega) (fun i _ => Keeps.loop fun j _ => Keeps.loop fun l _ => move_keeps _ _ _ _) ?_
  refine loop_ub_keeps (k := 0) (by omega) (fun j _ => Keeps.loop fun l _ => move_keeps _ _ _ _) ?_
  refine loop_ub_keeps (k := 0) (by omega) (fun l _ => move_keeps _ _ _ _) ?_
  intro out ho
  have hsub : ((s0 - 1 : Nat) : Int) = s0 - 1 := by omega
  rcases lt_or_ge p0.1 0 with hneg | hneg
  · apply move_ub_src
    rw [hx]
    simp only [prod]
    push_cast
    rw [hsub]
    have : (s0 : Int) * (s1 * (s2 * s3)) ≤ ((s0 : Int) - 1 + ((-p0.1).toNat : Int)) * (s1 * (s2 * s3)) :=
      mul_le_mul_of_nonneg_right (by omega) (by positivity)
    have k1 : (0 : Int) ≤ ((-p1.1).toNat : Int) * (s2 * s3) := by positivity
    have k2 : (0 : Int) ≤ ((-p2.1).toNat : Int) * s3 := by positivity
    have k3 : (0 : Int) ≤ ((-p3.1).toNat : Int) := by positivity
    simp only [mul_one, zero_add, add_zero]
    linarith
  · apply move_ub_dst
    rw [ho]
    push_cast
    rw [hsub]
    have : (o0 : Int) * (o1 * (o2 * o3)) ≤ ((s0 : Int) - 1 + (p0.1.toNat : Int)) * (o1 * (o2 * o3)) :=
      mul_le_mul_of_nonneg_right (by omega) (by positivity)
    have k1 : (0 : Int) ≤ (p1.1.toNat : Int) * (o2 * o3) := by positivity
    have k2 : (0 : Int) ≤ (p2.1.toNat : Int) * o3 := by positivity
    have k3 : (0 : Int) ≤ (p3.1.toNat : Int) := by positivity
    simp only [zero_add, add_zero]
    linarith

end Verif.Kernels
