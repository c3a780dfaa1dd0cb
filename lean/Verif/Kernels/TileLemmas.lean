import Verif.Kernels.DataMoveLemmas
import Verif.Kernels.ElementWiseLemmas
/-! # Lemmas about tile and slice -/
namespace Verif.Kernels
open Verif.Core Verif.Spec

variable {α : Type}

/-! ## tile -/

/-- component-wise `r * x + c` -/
def comb : List Nat → List Nat → List Nat → List Nat
  | r :: rs, x :: xs, c :: cs => (r * x + c) :: comb rs xs cs
  | _, _, _ => []

theorem mulExt_ok {X R : List Nat} (hb : ∀ o ∈ List.zipWith (· * ·) X R, o ≤ 2147483647) :
    mulExt X R = .ok (List.zipWith (· * ·) X R) := by
  induction X generalizing R with
  | nil => cases R <;> rfl
  | cons x X ih =>
    cases R with
    | nil => rfl
    | cons r R =>
      simp only [List.zipWith_cons_cons, List.mem_cons, forall_eq_or_imp] at hb
      unfold mulExt
      have e : (x : Int) * r = ((x * r : Nat) : Int) := by push_cast; ring
      rw [e, int32_ok (i32_nat hb.1), ih hb.2]
      rfl

theorem comb_inBounds {X R rc xc : List Nat} (hl : X.length = R.length) (hr : InBounds R rc) (hx : InBounds X xc) :
    InBounds (List.zipWith (· * ·) X R) (comb rc X xc) := by
  induction X generalizing R rc xc with
  | nil => cases R <;> cases rc <;> cases xc <;> simp_all [InBounds, comb]
  | cons x X ih =>
    match R, rc, xc, hr, hx with
    | r :: R, a :: rc, b :: xc, hr, hx =>
      refine ⟨?_, ih (by simpa using hl) hr.2 hx.2⟩
      have h1 : (a + 1) * x ≤ r * x := Nat.mul_le_mul_right _ hr.1
      rw [Nat.add_mul, Nat.mul_comm r x] at h1
      have := hx.1
      simp only
      omega

theorem tileCoord_ok {X R rc xc : List Nat} (hl : X.length = R.length)
    (hb : ∀ o ∈ List.zipWith (· * ·) X R, o ≤ 2147483647) (hr : InBounds R rc) (hx : InBounds X xc) :
    tileCoord (ints rc) (ints X) (ints xc) = .ok (ints (comb rc X xc)) := by
  induction X generalizing R rc xc with
  | nil => cases R <;> cases rc <;> cases xc <;> simp_all [InBounds, comb, tileCoord]
  | cons x X ih =>
    match R, rc, xc, hr, hx with
    | r :: R, a :: rc, b :: xc, hr, hx =>
      simp only [List.zipWith_cons_cons, List.mem_cons, forall_eq_or_imp] at hb
      have h1 : (a + 1) * x ≤ r * x := Nat.mul_le_mul_right _ hr.1
      rw [Nat.add_mul, Nat.mul_comm r x] at h1
      have h2 := hx.1
      simp only [ints_cons, tileCoord, comb]
      have e : (a : Int) * x = ((a * x : Nat) : Int) := by push_cast; ring
      rw [e, int32_ok (i32_nat (by omega))]
      simp only [Res.bind_ok]
      rw [show ((a * x : Nat) : Int) + (b : Int) = ((a * x + b : Nat) : Int) by push_cast; ring,
        int32_ok (i32_nat (by omega)), ih (by simpa using hl) hb.2 hr.2 hx.2]
      rfl

theorem wrap_comb {X rc xc : List Nat} (hl : rc.length = X.length) (hx : InBounds X xc) : wrap X (comb rc X xc) = xc := by
  induction X generalizing rc xc with
  | nil => cases xc <;> simp_all [InBounds, wrap]
  | cons x X ih =>
    match rc, xc, hl, hx with
    | a :: rc, b :: xc, hl, hx =>
      simp only [comb, wrap]
      rw [ih (by simpa using hl) hx.2, Nat.add_comm, Nat.add_mul_mod_self_right, Nat.mod_eq_of_lt hx.1]

/-- every coordinate of the output is `r * x + c` -/
theorem comb_surj {X R c : List Nat} (hl : X.length = R.length) (hp : ∀ x ∈ X, 0 < x)
    (hc : InBounds (List.zipWith (· * ·) X R) c) :
    ∃ rc xc, InBounds R rc ∧ InBounds X xc ∧ c = comb rc X xc := by
  induction X generalizing R c with
  | nil => cases R with
    | nil => cases c <;> simp_all [InBounds]; exact ⟨[], trivial, [], trivial, rfl⟩
    | cons _ _ => simp at hl
  | cons x X ih =>
    match R, c, hc with
    | r :: R, a :: c, hc =>
      obtain ⟨rc, xc, h1, h2, rfl⟩ := ih (by simpa using hl) (fun y hy => hp y (by simp [hy])) hc.2
      refine ⟨a / x :: rc, a % x :: xc, ⟨Nat.div_lt_of_lt_mul hc.1, h1⟩, ⟨Nat.mod_lt _ (hp x (by simp)), h2⟩, ?_⟩
      simp only [comb]
      rw [Nat.div_add_mod']

theorem tileInner_ok {X R xc : List Nat} (hl : X.length = R.length) (hR : ∀ x ∈ R, 0 < x)
    (hb : ∀ o ∈ List.zipWith (· * ·) X R, o ≤ 2147483647) (hB : prod (List.zipWith (· * ·) X R) ≤ 2147483647)
    (hx : InBounds X xc) (i j k : Nat) :
    tileInner (ints X) (ints R) (ints (wts (List.zipWith (· * ·) X R))) i (ints xc) j (ints (unlin R (k % prod R))) =
      .ok ((List.range' k j).map fun q =>
        (lin (List.zipWith (· * ·) X R) (comb (unlin R (q % prod R)) X xc), i), ints (unlin R ((k + j) % prod R))) := by
  induction j generalizing k with
  | zero => rfl
  | succ j ih =>
    have hr : InBounds R (unlin R (k % prod R)) := unlin_inBounds (Nat.mod_lt _ (prod_pos hR))
    unfold tileInner
    rw [tileCoord_ok hl hb hr hx]
    simp only [Res.bind_ok]
    rw [toIndex_ok (comb_inBounds hl hr hx) hB]
    simp only [Res.bind_ok]
    rw [idxNat, if_pos (by omega), increase_unlin hR, ih (k + 1)]
    simp only [Res.bind_ok, List.range'_succ, List.map_cons, Int.toNat_natCast]
    rw [show k + 1 + j = k + (j + 1) by omega]

theorem tileLoop_ok {X R : List Nat} (hl : X.length = R.length) (hX : ∀ x ∈ X, 0 < x) (hR : ∀ x ∈ R, 0 < x)
    (hb : ∀ o ∈ List.zipWith (· * ·) X R, o ≤ 2147483647) (hB : prod (List.zipWith (· * ·) X R) ≤ 2147483647)
    (n i : Nat) :
    tileLoop (ints X) (ints R) (ints (wts (List.zipWith (· * ·) X R))) (prod R) n i (ints (unlin X (i % prod X)))
      (ints (unlin R (0 % prod R))) =
      .ok ((List.range' i n).flatMap fun p => (List.range' 0 (prod R)).map fun q =>
        (lin (List.zipWith (· * ·) X R) (comb (unlin R (q % prod R)) X (unlin X (p % prod X))), p)) := by
  induction n generalizing i with
  | zero => rfl
  | succ n ih =>
    have hx : InBounds X (unlin X (i % prod X)) := unlin_inBounds (Nat.mod_lt _ (prod_pos hX))
    unfold tileLoop
    rw [tileInner_ok hl hR hb hB hx]
    simp only [Res.bind_ok]
    rw [increase_unlin hX, show (0 + prod R) % prod R = 0 % prod R by simp, ih (i + 1)]
    rfl

theorem padOnes_length (n : Nat) (s : List Nat) : (padOnes n s).length = max n s.length := by
  simp [padOnes]; omega

theorem prod_padOnes (n : Nat) (s : List Nat) : prod (padOnes n s) = prod s := by
  unfold padOnes
  rw [prod_append]
  have : ∀ k, prod (List.replicate k 1) = 1 := by
    intro k
    induction k with
    | zero => rfl
    | succ k ih => simp [List.replicate_succ, prod, ih]
  rw [this]; simp

theorem tile_ok (X R : List Nat) (data dst : List α) (hl : X.length = R.length) (hX : ∀ x ∈ X, 0 < x) (hR : ∀ x ∈ R, 0 < x)
    (hb : ∀ o ∈ List.zipWith (· * ·) X R, o ≤ 2147483647) (hB : prod (List.zipWith (· * ·) X R) ≤ 2147483647)
    (hd : data.length = prod X) (ho : dst.length = prod (List.zipWith (· * ·) X R)) :
    ∃ ms out, tileLoop (ints X) (ints R) (ints (wts (List.zipWith (· * ·) X R))) (prod R) (prod X) 0
        (iterStart (ints X)) (iterStart (ints R)) = .ok ms ∧ runMoves data ms dst = .ok out ∧
      out.length = prod (List.zipWith (· * ·) X R) ∧
      ∀ c, InBounds (List.zipWith (· * ·) X R) c →
        out[lin (List.zipWith (· * ·) X R) c]? = data[lin X (wrap X c)]? := by
  rw [iterStart_unlin hX, iterStart_unlin hR]
  have hloop := tileLoop_ok hl hX hR hb hB (prod X) 0
  have hpX := prod_pos hX
  have hpR := prod_pos hR
  have hmem : ∀ m, m ∈ ((List.range' 0 (prod X)).flatMap fun p => (List.range' 0 (prod R)).map fun q =>
        (lin (List.zipWith (· * ·) X R) (comb (unlin R (q % prod R)) X (unlin X (p % prod X))), p)) ↔
      ∃ rc xc, InBounds R rc ∧ InBounds X xc ∧ m = (lin (List.zipWith (· * ·) X R) (comb rc X xc), lin X xc) := by
    intro m
    simp only [List.mem_flatMap, List.mem_range', List.mem_map]
    constructor
    · rintro ⟨p, ⟨p', hp, rfl⟩, q, ⟨q', hq, rfl⟩, rfl⟩
      refine ⟨unlin R ((0 + 1 * q') % prod R), unlin X ((0 + 1 * p') % prod X), unlin_inBounds (Nat.mod_lt _ hpR),
        unlin_inBounds (Nat.mod_lt _ hpX), ?_⟩
      rw [lin_unlin (Nat.mod_lt _ hpX)]
      congr 1
      rw [Nat.mod_eq_of_lt (by omega)]
    · rintro ⟨rc, xc, hr, hx, rfl⟩
      refine ⟨lin X xc, ⟨lin X xc, lin_lt hx, by omega⟩, lin R rc, ⟨lin R rc, lin_lt hr, by omega⟩, ?_⟩
      rw [Nat.mod_eq_of_lt (lin_lt hr), Nat.mod_eq_of_lt (lin_lt hx), unlin_lin hr, unlin_lin hx]
  obtain ⟨out, e, el, ev, -⟩ := runMoves_rel data _ dst
    (by
      intro m hm m' hm' hh
      obtain ⟨rc, xc, h1, h2, rfl⟩ := (hmem m).1 hm
      obtain ⟨rc', xc', h1', h2', rfl⟩ := (hmem m').1 hm'
      simp only at hh ⊢
      have := lin_inj (comb_inBounds hl h1 h2) (comb_inBounds hl h1' h2') hh
      rw [← wrap_comb (h1.length.trans hl.symm) h2, this, wrap_comb (h1'.length.trans hl.symm) h2'])
    (by
      intro m hm
      obtain ⟨rc, xc, h1, h2, rfl⟩ := (hmem m).1 hm
      rw [hd]; exact lin_lt h2)
    (by
      intro m hm
      obtain ⟨rc, xc, h1, h2, rfl⟩ := (hmem m).1 hm
      rw [ho]; exact lin_lt (comb_inBounds hl h1 h2))
  refine ⟨_, out, hloop, e, by omega, ?_⟩
  intro c hc
  obtain ⟨rc, xc, h1, h2, rfl⟩ := comb_surj hl hX hc
  rw [wrap_comb (h1.length.trans hl.symm) h2]
  exact ev _ ((hmem _).2 ⟨rc, xc, h1, h2, rfl⟩)

/-! ## slice -/

/-- component-wise sum -/
def addC : List Nat → List Nat → List Nat
  | c :: cs, b :: bs => (c + b) :: addC cs bs
  | _, _ => []

/-- every component of the box `b`, `o` lies inside `x` -/
def BoxIn : List Nat → List Nat → List Nat → Prop
  | x :: xs, b :: bs, o :: os => b < x ∧ b + o ≤ x ∧ BoxIn xs bs os
  | [], [], [] => True
  | _, _, _ => False

theorem BoxIn.len {x b o : List Nat} (h : BoxIn x b o) : b.length = x.length ∧ o.length = x.length := by
  induction x generalizing b o with
  | nil => cases b <;> cases o <;> simp_all [BoxIn]
  | cons a x ih =>
    match b, o, h with
    | b :: bs, o :: os, h => have := ih h.2.2; simp; omega

theorem addC_inBounds {x b o c : List Nat} (h : BoxIn x b o) (hc : InBounds o c) : InBounds x (addC c b) := by
  induction x generalizing b o c with
  | nil => cases b <;> cases o <;> cases c <;> simp_all [BoxIn, InBounds, addC]
  | cons a x ih =>
    match b, o, c, h, hc with
    | b :: bs, o :: os, c :: cs, h, hc =>
      exact ⟨by have := hc.1; have := h.2.1; omega, ih h.2.2 hc.2⟩

theorem addCoord_ok {x b o c : List Nat} (h : BoxIn x b o) (hx : ∀ a ∈ x, a ≤ 2147483647) (hc : InBounds o c) :
    addCoord (ints c) (ints b) = .ok (ints (addC c b)) := by
  induction x generalizing b o c with
  | nil => cases b <;> cases o <;> cases c <;> simp_all [BoxIn, InBounds, addC, addCoord]
  | cons a x ih =>
    match b, o, c, h, hc with
    | b :: bs, o :: os, c :: cs, h, hc =>
      have h1 := hc.1
      have h2 := h.2.1
      have h3 := hx a (by simp)
      simp only [ints_cons, addCoord, addC]
      rw [show (c : Int) + (b : Int) = ((c + b : Nat) : Int) by push_cast; ring, int32_ok (i32_nat (by omega)),
        ih h.2.2 (fun y hy => hx y (by simp [hy])) hc.2]
      rfl

theorem boxSliceLoop_ok {x b o : List Nat} (h : BoxIn x b o) (hx : ∀ a ∈ x, a ≤ 2147483647) (hX : prod x ≤ 2147483647)
    (hO : prod o ≤ 2147483647) (l : List Nat) (hl : ∀ i ∈ l, i < prod o) :
    boxSliceLoop (ints (wts x)) (ints (wts o)) (ints b) l = .ok (l.map fun i => (i, lin x (addC (unlin o i) b))) := by
  induction l with
  | nil => rfl
  | cons i l ih =>
    have hi := hl i (by simp)
    unfold boxSliceLoop
    rw [toCoordinate_ok hi hO]
    simp only [Res.bind_ok]
    rw [addCoord_ok h hx (unlin_inBounds hi)]
    simp only [Res.bind_ok]
    rw [toIndex_ok (addC_inBounds h (unlin_inBounds hi)) hX]
    simp only [Res.bind_ok]
    rw [idxNat, if_pos (by omega), ih fun j hj => hl j (by simp [hj])]
    simp

theorem slice_moves (x b o : List Nat) (data dst : List α) (h : BoxIn x b o) (hd : data.length = prod x)
    (ho : dst.length = prod o) :
    ∃ out, runMoves data ((List.range (prod o)).map fun i => (i, lin x (addC (unlin o i) b))) dst = .ok out ∧
      out.length = prod o ∧ ∀ c, InBounds o c → out[lin o c]? = data[lin x (addC c b)]? := by
  obtain ⟨out, e, el, ev, -⟩ := runMoves_spec data (fun i => lin x (addC (unlin o i) b))
    ((List.range (prod o)).map fun i => (i, lin x (addC (unlin o i) b))) dst
    (by simp only [List.mem_map, List.mem_range]; rintro _ ⟨i, hi, rfl⟩; rfl)
    (by simp only [List.mem_map, List.mem_range]; rintro _ ⟨i, hi, rfl⟩
        rw [hd]; exact lin_lt (addC_inBounds h (unlin_inBounds hi)))
    (by simp only [List.mem_map, List.mem_range]; rintro _ ⟨i, hi, rfl⟩; omega)
  refine ⟨out, e, by omega, ?_⟩
  intro c hc
  rw [ev (lin o c) (by simp only [List.map_map, List.mem_map, List.mem_range, Function.comp]; exact ⟨_, lin_lt hc, rfl⟩),
    unlin_lin hc]

end Verif.Kernels
