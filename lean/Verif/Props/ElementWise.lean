import Verif.Kernels.ElementWiseLemmas
/-!
# C19: element-wise broadcasting

The specification is numpy's: shapes are aligned at their last dimension, a missing dimension counts as one, two extents
are compatible when they are equal or one of them is one, the output extent is the larger one, and an operand is read at
the output coordinate with the leading surplus components dropped and a zero in every dimension of extent one.
-/
namespace Verif.Props
open Verif.Core Verif.Spec Verif.Kernels

/-- extent of the `k`-th dimension from the end; missing dimensions have extent one -/
def ext (s : List Nat) (k : Nat) : Nat := s.reverse.getD k 1

/-- numpy compatibility -/
def NumpyCompatible (l r : List Nat) : Prop := ∀ k, ext l k = ext r k ∨ ext l k = 1 ∨ ext r k = 1

/-- numpy result shape -/
def broadcastShape (l r : List Nat) : List Nat :=
  ((List.range (max l.length r.length)).map fun k => max (ext l k) (ext r k)).reverse

/-- where an operand of shape `s` is read for output coordinate `c` -/
def readAt (s c : List Nat) : List Nat :=
  List.zipWith (fun e x => if e = 1 then 0 else x) s (c.drop (c.length - s.length))

/-- `out` is the result of applying `f` element-wise with broadcasting -/
def IsBroadcast {α : Type} (f : α → α → α) (l r : List Nat) (lhs rhs out : List α) : Prop :=
  out.length = prod (broadcastShape l r) ∧
  ∀ c, InBounds (broadcastShape l r) c →
    ∃ x y, lhs[lin l (readAt l c)]? = some x ∧ rhs[lin r (readAt r c)]? = some y ∧
      out[lin (broadcastShape l r) c]? = some (f x y)

/-! ## bridging -/

theorem frontOnes_length (s : List Nat) (n : Nat) : (frontOnes s n).length = max s.length n := by
  simp [frontOnes]; omega

theorem frontOnes_getD (s : List Nat) (n j : Nat) (h : j < max s.length n) :
    (frontOnes s n).getD j 0 = ext s (max s.length n - 1 - j) := by
  unfold frontOnes ext
  simp only [List.getD, List.getElem?_append, List.length_replicate]
  split
  · rename_i h1
    rw [List.getElem?_replicate, if_pos h1, List.getElem?_eq_none (by simp; omega)]
    rfl
  · rename_i h1
    rw [List.getElem?_eq_getElem (by omega), List.getElem?_reverse (by omega), List.getElem?_eq_getElem (by omega)]
    simp only [Option.getD_some]
    congr 1
    omega

theorem list_ext_getD {a b : List Nat} (hl : a.length = b.length) (h : ∀ j, j < a.length → a.getD j 0 = b.getD j 0) :
    a = b := by
  apply List.ext_getElem hl
  intro j h1 h2
  have := h j h1
  simpa [List.getD, List.getElem?_eq_getElem h1, List.getElem?_eq_getElem h2] using this

theorem broadcastShape_getD (l r : List Nat) (j : Nat) (h : j < max l.length r.length) :
    (broadcastShape l r).getD j 0 =
      max (ext l (max l.length r.length - 1 - j)) (ext r (max l.length r.length - 1 - j)) := by
  unfold broadcastShape
  rw [List.getD, List.getElem?_reverse (by simpa using h)]
  simp only [List.length_map, List.length_range, List.getElem?_map]
  rw [List.getElem?_range (by omega)]
  rfl

theorem broadcastShape_length (l r : List Nat) : (broadcastShape l r).length = max l.length r.length := by
  simp [broadcastShape]

theorem broadcastShape_eq (l r : List Nat) :
    broadcastShape l r = List.zipWith max (frontOnes l r.length) (frontOnes r l.length) := by
  apply list_ext_getD
  · simp [broadcastShape_length, frontOnes_length]; omega
  · intro j hj
    rw [broadcastShape_length] at hj
    rw [broadcastShape_getD l r j hj]
    have h1 := frontOnes_getD l r.length j hj
    have h2 := frontOnes_getD r l.length j (by omega)
    have l1 := frontOnes_length l r.length
    have l2 := frontOnes_length r l.length
    simp only [List.getD, List.getElem?_zipWith] at *
    rw [List.getElem?_eq_getElem (by omega)] at h1 h2 ⊢
    rw [List.getElem?_eq_getElem (by omega)]
    simp only [Option.getD_some] at *
    rw [h1, h2, Nat.max_comm r.length]

theorem compatible_iff (l r : List Nat) : NumpyCompatible l r ↔
    ∀ p ∈ (frontOnes l r.length).zip (frontOnes r l.length), p.1 = p.2 ∨ p.1 = 1 ∨ p.2 = 1 := by
  have l1 := frontOnes_length l r.length
  have l2 := frontOnes_length r l.length
  have key : ∀ j (hj : j < max l.length r.length),
      (frontOnes l r.length)[j]'(by omega) = ext l (max l.length r.length - 1 - j) ∧
      (frontOnes r l.length)[j]'(by omega) = ext r (max l.length r.length - 1 - j) := by
    intro j hj
    have h1 := frontOnes_getD l r.length j hj
    have h2 := frontOnes_getD r l.length j (by omega)
    simp only [List.getD] at h1 h2
    rw [List.getElem?_eq_getElem (by omega)] at h1 h2
    simp only [Option.getD_some] at h1 h2
    rw [Nat.max_comm r.length] at h2
    exact ⟨h1, h2⟩
  constructor
  · intro h p hp
    obtain ⟨j, hj, rfl⟩ := List.mem_iff_getElem.1 hp
    simp only [List.length_zip] at hj
    simp only [List.getElem_zip]
    rw [(key j (by omega)).1, (key j (by omega)).2]
    exact h _
  · intro h k
    by_cases hk : k < max l.length r.length
    · have hj : max l.length r.length - 1 - k < max l.length r.length := by omega
      have h3 : max l.length r.length - 1 - k < ((frontOnes l r.length).zip (frontOnes r l.length)).length := by
        simp; omega
      have := h _ (List.getElem_mem h3)
      simp only [List.getElem_zip] at this
      rw [(key _ hj).1, (key _ hj).2] at this
      rwa [show max l.length r.length - 1 - (max l.length r.length - 1 - k) = k by omega] at this
    · have e1 : ext l k = 1 := by
        unfold ext; simp only [List.getD]; rw [List.getElem?_eq_none (by simp; omega)]; rfl
      exact .inr (.inl e1)

theorem reduceLoop_ok : ∀ (l r : List Nat), l.length = r.length → (∀ p ∈ l.zip r, p.1 = p.2 ∨ p.1 = 1 ∨ p.2 = 1) →
    (∀ x ∈ l, 0 < x) → (∀ x ∈ r, 0 < x) →
    ∃ b, reduceLoop l r = .ok (List.zipWith max l r, b) ∧ (b = false → l = r)
  | [], [], _, _, _, _ => ⟨false, rfl, fun _ => rfl⟩
  | a :: l, c :: r, hl, h, hp, hq => by
    obtain ⟨b, e, hb⟩ := reduceLoop_ok l r (by simpa using hl) (fun p hp => h p (by simp [hp]))
      (fun x hx => hp x (by simp [hx])) (fun x hx => hq x (by simp [hx]))
    have h0 := h (a, c) (by simp)
    have pa := hp a (by simp)
    have pc := hq c (by simp)
    simp only at h0
    unfold reduceLoop
    by_cases hac : a = c
    · subst hac
      rw [if_neg (by simp)]
      refine ⟨b, ?_, ?_⟩
      · rw [e]; simp only [Res.bind_ok, List.zipWith_cons_cons, Nat.max_self]
      · intro hf; rw [hb hf]
    · rw [if_pos hac, if_neg (by omega)]
      refine ⟨true, ?_, by simp⟩
      rw [e]; simp only [Res.bind_ok, List.zipWith_cons_cons]
      have : a * c = max a c := by
        rcases h0 with h | h | h
        · exact absurd h hac
        · subst h; omega
        · subst h; omega
      rw [this]

theorem reduceLoop_err : ∀ (l r : List Nat), l.length = r.length →
    (¬ ∀ p ∈ l.zip r, p.1 = p.2 ∨ p.1 = 1 ∨ p.2 = 1) → reduceLoop l r = .err
  | [], [], _, h => absurd (by simp) h
  | a :: l, c :: r, hl, h => by
    unfold reduceLoop
    by_cases h0 : a = c ∨ a = 1 ∨ c = 1
    · have := reduceLoop_err l r (by simpa using hl) (by
        intro h'
        apply h
        intro p hp
        simp only [List.zip_cons_cons, List.mem_cons] at hp
        rcases hp with rfl | hp
        · exact h0
        · exact h' p hp)
      rw [this]
      split
      · rw [if_neg (by omega)]; rfl
      · rfl
    · rw [if_pos (by omega), if_pos (by omega)]

theorem prod_ones (k : Nat) : prod (List.replicate k 1) = 1 := by
  induction k with
  | zero => rfl
  | succ k ih => simp [List.replicate_succ, prod, ih]

theorem prod_frontOnes (s : List Nat) (n : Nat) : prod (frontOnes s n) = prod s := by
  unfold frontOnes; rw [prod_append, prod_ones, Nat.one_mul]

theorem wrap_ones (k : Nat) (s c : List Nat) (h : c.length = k + s.length) :
    lin (List.replicate k 1 ++ s) (wrap (List.replicate k 1 ++ s) c) = lin s (wrap s (c.drop k)) := by
  induction k generalizing c with
  | zero => simp
  | succ k ih =>
    cases c with
    | nil => simp at h; omega
    | cons a c =>
      have := ih c (by simp at h; omega)
      simpa [List.replicate_succ, wrap, lin, Nat.mod_one] using this

theorem wrap_eq_zipWith : ∀ (s o c : List Nat), s.length = o.length → InBounds o c →
    (∀ p ∈ s.zip o, p.1 = 1 ∨ p.1 = p.2) → wrap s c = List.zipWith (fun e x => if e = 1 then 0 else x) s c
  | [], _, _, _, _, _ => by simp [wrap]
  | a :: s, o :: os, c :: cs, h, hc, hp => by
    simp only [InBounds] at hc
    have := wrap_eq_zipWith s os cs (by simpa using h) hc.2 fun p q => hp p (by simp [q])
    have h0 := hp (a, o) (by simp)
    simp only at h0
    simp only [wrap, List.zipWith_cons_cons, this]
    congr 1
    split
    · rename_i h1; subst h1; exact Nat.mod_one _
    · rename_i h1
      rcases h0 with h0 | h0
      · exact absurd h0 h1
      · exact Nat.mod_eq_of_lt (h0 ▸ hc.1)

/-- the model's index is the specified one -/
theorem bidx_readAt (s o c : List Nat) (n : Nat) (hlen : (frontOnes s n).length = o.length) (hc : InBounds o c)
    (hp : ∀ p ∈ (frontOnes s n).zip o, p.1 = 1 ∨ p.1 = p.2) :
    bidx ((frontOnes s n).zip o) (lin o c) = lin s (readAt s c) := by
  have hcl := hc.length
  have hfl := frontOnes_length s n
  rw [bidx_eq _ _ hlen, unlin_lin hc]
  rw [wrap_eq_zipWith _ o c hlen hc hp]
  have : List.zipWith (fun e x => if e = 1 then 0 else x) (frontOnes s n) c =
      List.replicate (n - s.length) 0 ++ readAt s c := by
    unfold frontOnes readAt
    conv => lhs; rw [← List.take_append_drop (n - s.length) c]
    rw [List.zipWith_append (by simp; omega)]
    congr 1
    · apply List.ext_getElem
      · simp; omega
      · intro j h1 h2
        simp
    · congr 2; omega
  rw [this]
  unfold frontOnes
  rw [lin_append (by simp)]
  have : ∀ k, lin (List.replicate k 1) (List.replicate k 0) = 0 := by
    intro k
    induction k with
    | zero => rfl
    | succ k ih => simp [List.replicate_succ, lin, ih]
  rw [this]; simp

theorem map_lo_zip : ∀ (l r o : List Nat), l.length = o.length → r.length = o.length →
    (l.zip (r.zip o)).map lo = l.zip o ∧ (l.zip (r.zip o)).map ro = r.zip o ∧
    (l.zip (r.zip o)).map Prod.fst = l ∧ (l.zip (r.zip o)).map (fun d => d.2.1) = r ∧
    (l.zip (r.zip o)).map (fun d => d.2.2) = o
  | [], [], [], _, _ => by simp
  | a :: l, b :: r, c :: o, h1, h2 => by
    obtain ⟨e1, e2, e3, e4, e5⟩ := map_lo_zip l r o (by simpa using h1) (by simpa using h2)
    simp only [List.zip_cons_cons, List.map_cons, e1, e2, e3, e4, e5]
    exact ⟨rfl, rfl, trivial, trivial, trivial⟩
  | [], _ :: _, [], _, h => by simp at h
  | [], _, _ :: _, h, _ => by simp at h
  | _ :: _, _, [], h, _ => by simp at h
  | _ :: _, [], _ :: _, _, h => by simp at h

theorem zip_max_lo : ∀ (l r : List Nat), (∀ p ∈ l.zip r, p.1 = p.2 ∨ p.1 = 1 ∨ p.2 = 1) → (∀ x ∈ l, 0 < x) →
    (∀ x ∈ r, 0 < x) → ∀ d ∈ l.zip (r.zip (List.zipWith max l r)), Ok3 d
  | [], _, _, _, _ => by simp
  | _ :: _, [], _, _, _ => by simp
  | a :: l, b :: r, h, hl, hr => by
    have h0 := h (a, b) (by simp)
    have pa := hl a (by simp)
    have pb := hr b (by simp)
    intro d hd
    simp only [List.zipWith_cons_cons, List.zip_cons_cons, List.mem_cons] at hd
    rcases hd with rfl | hd
    · simp only at h0
      unfold Ok3
      simp only
      omega
    · exact zip_max_lo l r (fun p hp => h p (by simp [hp])) (fun x hx => hl x (by simp [hx]))
        (fun x hx => hr x (by simp [hx])) d hd

/-! ## the property -/

/-- C19. For compatible shapes with positive extents and an output of at most `INT_MAX` elements, every implementation
style of the library's element-wise operators (`Cross`, scalar or `float` kernels), whatever fast path the merged
shapes select, yields exactly the broadcast result. Operators that implement the crossed fast paths by exchanging
operands (`swap`) must be commutative: addition and multiplication are; `Mod` is not, see `C19_mod_cross_false`. -/
theorem C19_broadcast {α : Type} (cross : Cross) (float : Bool) (f : α → α → α)
    (hf : cross = .swap → ∀ x y, f x y = f y x) (l r : List Nat) (lhs rhs dst : List α)
    (hc : NumpyCompatible l r) (hlp : ∀ x ∈ l, 0 < x) (hrp : ∀ x ∈ r, 0 < x)
    (hb : prod (broadcastShape l r) ≤ 2147483647)
    (hl : lhs.length = prod l) (hr : rhs.length = prod r) (hd : dst.length = prod (broadcastShape l r)) :
    ∃ out, elementWise cross float f l r lhs rhs dst = .ok (broadcastShape l r, out) ∧
      IsBroadcast f l r lhs rhs out := by
  have fpos : ∀ (s : List Nat) n, (∀ x ∈ s, 0 < x) → ∀ x ∈ frontOnes s n, 0 < x := by
    intro s n h x hx
    simp only [frontOnes, List.mem_append, List.mem_replicate] at hx
    rcases hx with ⟨_, rfl⟩ | hx
    · omega
    · exact h x hx
  have l1 := frontOnes_length l r.length
  have l2 := frontOnes_length r l.length
  have lO := broadcastShape_length l r
  rw [compatible_iff] at hc
  have hlen : (frontOnes l r.length).length = (frontOnes r l.length).length := by omega
  -- reduceShapes
  have hred : ∃ b, reduceShapes l r = .ok (frontOnes l r.length, frontOnes r l.length, broadcastShape l r, b) ∧
      (b = false → frontOnes l r.length = frontOnes r l.length) := by
    unfold reduceShapes
    by_cases hlr : l = r
    · subst hlr
      have e : frontOnes l l.length = l := by simp [frontOnes]
      refine ⟨false, ?_, fun _ => rfl⟩
      rw [if_pos rfl, broadcastShape_eq, e]
      have : List.zipWith max l l = l := by
        clear hc hlp hrp hb hl hr hd l1 l2 lO hlen e
        induction l with
        | nil => rfl
        | cons a l ih => simp [ih]
      rw [this]
    · rw [if_neg hlr]
      obtain ⟨b, e, hb⟩ := reduceLoop_ok _ _ hlen hc (fpos l _ hlp) (fpos r _ hrp)
      refine ⟨b, ?_, hb⟩
      simp only [e, Res.bind_ok, broadcastShape_eq]
  obtain ⟨b, e, hbf⟩ := hred
  have hok := zip_max_lo _ _ hc (fpos l r.length hlp) (fpos r l.length hrp)
  rw [← broadcastShape_eq] at hok
  obtain ⟨m1, m2, m3, m4, m5⟩ := map_lo_zip (frontOnes l r.length) (frontOnes r l.length) (broadcastShape l r)
    (by omega) (by omega)
  have hS := reduceDims_same (broadcastShape l r).length _ hok
  generalize hes : reduceDims (broadcastShape l r).length
    ((frontOnes l r.length).zip ((frontOnes r l.length).zip (broadcastShape l r))) = es at hS
  have hout : oprod es = prod (broadcastShape l r) := by rw [hS.out]; unfold oprod; rw [m5]
  have hlc : prod (es.map Prod.fst) = prod l := by rw [hS.lhsCount, m3, prod_frontOnes]
  have hrc : prod (es.map fun d => d.2.1) = prod r := by rw [hS.rhsCount, m4, prod_frontOnes]
  obtain ⟨out, eo, H⟩ := dispatch_ok cross float f hf b lhs rhs dst es hS.ok (by omega) (by
      intro hbb
      have heq := hbf hbb
      have hO : broadcastShape l r = frontOnes l r.length := by
        rw [broadcastShape_eq, ← heq]
        generalize frontOnes l r.length = z
        induction z with
        | nil => rfl
        | cons a z ih => simp [ih]
      have zz : ∀ (z : List Nat), (∀ p ∈ z.zip z, p.1 = p.2) := by
        intro z p hp
        obtain ⟨j, hj, rfl⟩ := List.mem_iff_getElem.1 hp
        simp
      have zp : ∀ (z : List Nat), (∀ x ∈ z, 0 < x) → (∀ p ∈ z.zip z, 0 < p.2) := by
        intro z hz p hp
        exact hz _ (List.of_mem_zip hp).2
      have zs : ∀ (z : List Nat), ps (z.zip z) = prod z := by
        intro z; unfold ps; rw [List.map_snd_zip (Nat.le_refl _)]
      refine ⟨?_, ?_, ?_, ?_⟩
      · rw [hlc, hout, hO, prod_frontOnes]
      · rw [hrc, hout, hO, heq, prod_frontOnes]
      · intro i hi
        rw [hS.lhs, m1, hO]
        exact bidx_id _ (zz _) (zp _ (fpos l _ hlp)) (by rw [zs, ← hO, ← hout]; exact hi)
      · intro i hi
        rw [hS.rhs, m2, hO, heq]
        exact bidx_id _ (zz _) (zp _ (fpos r _ hrp)) (by rw [zs, ← heq, ← hO, ← hout]; exact hi))
    (hl.trans hlc.symm) (hr.trans hrc.symm) (hd.trans hout.symm)
  refine ⟨out, ?_, ?_⟩
  · unfold elementWise
    rw [e]
    simp only [Res.bind_ok, hes, eo]
  · rw [hout] at H
    refine ⟨H.1, fun c hcb => ?_⟩
    obtain ⟨x, y, h1, h2, h3⟩ := H.2 (lin (broadcastShape l r) c) (lin_lt hcb)
    rw [hS.lhs, m1, bidx_readAt l _ c _ (by omega) hcb ?_] at h1
    rw [hS.rhs, m2, bidx_readAt r _ c _ (by omega) hcb ?_] at h2
    · exact ⟨x, y, h1, h2, h3⟩
    · intro p hp
      rw [← m2, List.mem_map] at hp
      obtain ⟨d, hd, rfl⟩ := hp
      exact (hok d hd).2.1
    · intro p hp
      rw [← m1, List.mem_map] at hp
      obtain ⟨d, hd, rfl⟩ := hp
      exact (hok d hd).1

/-- C19, rejection: incompatible shapes are an error, whatever the operator. -/
theorem C19_rejects {α : Type} (cross : Cross) (float : Bool) (f : α → α → α) (l r : List Nat) (lhs rhs dst : List α)
    (hc : ¬ NumpyCompatible l r) : elementWise cross float f l r lhs rhs dst = .err := by
  have hne : l ≠ r := by
    intro h; subst h; exact hc fun k => .inl rfl
  rw [compatible_iff] at hc
  have := reduceLoop_err _ _ (by rw [frontOnes_length, frontOnes_length]; omega) hc
  unfold elementWise reduceShapes
  rw [if_neg hne]
  simp only [this]
  rfl

/-- `Mod` implements the crossed scalar path by exchanging the operands (mod.cpp:220-226): `5 mod [3, 4]` computes
`[3, 4] mod 5 = [3, 4]` instead of `[2, 1]`. The broadcasting property fails for it. -/
theorem C19_mod_cross_false : ∃ out : List Nat,
    elementWise .swap false (fun x y => x % y) [1] [2] [5] [3, 4] [0, 0] = .ok ([2], out) ∧
    ¬ IsBroadcast (fun x y => x % y) [1] [2] [5] [3, 4] out := by
  refine ⟨[3, 4], by decide, ?_⟩
  rintro ⟨-, h⟩
  obtain ⟨x, y, h1, h2, h3⟩ := h [0] (by decide)
  have e1 : x = 5 := by
    have : ([5] : List Nat)[lin [1] (readAt [1] [0])]? = some 5 := by decide
    rw [this] at h1; exact (Option.some.inj h1).symm
  have e2 : y = 3 := by
    have : ([3, 4] : List Nat)[lin [2] (readAt [2] [0])]? = some 3 := by decide
    rw [this] at h2; exact (Option.some.inj h2).symm
  have e3 : ([3, 4] : List Nat)[lin (broadcastShape [1] [2]) [0]]? = some 3 := by decide
  rw [e3, e1, e2] at h3
  exact absurd h3 (by decide)

/-! ### The hypotheses are satisfiable: merged dimensions, general path, bias, scalar; and an incompatible pair -/

example : NumpyCompatible [2, 1, 3] [4, 3] ∧ broadcastShape [2, 1, 3] [4, 3] = [2, 4, 3] := by
  refine ⟨?_, by decide⟩
  rw [compatible_iff]; decide

example : elementWise .own false (fun x y => x - y) [2, 1, 3] [2, 1] [1, 2, 3, 4, 5, 6] [10, 20] (List.replicate 12 (0 : Int)) =
    .ok ([2, 2, 3], [-9, -8, -7, -19, -18, -17, -6, -5, -4, -16, -15, -14]) := by decide

example : elementWise .own true (fun x y => x - y) [2] [3, 2] [10, 20] [1, 2, 3, 4, 5, 6] (List.replicate 6 (0 : Int)) =
    .ok ([3, 2], [9, 18, 7, 16, 5, 14]) := by decide

example : elementWise .swap true (fun x y => x + y) [2, 2] [2, 2] [1, 2, 3, 4] [5, 6, 7, 8] [0, 0, 0, 0] =
    .ok ([2, 2], [6, 8, 10, 12]) := by decide

example : ¬ NumpyCompatible [2, 3] [2] := by rw [compatible_iff]; decide

end Verif.Props
