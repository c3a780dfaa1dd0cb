import Verif.Props.ElementWise
import Verif.Kernels.BroadcastLemmas
import Verif.Core.Holds
/-!
# C59: broadcast, where, equal

The specification is that of C19 (`ext`, `NumpyCompatible`, `broadcastShape`, `readAt`): extents are aligned at the last axis, missing ones
count as one, an extent of one is repeated.
-/
namespace Verif.Props
open Verif.Core Verif.Kernels Verif.Spec

variable {α γ : Type}

theorem frontOnes_pos {s : List Nat} {n : Nat} (h : ∀ x ∈ s, 0 < x) : ∀ x ∈ frontOnes s n, 0 < x := by
  intro x hx
  simp only [frontOnes, List.mem_append, List.mem_replicate] at hx
  rcases hx with ⟨_, rfl⟩ | hx
  · omega
  · exact h x hx

theorem broadcastExtents_ok : ∀ (x y : List Nat), x.length = y.length → (∀ p ∈ x.zip y, p.1 = p.2 ∨ p.1 = 1 ∨ p.2 = 1) →
    broadcastExtents x (y.map Int.ofNat) = .ok (List.zipWith max x y)
  | [], [], _, _ => rfl
  | a :: x, b :: y, hl, h => by
    have ih := broadcastExtents_ok x y (by simpa using hl) fun p hp => h p (by simp [hp])
    have h0 := h (a, b) (by simp)
    simp only at h0
    simp only [List.map_cons, broadcastExtents]
    rw [if_neg (by simp only [Int.ofNat_eq_natCast]; omega), ih, Res.bind_ok]
    simp only [List.zipWith_cons_cons, Int.ofNat_eq_natCast]
    congr 2
    omega

theorem broadcastExtents_err : ∀ (x y : List Nat), x.length = y.length → (¬ ∀ p ∈ x.zip y, p.1 = p.2 ∨ p.1 = 1 ∨ p.2 = 1) →
    broadcastExtents x (y.map Int.ofNat) = .err
  | [], [], _, h => absurd (by simp) h
  | a :: x, b :: y, hl, h => by
    simp only [List.map_cons, broadcastExtents]
    by_cases h0 : a = b ∨ a = 1 ∨ b = 1
    · have ih := broadcastExtents_err x y (by simpa using hl) (by
        intro h'
        apply h
        intro p hp
        simp only [List.zip_cons_cons, List.mem_cons] at hp
        rcases hp with rfl | hp
        · exact h0
        · exact h' p hp)
      rw [if_neg (by simp only [Int.ofNat_eq_natCast]; omega), ih]; rfl
    · rw [if_pos (by simp only [Int.ofNat_eq_natCast]; omega)]

theorem zipWith_max_comm : ∀ (a b : List Nat), List.zipWith max a b = List.zipWith max b a
  | [], [] => rfl
  | [], _ :: _ => rfl
  | _ :: _, [] => rfl
  | x :: a, y :: b => by simp [zipWith_max_comm a b, Nat.max_comm]

theorem zipWith_max_self : ∀ (a : List Nat), List.zipWith max a a = a
  | [] => rfl
  | x :: a => by simp [zipWith_max_self a]

theorem map_toNat_ofNat (l : List Nat) : (l.map Int.ofNat).map Int.toNat = l := by
  rw [List.map_map]; simp [Function.comp_def]

theorem ofNat_map_inj {a b : List Nat} (h : a.map Int.ofNat = b.map Int.ofNat) : a = b := by
  have := congrArg (List.map Int.toNat) h
  rwa [map_toNat_ofNat, map_toNat_ofNat] at this

theorem frontOnes_int (y : List Nat) (n : Nat) :
    List.replicate (n - (y.map Int.ofNat).length) (1 : Int) ++ y.map Int.ofNat = (frontOnes y n).map Int.ofNat := by
  simp [frontOnes]

theorem NumpyCompatible.symm {l r : List Nat} (h : NumpyCompatible l r) : NumpyCompatible r l :=
  fun k => by rcases h k with h | h | h <;> simp [h]

/-- a buffer as a function of positions -/
theorem holds_positions {s : List Nat} {data : List α} {X : List Nat → α} (h : Holds s data X) :
    ∀ i, i < prod s → data[i]? = some (X (unlin s i)) := by
  intro i hi
  have := h.2 (unlin s i) (unlin_inBounds hi)
  rwa [lin_unlin hi] at this

/-- positions read by an operand give the element at `readAt` -/
theorem readAt_inBounds {s o c : List Nat} {n : Nat} (hlen : (frontOnes s n).length = o.length) (hp : ∀ x ∈ s, 0 < x) (hc : InBounds o c)
    (hpr : ∀ p ∈ (frontOnes s n).zip o, p.1 = 1 ∨ p.1 = p.2) : InBounds s (readAt s c) := by
  have hfl := frontOnes_length s n
  have hcl := hc.length
  unfold readAt
  apply inBounds_iff.2
  refine ⟨by simp; omega, ?_⟩
  intro k hk1 hk2
  simp only [List.length_zipWith, List.length_drop] at hk2
  simp only [List.getElem_zipWith, List.getElem_drop]
  have hs : 0 < s[k]'hk1 := hp _ (List.getElem_mem _)
  split
  · omega
  · rename_i h1
    have hO := (inBounds_iff.1 hc).2 (c.length - s.length + k) (by omega) (by omega)
    have hz := hpr ((frontOnes s n)[c.length - s.length + k]'(by omega), o[c.length - s.length + k]'(by omega)) (by
      rw [List.mem_iff_getElem]
      exact ⟨c.length - s.length + k, by simp; omega, by simp⟩)
    have he : (frontOnes s n)[c.length - s.length + k]'(by omega) = s[k]'hk1 := by
      unfold frontOnes
      rw [List.getElem_append_right (by simp; omega)]
      congr 1
      simp
      omega
    simp only [he] at hz
    omega

theorem bidx_element {s o : List Nat} {n : Nat} {X : List Nat → α} (hlen : (frontOnes s n).length = o.length) (hp : ∀ x ∈ s, 0 < x)
    (hpr : ∀ p ∈ (frontOnes s n).zip o, p.1 = 1 ∨ p.1 = p.2) {c : List Nat} (hc : InBounds o c) :
    X (unlin s (bidx ((frontOnes s n).zip o) (lin o c))) = X (readAt s c) := by
  rw [bidx_readAt s o c n hlen hc hpr, unlin_lin (readAt_inBounds hlen hp hc hpr)]

/-- **C59, broadcast.** Operand and requested shape that numpy can broadcast, without empty axes: the output has the numpy shape, and at
every coordinate the element of the operand that numpy puts there. -/
theorem C59_broadcast_partial (dt : Nat) (x y : List Nat) (data : List α) (X : List Nat → α) (fresh : Nat → List α)
    (hX : Holds x data X) (hc : NumpyCompatible x y) (hxp : ∀ e ∈ x, 0 < e) (hyp : ∀ e ∈ y, 0 < e)
    (hb : prod (broadcastShape x y) ≤ 2147483647) (ht : typeBytes dt ∈ [1, 2, 4, 8]) (hf : ∀ n, (fresh n).length = n) :
    ∃ out, broadcastRun ⟨dt, x, data⟩ (y.map Int.ofNat) fresh = .ok (broadcastShape x y, out) ∧
      Holds (broadcastShape x y) out (fun c => X (readAt x c)) := by
  have l1 := frontOnes_length x y.length
  have l2 := frontOnes_length y x.length
  have lO := broadcastShape_length x y
  have hc' := (compatible_iff y x).1 hc.symm
  rw [compatible_iff] at hc
  have hok := zip_max_lo _ _ hc' (frontOnes_pos (n := x.length) hyp) (frontOnes_pos (n := y.length) hxp)
  rw [zipWith_max_comm, ← broadcastShape_eq] at hok
  obtain ⟨m1, m2, m3, m4, m5⟩ := map_lo_zip (frontOnes y x.length) (frontOnes x y.length) (broadcastShape x y) (by omega) (by omega)
  have hpr : ∀ p ∈ (frontOnes x y.length).zip (broadcastShape x y), p.1 = 1 ∨ p.1 = p.2 := by
    intro p hp
    rw [← m2, List.mem_map] at hp
    obtain ⟨d, hd, rfl⟩ := hp
    exact (hok d hd).2.1
  have hpos := holds_positions hX
  have hfin : ∀ out, out = (List.range (prod (broadcastShape x y))).map (fun i => X (unlin x (bidx ((frontOnes x y.length).zip (broadcastShape x y)) i))) →
      Holds (broadcastShape x y) out (fun c => X (readAt x c)) := by
    rintro _ rfl
    refine ⟨by simp, fun c hcb => ?_⟩
    have := lin_lt hcb
    simp only [List.getElem?_map, List.getElem?_range this, Option.map_some]
    rw [bidx_element (X := X) (by omega) hxp hpr hcb]
  unfold broadcastRun
  simp only [List.length_map]
  have hfo := frontOnes_int y x.length
  rw [List.length_map] at hfo
  rw [hfo]
  by_cases heq : frontOnes x y.length = frontOnes y x.length
  · rw [if_pos (by rw [heq])]
    have hO : broadcastShape x y = frontOnes x y.length := by rw [broadcastShape_eq, ← heq, zipWith_max_self]
    refine ⟨data, by rw [hO], hfin _ ?_⟩
    apply List.ext_getElem?
    intro i
    have hpO : prod (broadcastShape x y) = prod x := by rw [hO, prod_frontOnes]
    by_cases hi : i < prod x
    · rw [hpos i hi]
      simp only [List.getElem?_map, hpO, List.getElem?_range hi, Option.map_some]
      congr 3
      rw [hO]
      symm
      refine bidx_id _ ?_ ?_ ?_
      · intro p hp
        obtain ⟨j, hj, rfl⟩ := List.mem_iff_getElem.1 hp
        simp
      · intro p hp
        exact frontOnes_pos hxp _ (List.of_mem_zip hp).2
      · unfold ps; rw [List.map_snd_zip (Nat.le_refl _), prod_frontOnes]; exact hi
    · rw [List.getElem?_eq_none (by have := hX.1; omega), List.getElem?_eq_none (by simp; omega)]
  · rw [if_neg (fun h => heq (ofNat_map_inj h)), broadcastExtents_ok _ _ (by omega) hc, ← broadcastShape_eq, Res.bind_ok, map_toNat_ofNat]
    have hS := reduceDims_same (broadcastShape x y).length _ hok
    generalize hes : reduceDims (broadcastShape x y).length
      ((frontOnes y x.length).zip ((frontOnes x y.length).zip (broadcastShape x y))) = es at hS
    have hout : oprod es = prod (broadcastShape x y) := by rw [hS.out]; unfold oprod; rw [m5]
    have hrc : prod (es.map fun d => d.2.1) = prod x := by rw [hS.rhsCount, m4, prod_frontOnes]
    obtain ⟨depth, hdepth⟩ : ∃ d, fillDepth (typeBytes dt) = some d := by
      simp only [List.mem_cons, List.not_mem_nil, or_false] at ht
      rcases ht with h | h | h | h <;> simp [h, fillDepth]
    have hdis := broadcastDispatch_ok (depth := depth) (x := data) (G := fun i => X (unlin x i)) (dst := fresh (prod (broadcastShape x y)))
      es hS.ok (by omega) (by rw [hrc]; exact hpos) (by rw [hf, hout])
    simp only [hdepth]
    rw [hdis, Res.bind_ok]
    refine ⟨_, rfl, hfin _ ?_⟩
    rw [hout]
    apply List.map_congr_left
    intro i _
    rw [hS.rhs, m2]

example : broadcastRun ⟨10, [2, 1], [5, 7]⟩ [2, 2, 3] (fun n => List.replicate n (0 : Int)) =
    .ok ([2, 2, 3], [5, 5, 5, 7, 7, 7, 5, 5, 5, 7, 7, 7]) := by decide
example : NumpyCompatible [2, 1] [2, 2, 3] := (compatible_iff _ _).2 (by decide)
example : broadcastShape [2, 1] [2, 2, 3] = [2, 2, 3] := by decide

/-- a request that extends the operand is the shape of the result -/
theorem C59_broadcast_to (x y : List Nat) (hl : x.length ≤ y.length) (hyp : ∀ e ∈ y, 0 < e) (h : ∀ k, ext x k = 1 ∨ ext x k = ext y k) :
    broadcastShape x y = y := by
  apply list_ext_getD
  · rw [broadcastShape_length]; omega
  · intro j hj
    rw [broadcastShape_length] at hj
    rw [broadcastShape_getD x y j hj]
    have e : ext y (max x.length y.length - 1 - j) = y.getD j 0 := by
      unfold ext
      rw [List.getD, List.getElem?_reverse (by omega), List.getD]
      have : y.length - 1 - (max x.length y.length - 1 - j) = j := by omega
      rw [this, List.getElem?_eq_getElem (by omega)]; rfl
    have hp : 0 < y.getD j 0 := by
      rw [List.getD, List.getElem?_eq_getElem (by omega)]
      exact hyp _ (List.getElem_mem _)
    rcases h (max x.length y.length - 1 - j) with h | h <;> omega

example : broadcastShape [3] [2, 3] = [2, 3] := C59_broadcast_to _ _ (by decide) (by decide) (by
  intro k; match k with
  | 0 => right; rfl
  | _ + 1 => left; rfl)

/-- **C59, broadcast refuses** shapes that do not match, and, unless there is nothing to do, types of other widths. -/
theorem C59_broadcast_rejects (dt : Nat) (x y : List Nat) (data : List α) (fresh : Nat → List α) :
    (¬ NumpyCompatible x y → broadcastRun ⟨dt, x, data⟩ (y.map Int.ofNat) fresh = .err) ∧
    (NumpyCompatible x y → frontOnes x y.length ≠ frontOnes y x.length → typeBytes dt ∉ [1, 2, 4, 8] →
      broadcastRun ⟨dt, x, data⟩ (y.map Int.ofNat) fresh = .err) := by
  have l1 := frontOnes_length x y.length
  have l2 := frontOnes_length y x.length
  have hfo := frontOnes_int y x.length
  rw [List.length_map] at hfo
  constructor
  · intro hc
    have hne : frontOnes x y.length ≠ frontOnes y x.length := by
      intro h
      apply hc
      rw [compatible_iff, h]
      intro p hp
      obtain ⟨j, hj, rfl⟩ := List.mem_iff_getElem.1 hp
      simp
    rw [compatible_iff] at hc
    unfold broadcastRun
    simp only [List.length_map]
    rw [hfo, if_neg (fun h => hne (ofNat_map_inj h)), broadcastExtents_err _ _ (by omega) hc]; rfl
  · intro hc hne ht
    rw [compatible_iff] at hc
    unfold broadcastRun
    simp only [List.length_map]
    rw [hfo, if_neg (fun h => hne (ofNat_map_inj h)), broadcastExtents_ok _ _ (by omega) hc, Res.bind_ok]
    have : fillDepth (typeBytes dt) = none := by
      unfold fillDepth
      simp only [List.mem_cons, List.not_mem_nil, or_false, not_or] at ht
      obtain ⟨h1, h2, h3, h4⟩ := ht
      split <;> first | contradiction | rfl
    simp only [this]

example : broadcastRun ⟨10, [2], [5, 7]⟩ [3] (fun n => List.replicate n (0 : Int)) = .err := by decide
example : broadcastRun ⟨24, [1], [5]⟩ [3] (fun n => List.replicate n (0 : Int)) = .err := by decide

/-- **C59, empty axes.** A request for an empty axis is answered with an axis of extent one, and an empty operand that should become empty
along another axis divides by zero. Negative extents are accepted. -/
theorem C59_empty_false (v : Int) :
    broadcastRun ⟨10, [1], [v]⟩ [0] (fun n => List.replicate n 0) = .ok ([1], [v]) ∧
    broadcastRun ⟨10, [0], []⟩ [1] (fun n => List.replicate n (0 : Int)) = .ub ∧
    broadcastRun ⟨10, [1], [v]⟩ [-5] (fun n => List.replicate n 0) = .ok ([1], [v]) := ⟨rfl, by decide, rfl⟩

/-! ## where -/

theorem whereExtents_ok : ∀ (c l r : List Nat), c.length = l.length → l.length = r.length →
    (∀ p ∈ c.zip l, p.1 = p.2 ∨ p.1 = 1 ∨ p.2 = 1) → (∀ p ∈ c.zip r, p.1 = p.2 ∨ p.1 = 1 ∨ p.2 = 1) →
    (∀ p ∈ l.zip r, p.1 = p.2 ∨ p.1 = 1 ∨ p.2 = 1) →
    ∃ b, whereExtents c l r = .ok (List.zipWith max (List.zipWith max c l) r, b) ∧ (b = false → c = l ∧ c = r)
  | [], [], [], _, _, _, _, _ => ⟨false, rfl, fun _ => ⟨rfl, rfl⟩⟩
  | a :: c, b :: l, d :: r, h1, h2, p1, p2, p3 => by
    obtain ⟨t, e, ht⟩ := whereExtents_ok c l r (by simpa using h1) (by simpa using h2) (fun p hp => p1 p (by simp [hp]))
      (fun p hp => p2 p (by simp [hp])) (fun p hp => p3 p (by simp [hp]))
    have q1 := p1 (a, b) (by simp)
    have q2 := p2 (a, d) (by simp)
    have q3 := p3 (b, d) (by simp)
    simp only at q1 q2 q3
    refine ⟨if a = b ∧ a = d then t else true, ?_, ?_⟩
    · unfold whereExtents
      rw [if_neg (by omega), e, Res.bind_ok]
      simp only [List.zipWith_cons_cons]
      congr 3
      split
      · rename_i h; obtain ⟨rfl, rfl⟩ := h; omega
      · rfl
    · intro hb
      split at hb
      · rename_i h
        obtain ⟨rfl, rfl⟩ := h
        obtain ⟨h1, h2⟩ := ht hb
        exact ⟨by rw [h1], by rw [h2]⟩
      · cases hb

theorem whereExtents_err : ∀ (c l r : List Nat), c.length = l.length → l.length = r.length →
    (¬ ((∀ p ∈ c.zip l, p.1 = p.2 ∨ p.1 = 1 ∨ p.2 = 1) ∧ (∀ p ∈ c.zip r, p.1 = p.2 ∨ p.1 = 1 ∨ p.2 = 1) ∧
    (∀ p ∈ l.zip r, p.1 = p.2 ∨ p.1 = 1 ∨ p.2 = 1))) → whereExtents c l r = .err
  | [], [], [], _, _, h => absurd (by simp) h
  | a :: c, b :: l, d :: r, h1, h2, h => by
    unfold whereExtents
    by_cases h0 : (a = b ∨ a = 1 ∨ b = 1) ∧ (a = d ∨ a = 1 ∨ d = 1) ∧ (b = d ∨ b = 1 ∨ d = 1)
    · have ih := whereExtents_err c l r (by simpa using h1) (by simpa using h2) (by
        rintro ⟨p1, p2, p3⟩
        apply h
        obtain ⟨q1, q2, q3⟩ := h0
        refine ⟨?_, ?_, ?_⟩
        all_goals
          intro p hp
          simp only [List.zip_cons_cons, List.mem_cons] at hp
          rcases hp with rfl | hp
          · assumption
          · first | exact p1 p hp | exact p2 p hp | exact p3 p hp)
      rw [if_neg (by omega), ih]; rfl
    · rw [if_pos (by omega)]

/-- the shape of three operands together -/
def broadcastShape3 (c l r : List Nat) : List Nat := broadcastShape (broadcastShape c l) r

theorem ext_broadcastShape (l r : List Nat) (k : Nat) : ext (broadcastShape l r) k = max (ext l k) (ext r k) := by
  unfold ext broadcastShape
  rw [List.reverse_reverse]
  by_cases hk : k < max l.length r.length
  · rw [List.getD, List.getElem?_map, List.getElem?_range hk]; rfl
  · rw [List.getD, List.getElem?_eq_none (by simp; omega), List.getD, List.getElem?_eq_none (by simp; omega), List.getD,
      List.getElem?_eq_none (by simp; omega)]
    rfl

theorem frontOnes_ext {s : List Nat} {n j : Nat} (h : s.length ≤ n) (hj : j < n) : (frontOnes s n).getD j 0 = ext s (n - 1 - j) := by
  have := frontOnes_getD s n j (by omega)
  rwa [Nat.max_eq_right h] at this

theorem broadcastShape3_eq (c l r : List Nat) {n : Nat} (hn : n = max (max c.length l.length) r.length) :
    List.zipWith max (List.zipWith max (frontOnes c n) (frontOnes l n)) (frontOnes r n) = broadcastShape3 c l r := by
  have hc := frontOnes_length c n
  have hl := frontOnes_length l n
  have hr := frontOnes_length r n
  have hO : (broadcastShape3 c l r).length = n := by
    unfold broadcastShape3; rw [broadcastShape_length, broadcastShape_length]; omega
  apply list_ext_getD
  · simp; omega
  · intro j hj
    simp only [List.length_zipWith] at hj
    have e : (broadcastShape3 c l r).getD j 0 = max (max (ext c (n - 1 - j)) (ext l (n - 1 - j))) (ext r (n - 1 - j)) := by
      have := frontOnes_ext (s := broadcastShape3 c l r) (n := n) (j := j) (by omega) (by omega)
      have e2 : frontOnes (broadcastShape3 c l r) n = broadcastShape3 c l r := by simp [frontOnes, hO]
      rw [e2] at this
      rw [this]
      unfold broadcastShape3
      rw [ext_broadcastShape, ext_broadcastShape]
    rw [e, ← frontOnes_ext (s := c) (by omega) (by omega), ← frontOnes_ext (s := l) (by omega) (by omega),
      ← frontOnes_ext (s := r) (by omega) (by omega)]
    simp only [List.getD]
    rw [List.getElem?_eq_getElem (by simp; omega), List.getElem?_eq_getElem (by omega), List.getElem?_eq_getElem (by omega),
      List.getElem?_eq_getElem (by omega)]
    simp

/-- compatibility on padded shapes of any common length -/
theorem compatible_pad {l r : List Nat} {n : Nat} (hl : l.length ≤ n) (hr : r.length ≤ n) : NumpyCompatible l r ↔
    ∀ p ∈ (frontOnes l n).zip (frontOnes r n), p.1 = p.2 ∨ p.1 = 1 ∨ p.2 = 1 := by
  have l1 := frontOnes_length l n
  have l2 := frontOnes_length r n
  constructor
  · intro h p hp
    obtain ⟨j, hj, rfl⟩ := List.mem_iff_getElem.1 hp
    simp only [List.length_zip] at hj
    have e1 := frontOnes_ext (s := l) (n := n) (j := j) hl (by omega)
    have e2 := frontOnes_ext (s := r) (n := n) (j := j) hr (by omega)
    rw [List.getD, List.getElem?_eq_getElem (by omega), Option.getD_some] at e1 e2
    simp only [List.getElem_zip, e1, e2]
    exact h _
  · intro h k
    by_cases hk : k < n
    · have e1 := frontOnes_ext (s := l) (n := n) (j := n - 1 - k) hl (by omega)
      have e2 := frontOnes_ext (s := r) (n := n) (j := n - 1 - k) hr (by omega)
      have hk' : n - 1 - (n - 1 - k) = k := by omega
      rw [hk'] at e1 e2
      rw [List.getD, List.getElem?_eq_getElem (by omega), Option.getD_some] at e1 e2
      have := h ((frontOnes l n)[n - 1 - k]'(by omega), (frontOnes r n)[n - 1 - k]'(by omega)) (by
        rw [List.mem_iff_getElem]
        exact ⟨n - 1 - k, by simp; omega, by simp⟩)
      simpa only [e1, e2] using this
    · left
      unfold ext
      rw [List.getD, List.getElem?_eq_none (by simp; omega), List.getD, List.getElem?_eq_none (by simp; omega)]

theorem castAll_ok {conv : γ → Res Nat} {T : γ → Nat} : ∀ (l : List γ), (∀ x ∈ l, conv x = .ok (T x)) → castAll conv l = .ok (l.map T)
  | [], _ => rfl
  | x :: l, h => by
    unfold castAll
    rw [h x (by simp), Res.bind_ok, castAll_ok l (fun y hy => h y (by simp [hy])), Res.bind_ok]; rfl

/-- **C59, where.** Three operands that numpy can broadcast together, without empty axes: at every coordinate of the common shape the element
of `lhs` if the condition there, converted to a byte, is not zero, otherwise that of `rhs`. -/
theorem C59_where (conv : γ → Res Nat) (T : γ → Nat) (dtc dt : Nat) (cs ls rs : List Nat) (cond : List γ) (lhs rhs : List α)
    (C : List Nat → γ) (A B : List Nat → α) (fresh : Nat → List α)
    (hC : Holds cs cond C) (hA : Holds ls lhs A) (hB : Holds rs rhs B) (hT : ∀ x ∈ cond, conv x = .ok (T x))
    (h1 : NumpyCompatible cs ls) (h2 : NumpyCompatible cs rs) (h3 : NumpyCompatible ls rs)
    (pc : ∀ e ∈ cs, 0 < e) (pl : ∀ e ∈ ls, 0 < e) (pr : ∀ e ∈ rs, 0 < e)
    (hb : prod (broadcastShape3 cs ls rs) ≤ 2147483647) (ht : plainType dt) (hf : ∀ n, (fresh n).length = n) :
    ∃ out, whereRun conv ⟨dtc, cs, cond⟩ ⟨dt, ls, lhs⟩ ⟨dt, rs, rhs⟩ fresh = .ok (broadcastShape3 cs ls rs, out) ∧
      Holds (broadcastShape3 cs ls rs) out (fun c => if T (C (readAt cs c)) ≠ 0 then A (readAt ls c) else B (readAt rs c)) := by
  obtain ⟨n, hn⟩ : ∃ n, n = max (max cs.length ls.length) rs.length := ⟨_, rfl⟩
  have lc := frontOnes_length cs n
  have ll := frontOnes_length ls n
  have lr := frontOnes_length rs n
  have hO := broadcastShape3_eq cs ls rs hn
  have lO : (broadcastShape3 cs ls rs).length = n := by rw [← hO]; simp; omega
  have q1 := (compatible_pad (n := n) (by omega) (by omega)).1 h1
  have q2 := (compatible_pad (n := n) (by omega) (by omega)).1 h2
  have q3 := (compatible_pad (n := n) (by omega) (by omega)).1 h3
  obtain ⟨b, eb, hbf⟩ := whereExtents_ok _ _ _ (by omega) (by omega) q1 q2 q3
  rw [hO] at eb
  have gO : ∀ j, (hj : j < n) → (broadcastShape3 cs ls rs)[j]'(by omega) = max (max ((frontOnes cs n)[j]'(by omega)) ((frontOnes ls n)[j]'(by omega)))
      ((frontOnes rs n)[j]'(by omega)) := by
    intro j hj
    simp only [← hO, List.getElem_zipWith]
  have posOf : ∀ (s : List Nat), s.length ≤ n → (∀ e ∈ s, 0 < e) → ∀ j, (hj : j < (frontOnes s n).length) → 0 < (frontOnes s n)[j] := by
    intro s _ hs j hj
    exact frontOnes_pos hs _ (List.getElem_mem _)
  have zipOf : ∀ (s t : List Nat), (∀ p ∈ s.zip t, p.1 = p.2 ∨ p.1 = 1 ∨ p.2 = 1) → ∀ j, (hj : j < s.length) → (hk : j < t.length) →
      s[j] = t[j] ∨ s[j] = 1 ∨ t[j] = 1 := by
    intro s t h j hj hk
    exact h (s[j], t[j]) (by rw [List.mem_iff_getElem]; exact ⟨j, by simp; omega, by simp⟩)
  have z1 := zipOf _ _ q1
  have z2 := zipOf _ _ q2
  have z3 := zipOf _ _ q3
  have pO : ∀ e ∈ broadcastShape3 cs ls rs, 0 < e := by
    intro e he
    obtain ⟨j, hj, rfl⟩ := List.mem_iff_getElem.1 he
    rw [gO j (by omega)]
    have := posOf cs (by omega) pc j (by omega)
    omega
  -- each operand reads where numpy reads
  have read : ∀ {β : Type} (s : List Nat) (data : List β) (X : List Nat → β), s.length ≤ n → (∀ e ∈ s, 0 < e) → Holds s data X →
      (∀ j, (hj : j < (frontOnes s n).length) → (hk : j < (broadcastShape3 cs ls rs).length) → (frontOnes s n)[j] = 1 ∨
        (frontOnes s n)[j] = (broadcastShape3 cs ls rs)[j]) →
      modPositions (frontOnes s n) (broadcastShape3 cs ls rs) = .ok ((List.range (prod (broadcastShape3 cs ls rs))).map
        (bidx ((frontOnes s n).zip (broadcastShape3 cs ls rs)))) ∧
      ∀ i, i < prod (broadcastShape3 cs ls rs) → data[bidx ((frontOnes s n).zip (broadcastShape3 cs ls rs)) i]? =
        some (X (readAt s (unlin (broadcastShape3 cs ls rs) i))) := by
    intro β s data X hs hp hX hz
    have lsn := frontOnes_length s n
    have hle : prod (frontOnes s n) ≤ prod (broadcastShape3 cs ls rs) := prod_le_of_le (by omega) (by
      intro j hj
      rw [List.getD, List.getElem?_eq_getElem hj, List.getD, List.getElem?_eq_getElem (by omega), Option.getD_some, Option.getD_some]
      have := hz j hj (by omega)
      have := pO _ (List.getElem_mem (show j < (broadcastShape3 cs ls rs).length by omega))
      omega)
    refine ⟨modPositions_ok (by omega) (frontOnes_pos hp) pO (by omega) hb, ?_⟩
    intro i hi
    have hlt := bidx_lt (L := frontOnes s n) (O := broadcastShape3 cs ls rs) (by omega) (frontOnes_pos hp) hi
    rw [prod_frontOnes] at hlt
    rw [holds_positions hX _ hlt]
    have hcb := unlin_inBounds hi
    have := bidx_element (X := X) (s := s) (n := n) (o := broadcastShape3 cs ls rs) (by omega) hp (by
      intro p hpz
      obtain ⟨j, hj, rfl⟩ := List.mem_iff_getElem.1 hpz
      simp only [List.length_zip] at hj
      simp only [List.getElem_zip]
      exact hz j (by omega) (by omega)) hcb
    rw [lin_unlin hi] at this
    rw [this]
  obtain ⟨ec, rc⟩ := read cs cond C (by omega) pc hC (by
    intro j hj hk; rw [gO j (by omega)]
    have := z1 j (by omega) (by omega); have := z2 j (by omega) (by omega)
    have := posOf cs (by omega) pc j (by omega); have := posOf ls (by omega) pl j (by omega); have := posOf rs (by omega) pr j (by omega)
    omega)
  obtain ⟨el, rl⟩ := read ls lhs A (by omega) pl hA (by
    intro j hj hk; rw [gO j (by omega)]
    have := z1 j (by omega) (by omega); have := z3 j (by omega) (by omega)
    have := posOf cs (by omega) pc j (by omega); have := posOf ls (by omega) pl j (by omega); have := posOf rs (by omega) pr j (by omega)
    omega)
  obtain ⟨er, rr⟩ := read rs rhs B (by omega) pr hB (by
    intro j hj hk; rw [gO j (by omega)]
    have := z3 j (by omega) (by omega); have := z2 j (by omega) (by omega)
    have := posOf cs (by omega) pc j (by omega); have := posOf ls (by omega) pl j (by omega); have := posOf rs (by omega) pr j (by omega)
    omega)
  clear gO read
  generalize hOO : broadcastShape3 cs ls rs = O at *
  have hfin : Holds O ((List.range (prod O)).map fun i => if T (C (readAt cs (unlin O i))) ≠ 0 then A (readAt ls (unlin O i))
      else B (readAt rs (unlin O i))) (fun c => if T (C (readAt cs c)) ≠ 0 then A (readAt ls c) else B (readAt rs c)) := by
    refine ⟨by simp, fun c hcb => ?_⟩
    simp only [List.getElem?_map, List.getElem?_range (lin_lt hcb), Option.map_some, unlin_lin hcb]
  -- same shapes: the positions are the indices
  have same : frontOnes cs n = frontOnes ls n → frontOnes cs n = frontOnes rs n →
      whereSame (cond.map T) lhs rhs (prod O) (fresh (prod O)) = .ok ((List.range (prod O)).map fun i => if T (C (readAt cs (unlin O i))) ≠ 0
        then A (readAt ls (unlin O i)) else B (readAt rs (unlin O i))) := by
    intro s1 s2
    have hOc : O = frontOnes cs n := by rw [← hO, ← s1, ← s2, zipWith_max_self, zipWith_max_self]
    have hid : ∀ s, O = frontOnes s n → (∀ e ∈ s, 0 < e) → ∀ i, i < prod O → bidx ((frontOnes s n).zip O) i = i := by
      intro s hs hp i hi
      rw [← hs]
      refine bidx_id _ ?_ ?_ ?_
      · intro p hpz
        obtain ⟨j, hj, rfl⟩ := List.mem_iff_getElem.1 hpz
        simp
      · intro p hpz
        exact pO _ (List.of_mem_zip hpz).2
      · unfold ps; rw [List.map_snd_zip (Nat.le_refl _)]; exact hi
    refine loop_fill (hf _) fun i d hi hd => ?_
    have ac := rc i hi
    have al := rl i hi
    have ar := rr i hi
    rw [hid cs hOc pc i hi] at ac
    rw [hid ls (hOc.trans s1) pl i hi] at al
    rw [hid rs (hOc.trans s2) pr i hi] at ar
    rw [rd_ok (v := T (C (readAt cs (unlin O i)))) (by rw [List.getElem?_map, ac]; rfl), Res.bind_ok]
    split
    · rw [rd_ok al, Res.bind_ok]; exact wr_ok _ (by omega)
    · rw [rd_ok ar, Res.bind_ok]; exact wr_ok _ (by omega)
  unfold whereRun
  simp only
  rw [if_neg (by simp)]
  by_cases hs : cs = ls ∧ cs = rs
  · have hsh : whereShapes cs ls rs = .ok (cs, ls, rs, cs, false) := by unfold whereShapes; rw [if_pos hs]
    have hfn : ∀ s : List Nat, s = cs → frontOnes s n = s := by
      intro s e; subst e
      obtain ⟨h1, h2⟩ := hs
      have : n - s.length = 0 := by rw [hn, ← h1, ← h2]; omega
      simp [frontOnes, this]
    have e1 := hfn cs rfl
    have e2 := hfn ls hs.1.symm
    have e3 := hfn rs hs.2.symm
    have hOc : O = cs := by rw [← hO, e1, e2, e3, ← hs.1, ← hs.2, zipWith_max_self, zipWith_max_self]
    have hsame := same (by rw [e1, e2]; exact hs.1) (by rw [e1, e3]; exact hs.2)
    rw [hsh, Res.bind_ok, castAll_ok _ hT, Res.bind_ok, if_pos ht]
    simp only [Bool.false_eq_true, if_false]
    rw [show prod cs = prod O by rw [hOc], hsame, Res.bind_ok]
    exact ⟨_, by rw [hOc], hfin⟩
  · have hsh : whereShapes cs ls rs = .ok (frontOnes cs n, frontOnes ls n, frontOnes rs n, O, b) := by
      unfold whereShapes; rw [if_neg hs]; simp only [← hn]; rw [eb, Res.bind_ok]
    rw [hsh, Res.bind_ok, castAll_ok _ hT, Res.bind_ok, if_pos ht]
    cases b with
    | false =>
      obtain ⟨s1, s2⟩ := hbf rfl
      simp only [Bool.false_eq_true, if_false]
      rw [same s1 s2, Res.bind_ok]
      exact ⟨_, rfl, hfin⟩
    | true =>
      simp only [if_true]
      have : whereBroadcast (cond.map T) lhs rhs (frontOnes cs n) (frontOnes ls n) (frontOnes rs n) O (fresh (prod O)) =
          .ok ((List.range (prod O)).map fun i => if T (C (readAt cs (unlin O i))) ≠ 0
            then A (readAt ls (unlin O i)) else B (readAt rs (unlin O i))) := by
        unfold whereBroadcast
        rw [ec, Res.bind_ok, el, Res.bind_ok, er, Res.bind_ok, List.length_map, List.length_range]
        refine loop_fill (hf _) fun i d hi hd => ?_
        rw [rd_ok (v := bidx ((frontOnes cs n).zip O) i) (by simp [hi]), Res.bind_ok,
          rd_ok (v := T (C (readAt cs (unlin O i)))) (by rw [List.getElem?_map, rc i hi]; rfl), Res.bind_ok,
          rd_ok (v := bidx ((frontOnes ls n).zip O) i) (by simp [hi]), Res.bind_ok, rd_ok (rl i hi), Res.bind_ok,
          rd_ok (v := bidx ((frontOnes rs n).zip O) i) (by simp [hi]), Res.bind_ok, rd_ok (rr i hi), Res.bind_ok, wr_ok _ (by omega)]
      rw [this, Res.bind_ok]
      exact ⟨_, rfl, hfin⟩

example : whereRun (fun b : Nat => .ok b) ⟨21, [2, 1], [1, 0]⟩ ⟨5, [3], [10, 20, 30]⟩ ⟨5, [1], [(-1 : Int)]⟩ (fun n => List.replicate n 0) =
    .ok ([2, 3], [10, 20, 30, -1, -1, -1]) := by decide

/-- **C59, what a condition means.** Integers are converted modulo 256, so an element picks `lhs` exactly when it is not a multiple of 256; a
non-zero multiple of 256 counts as false. -/
theorem C59_where_condition_false (x : Int) : ∃ b, intByte x = .ok b ∧ (b ≠ 0 ↔ ¬ (256 ∣ x)) ∧ (x = 256 → b = 0) := by
  refine ⟨_, rfl, ?_, fun h => by subst h; rfl⟩
  constructor
  · intro h hd; apply h; have := Int.emod_eq_zero_of_dvd hd; omega
  · intro h hb; apply h; apply Int.dvd_of_emod_eq_zero; omega

example : whereRun intByte ⟨5, [2], [256, 255]⟩ ⟨5, [2], [1, 1]⟩ ⟨5, [2], [(0 : Int), 0]⟩ (fun n => List.replicate n 0) = .ok ([2], [0, 1]) := by
  decide

/-- **C59, where refuses** operands of different types, shapes that do not match, and types without arithmetic. -/
theorem C59_where_rejects (conv : γ → Res Nat) (T : γ → Nat) (cond : Operand γ) (lhs rhs : Operand α) (fresh : Nat → List α)
    (hT : ∀ x ∈ cond.data, conv x = .ok (T x))
    (h : lhs.dtype ≠ rhs.dtype ∨ ¬ (NumpyCompatible cond.shape lhs.shape ∧ NumpyCompatible cond.shape rhs.shape ∧
      NumpyCompatible lhs.shape rhs.shape) ∨ plainType lhs.dtype = false) : whereRun conv cond lhs rhs fresh = .err := by
  unfold whereRun
  by_cases hd : lhs.dtype = rhs.dtype
  · rw [if_neg (by simpa using hd)]
    replace h := h.resolve_left (by simpa using hd)
    by_cases hc : NumpyCompatible cond.shape lhs.shape ∧ NumpyCompatible cond.shape rhs.shape ∧ NumpyCompatible lhs.shape rhs.shape
    · replace h := h.resolve_left (by simpa using hc)
      rw [castAll_ok _ hT]
      simp only [Res.bind_ok, h]
      obtain ⟨s, hs⟩ : ∃ s, whereShapes cond.shape lhs.shape rhs.shape = .ok s := by
        unfold whereShapes
        split
        · exact ⟨_, rfl⟩
        · have l1 := frontOnes_length cond.shape (max (max cond.shape.length lhs.shape.length) rhs.shape.length)
          have l2 := frontOnes_length lhs.shape (max (max cond.shape.length lhs.shape.length) rhs.shape.length)
          have l3 := frontOnes_length rhs.shape (max (max cond.shape.length lhs.shape.length) rhs.shape.length)
          obtain ⟨b, e, -⟩ := whereExtents_ok _ _ _ (by omega) (by omega)
            ((compatible_pad (n := max (max cond.shape.length lhs.shape.length) rhs.shape.length) (by omega) (by omega)).1 hc.1)
            ((compatible_pad (n := max (max cond.shape.length lhs.shape.length) rhs.shape.length) (by omega) (by omega)).1 hc.2.1)
            ((compatible_pad (n := max (max cond.shape.length lhs.shape.length) rhs.shape.length) (by omega) (by omega)).1 hc.2.2)
          simp only [e, Res.bind_ok]
          exact ⟨_, rfl⟩
      rw [hs]; rfl
    · have hne : ¬ (cond.shape = lhs.shape ∧ cond.shape = rhs.shape) := by
        rintro ⟨h1, h2⟩
        apply hc
        rw [← h1, ← h2]
        exact ⟨fun _ => .inl rfl, fun _ => .inl rfl, fun _ => .inl rfl⟩
      have hsh : whereShapes cond.shape lhs.shape rhs.shape = .err := by
        unfold whereShapes
        rw [if_neg hne]
        have l1 := frontOnes_length cond.shape (max (max cond.shape.length lhs.shape.length) rhs.shape.length)
        have l2 := frontOnes_length lhs.shape (max (max cond.shape.length lhs.shape.length) rhs.shape.length)
        have l3 := frontOnes_length rhs.shape (max (max cond.shape.length lhs.shape.length) rhs.shape.length)
        have := whereExtents_err (frontOnes cond.shape (max (max cond.shape.length lhs.shape.length) rhs.shape.length))
          (frontOnes lhs.shape (max (max cond.shape.length lhs.shape.length) rhs.shape.length))
          (frontOnes rhs.shape (max (max cond.shape.length lhs.shape.length) rhs.shape.length)) (by omega) (by omega) (by
            rw [← compatible_pad (by omega) (by omega), ← compatible_pad (by omega) (by omega), ← compatible_pad (by omega) (by omega)]
            exact hc)
        simp only [this]; rfl
      rw [hsh]; rfl
  · rw [if_pos (by simpa using hd)]

example : whereRun intByte ⟨5, [2], [1, 1]⟩ ⟨5, [3], [1, 1, 1]⟩ ⟨5, [1], [(0 : Int)]⟩ (fun n => List.replicate n 0) = .err := by decide

/-! ## equal -/

theorem prod_one_of_pad {s : List Nat} {n : Nat} (h : prod (frontOnes s n) = 1) : prod s = 1 := by rwa [prod_frontOnes] at h

/-- **C59, equal.** Operands of the same rank, or of equal padded shapes, or one with a single element: at every coordinate of the numpy shape 1
if the elements numpy puts there are equal, otherwise 0. -/
theorem C59_equal_partial (eqv : α → α → Bool) (hsym : ∀ a b, eqv a b = eqv b a) (dt : Nat) (ls rs : List Nat) (lhs rhs : List α)
    (A B : List Nat → α) (fresh : Nat → List Nat) (hA : Holds ls lhs A) (hB : Holds rs rhs B) (hc : NumpyCompatible ls rs)
    (pl : ∀ e ∈ ls, 0 < e) (pr : ∀ e ∈ rs, 0 < e) (hb : prod (broadcastShape ls rs) ≤ 2147483647) (ht : plainType dt)
    (hf : ∀ n, (fresh n).length = n)
    (hrank : ls.length = rs.length ∨ frontOnes ls rs.length = frontOnes rs ls.length ∨ prod ls = 1 ∨ prod rs = 1) :
    ∃ out, equalRun eqv dt ls rs lhs rhs fresh = .ok (broadcastShape ls rs, out) ∧
      Holds (broadcastShape ls rs) out (fun c => if eqv (A (readAt ls c)) (B (readAt rs c)) then 1 else 0) := by
  have l1 := frontOnes_length ls rs.length
  have l2 := frontOnes_length rs ls.length
  have lO := broadcastShape_length ls rs
  rw [compatible_iff] at hc
  have fl := frontOnes_pos (n := rs.length) pl
  have fr := frontOnes_pos (n := ls.length) pr
  have hok := zip_max_lo _ _ hc fl fr
  rw [← broadcastShape_eq] at hok
  obtain ⟨m1, m2, m3, m4, m5⟩ := map_lo_zip (frontOnes ls rs.length) (frontOnes rs ls.length) (broadcastShape ls rs) (by omega) (by omega)
  have hred : ∃ b, reduceShapes ls rs = .ok (frontOnes ls rs.length, frontOnes rs ls.length, broadcastShape ls rs, b) ∧
      (b = false → frontOnes ls rs.length = frontOnes rs ls.length) ∧ (frontOnes ls rs.length = frontOnes rs ls.length → b = false) := by
    unfold reduceShapes
    by_cases hlr : ls = rs
    · subst hlr
      have e : frontOnes ls ls.length = ls := by simp [frontOnes]
      refine ⟨false, ?_, fun _ => rfl, fun _ => rfl⟩
      rw [if_pos rfl, broadcastShape_eq, e, zipWith_max_self]
    · rw [if_neg hlr]
      obtain ⟨b, e, hb⟩ := reduceLoop_ok _ _ (by omega) hc fl fr
      refine ⟨b, by simp only [e, Res.bind_ok, broadcastShape_eq], hb, ?_⟩
      intro heq
      rw [← heq] at e
      have hself : ∀ (l : List Nat), reduceLoop l l = .ok (l, false) := by
        intro l; induction l with
        | nil => rfl
        | cons a l ih => simp [reduceLoop, ih]
      rw [hself] at e
      injection e with e; injection e with _ e; exact e.symm
  obtain ⟨b, eb, hb1, hb2⟩ := hred
  have okl : ∀ p ∈ (frontOnes ls rs.length).zip (broadcastShape ls rs), p.1 = 1 ∨ p.1 = p.2 := by
    intro p hp
    rw [← m1, List.mem_map] at hp
    obtain ⟨d, hd, rfl⟩ := hp
    exact (hok d hd).1
  have okr : ∀ p ∈ (frontOnes rs ls.length).zip (broadcastShape ls rs), p.1 = 1 ∨ p.1 = p.2 := by
    intro p hp
    rw [← m2, List.mem_map] at hp
    obtain ⟨d, hd, rfl⟩ := hp
    exact (hok d hd).2.1
  have pO : ∀ e ∈ broadcastShape ls rs, 0 < e := by
    intro e he
    rw [← m5, List.mem_map] at he
    obtain ⟨d, hd, rfl⟩ := he
    exact (hok d hd).out_pos
  have read : ∀ (s : List Nat) (data : List α) (X : List Nat → α) (m : Nat), (frontOnes s m).length = (broadcastShape ls rs).length →
      (∀ e ∈ s, 0 < e) → Holds s data X → (∀ p ∈ (frontOnes s m).zip (broadcastShape ls rs), p.1 = 1 ∨ p.1 = p.2) →
      ∀ i, i < prod (broadcastShape ls rs) → data[bidx ((frontOnes s m).zip (broadcastShape ls rs)) i]? =
        some (X (readAt s (unlin (broadcastShape ls rs) i))) := by
    intro s data X m hm hp hX hz i hi
    have hlt := bidx_lt (L := frontOnes s m) (O := broadcastShape ls rs) hm (frontOnes_pos hp) hi
    rw [prod_frontOnes] at hlt
    rw [holds_positions hX _ hlt]
    have := bidx_element (X := X) hm hp hz (unlin_inBounds hi)
    rw [lin_unlin hi] at this
    rw [this]
  have rl := read ls lhs A rs.length (by omega) pl hA okl
  have rr := read rs rhs B ls.length (by omega) pr hB okr
  clear read
  have hpl : prod ls ≤ prod (broadcastShape ls rs) := by
    rw [← prod_frontOnes ls rs.length]
    refine prod_le_of_le (by omega) fun j hj => ?_
    rw [List.getD, List.getElem?_eq_getElem hj, List.getD, List.getElem?_eq_getElem (by omega), Option.getD_some, Option.getD_some]
    have := okl ((frontOnes ls rs.length)[j], (broadcastShape ls rs)[j]'(by omega)) (by
      rw [List.mem_iff_getElem]; exact ⟨j, by simp; omega, by simp⟩)
    have := pO _ (List.getElem_mem (show j < (broadcastShape ls rs).length by omega))
    simp only at *
    omega
  have hpr : prod rs ≤ prod (broadcastShape ls rs) := by
    rw [← prod_frontOnes rs ls.length]
    refine prod_le_of_le (by omega) fun j hj => ?_
    rw [List.getD, List.getElem?_eq_getElem hj, List.getD, List.getElem?_eq_getElem (by omega), Option.getD_some, Option.getD_some]
    have := okr ((frontOnes rs ls.length)[j], (broadcastShape ls rs)[j]'(by omega)) (by
      rw [List.mem_iff_getElem]; exact ⟨j, by simp; omega, by simp⟩)
    have := pO _ (List.getElem_mem (show j < (broadcastShape ls rs).length by omega))
    omega
  have hOeq := broadcastShape_eq ls rs
  generalize hOO : broadcastShape ls rs = O at *
  have hid : ∀ (s : List Nat) (m : Nat), O = frontOnes s m → ∀ i, i < prod O → bidx ((frontOnes s m).zip O) i = i := by
    intro s m hs i hi
    rw [← hs]
    refine bidx_id _ ?_ ?_ ?_
    · intro p hpz
      obtain ⟨j, hj, rfl⟩ := List.mem_iff_getElem.1 hpz
      simp
    · intro p hpz
      exact pO _ (List.of_mem_zip hpz).2
    · unfold ps; rw [List.map_snd_zip (Nat.le_refl _)]; exact hi
  have hzero : ∀ (s : List Nat) (m : Nat), prod s = 1 → ∀ i, bidx ((frontOnes s m).zip O) i = 0 := by
    intro s m hs i
    apply bidx_zero
    intro p hpz
    exact all_one_of_prod (by rw [prod_frontOnes]; exact hs) _ (List.of_mem_zip hpz).1
  -- an operand is the whole output if the other has one element
  have hone : ∀ (u v : List Nat), u.length = v.length → (∀ x ∈ u, 0 < x) → prod v = 1 → List.zipWith max u v = u := by
    intro u v huv hu hv
    apply List.ext_getElem (by simp; omega)
    intro j h1 h2
    simp only [List.getElem_zipWith]
    have := all_one_of_prod hv _ (List.getElem_mem (show j < v.length by omega))
    have := hu _ (List.getElem_mem h2)
    omega
  have hfin : Holds O ((List.range (prod O)).map fun i => if eqv (A (readAt ls (unlin O i))) (B (readAt rs (unlin O i))) then 1 else 0)
      (fun c => if eqv (A (readAt ls c)) (B (readAt rs c)) then 1 else 0) := by
    refine ⟨by simp, fun c hcb => ?_⟩
    simp only [List.getElem?_map, List.getElem?_range (lin_lt hcb), Option.map_some, unlin_lin hcb]
  unfold equalRun
  rw [eb, Res.bind_ok]
  simp only
  rw [if_pos ht]
  refine ⟨_, ?_, hfin⟩
  cases b with
  | false =>
    have heq := hb1 rfl
    have hOl : O = frontOnes ls rs.length := by rw [hOeq, ← heq, zipWith_max_self]
    have : equalSame eqv lhs rhs (prod O) (fresh (prod O)) = .ok ((List.range (prod O)).map fun i =>
        if eqv (A (readAt ls (unlin O i))) (B (readAt rs (unlin O i))) then 1 else 0) := by
      refine loop_fill (hf _) fun i d hi hd => ?_
      have al := rl i hi
      have ar := rr i hi
      rw [hid ls _ hOl i hi] at al
      rw [hid rs _ (hOl.trans heq) i hi] at ar
      rw [rd_ok al, Res.bind_ok, rd_ok ar, Res.bind_ok, wr_ok _ (by omega)]
    simp only [Bool.not_false, if_true]
    rw [this]; rfl
  | true =>
    have hne : frontOnes ls rs.length ≠ frontOnes rs ls.length := fun h => by cases hb2 h
    simp only [Bool.not_true, Bool.false_eq_true, if_false]
    by_cases hr1 : prod (frontOnes rs ls.length) = 1
    · rw [if_pos hr1]
      have hOl : O = frontOnes ls rs.length := by rw [hOeq]; exact hone _ _ (by omega) fl hr1
      rw [prod_frontOnes] at hr1
      have : equalScalar eqv lhs rhs (prod O) (fresh (prod O)) = .ok ((List.range (prod O)).map fun i =>
          if eqv (A (readAt ls (unlin O i))) (B (readAt rs (unlin O i))) then 1 else 0) := by
        unfold equalScalar
        have h0 := hf (prod O)
        obtain ⟨v, hv⟩ : ∃ v, rhs[0]? = some v := ⟨_, List.getElem?_eq_getElem (by have := hB.1; omega)⟩
        rw [rd_ok hv, Res.bind_ok]
        refine loop_fill h0 fun i d hi hd => ?_
        have al := rl i hi
        have ar := rr i hi
        rw [hid ls _ hOl i hi] at al
        rw [hzero rs _ hr1, hv] at ar
        rw [rd_ok al, Res.bind_ok, wr_ok _ (by omega), Option.some.inj ar]
      rw [this]; rfl
    · rw [if_neg hr1]
      by_cases hl1 : prod (frontOnes ls rs.length) = 1
      · rw [if_pos hl1]
        have hOr : O = frontOnes rs ls.length := by rw [hOeq, zipWith_max_comm]; exact hone _ _ (by omega) fr hl1
        rw [prod_frontOnes] at hl1
        have : equalScalar eqv rhs lhs (prod O) (fresh (prod O)) = .ok ((List.range (prod O)).map fun i =>
            if eqv (A (readAt ls (unlin O i))) (B (readAt rs (unlin O i))) then 1 else 0) := by
          unfold equalScalar
          have h0 := hf (prod O)
          obtain ⟨v, hv⟩ : ∃ v, lhs[0]? = some v := ⟨_, List.getElem?_eq_getElem (by have := hA.1; omega)⟩
          rw [rd_ok hv, Res.bind_ok]
          refine loop_fill h0 fun i d hi hd => ?_
          have al := rl i hi
          have ar := rr i hi
          rw [hid rs _ hOr i hi] at ar
          rw [hzero ls _ hl1, hv] at al
          rw [rd_ok ar, Res.bind_ok, wr_ok _ (by omega), Option.some.inj al, hsym]
        rw [this]; rfl
      · rw [if_neg hl1]
        rw [prod_frontOnes] at hr1 hl1
        have hlen : ls.length = rs.length := by
          rcases hrank with h | h | h | h
          · exact h
          · exact absurd h hne
          · exact absurd h hl1
          · exact absurd h hr1
        have el : frontOnes ls rs.length = ls := by simp [frontOnes, hlen]
        have er : frontOnes rs ls.length = rs := by simp [frontOnes, hlen]
        rw [el] at rl
        rw [er] at rr
        have : equalGeneral eqv lhs rhs ls rs O (fresh (prod O)) = .ok ((List.range (prod O)).map fun i =>
            if eqv (A (readAt ls (unlin O i))) (B (readAt rs (unlin O i))) then 1 else 0) := by
          unfold equalGeneral
          rw [modPositions_ok (by omega) pl pO (by omega) hb, Res.bind_ok, modPositions_ok (by omega) pr pO (by omega) hb, Res.bind_ok,
            List.length_map, List.length_range]
          refine loop_fill (hf _) fun i d hi hd => ?_
          rw [rd_ok (v := bidx (ls.zip O) i) (by simp [hi]), Res.bind_ok, rd_ok (rl i hi), Res.bind_ok,
            rd_ok (v := bidx (rs.zip O) i) (by simp [hi]), Res.bind_ok, rd_ok (rr i hi), Res.bind_ok, wr_ok _ (by omega)]
        rw [this]; rfl

example : equalRun (fun a b : Int => a == b) 5 [2, 1] [1, 3] [1, 2] [1, 2, 3] (fun n => List.replicate n 9) =
    .ok ([2, 3], [1, 0, 0, 0, 1, 0]) := by decide
example : equalRun (fun a b : Int => a == b) 5 [2, 2] [1] [1, 2, 1, 2] [1] (fun n => List.replicate n 9) = .ok ([2, 2], [1, 0, 1, 0]) := by decide

/-- **C59, equal with operands of different ranks** that are not scalars and do not agree after padding: the operands are not padded before
their positions are computed, and the kernel reads extents that they do not have. -/
theorem C59_equal_ranks_false (eqv : α → α → Bool) (dt : Nat) (ls rs : List Nat) (lhs rhs : List α) (fresh : Nat → List Nat)
    (hc : NumpyCompatible ls rs) (pl : ∀ e ∈ ls, 0 < e) (pr : ∀ e ∈ rs, 0 < e) (hb : prod (broadcastShape ls rs) ≤ 2147483647)
    (ht : plainType dt) (h1 : rs.length < ls.length) (h2 : frontOnes ls rs.length ≠ frontOnes rs ls.length) (h3 : prod rs ≠ 1)
    (h4 : prod ls ≠ 1) : equalRun eqv dt ls rs lhs rhs fresh = .ub := by
  have l1 := frontOnes_length ls rs.length
  have l2 := frontOnes_length rs ls.length
  have lO := broadcastShape_length ls rs
  rw [compatible_iff] at hc
  have fl := frontOnes_pos (n := rs.length) pl
  have fr := frontOnes_pos (n := ls.length) pr
  have hok := zip_max_lo _ _ hc fl fr
  rw [← broadcastShape_eq] at hok
  obtain ⟨m1, m2, m3, m4, m5⟩ := map_lo_zip (frontOnes ls rs.length) (frontOnes rs ls.length) (broadcastShape ls rs) (by omega) (by omega)
  have pO : ∀ e ∈ broadcastShape ls rs, 0 < e := by
    intro e he
    rw [← m5, List.mem_map] at he
    obtain ⟨d, hd, rfl⟩ := he
    exact (hok d hd).out_pos
  have el : frontOnes ls rs.length = ls := by
    have : rs.length - ls.length = 0 := by omega
    simp [frontOnes, this]
  obtain ⟨b, e, hb1⟩ := reduceLoop_ok _ _ (by omega) hc fl fr
  have hbt : b = true := by
    cases b with
    | true => rfl
    | false => exact absurd (hb1 rfl) h2
  subst hbt
  have hlr : ls ≠ rs := fun h => by rw [h] at h1; omega
  have hred : reduceShapes ls rs = .ok (frontOnes ls rs.length, frontOnes rs ls.length, broadcastShape ls rs, true) := by
    unfold reduceShapes
    rw [if_neg hlr]
    simp only [e, Res.bind_ok, broadcastShape_eq]
  have hmono : ∀ x ∈ [ls, rs], prod x ≤ prod (broadcastShape ls rs) := by
    have key : ∀ (s : List Nat) (n : Nat), (frontOnes s n).length = (broadcastShape ls rs).length →
        (∀ j, (hj : j < (frontOnes s n).length) → (hk : j < (broadcastShape ls rs).length) → (frontOnes s n)[j] ≤ (broadcastShape ls rs)[j]) →
        prod s ≤ prod (broadcastShape ls rs) := by
      intro s n hl h
      rw [← prod_frontOnes s n]
      refine prod_le_of_le hl fun j hj => ?_
      rw [List.getD, List.getElem?_eq_getElem hj, List.getD, List.getElem?_eq_getElem (by omega), Option.getD_some, Option.getD_some]
      exact h j hj (by omega)
    have g : ∀ j, (hj : j < (broadcastShape ls rs).length) → (broadcastShape ls rs)[j] =
        max ((frontOnes ls rs.length)[j]'(by omega)) ((frontOnes rs ls.length)[j]'(by omega)) := by
      intro j hj
      simp only [broadcastShape_eq, List.getElem_zipWith]
    intro x hx
    simp only [List.mem_cons, List.not_mem_nil, or_false] at hx
    rcases hx with rfl | rfl
    · refine key _ rs.length (by omega) fun j hj hk => ?_
      rw [g j hk]; omega
    · refine key _ ls.length (by omega) fun j hj hk => ?_
      rw [g j hk]; omega
  unfold equalRun
  rw [hred, Res.bind_ok]
  simp only
  rw [if_pos ht]
  simp only [Bool.not_true, Bool.false_eq_true, if_false]
  rw [prod_frontOnes, if_neg h3, prod_frontOnes, if_neg h4]
  unfold equalGeneral
  rw [modPositions_ok (by omega) pl pO (by have := hmono ls (by simp); omega) hb, Res.bind_ok]
  have : modPositions rs (broadcastShape ls rs) = .ub := by
    unfold modPositions
    show (weights (ints rs) >>= fun w => prod32 1 (ints (broadcastShape ls rs)) >>= fun cnt =>
      modReads w (ints rs) (ints (broadcastShape ls rs)) cnt.toNat (iterStart (ints (broadcastShape ls rs)))) = _
    rw [weights_ok (fits_of_pos pr (by have := hmono rs (by simp); omega))]
    have := prod32_ok (noOverflow_of_pos pO hb).pfits
    simp only [Int.natCast_one, Nat.one_mul] at this
    rw [Res.bind_ok, this]
    simp only [Res.bind_ok, Int.toNat_natCast]
    obtain ⟨k, hk⟩ : ∃ k, prod (broadcastShape ls rs) = k + 1 := ⟨prod (broadcastShape ls rs) - 1, by have := prod_pos pO; omega⟩
    rw [hk]
    unfold modReads modIndexR
    rw [if_pos (by simp [ints, iterStart]; omega)]; rfl
  rw [this]; rfl

example : equalRun (fun a b : Int => a == b) 5 [2, 3] [3] [1, 2, 3, 4, 5, 6] [1, 2, 3] (fun n => List.replicate n 9) = .ub := by decide
example : NumpyCompatible [2, 3] [3] ∧ prod (broadcastShape [2, 3] [3]) ≤ 2147483647 ∧ frontOnes [2, 3] 1 ≠ frontOnes [3] 2 := by
  refine ⟨?_, by decide, by decide⟩
  rw [compatible_iff]; decide

end Verif.Props
