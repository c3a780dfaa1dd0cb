import Verif.Kernels.VecBinary
import Verif.Props.ElementWiseEmpty
import Verif.Props.ElementWise
/-!
# C112: element-wise operators on `float` tensors, in vector lanes or not

The specification of broadcasting is that of C19 (`Verif.Props.IsBroadcast`).
-/
namespace Verif.Props.Vec
open Verif.Core Verif.Spec Verif.Kernels Verif.Kernels.Vec

variable {α : Type}

/-- **Specification**: every element of `out` is one of the two operations on the two elements that broadcasting pairs -/
def EitherBroadcast (v f : α → α → α) (l r : List Nat) (lhs rhs out : List α) : Prop :=
  out.length = prod (broadcastShape l r) ∧
  ∀ c, InBounds (broadcastShape l r) c →
    ∃ x y z, lhs[lin l (readAt l c)]? = some x ∧ rhs[lin r (readAt r c)]? = some y ∧
      out[lin (broadcastShape l r) c]? = some z ∧ (z = v x y ∨ z = f x y)

/-! ## Elements replaced by the set of what they may be -/

/-- all that either operation may make of elements of two sets -/
def lift (v f : α → α → α) (X Y : α → Prop) : α → Prop := fun z => ∃ x y, X x ∧ Y y ∧ (z = v x y ∨ z = f x y)

/-- element by element, a member of the set -/
abbrev Rel (a : List α) (A : List (α → Prop)) : Prop := List.Forall₂ (fun x X => X x) a A

/-- both succeed with related lists, whenever the second succeeds -/
def Sim (r : Res (List α)) (R : Res (List (α → Prop))) : Prop := ∀ A, R = .ok A → ∃ a, r = .ok a ∧ Rel a A

theorem rel_get {a : List α} {A : List (α → Prop)} (h : Rel a A) (i : Nat) {X : α → Prop} (hX : A[i]? = some X) : ∃ x, a[i]? = some x ∧ X x := by
  induction h generalizing i with
  | nil => simp at hX
  | cons hd _ ih =>
    cases i with
    | zero => simp only [List.getElem?_cons_zero, Option.some.injEq] at hX; subst hX; exact ⟨_, rfl, hd⟩
    | succ i => exact ih i (by simpa using hX)

theorem rel_set {a : List α} {A : List (α → Prop)} (h : Rel a A) (i : Nat) {x : α} {X : α → Prop} (hx : X x) : Rel (a.set i x) (A.set i X) := by
  induction h generalizing i with
  | nil => exact .nil
  | cons hd ht ih =>
    cases i with
    | zero => exact .cons hx ht
    | succ i => exact .cons hd (ih i)

theorem pick_lift {v f : α → α → α} {X Y : α → Prop} (b : Bool) {x y : α} (hx : X x) (hy : Y y) : lift v f X Y (Kernels.Vec.pick v f b x y) :=
  ⟨x, y, hx, hy, by cases b <;> simp [Kernels.Vec.pick]⟩

theorem triples_sim {v f : α → α → α} {lhs rhs : List α} {L R : List (α → Prop)} (hl : Rel lhs L) (hr : Rel rhs R) :
    ∀ (t : List (Bool × Nat × Nat × Nat)) (dst : List α) (D : List (α → Prop)), Rel dst D →
      Sim (triples v f lhs rhs t dst) (runTriples (lift v f) L R (t.map Prod.snd) D)
  | [], dst, D, hd => by intro A hA; cases hA; exact ⟨_, rfl, hd⟩
  | (b, d, l, r) :: t, dst, D, hd => by
    intro A hA
    simp only [List.map_cons, runTriples] at hA
    split at hA
    · rename_i X Y hX hY
      obtain ⟨x, ex, mx⟩ := rel_get hl l hX
      obtain ⟨y, ey, my⟩ := rel_get hr r hY
      split at hA
      · rename_i hlt
        simp only [triples, ex, ey]
        rw [if_pos (by rw [hd.length_eq]; exact hlt)]
        exact triples_sim hl hr t _ _ (rel_set hd d (pick_lift b mx my)) A hA
      · cases hA
    · cases hA

theorem inPlace_sim {v f : α → α → α} {other : List α} {O : List (α → Prop)} (ho : Rel other O) :
    ∀ (t : List (Bool × Nat × Nat)) (dst : List α) (D : List (α → Prop)), Rel dst D →
      Sim (inPlace v f other t dst) (runInPlace (lift v f) O (t.map Prod.snd) D)
  | [], dst, D, hd => by intro A hA; cases hA; exact ⟨_, rfl, hd⟩
  | (b, d, r) :: t, dst, D, hd => by
    intro A hA
    simp only [List.map_cons, runInPlace] at hA
    split at hA
    · rename_i X Y hX hY
      obtain ⟨x, ex, mx⟩ := rel_get hd d hX
      obtain ⟨y, ey, my⟩ := rel_get ho r hY
      simp only [inPlace, ex, ey]
      exact inPlace_sim ho t _ _ (rel_set hd d (pick_lift b mx my)) A hA
    · cases hA

/-- a computation with `reduce_operator` alone is one without lanes -/
theorem triples_scalar (v f : α → α → α) (lhs rhs : List α) : ∀ (t : List (Nat × Nat × Nat)) (dst : List α),
    runTriples f lhs rhs t dst = triples v f lhs rhs (t.map fun x => (false, x)) dst
  | [], _ => rfl
  | (d, l, r) :: t, dst => by
    simp only [runTriples, List.map_cons, triples, Kernels.Vec.pick, Bool.false_eq_true, if_false]
    cases lhs[l]? with
    | none => rfl
    | some x =>
      cases rhs[r]? with
      | none => rfl
      | some y =>
        simp only
        split
        · exact triples_scalar v f lhs rhs t _
        · rfl

theorem copyInto_sim {n : Nat} {s d : List α} {S D : List (α → Prop)} (hs : Rel s S) (hd : Rel d D) : Sim (copyInto n s d) (copyInto n S D) := by
  intro A hA
  unfold copyInto at hA ⊢
  rw [hs.length_eq, hd.length_eq]
  split at hA
  · rename_i h
    cases hA
    rw [if_pos h]
    exact ⟨_, rfl, List.rel_append (List.forall₂_take n hs) (List.forall₂_drop n hd)⟩
  · cases hA

theorem lanes_order (n : Nat) : (lanes n).map Prod.snd = order true n := by
  simp only [lanes, order, simdOrder, if_true, List.map_append, List.map_flatMap, List.map_map]
  rfl

theorem scalar_sim {v f : α → α → α} {m o d : List α} {M O D : List (α → Prop)} (hm : Rel m M) (ho : Rel o O) (hd : Rel d D) (n : Nat) :
    Sim (scalar v f m o n d) (runScalar true (lift v f) M O n D) := by
  have := triples_sim (v := v) (f := f) hm ho ((lanes n).map fun i => (i.1, i.2, i.2, 0)) d D hd
  have e : (((lanes n).map fun i => (i.1, i.2, i.2, 0)).map Prod.snd : List (Nat × Nat × Nat)) = (order true n).map fun i => (i, i, 0) := by
    rw [← lanes_order]; simp [List.map_map, Function.comp_def]
  rw [e] at this
  exact this

theorem same_sim {v f : α → α → α} {m o d : List α} {M O D : List (α → Prop)} (hm : Rel m M) (ho : Rel o O) (hd : Rel d D) (n : Nat) :
    Sim (same v f m o n d) (runSame true (lift v f) M O n D) := by
  have := triples_sim (v := v) (f := f) hm ho ((lanes n).map fun i => (i.1, i.2, i.2, i.2)) d D hd
  have e : (((lanes n).map fun i => (i.1, i.2, i.2, i.2)).map Prod.snd : List (Nat × Nat × Nat)) = (order true n).map fun i => (i, i, i) := by
    rw [← lanes_order]; simp [List.map_map, Function.comp_def]
  rw [e] at this
  exact this

theorem bind_sim {r : Res (List α)} {R : Res (List (α → Prop))} {k : List α → Res (List α)} {K : List (α → Prop) → Res (List (α → Prop))}
    (h : Sim r R) (hk : ∀ a A, Rel a A → Sim (k a) (K A)) : Sim (r >>= k) (R >>= K) := by
  intro A hA
  cases R with
  | ok B =>
    obtain ⟨a, rfl, ha⟩ := h B rfl
    exact hk a B ha A hA
  | err => cases hA
  | ub => cases hA

theorem bias_sim {v f : α → α → α} {m o d : List α} {M O D : List (α → Prop)} (hm : Rel m M) (ho : Rel o O) (hd : Rel d D) (out : List Nat) (dim : Nat) :
    Sim (bias v f m o out dim d) (runBias true (lift v f) M O out dim D) := by
  unfold bias runBias
  refine bind_sim (copyInto_sim hm hd) fun a A ha => ?_
  simp only
  split
  · have := inPlace_sim (v := v) (f := f) ho ((List.range (prod (out.take dim))).flatMap fun n => (List.range (out.getD dim 0)).map fun c =>
      (false, n * out.getD dim 0 + c, c)) a A ha
    simpa [List.map_flatMap, List.map_map, Function.comp_def] using this
  · have := inPlace_sim (v := v) (f := f) ho ((List.range (prod (out.take dim))).flatMap fun n => (List.range (out.getD dim 0)).flatMap fun c =>
      (lanes (prod (out.drop (dim + 1)))).map fun k => (k.1, (n * out.getD dim 0 + c) * prod (out.drop (dim + 1)) + k.2, c)) a A ha
    rw [← lanes_order]
    simpa [List.map_flatMap, List.map_map, Function.comp_def] using this

theorem general_sim {v f : α → α → α} {m o d : List α} {M O D : List (α → Prop)} (hm : Rel m M) (ho : Rel o O) (hd : Rel d D) (l r s : List Nat) :
    Sim (runBroadcast f m o l r s d) (runBroadcast (lift v f) M O l r s D) := by
  intro A hA
  unfold runBroadcast at hA ⊢
  cases h1 : weights (l.map Int.ofNat) with
  | err => rw [h1] at hA; cases hA
  | ub => rw [h1] at hA; cases hA
  | ok lw =>
  cases h2 : weights (r.map Int.ofNat) with
  | err => rw [h1, h2] at hA; cases hA
  | ub => rw [h1, h2] at hA; cases hA
  | ok rw' =>
  cases h3 : prod32 1 (s.map Int.ofNat) with
  | err => rw [h1, h2, h3] at hA; cases hA
  | ub => rw [h1, h2, h3] at hA; cases hA
  | ok cnt =>
  rw [h1, h2, h3] at hA
  simp only [Res.bind_ok] at hA ⊢
  cases h4 : broadcastLoop lw rw' (l.map Int.ofNat) (r.map Int.ofNat) (s.map Int.ofNat) cnt.toNat 0 (iterStart (s.map Int.ofNat)) with
  | err => rw [h4] at hA; cases hA
  | ub => rw [h4] at hA; cases hA
  | ok t =>
  rw [h4] at hA
  simp only [Res.bind_ok] at hA ⊢
  rw [triples_scalar v f]
  have := triples_sim (v := v) (f := f) hm ho (t.map fun x => (false, x)) d D hd
  rw [List.map_map] at this
  exact this A (by simpa [Function.comp_def] using hA)

theorem lift_flip (v f : α → α → α) : (fun X Y => lift v f Y X) = lift (fun x y => v y x) (fun x y => f y x) := by
  funext X Y z
  exact propext ⟨fun ⟨x, y, a, b, c⟩ => ⟨y, x, b, a, c⟩, fun ⟨x, y, a, b, c⟩ => ⟨y, x, b, a, c⟩⟩

theorem dispatch_sim (cross : Cross) (v f : α → α → α) (b : Bool) (l r o : List Nat) {m q d : List α} {M Q D : List (α → Prop)} (hm : Rel m M)
    (hq : Rel q Q) (hd : Rel d D) :
    Sim (Kernels.Vec.dispatch cross v f b l r o m q d) (Kernels.dispatch cross true (lift v f) b l r o M Q D) := by
  unfold Kernels.Vec.dispatch Kernels.dispatch
  split
  · exact same_sim hm hq hd _
  split
  · exact scalar_sim hm hq hd _
  split
  · cases cross with
    | swap => exact scalar_sim hq hm hd _
    | own => simp only [lift_flip]; exact scalar_sim hq hm hd _
    | general => exact general_sim hm hq hd _ _ _
  cases isBias l r with
  | some k => exact bias_sim hm hq hd _ _
  | none =>
    cases isBias r l with
    | none => exact general_sim hm hq hd _ _ _
    | some k =>
      cases cross with
      | swap => exact bias_sim hq hm hd _ _
      | own => simp only [lift_flip]; exact bias_sim hq hm hd _ _
      | general => exact general_sim hm hq hd _ _ _

theorem elementWise_sim (cross : Cross) (v f : α → α → α) (ls rs : List Nat) {m q d : List α} {M Q D : List (α → Prop)} (hm : Rel m M)
    (hq : Rel q Q) (hd : Rel d D) (s : List Nat) (A : List (α → Prop))
    (h : Kernels.elementWise cross true (lift v f) ls rs M Q D = .ok (s, A)) :
    ∃ a, Kernels.Vec.elementWise cross v f ls rs m q d = .ok (s, a) ∧ Rel a A := by
  unfold Kernels.elementWise at h
  unfold Kernels.Vec.elementWise
  cases e : reduceShapes ls rs with
  | err => rw [e] at h; cases h
  | ub => rw [e] at h; cases h
  | ok p =>
    obtain ⟨l, r, o, b⟩ := p
    rw [e] at h
    simp only [Res.bind_ok] at h ⊢
    generalize reduceDims o.length (l.zip (r.zip o)) = ds at h ⊢
    cases hB : Kernels.dispatch cross true (lift v f) b (ds.map Prod.fst) (ds.map fun d => d.2.1) (ds.map fun d => d.2.2) M Q D with
    | err => rw [hB] at h; cases h
    | ub => rw [hB] at h; cases h
    | ok B =>
      rw [hB] at h
      obtain ⟨a, ea, ha⟩ := dispatch_sim cross v f b _ _ _ hm hq hd B hB
      rw [ea]
      cases h
      exact ⟨a, rfl, ha⟩

theorem rel_single : ∀ a : List α, Rel a (a.map fun x z => z = x)
  | [] => .nil
  | _ :: t => .cons rfl (rel_single t)

/-! ## The property -/

/-- **C112, the operands.** Whatever fast path is taken, every element of the result is computed from the two elements that broadcasting pairs: by a vector
lane or by the operator on one element. -/
theorem C112_operands (cross : Cross) (v f : α → α → α) (hv : cross = .swap → ∀ x y, v x y = v y x) (hf : cross = .swap → ∀ x y, f x y = f y x)
    (l r : List Nat) (lhs rhs dst : List α)
    (hc : NumpyCompatible l r) (hlp : ∀ x ∈ l, 0 < x) (hrp : ∀ x ∈ r, 0 < x) (hb : prod (broadcastShape l r) ≤ 2147483647)
    (hl : lhs.length = prod l) (hr : rhs.length = prod r) (hd : dst.length = prod (broadcastShape l r)) :
    ∃ out, Kernels.Vec.elementWise cross v f l r lhs rhs dst = .ok (broadcastShape l r, out) ∧ EitherBroadcast v f l r lhs rhs out := by
  obtain ⟨A, eA, hA, HA⟩ := C19_broadcast cross true (lift v f) (by
      intro hs X Y
      funext z
      refine propext ⟨fun ⟨x, y, a, b, c⟩ => ⟨y, x, b, a, ?_⟩, fun ⟨x, y, a, b, c⟩ => ⟨y, x, b, a, ?_⟩⟩ <;>
        rw [hv hs y x, hf hs y x] <;> exact c)
    l r (lhs.map fun x z => z = x) (rhs.map fun x z => z = x) (dst.map fun x z => z = x) hc hlp hrp hb (by simpa using hl) (by simpa using hr)
    (by simpa using hd)
  obtain ⟨a, ea, ha⟩ := elementWise_sim cross v f l r (rel_single lhs) (rel_single rhs) (rel_single dst) _ _ eA
  refine ⟨a, ea, by rw [ha.length_eq]; exact hA, fun c hcb => ?_⟩
  obtain ⟨X, Y, h1, h2, h3⟩ := HA c hcb
  rw [List.getElem?_map, Option.map_eq_some_iff] at h1 h2
  obtain ⟨x, hx, rfl⟩ := h1
  obtain ⟨y, hy, rfl⟩ := h2
  obtain ⟨z, hz, x', y', rfl, rfl, h⟩ := rel_get ha _ h3
  exact ⟨_, _, z, hx, hy, hz, h⟩

/-- **C112, agreement.** If a lane computes what the operator computes, the result is the broadcast result of C19. -/
theorem C112_agree (cross : Cross) (f : α → α → α) (hf : cross = .swap → ∀ x y, f x y = f y x)
    (l r : List Nat) (lhs rhs dst : List α)
    (hc : NumpyCompatible l r) (hlp : ∀ x ∈ l, 0 < x) (hrp : ∀ x ∈ r, 0 < x) (hb : prod (broadcastShape l r) ≤ 2147483647)
    (hl : lhs.length = prod l) (hr : rhs.length = prod r) (hd : dst.length = prod (broadcastShape l r)) :
    ∃ out, Kernels.Vec.elementWise cross f f l r lhs rhs dst = .ok (broadcastShape l r, out) ∧ IsBroadcast f l r lhs rhs out := by
  obtain ⟨out, e, h, H⟩ := C112_operands cross f f hf hf l r lhs rhs dst hc hlp hrp hb hl hr hd
  refine ⟨out, e, h, fun c hcb => ?_⟩
  obtain ⟨x, y, z, h1, h2, h3, h4⟩ := H c hcb
  exact ⟨x, y, h1, h2, by rw [h3]; rcases h4 with rfl | rfl <;> rfl⟩

/-- **C112, no elements.** Compatible shapes of which the result has no element give the empty tensor of numpy's shape, whatever a lane computes. -/
theorem C112_empty (cross : Cross) (v f : α → α → α) (l r : List Nat) (lhs rhs : List α) (hc : NumpyCompatible l r)
    (h0 : 0 ∈ numpyShape l r) (hl : nonzeroProd l ≤ 2147483647) (hr : nonzeroProd r ≤ 2147483647) (ho : nonzeroProd (numpyShape l r) ≤ 2147483647) :
    Kernels.Vec.elementWise cross v f l r lhs rhs [] = .ok (numpyShape l r, []) := by
  obtain ⟨a, ea, ha⟩ := elementWise_sim cross v f l r (rel_single lhs) (rel_single rhs) (rel_single []) _ _
    (C19_empty cross true (lift v f) l r (lhs.map fun x z => z = x) (rhs.map fun x z => z = x) hc h0 hl hr ho)
  cases ha
  exact ea

/-- a row of no elements beside a column -/
example : NumpyCompatible [0] [3, 1] ∧ numpyShape [0] [3, 1] = [3, 0] := by
  refine ⟨?_, by decide⟩
  rw [compatible_iff]; decide

/-- **C112, maximum with SSE or AVX.** Every element, of whatever floats including NaN and zeros of both signs, is the left one if it is greater and the right
one otherwise, wherever it stands. -/
theorem C112_maximum_sse (gt : α → α → Bool) (nm : α → α → α) (l r : List Nat) (lhs rhs dst : List α)
    (hc : NumpyCompatible l r) (hlp : ∀ x ∈ l, 0 < x) (hrp : ∀ x ∈ r, 0 < x) (hb : prod (broadcastShape l r) ≤ 2147483647)
    (hl : lhs.length = prod l) (hr : rhs.length = prod r) (hd : dst.length = prod (broadcastShape l r)) :
    ∃ out, maximum gt nm .sse l r lhs rhs dst = .ok (broadcastShape l r, out) ∧
      IsBroadcast (fun x y => if gt x y then x else y) l r lhs rhs out :=
  C112_agree .general (fun x y => if gt x y then x else y) (fun h => nomatch h) l r lhs rhs dst hc hlp hrp hb hl hr hd

/-- **C112, maximum of numbers.** With every kind of vector instructions, elements that are linearly ordered (no NaN, one zero) give the greater one. -/
theorem C112_maximum_partial {α : Type} [LinearOrder α] (w : Lanes) (l r : List Nat) (lhs rhs dst : List α)
    (hc : NumpyCompatible l r) (hlp : ∀ x ∈ l, 0 < x) (hrp : ∀ x ∈ r, 0 < x) (hb : prod (broadcastShape l r) ≤ 2147483647)
    (hl : lhs.length = prod l) (hr : rhs.length = prod r) (hd : dst.length = prod (broadcastShape l r)) :
    ∃ out, maximum (fun x y => decide (x > y)) max w l r lhs rhs dst = .ok (broadcastShape l r, out) ∧ IsBroadcast max l r lhs rhs out := by
  have e1 : maxLane (fun x y : α => decide (x > y)) max w = max := by
    funext x y
    cases w <;> simp only [maxLane, decide_eq_true_eq, gt_iff_lt]
    · split
      · rename_i h; exact (max_eq_left h.le).symm
      · rename_i h; exact (max_eq_right (not_lt.1 h)).symm
    · split
      · rename_i h; exact (max_eq_right h.le).symm
      · rename_i h; exact (max_eq_left (not_lt.1 h)).symm
  have e2 : maxScalar (fun x y : α => decide (x > y)) = max := by
    funext x y
    simp only [maxScalar, decide_eq_true_eq, gt_iff_lt]
    split
    · rename_i h; exact (max_eq_left h.le).symm
    · rename_i h; exact (max_eq_right (not_lt.1 h)).symm
  unfold maximum
  rw [e1, e2]
  exact C112_agree .general max (fun h => nomatch h) l r lhs rhs dst hc hlp hrp hb hl hr hd

/-- floats with NaN, as `none` -/
def gtFloat : Option Int → Option Int → Bool
  | some a, some b => decide (a > b)
  | _, _ => false

/-- **C112, without vector instructions.** The maximum of NaN and 1 is NaN in the first four elements and 1 in the fifth: `float32x4` uses `std::max`, the rest
of the loop another comparison. -/
theorem C112_maximum_nan_false :
    maximum gtFloat (fun x _ => x) .base [5] [5] (List.replicate 5 none) (List.replicate 5 (some 1)) (List.replicate 5 (some 0)) =
      .ok ([5], [none, none, none, none, some 1]) := by decide

/-- **C112, the order of the operands.** The maximum of NaN and 1 is 1, that of 1 and NaN is NaN. -/
theorem C112_maximum_comm_false (w : Lanes) (nm : Option Int → Option Int → Option Int) :
    maximum gtFloat nm w [1] [1] [none] [some 1] [none] = .ok ([1], [some 1]) ∧ maximum gtFloat nm w [1] [1] [some 1] [none] [none] = .ok ([1], [none]) :=
  ⟨rfl, rfl⟩

/-! ### The hypotheses are satisfiable: bias, scalar and general paths with lanes -/

example : NumpyCompatible [2, 1, 5] [1, 3, 1] ∧ broadcastShape [2, 1, 5] [1, 3, 1] = [2, 3, 5] := by
  refine ⟨?_, by decide⟩
  rw [compatible_iff]; decide

/-- lanes add, single elements multiply: a bias over channels of five elements -/
example : Kernels.Vec.elementWise .swap (fun x y => x + y) (fun x y => x * y) [2, 5] [2, 1] [1, 2, 3, 4, 5, 6, 7, 8, 9, 10] [10, 20] (List.replicate 10 0) =
    .ok ([2, 5], [11, 12, 13, 14, 50, 26, 27, 28, 29, 200]) := by decide

example : maximum gtFloat (fun x _ => x) .sse [5] [5] (List.replicate 5 none) (List.replicate 5 (some 1)) (List.replicate 5 (some 0)) =
    .ok ([5], List.replicate 5 (some 1)) := by decide

end Verif.Props.Vec
