import Verif.Runtime.InferAnswer3
import Verif.Props.InferRules3
/-!
# C110, the other direction: the inference answers when everything is known

**Specification.** The operands are tensors (`Whole`): at most seven extents, each an `int` and not negative, and as many elements as the extents say. If
the execution of an operator gives them a result, the registered rule, told the shapes and the elements of all operands, announces a prototype, and the
prototype describes the result. `OpOk3` excludes what C110 excludes; `Readable` says which further operands the sums of the rules are computed for.
-/
namespace Verif.Props.Infer3
open Verif.Core hiding Fits
open Verif.Kernels Verif.Runtime.Infer Verif.Runtime.Infer2 Verif.Runtime.Infer3 Verif.Props Verif.Props.Infer2

/-- **Specification**: a tensor -/
structure Whole (v : Val) : Prop where
  rank : v.shape.length ≤ 7
  extents : ∀ a ∈ v.shape, 0 ≤ a ∧ a < 2 ^ 31
  elements : (v.ints.length : Int) = v.shape.prod

/-- **Specification**: paddings are not negative, and a request for a shape has at most seven extents. -/
def Readable : Op3 → List Val → Prop
  | .broadcast, vs => ∀ v, vs[1]? = some v → v.ints.length ≤ 7
  | .depthwise _ w, _ => ∀ i, 0 ≤ w.pad i
  | .conv2dV2 _ _, vs => ∀ v, vs[1]? = some v → ∀ a ∈ v.ints, 0 ≤ a
  | .pooling2dV2 _ _, vs => ∀ v, vs[1]? = some v → ∀ a ∈ v.ints, 0 ≤ a
  | _, _ => True

theorem rows_exact (vs : List Val) : Rows (fun p (v : Val) => Fits p v.shape) (vs.map Val.shape) vs := by
  refine ⟨by simp, fun i x y h1 h2 => ?_⟩
  rw [List.getElem?_map, h2] at h1
  cases h1
  exact Fits.refl _

theorem rows_known (vs : List Val) : Rows (fun k v => ∀ w, k = some w → w = v) (vs.map some) vs := by
  refine ⟨by simp, fun i x y h1 h2 w hw => ?_⟩
  rw [List.getElem?_map, h2] at h1
  cases h1
  cases hw
  rfl

theorem rule_answers (rnd : Rat → Rat) (hsgn : SignRound rnd) (op : Op3) (hop : ∀ o, op ≠ .base o) (vs : List Val) (s : List Int)
    (hw : ∀ v ∈ vs, Whole v) (hread : Readable op vs) (hok : OpOk3 rnd op (vs.map Val.shape) (vs.map some)) (hrun : opShape3 rnd op vs = .ok s) :
    ∃ p, opRule3 rnd op (vs.map Val.shape) (vs.map some) = .ok p none := by
  have key : ∀ r : Res (Option (List Int)), (∃ p, r = .ok (some p)) → ∃ p, (plain r : RuleOut (List Int) Val) = .ok p none := by
    rintro _ ⟨p, rfl⟩
    exact ⟨p, rfl⟩
  cases op with
  | base o => exact absurd rfl (hop o)
  | equal =>
    rcases vs with _ | ⟨x, _ | ⟨y, _ | ⟨z, vs⟩⟩⟩ <;> simp only [opShape3, opShape] at hrun
    · cases hrun
    · cases hrun
    · exact key _ (ruleEltwise_answers (hw x (by simp)).rank (hw y (by simp)).rank)
    · cases hrun
  | sliceV2 =>
    rcases vs with _ | ⟨x, _ | ⟨y, _ | ⟨z, _ | ⟨u, vs⟩⟩⟩⟩ <;> simp only [opShape3] at hrun
    · cases hrun
    · cases hrun
    · cases hrun
    · exact key _ (sliceV2_answers (hw x (by simp)).extents (hok z rfl) hrun)
    · cases hrun
  | sample2d c d =>
    rcases vs with _ | ⟨x, _ | ⟨y, vs⟩⟩ <;> simp only [opShape3] at hrun
    · cases hrun
    · exact key _ (sample2d_answers hsgn hrun)
    · cases hrun
  | sample2dV2 real =>
    rcases vs with _ | ⟨x, _ | ⟨y, _ | ⟨z, vs⟩⟩⟩ <;> simp only [opShape3] at hrun
    · cases hrun
    · cases hrun
    · refine key (ruleSample2dV2 rnd (y.ints.map real) x.shape) ?_
      unfold Exec.sample2dV2 at hrun
      unfold ruleSample2dV2
      split at hrun
      · cases hrun
      rename_i hl
      simp only [Res.bind_eq_ok] at hrun
      obtain ⟨f, hf, -⟩ := hrun
      rw [if_neg (fun h => hl (fun h' => h h'.symm) )]
      obtain ⟨o, ho⟩ := scaleLoop_answers hsgn (fun a ha => ((hw x (by simp)).extents a ha).1) (fun i a t h1 h2 hpos => by
        rw [List.getElem?_map] at h2
        obtain ⟨u, hu, rfl⟩ := Option.map_eq_some_iff.1 h2
        exact (hok x.shape y rfl rfl i a u h1 hu).2 hpos) hf
      rw [ho]
      exact ⟨_, rfl⟩
    · cases hrun
  | broadcast =>
    rcases vs with _ | ⟨x, _ | ⟨y, _ | ⟨z, vs⟩⟩⟩ <;> simp only [opShape3] at hrun
    · cases hrun
    · cases hrun
    · exact key _ (ruleEltwise_answers (hw x (by simp)).rank (hread y rfl))
    · cases hrun
  | winograd m =>
    rcases vs with _ | ⟨x, _ | ⟨y, vs⟩⟩ <;> simp only [opShape3] at hrun
    · cases hrun
    · exact key _ (winograd_answers hrun)
    · cases hrun
  | depthwise f w =>
    rcases vs with _ | ⟨x, _ | ⟨y, _ | ⟨z, vs⟩⟩⟩ <;> simp only [opShape3] at hrun
    · cases hrun
    · cases hrun
    · obtain ⟨rfl, -⟩ := hok
      exact key _ (depthwise_answers (hw x (by simp)).extents hread hrun)
    · cases hrun
  | conv2dV2 f w =>
    rcases vs with _ | ⟨x, _ | ⟨y, _ | ⟨z, _ | ⟨u, vs⟩⟩⟩⟩ <;> simp only [opShape3] at hrun
    · cases hrun
    · cases hrun
    · cases hrun
    · obtain ⟨rfl, -⟩ := hok
      refine key _ (conv2dV2_answers (hw x (by simp)).extents (hread y rfl) (fun h => ?_) hrun)
      have := (hw y (by simp)).elements
      rw [h] at this
      simp at this
      omega
    · cases hrun
  | pooling2dV2 f w =>
    rcases vs with _ | ⟨x, _ | ⟨y, _ | ⟨z, _ | ⟨u, _ | ⟨t, vs⟩⟩⟩⟩⟩ <;> simp only [opShape3] at hrun
    · cases hrun
    · cases hrun
    · cases hrun
    · cases hrun
    · refine key _ (pooling2dV2_answers (hw x (by simp)).extents (hread y rfl) (fun h => ?_) (fun h => ?_) (fun h => ?_) hrun)
      · have := (hw y (by simp)).elements
        rw [h] at this
        simp at this
        omega
      · have := (hw z (by simp)).elements
        rw [h] at this
        simp at this
        omega
      · have := (hw u (by simp)).elements
        rw [h] at this
        simp at this
        omega
    · cases hrun
  | roiAlign a b =>
    rcases vs with _ | ⟨x, _ | ⟨y, _ | ⟨z, vs⟩⟩⟩ <;> simp only [opShape3] at hrun
    · cases hrun
    · cases hrun
    · exact key _ (roiAlign_answers hrun)
    · cases hrun
  | strided b e s bm em sm =>
    rcases vs with _ | ⟨x, _ | ⟨y, vs⟩⟩ <;> simp only [opShape3] at hrun
    · cases hrun
    · exact key _ (strided_answers (hw x (by simp)).extents hrun)
    · cases hrun

/-- **C110, known operands, without the cases of `OpOk3`.** If one of the operators of C110 gives the tensors `vs` a result of shape `s`, its rule, told
all shapes and elements, answers, without a value, and the prototype describes every tensor of that shape. Missing: what `OpOk3` and `Readable` exclude. -/
theorem C110_answers_partial (rnd : Rat → Rat) (hrnd : NearRound rnd) (hsgn : SignRound rnd) (op : Op3) (hop : ∀ o, op ≠ .base o) (vs : List Val)
    (s : List Int) (hw : ∀ v ∈ vs, Whole v) (hread : Readable op vs) (hok : OpOk3 rnd op (vs.map Val.shape) (vs.map some))
    (hrun : opShape3 rnd op vs = .ok s) :
    ∃ p, opRule3 rnd op (vs.map Val.shape) (vs.map some) = .ok p none ∧ ∀ v : Val, v.shape = s → Describes p v := by
  obtain ⟨p, hp⟩ := rule_answers rnd hsgn op hop vs s hw hread hok hrun
  refine ⟨p, hp, fun v hv => describes_iff.2 ?_⟩
  have hrun' : opRun3 rnd (fun _ _ => v.ints) op vs = some v := by
    have e : (⟨s, v.ints⟩ : Val) = v := by rw [← hv]
    cases op <;> first | exact absurd rfl (hop _) | (simp only [opRun3, hrun, e])
  exact (op3_sound rnd hrnd hsgn (fun _ _ => v.ints) op _ _ vs v p none hok (rows_exact vs) (rows_known vs)
    (fun x hx => (hw x hx).extents) hrun' hp).1

/-- A strided slice that meets the hypotheses; its prototype is the shape itself. -/
example : ∃ p, opRule3 id (.strided [1, 0] [5, 1] [2, 1] 0 0 2) [[6, 3, 2]] [some ⟨[6, 3, 2], List.replicate 36 0⟩] = .ok p none ∧
    ∀ v : Val, v.shape = [2, 2] → Describes p v :=
  C110_answers_partial id id_near id_sign (.strided [1, 0] [5, 1] [2, 1] 0 0 2) (by simp) [⟨[6, 3, 2], List.replicate 36 0⟩] [2, 2]
    (by simp only [List.mem_singleton]; rintro v rfl; exact ⟨by decide, by decide, by decide⟩) trivial
    (by intro p hp; simp at hp; subst hp; decide) (by decide)

/-- **C110, winograd.** A kernel of size 3 x 3 is transformed to 8 x 8 for `winograd_f63` and to 4 x 4 for `winograd_f23`. -/
theorem C110_winograd_extents (rnd : Rat → Rat) (n c : Int) (e : List Int) :
    opShape3 rnd (.winograd "winograd_f63") [⟨[n, c, 3, 3], e⟩] = .ok [n, c, 8, 8] ∧
      opShape3 rnd (.winograd "winograd_f23") [⟨[n, c, 3, 3], e⟩] = .ok [n, c, 4, 4] := ⟨rfl, rfl⟩

/-- **C110: the rule of `sample2d` answers nothing, and reads nothing, for a dimension without a next one.** -/
theorem C110_sample2d_void (rnd : Rat → Rat) (c : Rat) (dim : Int) (x : List Int) (k : List (Option Val))
    (h : ∀ i : Nat, i + 1 < x.length → dim ≠ i ∧ dim ≠ (i : Int) - x.length) : opRule3 rnd (.sample2d c dim) [x] k = .void := by
  have hr : ruleSample2d rnd c dim x = .ok none := by
    unfold ruleSample2d
    simp only
    rw [if_pos]
    by_contra hcon
    split at hcon
    · have := h (dim + x.length).toNat (by omega)
      omega
    · have := h dim.toNat (by omega)
      omega
  simp only [opRule3, hr, plain]

example : opRule3 id (.sample2d 2 (-1)) [[3, 4]] [none] = .void :=
  C110_sample2d_void id 2 (-1) [3, 4] [none] (by intro i hi; simp at hi; subst hi; decide)

/-- **C110 fails for operands that are too short: the rules of `winograd_transform_kernel` and `pooling2d_v2` read past them; the executions refuse them.** -/
theorem C110_short_false (rnd : Rat → Rat) :
    (∀ x : List Int, x.length < 4 → ∀ e k, opRule3 rnd (.winograd "winograd_f63") [x] k = .fails .undefined ∧
      opShape3 rnd (.winograd "winograd_f63") [⟨x, e⟩] = .err) ∧
    (∀ (x p k s : Val) (f : Format) (w : ConvAttrs), (∃ n, s.shape = [n] ∧ n ≠ 4) → s.ints.length < 4 →
      opRule3 rnd (.pooling2dV2 f w) [x.shape, p.shape, k.shape, s.shape] [none, some p, some k, some s] = .fails .undefined ∧
      opShape3 rnd (.pooling2dV2 f w) [x, p, k, s] = .err) := by
  refine ⟨fun x hx e k => ⟨?_, ?_⟩, fun x p k s f w ⟨n, hn, h4⟩ hs => ⟨?_, ?_⟩⟩
  · have : Exec.winogradExtent "winograd_f63" = some 8 := by decide
    simp only [opRule3, ruleWinograd, this, if_pos hx, plain]
  · rcases x with _ | ⟨a, _ | ⟨b, _ | ⟨c, _ | ⟨d, x⟩⟩⟩⟩
    · rfl
    · rfl
    · rfl
    · rfl
    · simp at hx; omega
  · simp only [opRule3, withValue, rulePooling2dV2]
    rw [if_pos (.inr (.inr hs))]
    rfl
  · simp only [opShape3, Exec.pooling2dV2]
    rw [if_pos]
    exact .inr (.inr (by rw [hn]; simpa using h4))

example : opRule3 id (.winograd "winograd_f63") [[4, 3]] [none] = .fails .undefined := ((C110_short_false id).1 [4, 3] (by decide) [] _).1

/-- **C110, `slice_v2` without begin and size.** The inference announces the operand's own shape; the execution refuses such a node. -/
theorem C110_slice_v2_missing (rnd : Rat → Rat) (x : List Int) (e : List Int) (k : Option Val) :
    opRule3 rnd .sliceV2 [x] [k] = .ok x none ∧ opShape3 rnd .sliceV2 [⟨x, e⟩] = .err := by
  refine ⟨?_, rfl⟩
  cases x <;> rfl

end Verif.Props.Infer3
