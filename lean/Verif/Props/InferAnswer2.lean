import Verif.Runtime.InferAnswer4
import Verif.Props.InferRules2
import Verif.Props.InferAnswer
/-!
# C102, the other direction: the inference answers when everything is known

The specification of a tensor is `Verif.Props.Infer3.Whole`.
-/
namespace Verif.Props.Infer2
open Verif.Core hiding Fits
open Verif.Kernels Verif.Runtime.Infer Verif.Runtime.Infer2 Verif.Props Verif.Props.Infer3

/-- **Specification**: a limit has as many extents as the operand; the sizes of a slice are ints; the two paddings of each dimension add up to an int. -/
def Readable2 : Op2 → List Val → Prop
  | .base o, vs => Infer.Readable o vs
  | .limit l, vs => ∀ v, vs = [v] → l.length = v.shape.length
  | .slice _ s, _ => ∀ v ∈ s, -2147483648 ≤ v ∧ v ≤ 2147483647
  | .transposeConv _ a, _ => ∀ i, -2147483648 ≤ a.pad (2 * i) + a.pad (2 * i + 1) ∧ a.pad (2 * i) + a.pad (2 * i + 1) ≤ 2147483647
  | _, _ => True

theorem rule2_answers (rnd : Rat → Rat) (op : Op2) (vs : List Val) (s : List Int)
    (hw : ∀ v ∈ vs, Whole v) (hread : Readable2 op vs) (hok : OpOk2 op (vs.map Val.shape) (vs.map some)) (hrun : opShape2 rnd op vs = .ok s) :
    ∃ p sv, opRule2 rnd op (vs.map Val.shape) (vs.map some) = .ok p sv := by
  have key : ∀ r : Res (Option (List Int)), (∃ p, r = .ok (some p)) → ∃ p sv, (plain r : RuleOut (List Int) Val) = .ok p sv := by
    rintro _ ⟨p, rfl⟩
    exact ⟨p, none, rfl⟩
  cases op with
  | base o => exact Infer.rule_answers rnd o vs s hw hread hok hrun
  | constantOfShape =>
    rcases vs with _ | ⟨x, _ | ⟨y, vs⟩⟩ <;> simp only [opShape2] at hrun
    · cases hrun
    · exact ⟨_, _, rfl⟩
    · cases hrun
  | resize2d =>
    rcases vs with _ | ⟨x, _ | ⟨y, _ | ⟨z, vs⟩⟩⟩ <;> simp only [opShape2] at hrun
    · cases hrun
    · cases hrun
    · exact key _ (resize2d_answers (fun a ha => ((hw x (by simp)).extents a ha).1) hrun)
    · cases hrun
  | nearest d =>
    rcases vs with _ | ⟨x, _ | ⟨y, _ | ⟨z, vs⟩⟩⟩ <;> simp only [opShape2] at hrun
    · cases hrun
    · cases hrun
    · exact key _ (nearest_answers (fun a ha => ((hw x (by simp)).extents a ha).1) hrun)
    · cases hrun
  | affine d =>
    rcases vs with _ | ⟨x, _ | ⟨y, _ | ⟨z, _ | ⟨u, vs⟩⟩⟩⟩ <;> simp only [opShape2] at hrun
    · cases hrun
    · cases hrun
    · cases hrun
    · exact key _ (affine_answers hrun)
    · cases hrun
  | dimshuffle d s =>
    rcases vs with _ | ⟨x, _ | ⟨y, vs⟩⟩ <;> simp only [opShape2] at hrun
    · cases hrun
    · exact key _ (dimshuffle_answers hrun)
    · cases hrun
  | limit l =>
    rcases vs with _ | ⟨x, _ | ⟨y, vs⟩⟩ <;> simp only [opShape2] at hrun
    · cases hrun
    · exact key _ (limit_answers (hread x rfl))
    · cases hrun
  | centerCrop l =>
    rcases vs with _ | ⟨x, _ | ⟨y, vs⟩⟩ <;> simp only [opShape2] at hrun
    · cases hrun
    · exact key _ (centerCrop_answers hrun)
    · cases hrun
  | cropNd t =>
    rcases vs with _ | ⟨x, _ | ⟨y, _ | ⟨z, vs⟩⟩⟩ <;> simp only [opShape2] at hrun
    · cases hrun
    · cases hrun
    · exact key _ (cropNd_answers hrun)
    · cases hrun
  | letterbox l =>
    rcases vs with _ | ⟨x, _ | ⟨y, vs⟩⟩ <;> simp only [opShape2] at hrun
    · cases hrun
    · exact key _ (letterbox_answers hrun)
    · cases hrun
  | scaleResize l =>
    rcases vs with _ | ⟨x, _ | ⟨y, vs⟩⟩ <;> simp only [opShape2] at hrun
    · cases hrun
    · exact key _ (scaleResize_answers hrun)
    · cases hrun
  | divided l =>
    rcases vs with _ | ⟨x, _ | ⟨y, vs⟩⟩ <;> simp only [opShape2] at hrun
    · cases hrun
    · exact key _ (divided_answers hrun)
    · cases hrun
  | forceColor =>
    rcases vs with _ | ⟨x, _ | ⟨y, vs⟩⟩ <;> simp only [opShape2] at hrun
    · cases hrun
    · exact key _ (forceColor_answers hrun)
    · cases hrun
  | forceGray n =>
    rcases vs with _ | ⟨x, _ | ⟨y, vs⟩⟩ <;> simp only [opShape2] at hrun
    · cases hrun
    · exact key _ (forceGray_answers hrun)
    · cases hrun
  | spaceToBatch p b =>
    rcases vs with _ | ⟨x, _ | ⟨y, vs⟩⟩ <;> simp only [opShape2] at hrun
    · cases hrun
    · exact key _ (spaceToBatch_answers (fun a ha => ((hw x (by simp)).extents a ha).1) hrun)
    · cases hrun
  | batchToSpace c b =>
    rcases vs with _ | ⟨x, _ | ⟨y, vs⟩⟩ <;> simp only [opShape2] at hrun
    · cases hrun
    · exact key _ (batchToSpace_answers (hw x (by simp)).extents hrun)
    · cases hrun
  | gatherV2 =>
    rcases vs with _ | ⟨x, _ | ⟨y, _ | ⟨z, vs⟩⟩⟩ <;> simp only [opShape2] at hrun
    · cases hrun
    · cases hrun
    · exact key _ (gatherV2_answers (fun a ha => ((hw y (by simp)).extents a ha).1) hrun)
    · cases hrun
  | maxOver a k =>
    obtain ⟨ha, hk⟩ := hok
    have e : (k == 1) = (k != 0) := by rcases hk with rfl | rfl <;> rfl
    rcases vs with _ | ⟨x, _ | ⟨y, vs⟩⟩ <;> simp only [opShape2] at hrun
    · cases hrun
    · exact key _ (reduce_answers (hw x (by simp)).rank ha (e ▸ hrun))
    · cases hrun
  | reduceSum a k =>
    rcases vs with _ | ⟨x, _ | ⟨y, vs⟩⟩ <;> simp only [opShape2] at hrun
    · cases hrun
    · exact key _ (reduce_answers (hw x (by simp)).rank hok hrun)
    · cases hrun
  | nms m =>
    rcases vs with _ | ⟨x, _ | ⟨y, _ | ⟨z, vs⟩⟩⟩ <;> simp only [opShape2] at hrun
    · cases hrun
    · cases hrun
    · exact key _ (nms_answers hrun)
    · cases hrun
  | transposeConv f a =>
    obtain ⟨rfl, -⟩ := hok
    rcases vs with _ | ⟨x, _ | ⟨y, _ | ⟨z, vs⟩⟩⟩ <;> simp only [opShape2] at hrun
    · cases hrun
    · cases hrun
    · exact key _ (transposeConv_answers hread hrun)
    · cases hrun
  | slice b s =>
    rcases vs with _ | ⟨x, _ | ⟨y, vs⟩⟩ <;> simp only [opShape2] at hrun
    · cases hrun
    · exact key _ (slice_answers (hw x (by simp)).extents hread hrun)
    · cases hrun
  | whereOp =>
    rcases vs with _ | ⟨x, _ | ⟨y, _ | ⟨z, _ | ⟨u, vs⟩⟩⟩⟩ <;> simp only [opShape2] at hrun
    · cases hrun
    · cases hrun
    · cases hrun
    · exact key _ (where_answers (fun a ha => ((hw x (by simp)).extents a ha).1) (fun a ha => ((hw y (by simp)).extents a ha).1) (fun a ha => ((hw z (by simp)).extents a ha).1) (hw x (by simp)).rank (hw y (by simp)).rank (hw z (by simp)).rank hrun)
    · cases hrun

/-- **C102, known operands, without the cases that `OpOk2` and `Readable2` exclude.** If one of the operators of C102 gives the tensors `vs` a result of shape
`s`, its rule, told all shapes and elements, answers, and the prototype describes every tensor of that shape. Missing: what `OpOk2` and `Readable2`
exclude. -/
theorem C102_answers_partial (rnd : Rat → Rat) (hrnd : NearRound rnd) (op : Op2) (hop : ∀ o, op ≠ .base o) (vs : List Val) (s : List Int)
    (hw : ∀ v ∈ vs, Whole v) (hread : Readable2 op vs) (hok : OpOk2 op (vs.map Val.shape) (vs.map some)) (hrun : opShape2 rnd op vs = .ok s) :
    ∃ p sv, opRule2 rnd op (vs.map Val.shape) (vs.map some) = .ok p sv ∧ ∀ v : Val, v.shape = s → Describes p v := by
  obtain ⟨p, sv, hp⟩ := rule2_answers rnd op vs s hw hread hok hrun
  refine ⟨p, sv, hp, fun v hv => describes_iff.2 ?_⟩
  have hrun' : opRun2 rnd (fun _ _ => v.ints) op vs = some v := by
    have e : (⟨s, v.ints⟩ : Val) = v := by rw [← hv]
    cases op <;> first | exact absurd rfl (hop _) | (simp only [opRun2, hrun, e])
  exact (op2_sound rnd hrnd (fun _ _ => v.ints) op _ _ vs v p sv hok (rows_exact vs) (rows_known vs)
    (fun x hx a ha => ((hw x hx).extents a ha).1) hrun' hp).1

/-- A slice that meets the hypotheses: from row 1 two rows, from column 1 all columns. -/
example : ∃ p sv, opRule2 id (.slice [1, 1] [2, -1]) [[4, 3]] [some ⟨[4, 3], List.replicate 12 0⟩] = .ok p sv ∧ ∀ v : Val, v.shape = [2, 2] → Describes p v :=
  C102_answers_partial id id_near (.slice [1, 1] [2, -1]) (by simp) [⟨[4, 3], List.replicate 12 0⟩] [2, 2]
    (by simp only [List.mem_cons, List.not_mem_nil, or_false]; rintro v rfl; exact ⟨by decide, by decide, by decide⟩)
    (by unfold Readable2; decide) trivial (by decide)

/-- **C102 fails for a limit that names only the last dimensions: executed, not inferred.** -/
theorem C102_limit_short_false (rnd : Rat → Rat) (l x e : List Int) (hl : l.length < x.length) (h : ∀ a ∈ l, a = -1) (k : Option Val) :
    opShape2 rnd (.limit l) [⟨x, e⟩] = .ok x ∧ opRule2 rnd (.limit l) [x] [k] = .void := by
  constructor
  · have hall : ∀ (y z : List Int), y.length = z.length → (∀ a ∈ z, a = -1) → Exec.limited y z = y := by
      intro y
      induction y with
      | nil => intro z hz _; simp [Exec.limited]
      | cons a y ih =>
        intro z hz ha
        match z, hz with
        | b :: z, hz =>
          have hb := ha b (by simp)
          simp only [Exec.limited]
          rw [if_pos (.inl (by omega)), ih z (by simpa using hz) (fun c hc => ha c (by simp [hc]))]
    have e1 := hall x (List.replicate (x.length - l.length) (-1) ++ l) (by simp; omega) (by
      intro a ha
      rcases List.mem_append.1 ha with ha | ha
      · exact (List.mem_replicate.1 ha).2
      · exact h a ha)
    simp only [opShape2, Exec.limit]
    rw [if_neg (by omega), if_pos e1]
  · simp only [opRule2, ruleLimit]
    rw [if_pos (by omega)]
    rfl

example : opShape2 id (.limit [-1]) [⟨[2, 3], []⟩] = .ok [2, 3] ∧ opRule2 id (.limit [-1]) [[2, 3]] [none] = .void :=
  C102_limit_short_false id [-1] [2, 3] [] (by decide) (by decide) none

end Verif.Props.Infer2
