import Verif.Runtime.InferAnswer
import Verif.Runtime.InferAnswer2
import Verif.Props.InferAnswer3
/-!
# C45, the other direction: the inference answers when everything is known

The specification of a tensor is `Verif.Props.Infer3.Whole`.
-/
namespace Verif.Props.Infer
open Verif.Core hiding Fits
open Verif.Kernels Verif.Runtime.Infer Verif.Props Verif.Props.Infer3

/-- **Specification**: paddings are not negative; a concatenation of a single operand names one of its dimensions. -/
def Readable : Op → List Val → Prop
  | .conv2d _ w, _ => ∀ i, 0 ≤ w.pad i
  | .pooling2d _ w, _ => ∀ i, 0 ≤ w.pad i
  | .concat d, vs => ∀ v, vs = [v] → -(v.shape.length : Int) ≤ d ∧ d < v.shape.length
  | _, _ => True

theorem plain_answers {r : Res (Option (List Int))} (h : ∃ p, r = .ok (some p)) : ∃ p sv, (plain r : RuleOut (List Int) Val) = .ok p sv := by
  obtain ⟨p, rfl⟩ := h
  exact ⟨p, none, rfl⟩

theorem flatten_answers {d : Int} {x O : List Int} (h : flattenShape d x = .ok O) : ∃ y, ruleFlatten d x = .ok (some y) :=
  ⟨O, by unfold ruleFlatten; rw [h]; rfl⟩

theorem flatten2d_answers {d : Int} {x O : List Int} (h : flatten2dShape d x = .ok O) : ∃ y, ruleFlatten2d d x = .ok (some y) :=
  ⟨O, by unfold ruleFlatten2d; rw [h]; rfl⟩

theorem rule_answers (rnd : Rat → Rat) (op : Op) (vs : List Val) (s : List Int)
    (hw : ∀ v ∈ vs, Whole v) (hread : Readable op vs) (hok : OpOk op (vs.map Val.shape) (vs.map some)) (hrun : opShape rnd op vs = .ok s) :
    ∃ p sv, opRule rnd op (vs.map Val.shape) (vs.map some) = .ok p sv := by
  have one : ∀ {f : Val → Res (List Int)}, (match vs with | [x] => f x | _ => .err) = .ok s → ∃ x, vs = [x] ∧ f x = .ok s := by
    intro f h
    split at h
    · exact ⟨_, rfl, h⟩
    · cases h
  cases op with
  | param p => cases hrun
  | const v => cases hrun
  | reshape r =>
    rcases vs with _ | ⟨x, _ | ⟨y, vs⟩⟩ <;> simp only [opShape] at hrun
    · cases hrun
    · simp only [Res.bind_eq_ok] at hrun
      obtain ⟨t, ht, -⟩ := hrun
      exact plain_answers (reshape_answers (fun a ha => ((hw x (by simp)).extents a ha).1) ht)
    · cases hrun
  | reshapeV2 =>
    rcases vs with _ | ⟨x, _ | ⟨y, _ | ⟨z, vs⟩⟩⟩ <;> simp only [opShape] at hrun
    · cases hrun
    · cases hrun
    · simp only [Res.bind_eq_ok] at hrun
      obtain ⟨t, ht, -⟩ := hrun
      exact plain_answers (reshapeV2_answers ht)
    · cases hrun
  | copy =>
    rcases vs with _ | ⟨x, vs⟩
    · cases hrun
    · exact ⟨_, _, rfl⟩
  | eltwise =>
    rcases vs with _ | ⟨x, _ | ⟨y, _ | ⟨z, vs⟩⟩⟩ <;> simp only [opShape] at hrun
    · cases hrun
    · cases hrun
    · exact plain_answers (Runtime.Infer3.ruleEltwise_answers (hw x (by simp)).rank (hw y (by simp)).rank)
    · cases hrun
  | flatten d =>
    rcases vs with _ | ⟨x, _ | ⟨y, vs⟩⟩ <;> simp only [opShape] at hrun
    · cases hrun
    · exact plain_answers (flatten_answers hrun)
    · cases hrun
  | flatten2d d =>
    rcases vs with _ | ⟨x, _ | ⟨y, vs⟩⟩ <;> simp only [opShape] at hrun
    · cases hrun
    · exact plain_answers (flatten2d_answers hrun)
    · cases hrun
  | squeeze a =>
    rcases vs with _ | ⟨x, _ | ⟨y, vs⟩⟩ <;> simp only [opShape] at hrun
    · cases hrun
    · exact plain_answers (squeeze_answers hok.1 hok.2 hrun)
    · cases hrun
  | unsqueeze a =>
    rcases vs with _ | ⟨x, _ | ⟨y, vs⟩⟩ <;> simp only [opShape] at hrun
    · cases hrun
    · exact plain_answers (unsqueeze_answers hrun)
    · cases hrun
  | expand f e i =>
    obtain ⟨rfl, rfl⟩ := hok
    rcases vs with _ | ⟨x, _ | ⟨y, _ | ⟨z, vs⟩⟩⟩ <;> simp only [opShape] at hrun
    · cases hrun
    · cases hrun
    · simp only [Res.bind_eq_ok] at hrun
      obtain ⟨n, hn, t, ht, -⟩ := hrun
      simp only [List.map_cons, List.map_nil, opRule, hn, Res.bind_ok]
      exact plain_answers (expand_answers (hw x (by simp)).rank ht)
    · cases hrun
  | transpose p =>
    obtain ⟨q, rfl, hq⟩ := hok
    rcases vs with _ | ⟨x, _ | ⟨y, vs⟩⟩ <;> simp only [opShape] at hrun
    · cases hrun
    · simp only [Res.bind_eq_ok] at hrun
      obtain ⟨m, hm, p, hp, h⟩ := hrun
      exact plain_answers (transpose_answers hq hm hp h)
    · cases hrun
  | concat d =>
    simp only [opShape, Res.bind_eq_ok] at hrun
    obtain ⟨o, ho, -⟩ := hrun
    refine plain_answers (concat_answers (xs := vs.map Val.shape) ?_ ?_ (O := o) (by simpa only [List.map_map, Function.comp_def] using ho))
    · intro x hx a ha
      obtain ⟨v, hv, rfl⟩ := List.mem_map.1 hx
      exact ((hw v hv).extents a ha).1
    · intro x hx
      rcases vs with _ | ⟨v, _ | ⟨u, vs⟩⟩
      · simp at hx
      · simp at hx
        subst hx
        exact hread v rfl
      · simp at hx
  | shape =>
    rcases vs with _ | ⟨x, vs⟩
    · cases hrun
    · exact ⟨_, _, rfl⟩
  | dims =>
    rcases vs with _ | ⟨x, vs⟩
    · cases hrun
    · exact ⟨_, _, rfl⟩
  | conv2d f w =>
    obtain ⟨rfl, -⟩ := hok
    rcases vs with _ | ⟨x, _ | ⟨y, _ | ⟨z, vs⟩⟩⟩ <;> simp only [opShape] at hrun
    · cases hrun
    · cases hrun
    · exact plain_answers (conv2d_rule_answers (hw x (by simp)).extents hread hrun)
    · cases hrun
  | pooling2d f w =>
    rcases vs with _ | ⟨x, _ | ⟨y, vs⟩⟩ <;> simp only [opShape] at hrun
    · cases hrun
    · exact plain_answers (pooling2d_answers (hw x (by simp)).extents hread hrun)
    · cases hrun
  | globalPool f =>
    rcases vs with _ | ⟨x, _ | ⟨y, vs⟩⟩ <;> simp only [opShape] at hrun
    · cases hrun
    · exact plain_answers (globalPool_answers hrun)
    · cases hrun
  | gather a =>
    rcases vs with _ | ⟨x, _ | ⟨y, _ | ⟨z, vs⟩⟩⟩ <;> simp only [opShape] at hrun
    · cases hrun
    · cases hrun
    · exact plain_answers (gather_answers hrun)
    · cases hrun
  | argmax d =>
    rcases vs with _ | ⟨x, _ | ⟨y, vs⟩⟩ <;> simp only [opShape] at hrun
    · cases hrun
    · exact plain_answers (argmax_answers hrun)
    · cases hrun
  | stack a => exact plain_answers (stack_answers hrun)
  | tile r =>
    rcases vs with _ | ⟨x, _ | ⟨y, vs⟩⟩ <;> simp only [opShape] at hrun
    · cases hrun
    · exact plain_answers (tile_answers (fun a ha => ((hw x (by simp)).extents a ha).1) hrun)
    · cases hrun
  | pad =>
    rcases vs with _ | ⟨x, _ | ⟨y, _ | ⟨z, vs⟩⟩⟩ <;> simp only [opShape] at hrun
    · cases hrun
    · cases hrun
    · exact plain_answers (pad_answers (fun a ha => ((hw x (by simp)).extents a ha).1) (hw y (by simp)).elements hrun)
    · cases hrun
  | innerProd t =>
    rcases vs with _ | ⟨x, _ | ⟨y, _ | ⟨z, vs⟩⟩⟩ <;> simp only [opShape] at hrun
    · cases hrun
    · cases hrun
    · exact plain_answers (innerProd_answers hrun)
    · cases hrun
  | gemm ta tb =>
    rcases vs with _ | ⟨x, _ | ⟨y, _ | ⟨z, _ | ⟨u, vs⟩⟩⟩⟩ <;> simp only [opShape] at hrun
    · cases hrun
    · cases hrun
    · cases hrun
    · exact plain_answers (gemm_answers hrun)
    · cases hrun

/-- **C45, known operands, without the cases that `OpOk` and `Readable` exclude.** If one of the operators of C45 gives the tensors `vs` a result of shape
`s`, its rule, told all shapes and elements, answers, and the prototype describes every tensor of that shape. Missing: what `OpOk` and `Readable` exclude. -/
theorem C45_answers_partial (rnd : Rat → Rat) (op : Op) (vs : List Val) (s : List Int)
    (hw : ∀ v ∈ vs, Whole v) (hread : Readable op vs) (hok : OpOk op (vs.map Val.shape) (vs.map some)) (hrun : opShape rnd op vs = .ok s) :
    ∃ p sv, opRule rnd op (vs.map Val.shape) (vs.map some) = .ok p sv ∧ ∀ v : Val, v.shape = s → Describes p v := by
  obtain ⟨p, sv, hp⟩ := rule_answers rnd op vs s hw hread hok hrun
  refine ⟨p, sv, hp, fun v hv => describes_iff.2 ?_⟩
  obtain ⟨u, hu, hus⟩ : ∃ u, opRun rnd (fun _ _ => []) op vs = some u ∧ u.shape = s := by
    unfold opRun
    rw [hrun]
    split <;> rename_i s' hs'
    · cases hs'
      split
      · exact ⟨⟨s, _⟩, rfl, rfl⟩
      · exact ⟨⟨s, _⟩, rfl, rfl⟩
      · exact ⟨⟨s, _⟩, rfl, rfl⟩
    · exact absurd rfl (hs' s)
  rw [hv, ← hus]
  exact (op_sound rnd (fun _ _ => []) op _ _ vs u p sv hok (rows_exact vs) (rows_known vs) (fun x hx a ha => ((hw x hx).extents a ha).1) hu hp).1

/-- A padded convolution that meets the hypotheses. -/
example : ∃ p sv, opRule id (.conv2d .nchw ⟨fun _ => 1, fun _ => 2, fun _ => 1, fun _ => 3⟩) [[1, 2, 5, 5], [4, 2, 3, 3]]
      [some ⟨[1, 2, 5, 5], List.replicate 50 0⟩, some ⟨[4, 2, 3, 3], List.replicate 72 0⟩] = .ok p sv ∧ ∀ v : Val, v.shape = [1, 4, 3, 3] → Describes p v :=
  C45_answers_partial id (.conv2d .nchw ⟨fun _ => 1, fun _ => 2, fun _ => 1, fun _ => 3⟩)
    [⟨[1, 2, 5, 5], List.replicate 50 0⟩, ⟨[4, 2, 3, 3], List.replicate 72 0⟩] [1, 4, 3, 3]
    (by simp only [List.mem_cons, List.not_mem_nil, or_false]; rintro v (rfl | rfl) <;> exact ⟨by decide, by decide, by decide⟩)
    (fun _ => Int.zero_le_ofNat 1) ⟨rfl, by intro k hk; simp at hk; subst hk; decide⟩ (by decide)

/-- A reshape with a zero and an unknown extent. -/
example : ∃ p sv, opRule id (.reshape [0, -1]) [[2, 3, 4]] [some ⟨[2, 3, 4], List.replicate 24 0⟩] = .ok p sv ∧ ∀ v : Val, v.shape = [2, 12] → Describes p v :=
  C45_answers_partial id (.reshape [0, -1]) [⟨[2, 3, 4], List.replicate 24 0⟩] [2, 12]
    (by simp only [List.mem_cons, List.not_mem_nil, or_false]; rintro v rfl; exact ⟨by decide, by decide, by decide⟩)
    trivial trivial (by decide)

/-- **C45 fails for a concatenation of one operand along a dimension it does not have: executed, refused by the inference.** -/
theorem C45_concat_single_false (rnd : Rat → Rat) :
    opShape rnd (.concat 7) [⟨[2], [5, 6]⟩] = .ok [2] ∧ opRule rnd (.concat 7) [[2]] [some ⟨[2], [5, 6]⟩] = .void := ⟨rfl, rfl⟩

end Verif.Props.Infer
