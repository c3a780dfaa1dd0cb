import Verif.Runtime.InferAgree3
import Verif.Props.InferRules
/-!
# C102: inferred prototypes and executed shapes of further operators

**Specification.** As for C45 (Verif/Props/InferRules.lean): a prototype describes a tensor (`Describes`) if the ranks agree and every extent that is not
negative is the tensor's. The graphs are made of the operators of C45 and of resizing, cropping, limiting, shuffling, reducing, slicing, … (`Op2`).
-/
namespace Verif.Props.Infer2
open Verif.Core hiding Fits
open Verif.Kernels Verif.Runtime.Infer Verif.Runtime.Infer2 Verif.Props

/-- **Specification**: what is excluded, operator by operator; see the `_false` theorems below for why. `ps` are the prototypes inferred for the inputs,
`ks` the values known for them. -/
def OpOk2 : Op2 → List (List Int) → List (Option Val) → Prop
  | .base o, ps, ks => OpOk o ps ks
  | .limit _, ps, _ => ∀ p, ps[0]? = some p → 0 ∉ p
  | .centerCrop s, ps, _ => 0 ∉ s ∧ ∀ p, ps[0]? = some p → 0 ∉ p
  | .cropNd _, ps, _ => ∀ p, ps[0]? = some p → 0 ∉ p
  | .scaleResize s, ps, _ => ∀ v, s = [v] → ∀ p, ps[0]? = some p → ∀ (i : Nat), (i = 1 ∨ i = 2) → ∀ a, p[i]? = some a → 0 ≤ a
  | .divided s, ps, _ => (∀ a ∈ s, 1 ≤ a ∧ a < 2 ^ 31) ∧ ∀ p, ps[0]? = some p → (∀ a ∈ p, a ≠ 0 ∧ a < 2 ^ 31) ∧
      ∀ (i : Nat) a b, s[i]? = some a → p[p.length - s.length + i]? = some b → a ≠ 1 → 0 ≤ b
  | .maxOver axes k, _, _ => axes.length = 1 ∧ (k = 0 ∨ k = 1)
  | .reduceSum axes _, _, _ => axes.length = 1
  | .nms m, ps, _ => ∀ q, ps[1]? = some q → ∀ a, q[0]? = some a → 0 ≤ a → m ≤ a
  | .constantOfShape, _, ks => ∃ v, ks[0]? = some (some v) ∧ v.ints = v.shape
  | .transposeConv f _, ps, _ => f = .nchw ∧ ∀ k, ps[1]? = some k → ∀ a ∈ k, 0 ≤ a
  | .whereOp, ps, _ => ∀ p ∈ ps, ∀ a ∈ p, 0 ≤ a
  | _, _, _ => True

theorem opRun2_shape {rnd : Rat → Rat} {kern : Op2 → List Val → List Int} {op : Op2} {vs : List Val} {v : Val}
    (h : opRun2 rnd kern op vs = some v) : opShape2 rnd op vs = .ok v.shape := by
  unfold opRun2 at h
  split at h
  · exact opRun_shape h
  · split at h
    · rename_i s hs
      rw [hs]
      simp only [Option.some.injEq] at h
      subst h
      rfl
    · cases h

/-- one operator: its rule is sound under `OpOk2` -/
theorem op2_sound (rnd : Rat → Rat) (hrnd : NearRound rnd) (kern : Op2 → List Val → List Int) (op : Op2) (ps : List (List Int))
    (ks : List (Option Val)) (vs : List Val) (v : Val) (p : List Int) (sv : Option Val) (hok : OpOk2 op ps ks)
    (hR : Rows (fun p (v : Val) => Fits p v.shape) ps vs)
    (hK : Rows (fun k v => ∀ w, k = some w → w = v) ks vs) (hpos : ∀ x ∈ vs, ∀ a ∈ x.shape, 0 ≤ a)
    (hrun : opRun2 rnd kern op vs = some v) (hrule : opRule2 rnd op ps ks = .ok p sv) :
    Fits p v.shape ∧ ∀ w, sv = some w → w = v := by
  have hs := opRun2_shape hrun
  cases op with
  | base o => exact op_sound rnd (fun o => kern (.base o)) o ps ks vs v p sv hok hR hK hpos hrun hrule
  | resize2d =>
    rcases vs with _ | ⟨x, _ | ⟨y, _ | ⟨z, vs⟩⟩⟩ <;> simp only [opShape2] at hs
    · cases hs
    · cases hs
    · obtain ⟨q, ps', rfl, hq, -⟩ := rows_cons hR
      obtain ⟨k0, ks', rfl, -, hK'⟩ := rows_cons hK
      obtain ⟨k, ks'', rfl, hk, -⟩ := rows_cons hK'
      cases k with
      | none => cases (show (RuleOut.void : RuleOut (List Int) Val) = .ok p sv from hrule)
      | some w =>
        obtain ⟨hru, rfl⟩ := plain_ok (show plain (ruleResize2d w.ints q) = .ok p sv from hrule)
        have hw := hk w rfl
        subst hw
        exact ⟨resize2d_agree hq (hpos x (by simp)) hs hru, fun w hw => by cases hw⟩
    · cases hs
  | nearest d =>
    rcases vs with _ | ⟨x, _ | ⟨y, _ | ⟨z, vs⟩⟩⟩ <;> simp only [opShape2] at hs
    · cases hs
    · cases hs
    · obtain ⟨q, ps', rfl, hq, -⟩ := rows_cons hR
      obtain ⟨k0, ks', rfl, -, hK'⟩ := rows_cons hK
      obtain ⟨k, ks'', rfl, hk, -⟩ := rows_cons hK'
      cases k with
      | none => cases (show (RuleOut.void : RuleOut (List Int) Val) = .ok p sv from hrule)
      | some w =>
        obtain ⟨hru, rfl⟩ := plain_ok (show plain (ruleNearest d w.ints q) = .ok p sv from hrule)
        have hw := hk w rfl
        subst hw
        exact ⟨nearest_agree hq (hpos x (by simp)) hs hru, fun w hw => by cases hw⟩
    · cases hs
  | affine d =>
    rcases vs with _ | ⟨x, _ | ⟨y, _ | ⟨z, _ | ⟨u, vs⟩⟩⟩⟩ <;> simp only [opShape2] at hs
    · cases hs
    · cases hs
    · cases hs
    · obtain ⟨q, ps', rfl, hq, -⟩ := rows_cons hR
      obtain ⟨k0, ks', rfl, -, hK'⟩ := rows_cons hK
      obtain ⟨k, ks'', rfl, hk, -⟩ := rows_cons hK'
      cases k with
      | none => cases (show (RuleOut.void : RuleOut (List Int) Val) = .ok p sv from hrule)
      | some w =>
        obtain ⟨hru, rfl⟩ := plain_ok (show plain (ruleAffine d w.ints q) = .ok p sv from hrule)
        have hw := hk w rfl
        subst hw
        exact ⟨affine_agree hq hs hru, fun w hw => by cases hw⟩
    · cases hs
  | dimshuffle d s =>
    rcases vs with _ | ⟨x, _ | ⟨y, vs⟩⟩ <;> simp only [opShape2] at hs
    · cases hs
    · obtain ⟨q, rfl, hq⟩ := rows1 hR
      obtain ⟨hru, rfl⟩ := plain_ok (show plain (ruleDimshuffle d s q) = .ok p sv from hrule)
      exact ⟨dimshuffle_agree hq hs hru, fun w hw => by cases hw⟩
    · cases hs
  | limit s =>
    rcases vs with _ | ⟨x, _ | ⟨y, vs⟩⟩ <;> simp only [opShape2] at hs
    · cases hs
    · obtain ⟨q, rfl, hq⟩ := rows1 hR
      obtain ⟨hru, rfl⟩ := plain_ok (show plain (ruleLimit s q) = .ok p sv from hrule)
      exact ⟨limit_agree hq (fun a ha e => hok q rfl (e ▸ ha)) hs hru, fun w hw => by cases hw⟩
    · cases hs
  | centerCrop s =>
    rcases vs with _ | ⟨x, _ | ⟨y, vs⟩⟩ <;> simp only [opShape2] at hs
    · cases hs
    · obtain ⟨q, rfl, hq⟩ := rows1 hR
      obtain ⟨hru, rfl⟩ := plain_ok (show plain (ruleCenterCrop s q) = .ok p sv from hrule)
      exact ⟨centerCrop_agree hq (fun a ha e => hok.2 q rfl (e ▸ ha)) (fun a ha e => hok.1 (e ▸ ha)) hs hru, fun w hw => by cases hw⟩
    · cases hs
  | cropNd t =>
    rcases vs with _ | ⟨x, _ | ⟨y, _ | ⟨z, vs⟩⟩⟩ <;> simp only [opShape2] at hs
    · cases hs
    · cases hs
    · obtain ⟨q, ps', rfl, hq, -⟩ := rows_cons hR
      obtain ⟨k0, ks', rfl, -, hK'⟩ := rows_cons hK
      obtain ⟨k, ks'', rfl, hk, -⟩ := rows_cons hK'
      cases k with
      | none => cases (show (RuleOut.void : RuleOut (List Int) Val) = .ok p sv from hrule)
      | some w =>
        obtain ⟨hru, rfl⟩ := plain_ok (show plain (ruleResize2d w.ints q) = .ok p sv from hrule)
        have hw := hk w rfl
        subst hw
        exact ⟨cropNd_agree hq (fun a ha e => hok q rfl (e ▸ ha)) hs hru, fun w hw => by cases hw⟩
    · cases hs
  | letterbox s =>
    rcases vs with _ | ⟨x, _ | ⟨y, vs⟩⟩ <;> simp only [opShape2] at hs
    · cases hs
    · obtain ⟨q, rfl, hq⟩ := rows1 hR
      obtain ⟨hru, rfl⟩ := plain_ok (show plain (ruleLetterbox s q) = .ok p sv from hrule)
      exact ⟨letterbox_agree hq hs hru, fun w hw => by cases hw⟩
    · cases hs
  | scaleResize s =>
    rcases vs with _ | ⟨x, _ | ⟨y, vs⟩⟩ <;> simp only [opShape2] at hs
    · cases hs
    · obtain ⟨q, rfl, hq⟩ := rows1 hR
      obtain ⟨hru, rfl⟩ := plain_ok (show plain (ruleScaleResize s q) = .ok p sv from hrule)
      exact ⟨scaleResize_agree hq (hpos x (by simp)) (fun v hv => hok v hv q rfl) hs hru, fun w hw => by cases hw⟩
    · cases hs
  | divided s =>
    rcases vs with _ | ⟨x, _ | ⟨y, vs⟩⟩ <;> simp only [opShape2] at hs
    · cases hs
    · obtain ⟨q, rfl, hq⟩ := rows1 hR
      obtain ⟨hru, rfl⟩ := plain_ok (show plain (ruleDivided rnd s q) = .ok p sv from hrule)
      exact ⟨divided_agree hrnd hq hok.1 (hok.2 q rfl).1 (hok.2 q rfl).2 hs hru, fun w hw => by cases hw⟩
    · cases hs
  | forceColor =>
    rcases vs with _ | ⟨x, _ | ⟨y, vs⟩⟩ <;> simp only [opShape2] at hs
    · cases hs
    · obtain ⟨q, rfl, hq⟩ := rows1 hR
      obtain ⟨hru, rfl⟩ := plain_ok (show plain (ruleForce 3 q) = .ok p sv from hrule)
      exact ⟨forceColor_agree hq hs hru, fun w hw => by cases hw⟩
    · cases hs
  | forceGray n =>
    rcases vs with _ | ⟨x, _ | ⟨y, vs⟩⟩ <;> simp only [opShape2] at hs
    · cases hs
    · obtain ⟨q, rfl, hq⟩ := rows1 hR
      obtain ⟨hru, rfl⟩ := plain_ok (show plain (ruleForce 1 q) = .ok p sv from hrule)
      exact ⟨forceGray_agree hq hs hru, fun w hw => by cases hw⟩
    · cases hs
  | spaceToBatch a b =>
    rcases vs with _ | ⟨x, _ | ⟨y, vs⟩⟩ <;> simp only [opShape2] at hs
    · cases hs
    · obtain ⟨q, rfl, hq⟩ := rows1 hR
      obtain ⟨hru, rfl⟩ := plain_ok (show plain (ruleSpaceToBatch a b q) = .ok p sv from hrule)
      exact ⟨spaceToBatch_agree hq (hpos x (by simp)) hs hru, fun w hw => by cases hw⟩
    · cases hs
  | batchToSpace a b =>
    rcases vs with _ | ⟨x, _ | ⟨y, vs⟩⟩ <;> simp only [opShape2] at hs
    · cases hs
    · obtain ⟨q, rfl, hq⟩ := rows1 hR
      obtain ⟨hru, rfl⟩ := plain_ok (show plain (ruleBatchToSpace a b q) = .ok p sv from hrule)
      exact ⟨batchToSpace_agree hq (hpos x (by simp)) hs hru, fun w hw => by cases hw⟩
    · cases hs
  | slice b s =>
    rcases vs with _ | ⟨x, _ | ⟨y, vs⟩⟩ <;> simp only [opShape2] at hs
    · cases hs
    · obtain ⟨q, rfl, hq⟩ := rows1 hR
      obtain ⟨hru, rfl⟩ := plain_ok (show plain (ruleSlice b s q) = .ok p sv from hrule)
      exact ⟨slice_agree hq hs hru, fun w hw => by cases hw⟩
    · cases hs
  | gatherV2 =>
    rcases vs with _ | ⟨x, _ | ⟨y, _ | ⟨z, vs⟩⟩⟩ <;> simp only [opShape2] at hs
    · cases hs
    · cases hs
    · obtain ⟨q, ps', rfl, hq, hR'⟩ := rows_cons hR
      obtain ⟨r, rfl, hr⟩ := rows1 hR'
      obtain ⟨hru, rfl⟩ := plain_ok (show plain (ruleGatherV2 q r) = .ok p sv from hrule)
      exact ⟨gatherV2_agree hq hr hs hru, fun w hw => by cases hw⟩
    · cases hs
  | maxOver axes k =>
    obtain ⟨hl, hk⟩ := hok
    match axes, hl with
    | [a], _ =>
      rcases vs with _ | ⟨x, _ | ⟨y, vs⟩⟩ <;> simp only [opShape2] at hs
      · cases hs
      · obtain ⟨q, rfl, hq⟩ := rows1 hR
        obtain ⟨hru, rfl⟩ := plain_ok (show plain (ruleReduce [a] (k != 0) q) = .ok p sv from hrule)
        have e : (k == 1) = (k != 0) := by rcases hk with rfl | rfl <;> rfl
        rw [e] at hs
        exact ⟨reduce_agree hq hs hru, fun w hw => by cases hw⟩
      · cases hs
  | reduceSum axes k =>
    match axes, hok with
    | [a], _ =>
      rcases vs with _ | ⟨x, _ | ⟨y, vs⟩⟩ <;> simp only [opShape2] at hs
      · cases hs
      · obtain ⟨q, rfl, hq⟩ := rows1 hR
        obtain ⟨hru, rfl⟩ := plain_ok (show plain (ruleReduce [a] k q) = .ok p sv from hrule)
        exact ⟨reduce_agree hq hs hru, fun w hw => by cases hw⟩
      · cases hs
  | nms m =>
    rcases vs with _ | ⟨x, _ | ⟨y, _ | ⟨z, vs⟩⟩⟩ <;> simp only [opShape2] at hs
    · cases hs
    · cases hs
    · obtain ⟨q, ps', rfl, hq, hR'⟩ := rows_cons hR
      obtain ⟨r, rfl, hr⟩ := rows1 hR'
      obtain ⟨hru, rfl⟩ := plain_ok (show plain (ruleNms m r) = .ok p sv from hrule)
      exact ⟨nms_agree hr (hok r rfl) hs hru, fun w hw => by cases hw⟩
    · cases hs
  | constantOfShape =>
    rcases vs with _ | ⟨x, _ | ⟨y, vs⟩⟩ <;> simp only [opShape2] at hs
    · cases hs
    · obtain ⟨q, rfl, hq⟩ := rows1 hR
      obtain ⟨k, rfl, hk⟩ := rows1 hK
      simp only [opRule2, RuleOut.ok.injEq] at hrule
      obtain ⟨rfl, rfl⟩ := hrule
      obtain ⟨w, hw, he⟩ := hok
      simp only [List.getElem?_cons_zero, Option.some.injEq] at hw
      have := hk w hw
      subst this
      simp only [Res.ok.injEq] at hs
      rw [← hs, he]
      exact ⟨hq, fun w hw => by cases hw⟩
    · cases hs
  | transposeConv f a =>
    rcases vs with _ | ⟨x, _ | ⟨y, _ | ⟨z, vs⟩⟩⟩ <;> simp only [opShape2] at hs
    · cases hs
    · cases hs
    · obtain ⟨q, ps', rfl, hq, hR'⟩ := rows_cons hR
      obtain ⟨r, rfl, hr⟩ := rows1 hR'
      obtain ⟨rfl, hk⟩ := hok
      obtain ⟨hru, rfl⟩ := plain_ok (show plain (ruleTransposeConv .nchw a q r) = .ok p sv from hrule)
      exact ⟨transposeConv_agree hq hr (hk r rfl) hs hru, fun w hw => by cases hw⟩
    · cases hs
  | whereOp =>
    rcases vs with _ | ⟨x, _ | ⟨y, _ | ⟨z, _ | ⟨u, vs⟩⟩⟩⟩ <;> simp only [opShape2] at hs
    · cases hs
    · cases hs
    · cases hs
    · obtain ⟨q, ps', rfl, hq, hR'⟩ := rows_cons hR
      obtain ⟨r, ps'', rfl, hr, hR''⟩ := rows_cons hR'
      obtain ⟨t, rfl, ht⟩ := rows1 hR''
      obtain ⟨hru, rfl⟩ := plain_ok (show plain (ruleWhere q r t) = .ok p sv from hrule)
      rw [hq.eq (hok q (by simp)), hr.eq (hok r (by simp)), ht.eq (hok t (by simp))] at hru
      have := where_agree (hpos x (by simp)) (hpos y (by simp)) (hpos z (by simp)) hs hru
      subst this
      exact ⟨Fits.refl _, fun w hw => by cases hw⟩
    · cases hs

variable {N : Type} [DecidableEq N]

/-- **C102, without the cases of `OpOk2`.** For every graph of the operators of C45 and the further ones, every execution of it (arbitrary kernels,
parameters fed with tensors that fit their declared shapes) and every node: the prototype inferred for the node describes the tensor that the execution
computes there, is its shape if no extent is unknown, and the value folded during the inference, if any, is the executed value. Missing: the combinations
excluded by `OpOk2`, where the code infers a wrong shape (below). -/
theorem C102_shapes_partial (rnd : Rat → Rat) (hrnd : NearRound rnd) (kern : Op2 → List Val → List Int) (op : N → Op2) (inputs : N → List N)
    (ex : N → Val) (hex : Executes (opEnv2 rnd kern op inputs) ex) (hpos : ∀ n, ∀ a ∈ (ex n).shape, 0 ≤ a)
    (hfed : ∀ n s, op n = .base (.param s) → Describes s (ex n))
    (hok : ∀ n l, RowAnswer (opEnv2 rnd kern op inputs) (inputs n) (.ok l) →
      OpOk2 (op n) (l.map Prod.fst) (l.map Prod.snd))
    (d : Nat) (n : N) (st : St N (List Int) Val) (p : List Int)
    (h : inferNode (opEnv2 rnd kern op inputs) d n St.fresh = some (st, .ok (some p))) :
    Describes p (ex n) ∧ ((∀ a ∈ p, 0 ≤ a) → p = (ex n).shape) ∧
      ∀ v, getValue (opEnv2 rnd kern op inputs) st n = some v → v = ex n := by
  obtain ⟨-, -, -, h3⟩ := C45_cache_transparent (opEnv2 rnd kern op inputs) d n St.fresh st (.ok (some p))
    (consistent_fresh _) h
  have hans := h3 p rfl
  have hsound : ∀ n, RuleSound (opEnv2 rnd kern op inputs) (fun p (v : Val) => Fits p v.shape) ex
      (fun n => OpOk2 (op n)) n := by
    intro n ru ps ks q sv hru hc hR hK hq
    simp only [opEnv2, Option.some.injEq] at hru
    subst hru
    by_cases he : (opEnv2 rnd kern op inputs).isEnd n = true
    · simp only [opEnv2] at he
      split at he
      · rename_i s hop
        rw [hop] at hq
        simp only [opRule2, opRule, RuleOut.ok.injEq] at hq
        obtain ⟨rfl, rfl⟩ := hq
        exact ⟨describes_iff.1 (hfed n _ hop), fun w hw => by cases hw⟩
      · rename_i c hop
        rw [hop] at hq
        simp only [opRule2, opRule, RuleOut.ok.injEq] at hq
        obtain ⟨rfl, rfl⟩ := hq
        have := hex.const n c (by simp [opEnv2, hop])
        exact ⟨by rw [this]; exact Fits.refl _, fun w hw => by cases hw⟩
      · cases he
    · have hrun := hex.op n (by simpa using he)
      refine op2_sound rnd hrnd kern (op n) ps ks _ (ex n) q sv hc hR hK ?_ hrun hq
      intro x hx
      obtain ⟨m, -, rfl⟩ := List.mem_map.1 hx
      exact hpos m
  obtain ⟨g1, g2⟩ := C45_sound (opEnv2 rnd kern op inputs) _ ex hex (fun n => OpOk2 (op n)) hsound hok n p _ hans
  exact ⟨describes_iff.2 g1, fun hp => g1.eq hp, g2⟩

/-! ## A graph that meets the hypotheses -/

theorem id_near : NearRound id := by
  intro q h1 _
  have : (0 : Rat) < 1 / 2 ^ 40 := by norm_num
  constructor <;> simp only [id] <;> linarith

/-- `0: reduce_sum over 3 (1)`, `1: _nhwc_scale_resize2d to 2 (2)`, `2: _limit to at most 6 rows (3)`, `3: parameter (declared [-1, 8, 4, 3], fed [5, 8, 4, 3])` -/
def gOp : Nat → Op2
  | 0 => .reduceSum [3] false
  | 1 => .scaleResize [2]
  | 2 => .limit [0, 6, 0, 0]
  | _ => .base (.param [-1, 8, 4, 3])

/-- its edges -/
def gIn : Nat → List Nat
  | 0 => [1]
  | 1 => [2]
  | 2 => [3]
  | _ => []

/-- its execution -/
def gVal : Nat → Val
  | 0 => ⟨[5, 3, 2], []⟩
  | 1 => ⟨[5, 3, 2, 3], []⟩
  | 2 => ⟨[5, 6, 4, 3], []⟩
  | _ => ⟨[5, 8, 4, 3], []⟩

theorem g_executes : Executes (opEnv2 id (fun _ _ => []) gOp gIn) gVal := by
  constructor
  · intro n v h
    match n with
    | 0 | 1 | 2 => cases h
    | n + 3 => cases h
  · intro n h
    match n with
    | 0 => rfl
    | 1 => rfl
    | 2 => rfl
    | n + 3 => cases h

theorem g_ok : ∀ n l, RowAnswer (opEnv2 id (fun _ _ => []) gOp gIn) (gIn n) (.ok l) → OpOk2 (gOp n) (l.map Prod.fst) (l.map Prod.snd) := by
  intro n l h
  match n with
  | 0 => rfl
  | 1 =>
    have h2 : RowAnswer (opEnv2 id (fun _ _ => []) gOp gIn) (gIn 1) (.ok [([-1, 6, 4, 3], none)]) := ⟨2, rfl⟩
    have := row_unique h h2
    simp only [Row.ok.injEq] at this
    subst this
    intro v _ p hp i hi a ha
    simp at hp
    subst hp
    rcases hi with rfl | rfl <;> simp at ha <;> omega
  | 2 =>
    have h2 : RowAnswer (opEnv2 id (fun _ _ => []) gOp gIn) (gIn 2) (.ok [([-1, 8, 4, 3], none)]) := ⟨1, rfl⟩
    have := row_unique h h2
    simp only [Row.ok.injEq] at this
    subst this
    intro p hp
    simp at hp
    subst hp
    decide
  | n + 3 => trivial

/-- The inference finds `[-1, 3, 2]`, and that describes what is executed. -/
example : Describes [-1, 3, 2] (gVal 0) := by
  refine (C102_shapes_partial id id_near (fun _ _ => []) gOp gIn gVal g_executes ?_ ?_ g_ok 4 0 _ [-1, 3, 2] rfl).1
  · intro n a ha
    match n with
    | 0 | 1 | 2 => simp [gVal] at ha; omega
    | n + 3 => simp [gVal] at ha; omega
  · intro n s h
    match n with
    | 0 | 1 | 2 => cases h
    | n + 3 =>
      simp only [gOp, Op2.base.injEq, Verif.Runtime.Infer.Op.param.injEq] at h
      subst h
      exact describes_iff.2 ⟨fun h => absurd h (by decide), fun _ => rfl, fun _ => rfl, fun _ => rfl, trivial⟩

/-! ## The excluded cases -/

/-- node `0` is the operator `o`, the others are the end points -/
def starOp2 (o : Op2) (ends : List (Verif.Runtime.Infer.Op × Val)) : Nat → Op2
  | 0 => o
  | n + 1 => .base (starOp .copy ends (n + 1))

/-- **Specification**: a graph with one operator `o` above end points (`starIn`, `starEx` of Verif/Props/InferRules.lean), an execution of it with result
`v`, and the prototype `p` that the inference answers, which does not describe `v`. -/
structure Wrong2 (o : Op2) (ends : List (Verif.Runtime.Infer.Op × Val)) (v : Val) (p : List Int) : Prop where
  executes : Executes (opEnv2 id (fun _ _ => []) (starOp2 o ends) (starIn ends)) (starEx v ends)
  extents : ∀ n, ∀ a ∈ (starEx v ends n).shape, 0 ≤ a
  fed : ∀ n s, starOp2 o ends n = .base (.param s) → Describes s (starEx v ends n)
  inferred : ∃ st, inferNode (opEnv2 id (fun _ _ => []) (starOp2 o ends) (starIn ends)) 2 0 St.fresh = some (st, .ok (some p))
  wrong : ¬ Describes p v

theorem wrong2_intro {o : Op2} {ends : List (Verif.Runtime.Infer.Op × Val)} {v : Val} {p : List Int} (ho : ∀ b, o ≠ .base b)
    (hends : ∀ x ∈ ends, (∃ s, x.1 = .param s ∧ Fits s x.2.shape) ∨ x.1 = .const x.2)
    (hrun : opRun2 id (fun _ _ => []) o ((starIn ends 0).map (starEx v ends)) = some v)
    (hpos : (∀ a ∈ v.shape, 0 ≤ a) ∧ ∀ x ∈ ends, ∀ a ∈ x.2.shape, 0 ≤ a)
    (hinf : ∃ st, inferNode (opEnv2 id (fun _ _ => []) (starOp2 o ends) (starIn ends)) 2 0 St.fresh = some (st, .ok (some p)))
    (hw : ¬ Fits p v.shape) : Wrong2 o ends v p := by
  refine ⟨⟨?_, ?_⟩, ?_, ?_, hinf, fun h => hw (describes_iff.1 h)⟩
  · intro n w h
    cases n with
    | zero => cases o <;> simp_all [opEnv2, starOp2]
    | succ n =>
      simp only [opEnv2, starOp2, starOp] at h
      simp only [starEx]
      cases he : ends[n]? with
      | none => rw [he] at h; simpa using h
      | some x =>
        rw [he] at h
        rcases hends x (List.mem_of_getElem? he) with ⟨s, hs, -⟩ | hs
        · simp [hs] at h
        · simp only [hs, Option.some.injEq] at h; exact h
  · intro n h
    cases n with
    | zero => exact hrun
    | succ n =>
      simp only [opEnv2, starOp2, starOp] at h
      cases he : ends[n]? with
      | none => rw [he] at h; simp at h
      | some x =>
        rw [he] at h
        rcases hends x (List.mem_of_getElem? he) with ⟨s, hs, -⟩ | hs <;> simp [hs] at h
  · intro n a ha
    cases n with
    | zero => exact hpos.1 a ha
    | succ n =>
      simp only [starEx] at ha
      cases he : ends[n]? with
      | none => rw [he] at ha; simp at ha
      | some x => rw [he] at ha; exact hpos.2 x (List.mem_of_getElem? he) a ha
  · intro n s h
    cases n with
    | zero => exact absurd h (ho _)
    | succ n =>
      simp only [starOp2, starOp, Op2.base.injEq] at h
      simp only [starEx]
      cases he : ends[n]? with
      | none => rw [he] at h; cases h
      | some x =>
        rw [he] at h
        simp only at h
        rcases hends x (List.mem_of_getElem? he) with ⟨s', hs, hd⟩ | hs
        · rw [hs] at h; simp only [Verif.Runtime.Infer.Op.param.injEq] at h; subst h; exact describes_iff.2 hd
        · rw [hs] at h; cases h

/-- **C102 fails for `_limit` of a tensor without elements: another dimension is cut, and the padding makes the empty one 1.** -/
theorem C102_limit_false : Wrong2 (.limit [0, 5]) [fedExact [0, 9]] ⟨[1, 5], []⟩ [0, 5] :=
  wrong2_intro (by simp) (by simp [fedExact, fedWith, constant, Fits]) rfl (by simp [fedExact, fedWith, constant]) ⟨_, rfl⟩ (by simp [Fits])

/-- **C102 fails for `_nhwc_center_crop2d` to size 0: one row and one column are made, none announced.** -/
theorem C102_center_crop_false : Wrong2 (.centerCrop [0, 0]) [fedExact [1, 4, 4, 3]] ⟨[1, 1, 1, 3], []⟩ [1, 0, 0, 3] :=
  wrong2_intro (by simp) (by simp [fedExact, fedWith, constant, Fits]) rfl (by simp [fedExact, fedWith, constant]) ⟨_, rfl⟩ (by simp [Fits])

/-- **C102 fails for `crop_nd` of a tensor without elements: the padding makes the empty dimension 1.** -/
theorem C102_crop_nd_false : Wrong2 (.cropNd []) [fedExact [0, 9], constant [2] [-1, 5]] ⟨[1, 5], []⟩ [0, 5] :=
  wrong2_intro (by simp) (by simp [fedExact, fedWith, constant, Fits]) rfl (by simp [fedExact, fedWith, constant]) ⟨_, rfl⟩ (by simp [Fits])

/-- **C102 fails for `_nhwc_scale_resize2d` to one size with unknown extents: the two `-1` have the ratio 1, so the square is announced.** -/
theorem C102_scale_resize_false : Wrong2 (.scaleResize [8]) [fedWith [1, -1, -1, 3] [1, 6, 4, 3]] ⟨[1, 12, 8, 3], []⟩ [1, 8, 8, 3] :=
  wrong2_intro (by simp) (by simp [fedExact, fedWith, constant, Fits]) rfl (by simp [fedExact, fedWith, constant]) ⟨_, rfl⟩ (by simp [Fits])

/-- **C102 fails for `divided` with an unknown extent: `-1` is rounded up to 0.** -/
theorem C102_divided_false : Wrong2 (.divided [4]) [fedWith [-1] [5]] ⟨[8], []⟩ [0] :=
  wrong2_intro (by simp) (by simp [fedExact, fedWith, constant, Fits]) (by with_unfolding_all rfl) (by simp [fedExact, fedWith, constant]) ⟨_, by with_unfolding_all rfl⟩ (by simp [Fits])

/-- **C102 fails for `max` over two axes: the execution takes the first only.** -/
theorem C102_max_axes_false : Wrong2 (.maxOver [0, 1] 0) [fedExact [2, 3]] ⟨[3], []⟩ [] :=
  wrong2_intro (by simp) (by simp [fedExact, fedWith, constant, Fits]) rfl (by simp [fedExact, fedWith, constant]) ⟨_, rfl⟩ (by simp [Fits])

/-- **C102 fails for `max` with `keep_dims` 2: true for the inference, not 1 for the execution.** -/
theorem C102_max_keep_false : Wrong2 (.maxOver [0] 2) [fedExact [2, 3]] ⟨[3], []⟩ [1, 3] :=
  wrong2_intro (by simp) (by simp [fedExact, fedWith, constant, Fits]) rfl (by simp [fedExact, fedWith, constant]) ⟨_, rfl⟩ (by simp [Fits])

/-- **C102 fails for `reduce_sum` over two axes: the execution takes the first only.** -/
theorem C102_sum_axes_false : Wrong2 (.reduceSum [0, 1] true) [fedExact [2, 3]] ⟨[1, 3], []⟩ [1, 1] :=
  wrong2_intro (by simp) (by simp [fedExact, fedWith, constant, Fits]) rfl (by simp [fedExact, fedWith, constant]) ⟨_, rfl⟩ (by simp [Fits])

/-- **C102 fails for `non_max_suppression_v3` with fewer boxes than are asked for: the output has the number asked for.** -/
theorem C102_nms_false : Wrong2 (.nms 10) [fedExact [3, 4], fedExact [3]] ⟨[10], []⟩ [3] :=
  wrong2_intro (by simp) (by simp [fedExact, fedWith, constant, Fits]) rfl (by simp [fedExact, fedWith, constant]) ⟨_, rfl⟩ (by simp [Fits])

/-- **C102 fails for `constant_of_shape`: the shape of the operand is announced, its elements are the extents of the output.** -/
theorem C102_constant_of_shape_false : Wrong2 (.constantOfShape) [constant [2] [4, 5]] ⟨[4, 5], []⟩ [2] :=
  wrong2_intro (by simp) (by simp [fedExact, fedWith, constant, Fits]) rfl (by simp [fedExact, fedWith, constant]) ⟨_, rfl⟩ (by simp [Fits])

/-- **C102 fails for `transpose_conv2d` in NHWC layout: the inference reads the kernel extents at other positions.** -/
theorem C102_transpose_nhwc_false : Wrong2 (.transposeConv .nhwc unitWindow) [fedExact [1, 3, 5, 2], fedExact [3, 4, 3, 1]] ⟨[1, 6, 7, 4], []⟩ [1, 5, 5, 4] :=
  wrong2_intro (by simp) (by simp [fedExact, fedWith, constant, Fits]) rfl (by simp [fedExact, fedWith, constant]) ⟨_, rfl⟩ (by simp [Fits])

/-- **C102 fails for `transpose_conv2d` with a kernel of unknown extent: `-1` is used as a kernel size.** -/
theorem C102_transpose_kernel_false : Wrong2 (.transposeConv .nchw unitWindow) [fedExact [1, 3, 5, 5], fedWith [3, 2, -1, 3] [3, 2, 3, 3]] ⟨[1, 2, 7, 7], []⟩ [1, 2, 3, 7] :=
  wrong2_intro (by simp) (by simp [fedExact, fedWith, constant, Fits]) rfl (by simp [fedExact, fedWith, constant]) ⟨_, rfl⟩ (by simp [Fits])

/-- **C102 fails for `where` with an unknown extent: of `-1` and 1 the larger is announced.** -/
theorem C102_where_false : Wrong2 (.whereOp) [fedWith [-1] [4], fedExact [1], fedExact [1]] ⟨[4], []⟩ [1] :=
  wrong2_intro (by simp) (by simp [fedExact, fedWith, constant, Fits]) rfl (by simp [fedExact, fedWith, constant]) ⟨_, rfl⟩ (by simp [Fits])

/-- the extent that a negative dimension counts from the end -/
def IsDim (dim : Int) (rank i : Nat) : Prop := (i : Int) = dim ∨ (i : Int) = dim + rank

/-- **C102, executed slice.** When `slice` runs, it keeps the rank, and every output dimension lies inside the operand: from the begin, with the size
asked for, or up to the end for a negative size. -/
theorem C102_slice_inside {begins sizes x y : List Int} (h : Exec.slice begins sizes x = .ok y) :
    y.length = x.length ∧ begins.length = x.length ∧ sizes.length = x.length ∧
      ∀ (i : Nat) (b s a c : Int), begins[i]? = some b → sizes[i]? = some s → x[i]? = some a → y[i]? = some c →
        0 ≤ b ∧ b < a ∧ (s < 0 → b + c = a) ∧ (0 ≤ s → c = s ∧ b + c ≤ a) := by
  unfold Exec.slice at h
  split at h
  · cases h
  rename_i hl
  simp only [ne_eq, not_or, Decidable.not_not] at hl
  obtain ⟨l1, hs⟩ := hl
  have l2 : begins.length = x.length := by omega
  have key : ∀ (x begins sizes y : List Int), begins.length = x.length → sizes.length = x.length → Exec.sliceLoop x begins sizes = .ok y →
      y.length = x.length ∧
      ∀ (i : Nat) (b s a c : Int), begins[i]? = some b → sizes[i]? = some s → x[i]? = some a → y[i]? = some c →
        0 ≤ b ∧ b < a ∧ (s < 0 → b + c = a) ∧ (0 ≤ s → c = s ∧ b + c ≤ a) := by
    intro x
    induction x with
    | nil =>
      intro begins sizes y h1 h2 h
      simp only [Exec.sliceLoop, Res.ok.injEq] at h
      subst h
      exact ⟨rfl, fun i b s a c _ _ h => by simp at h⟩
    | cons a x ih =>
      intro begins sizes y h1 h2 h
      match begins, sizes, h1, h2, h with
      | b :: bs, s :: ss, h1, h2, h =>
        simp only [Exec.sliceLoop, Res.bind_eq_ok, Res.ok.injEq] at h
        obtain ⟨c, hc, r, hr, rfl⟩ := h
        obtain ⟨q1, q2⟩ := ih bs ss r (by simpa using h1) (by simpa using h2) hr
        refine ⟨by simp [q1], ?_⟩
        intro i b' s' a' c' e1 e2 e3 e4
        cases i with
        | succ i => exact q2 i b' s' a' c' (by simpa using e1) (by simpa using e2) (by simpa using e3) (by simpa using e4)
        | zero =>
          simp at e1 e2 e3 e4
          subst e1 e2 e3 e4
          unfold Exec.sliceOne at hc
          split at hc
          · cases hc
          rename_i hb
          split at hc
          · simp only [Res.ok.injEq] at hc
            refine ⟨by omega, by omega, fun _ => by omega, fun h => by omega⟩
          · simp only [Res.bind_eq_ok, int32_eq_ok] at hc
            obtain ⟨e, ⟨_, rfl⟩, hc⟩ := hc
            split at hc
            · cases hc
            · simp only [Res.ok.injEq] at hc
              subst hc
              refine ⟨by omega, by omega, fun _ => by omega, fun _ => ⟨rfl, by omega⟩⟩
  obtain ⟨q1, q2⟩ := key x begins sizes y l2 hs h
  exact ⟨q1, l2, hs, q2⟩

example : Exec.slice [1, 0] [2, -1] [4, 3] = .ok [2, 3] := by decide
example : Exec.slice [1, 0] [-1, 2] [4, 3] = .ok [3, 2] := by decide

/-- **C102, `_dimshuffle`.** The inference answers exactly for a dimension of the operand (counted from the end if negative), and then announces its
extents with that one replaced by the number of indices. -/
theorem C102_dimshuffle_answer (dim : Int) (sh x : List Int) :
    (-(x.length : Int) ≤ dim ∧ dim < x.length → ∃ o, ruleDimshuffle dim sh x = .ok (some o) ∧ o.length = x.length ∧
      ∀ i, i < x.length → (IsDim dim x.length i → o[i]? = some (sh.length : Int)) ∧ (¬ IsDim dim x.length i → o[i]? = x[i]?)) ∧
    (¬ (-(x.length : Int) ≤ dim ∧ dim < x.length) → ruleDimshuffle dim sh x = .ok none) := by
  unfold ruleDimshuffle IsDim
  constructor
  · rintro ⟨h1, h2⟩
    simp only
    rw [if_neg (by split <;> omega)]
    refine ⟨_, rfl, by simp, fun i hi => ⟨fun h => ?_, fun h => ?_⟩⟩
    · rw [List.getElem?_set]
      rw [if_pos (by split <;> omega), if_pos (by split <;> omega)]
    · rw [List.getElem?_set, if_neg (by split <;> omega)]
  · intro h
    simp only
    rw [if_pos (by split <;> omega)]

example : ruleDimshuffle (-1) [0, 0, 0] [2, 5] = .ok (some [2, 3]) := by decide

/-- **C102, `affine_sample2d`.** With height and width given, the inference answers exactly when the dimension and the next one are dimensions of the
operand, and replaces these two. -/
theorem C102_affine_answer (dim h w : Int) (rest x : List Int) :
    ((0 ≤ dim ∧ dim + 1 < x.length) ∨ (-(x.length : Int) ≤ dim ∧ dim + 1 < 0) → ∃ o, ruleAffine dim (h :: w :: rest) x = .ok (some o) ∧ o.length = x.length ∧
      ∀ i, i < x.length → (IsDim dim x.length i → o[i]? = some h) ∧ (IsDim (dim + 1) x.length i → o[i]? = some w) ∧
        (¬ IsDim dim x.length i → ¬ IsDim (dim + 1) x.length i → o[i]? = x[i]?)) ∧
    (¬ ((0 ≤ dim ∧ dim + 1 < x.length) ∨ (-(x.length : Int) ≤ dim ∧ dim + 1 < 0)) → ruleAffine dim (h :: w :: rest) x = .ok none) := by
  unfold ruleAffine IsDim
  constructor
  · rintro hd
    simp only
    rw [if_neg (by split <;> omega)]
    refine ⟨_, rfl, by simp, fun i hi => ⟨fun e => ?_, fun e => ?_, fun e e' => ?_⟩⟩
    · rw [List.getElem?_set, if_neg (by split <;> omega), List.getElem?_set, if_pos (by split <;> omega), if_pos (by split <;> omega)]
    · rw [List.getElem?_set, if_pos (by split <;> omega), if_pos (by simp; split <;> omega)]
    · rw [List.getElem?_set, if_neg (by split <;> omega), List.getElem?_set, if_neg (by split <;> omega)]
  · intro hd
    simp only
    rw [if_pos (by split <;> omega)]

example : ruleAffine (-3) [8, 9] [1, 2, 3, 4] = .ok (some [1, 8, 9, 4]) := by decide
example : ruleAffine (-1) [8, 9] [1, 2, 3, 4] = .ok none := by decide

end Verif.Props.Infer2
