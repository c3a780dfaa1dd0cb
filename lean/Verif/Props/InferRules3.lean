import Verif.Runtime.InferAgree4
import Verif.Props.InferRules2
/-!
# C110: inferred prototypes and executed shapes, a third group of operators

**Specification.** As for C45 and C102 (Verif/Props/InferRules.lean, InferRules2.lean): a prototype describes a tensor (`Describes`) if the ranks agree and
every extent that is not negative is the tensor's. The graphs are made of the operators of C102 and of `equal`, `slice_v2`, `sample2d`, `sample2d_v2`,
`broadcast`, `winograd_transform_kernel`, `depthwise_conv2d`, `conv2d_v2`, `pooling2d_v2`, `roi_align` and `strided_slice` without ellipsis and new axes.
-/
namespace Verif.Props.Infer3
open Verif.Core hiding Fits
open Verif.Kernels Verif.Runtime.Infer Verif.Runtime.Infer2 Verif.Runtime.Infer3 Verif.Props Verif.Props.Infer2

/-- **Specification**: what is excluded, operator by operator; see the `_false` theorems below for why. `ps` are the prototypes inferred for the inputs,
`ks` the values known for them, `rnd` the rounding of `float`. -/
def OpOk3 (rnd : Rat → Rat) : Op3 → List (List Int) → List (Option Val) → Prop
  | .base o, ps, ks => OpOk2 o ps ks
  | .sliceV2, _, ks => ∀ v, ks[2]? = some (some v) → ∀ s ∈ v.ints, -2147483648 ≤ s ∧ s ≤ 2147483647
  | .sample2dV2 real, ps, ks => ∀ p v, ps[0]? = some p → ks[1]? = some (some v) → ∀ (i : Nat) (a t : Int), p[i]? = some a → v.ints[i]? = some t →
      (a < 0 → rnd (rnd a * real t) ≤ -1) ∧ (0 < a → 1 ≤ rnd (rnd a * real t))
  | .broadcast, _, ks => ∀ v, ks[1]? = some (some v) → 0 ∉ v.ints
  | .depthwise f _, ps, _ => f = .nchw ∧ ∀ k, ps[1]? = some k → ∀ a ∈ k, 0 ≤ a
  | .conv2dV2 f _, ps, _ => f = .nchw ∧ ∀ k, ps[2]? = some k → ∀ a ∈ k, 0 ≤ a
  | .strided _ _ _ _ _ _, ps, _ => ∀ p, ps[0]? = some p → ∀ a ∈ p, 0 ≤ a
  | _, _, _ => True

theorem opRun3_shape {rnd : Rat → Rat} {kern : Op3 → List Val → List Int} {op : Op3} {vs : List Val} {v : Val}
    (h : opRun3 rnd kern op vs = some v) : opShape3 rnd op vs = .ok v.shape := by
  unfold opRun3 at h
  split at h
  · exact opRun2_shape h
  · split at h
    · rename_i s hs
      rw [hs]
      simp only [Option.some.injEq] at h
      subst h
      rfl
    · cases h

theorem withValue_ok {k : Option Val} {f : List Int → Res (Option (List Int))} {p : List Int} {sv : Option Val}
    (h : withValue k f = .ok p sv) : ∃ v, k = some v ∧ f v.ints = .ok (some p) ∧ sv = none := by
  cases k with
  | none => cases (show (RuleOut.void : RuleOut (List Int) Val) = .ok p sv from h)
  | some v =>
    obtain ⟨h1, rfl⟩ := plain_ok (show plain (f v.ints) = .ok p sv from h)
    exact ⟨v, rfl, h1, rfl⟩

/-- one operator: its rule is sound under `OpOk3` -/
theorem op3_sound (rnd : Rat → Rat) (hrnd : NearRound rnd) (hsgn : SignRound rnd) (kern : Op3 → List Val → List Int) (op : Op3) (ps : List (List Int))
    (ks : List (Option Val)) (vs : List Val) (v : Val) (p : List Int) (sv : Option Val) (hok : OpOk3 rnd op ps ks)
    (hR : Rows (fun p (v : Val) => Fits p v.shape) ps vs)
    (hK : Rows (fun k v => ∀ w, k = some w → w = v) ks vs) (hpos : ∀ x ∈ vs, ∀ a ∈ x.shape, 0 ≤ a ∧ a < 2 ^ 31)
    (hrun : opRun3 rnd kern op vs = some v) (hrule : opRule3 rnd op ps ks = .ok p sv) :
    Fits p v.shape ∧ ∀ w, sv = some w → w = v := by
  have hs := opRun3_shape hrun
  have hpos0 : ∀ x ∈ vs, ∀ a ∈ x.shape, 0 ≤ a := fun x hx a ha => (hpos x hx a ha).1
  cases op with
  | base o => exact op2_sound rnd hrnd (fun o => kern (.base o)) o ps ks vs v p sv hok hR hK hpos0 hrun hrule
  | equal =>
    rcases vs with _ | ⟨x, _ | ⟨y, _ | ⟨z, vs⟩⟩⟩ <;> simp only [opShape3, opShape] at hs
    · cases hs
    · cases hs
    · obtain ⟨q, ps', rfl, hq, hR'⟩ := rows_cons hR
      obtain ⟨r, rfl, hr⟩ := rows1 hR'
      obtain ⟨hru, rfl⟩ := plain_ok (show plain (ruleEltwise q r) = .ok p sv from hrule)
      simp only [Res.bind_eq_ok, Res.ok.injEq] at hs
      obtain ⟨⟨l', r', O, b⟩, hred, ho⟩ := hs
      have := eltwise_agree (hpos0 x (by simp)) (hpos0 y (by simp)) hq hr hred hru
      rw [ho] at this
      exact ⟨this, fun w hw => by cases hw⟩
    · cases hs
  | sliceV2 =>
    rcases vs with _ | ⟨x, _ | ⟨y, _ | ⟨z, _ | ⟨u, vs⟩⟩⟩⟩ <;> simp only [opShape3] at hs
    · cases hs
    · cases hs
    · cases hs
    · obtain ⟨q, ps', rfl, hq, -⟩ := rows_cons hR
      obtain ⟨k0, ks', rfl, -, hK'⟩ := rows_cons hK
      obtain ⟨k1, ks'', rfl, hk1, hK''⟩ := rows_cons hK'
      obtain ⟨k2, rfl, hk2⟩ := rows1 hK''
      cases k2 with
      | none =>
        obtain ⟨b, -, hru, -⟩ := withValue_ok (show withValue k1 (fun _ => .ok none) = .ok p sv from hrule)
        cases hru
      | some s =>
        obtain ⟨b, rfl, hru, rfl⟩ := withValue_ok (show withValue k1 (fun b => ruleSliceV2 b s.ints q) = .ok p sv from hrule)
        have := hk1 b rfl
        subst this
        have := hk2 s rfl
        subst this
        exact ⟨sliceV2_agree hq (fun a ha => by have := (hpos x (by simp) a ha).2; omega) (hok s rfl) hs hru, fun w hw => by cases hw⟩
    · cases hs
  | sample2d c d =>
    rcases vs with _ | ⟨x, _ | ⟨y, vs⟩⟩ <;> simp only [opShape3] at hs
    · cases hs
    · obtain ⟨q, rfl, hq⟩ := rows1 hR
      obtain ⟨hru, rfl⟩ := plain_ok (show plain (ruleSample2d rnd c d q) = .ok p sv from hrule)
      exact ⟨sample2d_agree hsgn hq hs hru, fun w hw => by cases hw⟩
    · cases hs
  | sample2dV2 real =>
    rcases vs with _ | ⟨x, _ | ⟨y, _ | ⟨z, vs⟩⟩⟩ <;> simp only [opShape3] at hs
    · cases hs
    · cases hs
    · obtain ⟨q, ps', rfl, hq, hR'⟩ := rows_cons hR
      obtain ⟨r, rfl, -⟩ := rows1 hR'
      obtain ⟨k0, ks', rfl, -, hK'⟩ := rows_cons hK
      obtain ⟨k1, rfl, hk1⟩ := rows1 hK'
      obtain ⟨s, rfl, hru, rfl⟩ := withValue_ok (show withValue k1 (fun s => ruleSample2dV2 rnd (s.map real) q) = .ok p sv from hrule)
      have := hk1 s rfl
      subst this
      refine ⟨sample2dV2_agree hsgn hq (hpos0 x (by simp)) (fun i a t h1 h2 => ?_) hs hru, fun w hw => by cases hw⟩
      rw [List.getElem?_map] at h2
      obtain ⟨u, hu, rfl⟩ := Option.map_eq_some_iff.1 h2
      exact hok q s rfl rfl i a u h1 hu
    · cases hs
  | broadcast =>
    rcases vs with _ | ⟨x, _ | ⟨y, _ | ⟨z, vs⟩⟩⟩ <;> simp only [opShape3] at hs
    · cases hs
    · cases hs
    · obtain ⟨q, ps', rfl, hq, -⟩ := rows_cons hR
      obtain ⟨k0, ks', rfl, -, hK'⟩ := rows_cons hK
      obtain ⟨k1, rfl, hk1⟩ := rows1 hK'
      obtain ⟨s, rfl, hru, rfl⟩ := withValue_ok (show withValue k1 _ = .ok p sv from hrule)
      have := hk1 s rfl
      subst this
      simp only [Res.bind_eq_ok, Res.ok.injEq] at hs
      obtain ⟨O, hO, ho⟩ := hs
      rw [← ho]
      exact ⟨broadcast_agree hq (hpos0 x (by simp)) (fun a ha e => hok s rfl (e ▸ ha)) hO hru, fun w hw => by cases hw⟩
    · cases hs
  | winograd m =>
    rcases vs with _ | ⟨x, _ | ⟨y, vs⟩⟩ <;> simp only [opShape3] at hs
    · cases hs
    · obtain ⟨q, rfl, hq⟩ := rows1 hR
      obtain ⟨hru, rfl⟩ := plain_ok (show plain (ruleWinograd m q) = .ok p sv from hrule)
      exact ⟨winograd_agree hq hs hru, fun w hw => by cases hw⟩
    · cases hs
  | depthwise f a =>
    rcases vs with _ | ⟨x, _ | ⟨y, _ | ⟨z, vs⟩⟩⟩ <;> simp only [opShape3] at hs
    · cases hs
    · cases hs
    · obtain ⟨q, ps', rfl, hq, hR'⟩ := rows_cons hR
      obtain ⟨r, rfl, hr⟩ := rows1 hR'
      obtain ⟨rfl, hk⟩ := hok
      obtain ⟨hru, rfl⟩ := plain_ok (show plain (ruleDepthwise .nchw a q r) = .ok p sv from hrule)
      exact ⟨depthwise_agree hq hr (hk r rfl) hs hru, fun w hw => by cases hw⟩
    · cases hs
  | conv2dV2 f a =>
    rcases vs with _ | ⟨x, _ | ⟨y, _ | ⟨z, _ | ⟨u, vs⟩⟩⟩⟩ <;> simp only [opShape3] at hs
    · cases hs
    · cases hs
    · cases hs
    · obtain ⟨q, ps', rfl, hq, hR'⟩ := rows_cons hR
      obtain ⟨t, ps'', rfl, -, hR''⟩ := rows_cons hR'
      obtain ⟨r, rfl, hr⟩ := rows1 hR''
      obtain ⟨k0, ks', rfl, -, hK'⟩ := rows_cons hK
      obtain ⟨k1, ks'', rfl, hk1, -⟩ := rows_cons hK'
      obtain ⟨rfl, hk⟩ := hok
      obtain ⟨s, rfl, hru, rfl⟩ := withValue_ok (show withValue k1 (fun s => ruleConv2dV2 .nchw a s q r) = .ok p sv from hrule)
      have := hk1 s rfl
      subst this
      exact ⟨conv2dV2_agree hq hr (hk r rfl) hs hru, fun w hw => by cases hw⟩
    · cases hs
  | pooling2dV2 f a =>
    rcases vs with _ | ⟨x, _ | ⟨y, _ | ⟨z, _ | ⟨u, _ | ⟨t, vs⟩⟩⟩⟩⟩ <;> simp only [opShape3] at hs
    · cases hs
    · cases hs
    · cases hs
    · cases hs
    · obtain ⟨q, ps', rfl, hq, -⟩ := rows_cons hR
      obtain ⟨k0, ks', rfl, -, hK'⟩ := rows_cons hK
      obtain ⟨k1, ks'', rfl, hk1, hK''⟩ := rows_cons hK'
      obtain ⟨k2, ks3, rfl, hk2, hK3⟩ := rows_cons hK''
      obtain ⟨k3, rfl, hk3⟩ := rows1 hK3
      cases k2 with
      | none =>
        obtain ⟨b, -, hru, -⟩ := withValue_ok (show withValue k1 (fun _ => .ok none) = .ok p sv from hrule)
        cases hru
      | some s2 =>
        cases k3 with
        | none =>
          obtain ⟨b, -, hru, -⟩ := withValue_ok (show withValue k1 (fun _ => .ok none) = .ok p sv from hrule)
          cases hru
        | some s3 =>
          obtain ⟨s, rfl, hru, rfl⟩ := withValue_ok (show withValue k1 (fun s => rulePooling2dV2 rnd f a s s2.ints s3.ints q) = .ok p sv from hrule)
          have := hk1 s rfl
          subst this
          have := hk2 s2 rfl
          subst this
          have := hk3 s3 rfl
          subst this
          exact ⟨pooling2dV2_agree hq hs hru, fun w hw => by cases hw⟩
    · cases hs
  | roiAlign a b =>
    rcases vs with _ | ⟨x, _ | ⟨y, _ | ⟨z, vs⟩⟩⟩ <;> simp only [opShape3] at hs
    · cases hs
    · cases hs
    · obtain ⟨q, ps', rfl, hq, hR'⟩ := rows_cons hR
      obtain ⟨r, rfl, hr⟩ := rows1 hR'
      obtain ⟨hru, rfl⟩ := plain_ok (show plain (ruleRoiAlign a b q r) = .ok p sv from hrule)
      exact ⟨roiAlign_agree hq hr hs hru, fun w hw => by cases hw⟩
    · cases hs
  | strided b e s bm em sm =>
    rcases vs with _ | ⟨x, _ | ⟨y, vs⟩⟩ <;> simp only [opShape3] at hs
    · cases hs
    · obtain ⟨q, rfl, hq⟩ := rows1 hR
      obtain ⟨hru, rfl⟩ := plain_ok (show plain (ruleStrided b e s bm em sm q) = .ok p sv from hrule)
      exact ⟨strided_agree hq (hok q rfl) hs hru, fun w hw => by cases hw⟩
    · cases hs

variable {N : Type} [DecidableEq N]

/-- **C110, without the cases of `OpOk3`.** For every graph of the operators of C45, C102 and the further ones, every execution of it (arbitrary kernels,
parameters fed with tensors that fit their declared shapes) and every node: the prototype inferred for the node describes the tensor that the execution
computes there, is its shape if no extent is unknown, and the value folded during the inference, if any, is the executed value. Missing: the combinations
excluded by `OpOk3`, where the code infers a wrong shape (below). -/
theorem C110_shapes_partial (rnd : Rat → Rat) (hrnd : NearRound rnd) (hsgn : SignRound rnd) (kern : Op3 → List Val → List Int) (op : N → Op3) (inputs : N → List N)
    (ex : N → Val) (hex : Executes (opEnv3 rnd kern op inputs) ex) (hpos : ∀ n, ∀ a ∈ (ex n).shape, 0 ≤ a ∧ a < 2 ^ 31)
    (hfed : ∀ n s, op n = .base (.base (.param s)) → Describes s (ex n))
    (hok : ∀ n l, RowAnswer (opEnv3 rnd kern op inputs) (inputs n) (.ok l) →
      OpOk3 rnd (op n) (l.map Prod.fst) (l.map Prod.snd))
    (d : Nat) (n : N) (st : St N (List Int) Val) (p : List Int)
    (h : inferNode (opEnv3 rnd kern op inputs) d n St.fresh = some (st, .ok (some p))) :
    Describes p (ex n) ∧ ((∀ a ∈ p, 0 ≤ a) → p = (ex n).shape) ∧
      ∀ v, getValue (opEnv3 rnd kern op inputs) st n = some v → v = ex n := by
  obtain ⟨-, -, -, h3⟩ := C45_cache_transparent (opEnv3 rnd kern op inputs) d n St.fresh st (.ok (some p))
    (consistent_fresh _) h
  have hans := h3 p rfl
  have hsound : ∀ n, RuleSound (opEnv3 rnd kern op inputs) (fun p (v : Val) => Fits p v.shape) ex
      (fun n => OpOk3 rnd (op n)) n := by
    intro n ru ps ks q sv hru hc hR hK hq
    simp only [opEnv3, Option.some.injEq] at hru
    subst hru
    by_cases he : (opEnv3 rnd kern op inputs).isEnd n = true
    · simp only [opEnv3] at he
      split at he
      · rename_i s hop
        rw [hop] at hq
        simp only [opRule3, opRule2, opRule, RuleOut.ok.injEq] at hq
        obtain ⟨rfl, rfl⟩ := hq
        exact ⟨describes_iff.1 (hfed n _ hop), fun w hw => by cases hw⟩
      · rename_i c hop
        rw [hop] at hq
        simp only [opRule3, opRule2, opRule, RuleOut.ok.injEq] at hq
        obtain ⟨rfl, rfl⟩ := hq
        have := hex.const n c (by simp [opEnv3, hop])
        exact ⟨by rw [this]; exact Fits.refl _, fun w hw => by cases hw⟩
      · cases he
    · have hrun := hex.op n (by simpa using he)
      refine op3_sound rnd hrnd hsgn kern (op n) ps ks _ (ex n) q sv hc hR hK ?_ hrun hq
      intro x hx
      obtain ⟨m, -, rfl⟩ := List.mem_map.1 hx
      exact hpos m
  obtain ⟨g1, g2⟩ := C45_sound (opEnv3 rnd kern op inputs) _ ex hex (fun n => OpOk3 rnd (op n)) hsound hok n p _ hans
  exact ⟨describes_iff.2 g1, fun hp => g1.eq hp, g2⟩


/-! ## A graph that meets the hypotheses -/

theorem id_sign : SignRound id := ⟨rfl, fun _ h => h⟩

/-- `0: sample2d to one half (1)`, `1: depthwise_conv2d (2, 3)`, `2: parameter (declared [-1, 2, 8, 8], fed [5, 2, 8, 8])`, `3: the kernel [1, 2, 3, 3]` -/
def hOp : Nat → Op3
  | 0 => .sample2d (1 / 2) (-2)
  | 1 => .depthwise .nchw unitWindow
  | 2 => .base (.base (.param [-1, 2, 8, 8]))
  | _ => .base (.base (.const ⟨[1, 2, 3, 3], []⟩))

/-- its edges -/
def hIn : Nat → List Nat
  | 0 => [1]
  | 1 => [2, 3]
  | _ => []

/-- its execution -/
def hVal : Nat → Val
  | 0 => ⟨[5, 2, 3, 3], []⟩
  | 1 => ⟨[5, 2, 6, 6], []⟩
  | 2 => ⟨[5, 2, 8, 8], []⟩
  | _ => ⟨[1, 2, 3, 3], []⟩

theorem h_executes : Executes (opEnv3 id (fun _ _ => []) hOp hIn) hVal := by
  constructor
  · intro n v h
    match n with
    | 0 | 1 | 2 => cases h
    | n + 3 =>
      simp only [opEnv3, hOp, Option.some.injEq] at h
      exact h
  · intro n h
    match n with
    | 0 => with_unfolding_all rfl
    | 1 => rfl
    | 2 => cases h
    | n + 3 => cases h

theorem h_ok : ∀ n l, RowAnswer (opEnv3 id (fun _ _ => []) hOp hIn) (hIn n) (.ok l) → OpOk3 id (hOp n) (l.map Prod.fst) (l.map Prod.snd) := by
  intro n l h
  match n with
  | 0 => trivial
  | 1 =>
    have h2 : RowAnswer (opEnv3 id (fun _ _ => []) hOp hIn) (hIn 1) (.ok [([-1, 2, 8, 8], none), ([1, 2, 3, 3], some ⟨[1, 2, 3, 3], []⟩)]) := ⟨1, rfl⟩
    have := row_unique h h2
    simp only [Row.ok.injEq] at this
    subst this
    refine ⟨rfl, ?_⟩
    intro p hp
    simp at hp
    subst hp
    decide
  | 2 => trivial
  | n + 3 => trivial

/-- The inference finds `[-1, 2, 3, 3]`, and that describes what is executed. -/
example : Describes [-1, 2, 3, 3] (hVal 0) := by
  refine (C110_shapes_partial id id_near id_sign (fun _ _ => []) hOp hIn hVal h_executes ?_ ?_ h_ok 4 0 _ [-1, 2, 3, 3] (by with_unfolding_all rfl)).1
  · intro n a ha
    match n with
    | 0 | 1 | 2 => simp [hVal] at ha; omega
    | n + 3 => simp [hVal] at ha; omega
  · intro n s h
    match n with
    | 0 | 1 => cases h
    | 2 =>
      simp only [hOp, Op3.base.injEq, Op2.base.injEq, Verif.Runtime.Infer.Op.param.injEq] at h
      subst h
      exact describes_iff.2 ⟨fun h => absurd h (by decide), fun _ => rfl, fun _ => rfl, fun _ => rfl, trivial⟩
    | n + 3 => cases h

/-! ## The excluded cases -/

/-- node `0` is the operator `o`, the others are the end points -/
def starOp3 (o : Op3) (ends : List (Verif.Runtime.Infer.Op × Val)) : Nat → Op3
  | 0 => o
  | n + 1 => .base (.base (starOp .copy ends (n + 1)))

/-- **Specification**: a graph with one operator `o` above end points (`starIn`, `starEx` of Verif/Props/InferRules.lean), an execution of it with result
`v`, and the prototype `p` that the inference answers, which does not describe `v`. -/
structure Wrong3 (o : Op3) (ends : List (Verif.Runtime.Infer.Op × Val)) (v : Val) (p : List Int) : Prop where
  executes : Executes (opEnv3 id (fun _ _ => []) (starOp3 o ends) (starIn ends)) (starEx v ends)
  extents : ∀ n, ∀ a ∈ (starEx v ends n).shape, 0 ≤ a ∧ a < 2 ^ 31
  fed : ∀ n s, starOp3 o ends n = .base (.base (.param s)) → Describes s (starEx v ends n)
  inferred : ∃ st, inferNode (opEnv3 id (fun _ _ => []) (starOp3 o ends) (starIn ends)) 2 0 St.fresh = some (st, .ok (some p))
  wrong : ¬ Describes p v

theorem wrong3_intro {o : Op3} {ends : List (Verif.Runtime.Infer.Op × Val)} {v : Val} {p : List Int} (ho : ∀ b, o ≠ .base b)
    (hends : ∀ x ∈ ends, (∃ s, x.1 = .param s ∧ Fits s x.2.shape) ∨ x.1 = .const x.2)
    (hrun : opRun3 id (fun _ _ => []) o ((starIn ends 0).map (starEx v ends)) = some v)
    (hpos : (∀ a ∈ v.shape, 0 ≤ a ∧ a < 2 ^ 31) ∧ ∀ x ∈ ends, ∀ a ∈ x.2.shape, 0 ≤ a ∧ a < 2 ^ 31)
    (hinf : ∃ st, inferNode (opEnv3 id (fun _ _ => []) (starOp3 o ends) (starIn ends)) 2 0 St.fresh = some (st, .ok (some p)))
    (hw : ¬ Fits p v.shape) : Wrong3 o ends v p := by
  refine ⟨⟨?_, ?_⟩, ?_, ?_, hinf, fun h => hw (describes_iff.1 h)⟩
  · intro n w h
    cases n with
    | zero => cases o <;> simp_all [opEnv3, starOp3]
    | succ n =>
      simp only [opEnv3, starOp3, starOp] at h
      simp only [starEx]
      cases he : ends[n]? with
      | none => rw [he] at h; simpa using h
      | some x =>
        rw [he] at h
        rcases hends x (List.mem_of_getElem? he) with ⟨s, hs, -⟩ | hs
        · simp [hs] at h
        · simp only [hs, Option.some.injEq] at h; exact h
  · intro n h
    cases n with
    | zero => exact hrun
    | succ n =>
      simp only [opEnv3, starOp3, starOp] at h
      cases he : ends[n]? with
      | none => rw [he] at h; simp at h
      | some x =>
        rw [he] at h
        rcases hends x (List.mem_of_getElem? he) with ⟨s, hs, -⟩ | hs <;> simp [hs] at h
  · intro n a ha
    cases n with
    | zero => exact hpos.1 a ha
    | succ n =>
      simp only [starEx] at ha
      cases he : ends[n]? with
      | none => rw [he] at ha; simp at ha
      | some x => rw [he] at ha; exact hpos.2 x (List.mem_of_getElem? he) a ha
  · intro n s h
    cases n with
    | zero => exact absurd h (ho _)
    | succ n =>
      simp only [starOp3, starOp, Op3.base.injEq, Op2.base.injEq] at h
      simp only [starEx]
      cases he : ends[n]? with
      | none => rw [he] at h; cases h
      | some x =>
        rw [he] at h
        simp only at h
        rcases hends x (List.mem_of_getElem? he) with ⟨s', hs, hd⟩ | hs
        · rw [hs] at h; simp only [Verif.Runtime.Infer.Op.param.injEq] at h; subst h; exact describes_iff.2 hd
        · rw [hs] at h; cases h

/-- **C110 fails for `slice_v2` with a size below the `int`s: the execution takes it for "to the end", the inference for its low 32 bits.** -/
theorem C110_slice_v2_false : Wrong3 (.sliceV2) [fedExact [5], constant [1] [1], constant [1] [-1099511627776]] ⟨[4], []⟩ [0] :=
  wrong3_intro (by simp) (by simp [fedExact, fedWith, constant, Fits]) (by with_unfolding_all rfl) (by simp [fedExact, fedWith, constant]) ⟨_, by with_unfolding_all rfl⟩ (by simp [Fits])

/-- **C110 fails for `sample2d_v2` with an unknown extent and a scale below 1: `-1` is scaled to 0.** -/
theorem C110_sample2d_v2_unknown_false : Wrong3 (.sample2dV2 (fun t => t / 2)) [fedWith [-1, 4] [5, 4], constant [2] [1, 1]] ⟨[2, 2], []⟩ [0, 2] :=
  wrong3_intro (by simp) (by simp [fedExact, fedWith, constant, Fits]) (by with_unfolding_all rfl) (by simp [fedExact, fedWith, constant]) ⟨_, by with_unfolding_all rfl⟩ (by simp [Fits])

/-- **C110 fails for `sample2d_v2` with a negative scale: what rounds down to a negative extent is kept by the resize, 0 is announced.** -/
theorem C110_sample2d_v2_negative_false : Wrong3 (.sample2dV2 (fun t => t / 2)) [fedExact [1, 4, 4], constant [3] [-1, 1, 1]] ⟨[1, 2, 2], []⟩ [0, 2, 2] :=
  wrong3_intro (by simp) (by simp [fedExact, fedWith, constant, Fits]) (by with_unfolding_all rfl) (by simp [fedExact, fedWith, constant]) ⟨_, by with_unfolding_all rfl⟩ (by simp [Fits])

/-- **C110 fails for `broadcast` to the extent 0: the larger of 1 and 0 is made, 0 announced.** -/
theorem C110_broadcast_false : Wrong3 (.broadcast) [fedExact [1], constant [1] [0]] ⟨[1], []⟩ [0] :=
  wrong3_intro (by simp) (by simp [fedExact, fedWith, constant, Fits]) (by with_unfolding_all rfl) (by simp [fedExact, fedWith, constant]) ⟨_, by with_unfolding_all rfl⟩ (by simp [Fits])

/-- **C110 fails for `depthwise_conv2d` in NHWC layout: the execution writes the channels to position 1, the inference reads the kernel extents at other positions.** -/
theorem C110_depthwise_nhwc_false : Wrong3 (.depthwise .nhwc unitWindow) [fedExact [1, 3, 5, 2], fedExact [1, 3, 3, 1]] ⟨[1, 3, 3, 1], []⟩ [1, 1, 5, 2] :=
  wrong3_intro (by simp) (by simp [fedExact, fedWith, constant, Fits]) (by with_unfolding_all rfl) (by simp [fedExact, fedWith, constant]) ⟨_, by with_unfolding_all rfl⟩ (by simp [Fits])

/-- **C110 fails for `depthwise_conv2d` with unknown channels and an unknown kernel extent: `-1` times `-1` is 1.** -/
theorem C110_depthwise_unknown_false : Wrong3 (.depthwise .nchw unitWindow) [fedWith [1, -1, 5, 5] [1, 4, 5, 5], fedWith [-1, 4, 3, 3] [1, 4, 3, 3]] ⟨[1, 4, 3, 3], []⟩ [1, 1, 3, 3] :=
  wrong3_intro (by simp) (by simp [fedExact, fedWith, constant, Fits]) (by with_unfolding_all rfl) (by simp [fedExact, fedWith, constant]) ⟨_, by with_unfolding_all rfl⟩ (by simp [Fits])

/-- **C110 fails for `conv2d_v2` in NHWC layout: the inference reads the kernel extents at other positions.** -/
theorem C110_conv2d_v2_nhwc_false : Wrong3 (.conv2dV2 .nhwc unitWindow) [fedExact [1, 3, 5, 2], constant [4, 2] [0, 0, 0, 0, 0, 0, 0, 0], fedExact [4, 3, 3, 1]] ⟨[1, 1, 3, 4], []⟩ [1, 1, 5, 4] :=
  wrong3_intro (by simp) (by simp [fedExact, fedWith, constant, Fits]) (by with_unfolding_all rfl) (by simp [fedExact, fedWith, constant]) ⟨_, by with_unfolding_all rfl⟩ (by simp [Fits])

/-- **C110 fails for `conv2d_v2` with a kernel of unknown extent: `-1` is used as a kernel size.** -/
theorem C110_conv2d_v2_kernel_false : Wrong3 (.conv2dV2 .nchw unitWindow) [fedExact [1, 3, 5, 5], constant [4, 2] [0, 0, 0, 0, 0, 0, 0, 0], fedWith [4, 3, -1, 3] [4, 3, 3, 3]] ⟨[1, 4, 3, 3], []⟩ [1, 4, 7, 3] :=
  wrong3_intro (by simp) (by simp [fedExact, fedWith, constant, Fits]) (by with_unfolding_all rfl) (by simp [fedExact, fedWith, constant]) ⟨_, by with_unfolding_all rfl⟩ (by simp [Fits])

/-- **C110 fails for `strided_slice` with unknown extents: a dimension that is selected as a whole is announced as empty, another with what the request says.** -/
theorem C110_strided_false : Wrong3 (.strided [0] [-1] [1] 0 0 0) [fedWith [-1, -1] [5, 6]] ⟨[4, 6], []⟩ [0, 0] :=
  wrong3_intro (by simp) (by simp [fedExact, fedWith, constant, Fits]) (by with_unfolding_all rfl) (by simp [fedExact, fedWith, constant]) ⟨_, by with_unfolding_all rfl⟩ (by simp [Fits])

/-! ## The shapes are those of the kernels -/

/-- **C110, `broadcast`.** The shape used above is the one that the model of the whole operator (C19) gives its result. -/
theorem C110_broadcast_shape {α : Type} (x : Operand α) (request : List Int) (fresh : Nat → List α) (s : List Nat) (data : List α)
    (h : broadcastRun x request fresh = .ok (s, data)) : Exec.broadcast x.shape request = .ok s := by
  unfold broadcastRun at h
  unfold Exec.broadcast
  simp only at h ⊢
  split at h
  · rename_i he
    rw [if_pos he]
    simp only [Res.ok.injEq, Prod.mk.injEq] at h
    rw [h.1]
  · rename_i he
    rw [if_neg he]
    simp only [Res.bind_eq_ok] at h
    obtain ⟨o, ho, h⟩ := h
    rw [ho]
    split at h
    · cases h
    · simp only [Res.bind_eq_ok, Res.ok.injEq, Prod.mk.injEq] at h
      obtain ⟨_, -, h, -⟩ := h
      rw [h]

/-- **C110, `strided_slice`.** The shape used above is the one that the model of the whole operator (C18) gives its result. -/
theorem C110_strided_shape {α : Type} (b e t : List Int) (bm em sm dtype : Nat) (shape s : List Int) (data dst r : List α)
    (h : sliceRun ⟨b, e, t, bm, em, 0, 0, sm⟩ dtype shape data dst = .ok (s, r)) : Exec.stridedSlice b e t bm em sm shape = .ok s := by
  unfold sliceRun at h
  unfold Exec.stridedSlice
  simp only [Res.bind_eq_ok] at h ⊢
  obtain ⟨p, hp, q, hq, h⟩ := h
  split at h
  · simp only [Res.bind_eq_ok, Res.ok.injEq, Prod.mk.injEq] at h
    obtain ⟨_, -, f, hf, rfl, -⟩ := h
    exact ⟨p, hp, q, hq, hf⟩
  · cases h

example : Exec.stridedSlice [1, 0] [5, 1] [2, 1] 0 0 2 [6, 3, 4] = .ok [2, 4] := by decide
example : ruleStrided [1, 0] [5, 1] [2, 1] 0 0 2 [6, 3, 4] = .ok (some [2, 4]) := by decide
example : Exec.broadcast [3, 1] [2, 3, 4] = .ok [2, 3, 4] := by decide

end Verif.Props.Infer3
