import Verif.Runtime.InferAgree2
import Verif.Props.Inferer
/-!
# C45: inferred prototypes and executed shapes

**Specification.** A prototype describes a tensor if the ranks agree and every extent that is not negative is the
tensor's. The graph is executed by giving every node a value (`Executes`, Verif/Props/Inferer.lean).
-/
namespace Verif.Props
open Verif.Core Verif.Kernels Verif.Runtime.Infer

/-- **Specification**: the prototype `p` describes the tensor `v`; negative extents are unknown. -/
def Describes (p : List Int) (v : Val) : Prop :=
  p.length = v.shape.length ∧ ∀ (i : Nat) a, p[i]? = some a → 0 ≤ a → v.shape[i]? = some a

theorem describes_iff {p : List Int} {v : Val} : Describes p v ↔ Fits p v.shape := by
  constructor
  · intro h
    refine Fits.ofGet h.1 ?_
    intro i a b ha hb h0
    have := h.2 i a ha h0
    rw [hb] at this
    exact (Option.some.inj this).symm
  · intro h
    refine ⟨h.length, ?_⟩
    intro i a ha h0
    obtain ⟨b, hb, hab⟩ := h.get i a ha
    rw [hb, hab h0]

/-- **Specification**: what is excluded, operator by operator; see the `_false` theorems below for why. `ps` are the
prototypes inferred for the inputs, `ks` the values known for them. -/
def OpOk : Op → List (List Int) → List (Option Val) → Prop
  | .flatten _, ps, _ => ∀ p, ps[0]? = some p → (p.filter (· < 0)).length ≤ 1
  | .flatten2d _, ps, _ => ∀ p, ps[0]? = some p → (p.filter (· < 0)).length ≤ 1
  | .squeeze axes, _, _ => axes ≠ [] ∧ ∀ a ∈ axes, 0 ≤ a
  | .expand front last _, _, _ => front = none ∧ last = none
  | .transpose permute, _, _ => ∃ q, permute = some q ∧ q ≠ []
  | .concat dim, ps, _ => ∀ p, ps[0]? = some p → ∀ v,
      p[(if dim < 0 then (p.length : Int) + dim else dim).toNat]? = some v → 0 ≤ v
  | .shape, ps, _ => ∀ p, ps[0]? = some p → ∀ a ∈ p, 0 ≤ a
  | .conv2d f _, ps, _ => f = .nchw ∧ ∀ k, ps[1]? = some k → ∀ a ∈ k, 0 ≤ a
  | .pad, ps, ks => (∀ v, ks[1]? = some (some v) → ∀ a ∈ v.ints, 0 ≤ a) ∧ ∀ p, ps[0]? = some p → 0 ∉ p
  | _, _, _ => True

theorem rows1 {α β : Type} {R : α → β → Prop} {ps : List α} {x : β} (h : Rows R ps [x]) : ∃ p, ps = [p] ∧ R p x := by
  match ps, h with
  | [], h => exact absurd h.1 (by simp)
  | [p], h => exact ⟨p, rfl, h.2 0 p x rfl rfl⟩
  | _ :: _ :: _, h => exact absurd h.1 (by simp)

theorem rows_cons {α β : Type} {R : α → β → Prop} {ps : List α} {x : β} {xs : List β} (h : Rows R ps (x :: xs)) :
    ∃ p ps', ps = p :: ps' ∧ R p x ∧ Rows R ps' xs := by
  match ps, h with
  | [], h => exact absurd h.1 (by simp)
  | p :: ps', h =>
    exact ⟨p, ps', rfl, h.2 0 p x rfl rfl, by simpa using h.1,
      fun i a b ha hb => h.2 (i + 1) a b (by simpa using ha) (by simpa using hb)⟩

theorem plain_ok {r : Res (Option (List Int))} {p : List Int} {sv : Option Val} (h : plain r = .ok p sv) :
    r = .ok (some p) ∧ sv = none := by
  unfold plain at h
  split at h <;> simp_all

theorem opRun_shape {rnd : Rat → Rat} {kern : Op → List Val → List Int} {op : Op} {vs : List Val} {v : Val}
    (h : opRun rnd kern op vs = some v) : opShape rnd op vs = .ok v.shape := by
  unfold opRun at h
  split at h
  · rename_i s hs
    rw [hs]
    split at h <;> simp only [Option.some.injEq] at h <;> subst h <;> rfl
  · cases h

theorem filter_unknowns (p : List Int) : unknowns p = (p.filter (· < 0)).length := by
  unfold unknowns
  rw [List.countP_eq_length_filter]

/-- one operator: its rule is sound under `OpOk` -/
theorem op_sound (rnd : Rat → Rat) (kern : Op → List Val → List Int) (op : Op) (ps : List (List Int))
    (ks : List (Option Val)) (vs : List Val) (v : Val) (p : List Int) (sv : Option Val) (hok : OpOk op ps ks)
    (hR : Rows (fun p (v : Val) => Fits p v.shape) ps vs)
    (hK : Rows (fun k v => ∀ w, k = some w → w = v) ks vs) (hpos : ∀ x ∈ vs, ∀ a ∈ x.shape, 0 ≤ a)
    (hrun : opRun rnd kern op vs = some v) (hrule : opRule rnd op ps ks = .ok p sv) :
    Fits p v.shape ∧ ∀ w, sv = some w → w = v := by
  have hs := opRun_shape hrun
  cases op with
  | param s => simp [opShape] at hs
  | const c => simp [opShape] at hs
  | copy =>
    cases vs with
    | nil => simp [opShape] at hs
    | cons x vs =>
      obtain ⟨q, ps', rfl, hq, -⟩ := rows_cons hR
      simp only [opShape, Res.ok.injEq] at hs
      simp only [opRule, RuleOut.ok.injEq] at hrule
      obtain ⟨rfl, rfl⟩ := hrule
      exact ⟨by rw [← hs]; exact hq, fun w hw => by cases hw⟩
  | shape =>
    rcases vs with _ | ⟨x, _ | ⟨y, vs⟩⟩ <;> simp only [opShape] at hs
    · cases hs
    · obtain ⟨q, rfl, hq⟩ := rows1 hR
      have he := hq.eq (hok q rfl)
      simp only [opRule, RuleOut.ok.injEq] at hrule
      obtain ⟨rfl, rfl⟩ := hrule
      simp only [opRun, opShape, Option.some.injEq] at hrun
      subst hrun
      subst he
      exact ⟨Fits.refl _, fun w hw => by simpa using hw.symm⟩
    · cases hs
  | dims =>
    rcases vs with _ | ⟨x, _ | ⟨y, vs⟩⟩ <;> simp only [opShape] at hs
    · cases hs
    · obtain ⟨q, rfl, hq⟩ := rows1 hR
      simp only [opRule, RuleOut.ok.injEq] at hrule
      obtain ⟨rfl, rfl⟩ := hrule
      simp only [opRun, opShape, Option.some.injEq] at hrun
      subst hrun
      exact ⟨Fits.refl _, fun w hw => by rw [← hq.length]; simpa using hw.symm⟩
    · cases hs
  | eltwise =>
    rcases vs with _ | ⟨x, _ | ⟨y, _ | ⟨z, vs⟩⟩⟩ <;> simp only [opShape] at hs
    · cases hs
    · cases hs
    · obtain ⟨q, ps', rfl, hq, hR'⟩ := rows_cons hR
      obtain ⟨r, rfl, hr⟩ := rows1 hR'
      simp only [opRule] at hrule
      have hpl := plain_ok hrule
      clear hrule
      obtain ⟨hrule, rfl⟩ := hpl
      simp only [Res.bind_eq_ok] at hs
      obtain ⟨⟨l', r', o, b⟩, ho, hs⟩ := hs
      simp only [Res.ok.injEq] at hs
      rw [← hs]
      exact ⟨eltwise_agree (hpos x (by simp)) (hpos y (by simp)) hq hr ho hrule, fun w hw => by cases hw⟩
    · cases hs
  | flatten d =>
    rcases vs with _ | ⟨x, _ | ⟨y, vs⟩⟩ <;> simp only [opShape] at hs
    · cases hs
    · obtain ⟨q, rfl, hq⟩ := rows1 hR
      simp only [opRule] at hrule
      have hpl := plain_ok hrule
      clear hrule
      obtain ⟨hrule, rfl⟩ := hpl
      exact ⟨flatten_agree hq (by rw [filter_unknowns]; exact hok q rfl) hs hrule, fun w hw => by cases hw⟩
    · cases hs
  | flatten2d d =>
    rcases vs with _ | ⟨x, _ | ⟨y, vs⟩⟩ <;> simp only [opShape] at hs
    · cases hs
    · obtain ⟨q, rfl, hq⟩ := rows1 hR
      simp only [opRule] at hrule
      have hpl := plain_ok hrule
      clear hrule
      obtain ⟨hrule, rfl⟩ := hpl
      exact ⟨flatten2d_agree hq (by rw [filter_unknowns]; exact hok q rfl) hs hrule, fun w hw => by cases hw⟩
    · cases hs
  | squeeze axes =>
    rcases vs with _ | ⟨x, _ | ⟨y, vs⟩⟩ <;> simp only [opShape] at hs
    · cases hs
    · obtain ⟨q, rfl, hq⟩ := rows1 hR
      simp only [opRule] at hrule
      have hpl := plain_ok hrule
      clear hrule
      obtain ⟨hrule, rfl⟩ := hpl
      exact ⟨squeeze_agree hok.1 hok.2 hq hs hrule, fun w hw => by cases hw⟩
    · cases hs
  | unsqueeze axes =>
    rcases vs with _ | ⟨x, _ | ⟨y, vs⟩⟩ <;> simp only [opShape] at hs
    · cases hs
    · obtain ⟨q, rfl, hq⟩ := rows1 hR
      simp only [opRule] at hrule
      have hpl := plain_ok hrule
      clear hrule
      obtain ⟨hrule, rfl⟩ := hpl
      exact ⟨unsqueeze_agree hq hs hrule, fun w hw => by cases hw⟩
    · cases hs
  | reshape req =>
    rcases vs with _ | ⟨x, _ | ⟨y, vs⟩⟩ <;> simp only [opShape] at hs
    · cases hs
    · obtain ⟨q, rfl, hq⟩ := rows1 hR
      simp only [opRule] at hrule
      have hpl := plain_ok hrule
      clear hrule
      obtain ⟨hrule, rfl⟩ := hpl
      simp only [Res.bind_eq_ok, Res.ok.injEq] at hs
      obtain ⟨t, ht, hs⟩ := hs
      rw [← hs]
      obtain ⟨g1, g2⟩ := reshapeV1_spec ht
      exact ⟨reshape_agree hq g1 g2 hrule, fun w hw => by cases hw⟩
    · cases hs
  | reshapeV2 =>
    rcases vs with _ | ⟨x, _ | ⟨y, _ | ⟨z, vs⟩⟩⟩ <;> simp only [opShape] at hs
    · cases hs
    · cases hs
    · obtain ⟨q, ps', rfl, hq, hR'⟩ := rows_cons hR
      obtain ⟨k0, ks', rfl, -, hK'⟩ := rows_cons hK
      obtain ⟨k, rfl, hk⟩ := rows1 hK'
      simp only [opRule] at hrule
      cases k with
      | none => cases hrule
      | some w =>
        simp only at hrule
        have hpl := plain_ok hrule
        clear hrule
        obtain ⟨hrule, rfl⟩ := hpl
        have hw := hk w rfl
        subst hw
        simp only [Res.bind_eq_ok, Res.ok.injEq] at hs
        obtain ⟨t, ht, hs⟩ := hs
        rw [← hs]
        obtain ⟨g1, g2⟩ := reshapeV2_spec ht
        exact ⟨reshape_agree hq g1 g2 hrule, fun w hw => by cases hw⟩
    · cases hs
  | expand f l i =>
    rcases vs with _ | ⟨x, _ | ⟨y, _ | ⟨z, vs⟩⟩⟩ <;> simp only [opShape] at hs
    · cases hs
    · cases hs
    · obtain ⟨q, ps', rfl, hq, hR'⟩ := rows_cons hR
      obtain ⟨k0, ks', rfl, -, hK'⟩ := rows_cons hK
      obtain ⟨k, rfl, hk⟩ := rows1 hK'
      simp only [opRule] at hrule
      cases k with
      | none => cases hrule
      | some w =>
        simp only at hrule
        have hpl := plain_ok hrule
        clear hrule
        obtain ⟨hrule, rfl⟩ := hpl
        have hw := hk w rfl
        subst hw
        obtain ⟨rfl, rfl⟩ := hok
        simp only [Res.bind_eq_ok, Res.ok.injEq] at hs hrule
        obtain ⟨n, hn, t, ht, hs⟩ := hs
        obtain ⟨n', hn', hrule⟩ := hrule
        rw [hn, Res.ok.injEq] at hn'
        subst hn'
        rw [← hs]
        exact ⟨expand_agree hq ht hrule, fun w hw => by cases hw⟩
    · cases hs
  | transpose pm =>
    rcases vs with _ | ⟨x, _ | ⟨y, vs⟩⟩ <;> simp only [opShape] at hs
    · cases hs
    · obtain ⟨q, rfl, hq⟩ := rows1 hR
      simp only [opRule] at hrule
      have hpl := plain_ok hrule
      clear hrule
      obtain ⟨hrule, rfl⟩ := hpl
      obtain ⟨r, rfl, hr⟩ := hok
      simp only [Res.bind_eq_ok] at hs
      obtain ⟨m, hm, pm, hpm, hs⟩ := hs
      exact ⟨transpose_agree hr hq hm hpm hs hrule, fun w hw => by cases hw⟩
    · cases hs
  | concat d =>
    simp only [opShape, Res.bind_eq_ok, Res.ok.injEq] at hs
    obtain ⟨o, ho, hs⟩ := hs
    simp only [opRule] at hrule
    have hpl := plain_ok hrule
    clear hrule
    obtain ⟨hrule, rfl⟩ := hpl
    rw [← hs]
    refine ⟨concat_agree (xs := vs.map Val.shape) ?_ ?_ ?_ ?_ ?_ hrule, fun w hw => by cases hw⟩
    · intro x hx
      obtain ⟨y, hy, rfl⟩ := List.mem_map.1 hx
      exact hpos y hy
    · simpa using hR.1
    · intro i p' x hp hx
      rw [List.getElem?_map, Option.map_eq_some_iff] at hx
      obtain ⟨y, hy, rfl⟩ := hx
      exact hR.2 i p' y hp hy
    · intro p' rest hp' w hw
      exact hok p' (by rw [hp']; rfl) w hw
    · rw [← ho, List.map_map]; rfl
  | conv2d f w =>
    rcases vs with _ | ⟨x, _ | ⟨y, _ | ⟨z, vs⟩⟩⟩ <;> simp only [opShape] at hs
    · cases hs
    · cases hs
    · obtain ⟨q, ps', rfl, hq, hR'⟩ := rows_cons hR
      obtain ⟨r, rfl, hr⟩ := rows1 hR'
      simp only [opRule] at hrule
      have hpl := plain_ok hrule
      clear hrule
      obtain ⟨hrule, rfl⟩ := hpl
      obtain ⟨rfl, hk⟩ := hok
      exact ⟨conv2d_agree hq hr (hk r rfl) hs hrule, fun w hw => by cases hw⟩
    · cases hs
  | pooling2d f w =>
    rcases vs with _ | ⟨x, _ | ⟨y, vs⟩⟩ <;> simp only [opShape] at hs
    · cases hs
    · obtain ⟨q, rfl, hq⟩ := rows1 hR
      simp only [opRule] at hrule
      have hpl := plain_ok hrule
      clear hrule
      obtain ⟨hrule, rfl⟩ := hpl
      exact ⟨pooling2d_agree hq hs hrule, fun w hw => by cases hw⟩
    · cases hs
  | globalPool f =>
    rcases vs with _ | ⟨x, _ | ⟨y, vs⟩⟩ <;> simp only [opShape] at hs
    · cases hs
    · obtain ⟨q, rfl, hq⟩ := rows1 hR
      simp only [opRule] at hrule
      have hpl := plain_ok hrule
      clear hrule
      obtain ⟨hrule, rfl⟩ := hpl
      exact ⟨globalPool_agree hq hs hrule, fun w hw => by cases hw⟩
    · cases hs
  | gather a =>
    rcases vs with _ | ⟨x, _ | ⟨y, _ | ⟨z, vs⟩⟩⟩ <;> simp only [opShape] at hs
    · cases hs
    · cases hs
    · obtain ⟨q, ps', rfl, hq, hR'⟩ := rows_cons hR
      obtain ⟨r, rfl, hr⟩ := rows1 hR'
      simp only [opRule] at hrule
      have hpl := plain_ok hrule
      clear hrule
      obtain ⟨hrule, rfl⟩ := hpl
      exact ⟨gather_agree hq hr hs hrule, fun w hw => by cases hw⟩
    · cases hs
  | argmax d =>
    rcases vs with _ | ⟨x, _ | ⟨y, vs⟩⟩ <;> simp only [opShape] at hs
    · cases hs
    · obtain ⟨q, rfl, hq⟩ := rows1 hR
      simp only [opRule] at hrule
      have hpl := plain_ok hrule
      clear hrule
      obtain ⟨hrule, rfl⟩ := hpl
      exact ⟨argmax_agree hq hs hrule, fun w hw => by cases hw⟩
    · cases hs
  | stack a =>
    simp only [opShape] at hs
    simp only [opRule] at hrule
    have hpl := plain_ok hrule
    clear hrule
    obtain ⟨hrule, rfl⟩ := hpl
    refine ⟨stack_agree (by simpa using hR.1) ?_ hs hrule, fun w hw => by cases hw⟩
    intro i p' x hp hx
    rw [List.getElem?_map, Option.map_eq_some_iff] at hx
    obtain ⟨y, hy, rfl⟩ := hx
    exact hR.2 i p' y hp hy
  | tile r =>
    rcases vs with _ | ⟨x, _ | ⟨y, vs⟩⟩ <;> simp only [opShape] at hs
    · cases hs
    · obtain ⟨q, rfl, hq⟩ := rows1 hR
      simp only [opRule] at hrule
      have hpl := plain_ok hrule
      clear hrule
      obtain ⟨hrule, rfl⟩ := hpl
      exact ⟨tile_agree hq hs hrule, fun w hw => by cases hw⟩
    · cases hs
  | pad =>
    rcases vs with _ | ⟨x, _ | ⟨y, _ | ⟨z, vs⟩⟩⟩ <;> simp only [opShape] at hs
    · cases hs
    · cases hs
    · obtain ⟨q, ps', rfl, hq, hR'⟩ := rows_cons hR
      obtain ⟨k0, ks', rfl, -, hK'⟩ := rows_cons hK
      obtain ⟨k, rfl, hk⟩ := rows1 hK'
      simp only [opRule] at hrule
      cases k with
      | none => cases hrule
      | some w =>
        simp only at hrule
        have hpl := plain_ok hrule
        clear hrule
        obtain ⟨hrule, rfl⟩ := hpl
        have hw := hk w rfl
        subst hw
        refine ⟨pad_agree hq (hok.1 _ rfl) ?_ hs hrule, fun w hw => by cases hw⟩
        intro a ha h0
        subst h0
        exact hok.2 q rfl ha
    · cases hs
  | innerProd t =>
    rcases vs with _ | ⟨x, _ | ⟨y, _ | ⟨z, vs⟩⟩⟩ <;> simp only [opShape] at hs
    · cases hs
    · cases hs
    · obtain ⟨q, ps', rfl, hq, hR'⟩ := rows_cons hR
      obtain ⟨r, rfl, hr⟩ := rows1 hR'
      simp only [opRule] at hrule
      have hpl := plain_ok hrule
      clear hrule
      obtain ⟨hrule, rfl⟩ := hpl
      exact ⟨innerProd_agree hq (hpos x (by simp)) hr hs hrule, fun w hw => by cases hw⟩
    · cases hs
  | gemm ta tb =>
    rcases vs with _ | ⟨x, _ | ⟨y, _ | ⟨z, _ | ⟨u, vs⟩⟩⟩⟩ <;> simp only [opShape] at hs
    · cases hs
    · cases hs
    · cases hs
    · obtain ⟨q, ps', rfl, hq, hR'⟩ := rows_cons hR
      obtain ⟨r, ps'', rfl, hr, -⟩ := rows_cons hR'
      simp only [opRule] at hrule
      have hpl := plain_ok hrule
      clear hrule
      obtain ⟨hrule, rfl⟩ := hpl
      exact ⟨gemm_agree hq hr hs hrule, fun w hw => by cases hw⟩
    · cases hs

variable {N : Type} [DecidableEq N]

/-- **C45, without the cases of `OpOk`.** For every graph of the modelled operators, every execution of it (arbitrary
kernels, parameters fed with tensors that fit their declared shapes) and every node: the prototype inferred for the node
describes the tensor the execution computes there, is its shape if no extent is unknown, and the value folded during the
inference, if any, is the executed value. Missing: the combinations excluded by `OpOk`, where the code infers a wrong
shape (below). -/
theorem C45_shapes_partial (rnd : Rat → Rat) (kern : Op → List Val → List Int) (op : N → Op) (inputs : N → List N)
    (ex : N → Val) (hex : Executes (opEnv rnd kern op inputs) ex) (hpos : ∀ n, ∀ a ∈ (ex n).shape, 0 ≤ a)
    (hfed : ∀ n s, op n = .param s → Describes s (ex n))
    (hok : ∀ n l, RowAnswer (opEnv rnd kern op inputs) (inputs n) (.ok l) →
      OpOk (op n) (l.map Prod.fst) (l.map Prod.snd))
    (d : Nat) (n : N) (st : St N (List Int) Val) (p : List Int)
    (h : inferNode (opEnv rnd kern op inputs) d n St.fresh = some (st, .ok (some p))) :
    Describes p (ex n) ∧ ((∀ a ∈ p, 0 ≤ a) → p = (ex n).shape) ∧
      ∀ v, getValue (opEnv rnd kern op inputs) st n = some v → v = ex n := by
  obtain ⟨-, -, -, h3⟩ := C45_cache_transparent (opEnv rnd kern op inputs) d n St.fresh st (.ok (some p))
    (consistent_fresh _) h
  have hans := h3 p rfl
  have hsound : ∀ n, RuleSound (opEnv rnd kern op inputs) (fun p (v : Val) => Fits p v.shape) ex
      (fun n => OpOk (op n)) n := by
    intro n ru ps ks q sv hru hc hR hK hq
    simp only [opEnv, Option.some.injEq] at hru
    subst hru
    by_cases he : (opEnv rnd kern op inputs).isEnd n = true
    · cases hop : op n with
      | param s =>
        rw [hop] at hq
        simp only [opRule, RuleOut.ok.injEq] at hq
        obtain ⟨rfl, rfl⟩ := hq
        exact ⟨describes_iff.1 (hfed n _ hop), fun w hw => by cases hw⟩
      | const c =>
        rw [hop] at hq
        simp only [opRule, RuleOut.ok.injEq] at hq
        obtain ⟨rfl, rfl⟩ := hq
        have := hex.const n c (by simp [opEnv, hop])
        exact ⟨by rw [this]; exact Fits.refl _, fun w hw => by cases hw⟩
      | _ => simp [opEnv, hop] at he
    · have hrun := hex.op n (by simpa using he)
      refine op_sound rnd kern (op n) ps ks _ (ex n) q sv hc hR hK ?_ hrun hq
      intro x hx
      obtain ⟨m, -, rfl⟩ := List.mem_map.1 hx
      exact hpos m
  obtain ⟨g1, g2⟩ := C45_sound (opEnv rnd kern op inputs) _ ex hex (fun n => OpOk (op n)) hsound hok n p _ hans
  exact ⟨describes_iff.2 g1, fun hp => g1.eq hp, g2⟩

/-! ## A graph that meets the hypotheses

`0: _reshape_v2(1, 2)`, `1: parameter (declared [-1, 6], fed [4, 6])`, `2: _concat(3, 4)` of the constants `[8]`, `[3]`. The
requested shape is folded (`kern` must concatenate), the batch extent is unknown. -/

/-- the example graph -/
def exOp : Nat → Op
  | 0 => .reshapeV2
  | 1 => .param [-1, 6]
  | 2 => .concat 0
  | 3 => .const ⟨[1], [-1]⟩
  | _ => .const ⟨[1], [3]⟩

/-- its edges -/
def exIn : Nat → List Nat
  | 0 => [1, 2]
  | 2 => [3, 4]
  | _ => []

/-- its execution -/
def exVal : Nat → Val
  | 0 => ⟨[8, 3], []⟩
  | 1 => ⟨[4, 6], []⟩
  | 2 => ⟨[2], [-1, 3]⟩
  | 3 => ⟨[1], [-1]⟩
  | _ => ⟨[1], [3]⟩

/-- kernels: concatenation only -/
def exKern : Op → List Val → List Int
  | .concat _, vs => vs.flatMap Val.ints
  | _, _ => []

theorem ex_executes : Executes (opEnv id exKern exOp exIn) exVal := by
  constructor
  · intro n v h
    match n with
    | 0 | 1 | 2 => cases h
    | 3 => cases h; rfl
    | n + 4 => cases h; rfl
  · intro n h
    match n with
    | 0 => rfl
    | 1 => cases h
    | 2 => rfl
    | 3 => cases h
    | n + 4 => cases h

theorem row_unique {env : Env N P V} {ns : List N} {x y : Row P V} (hx : RowAnswer env ns x) (hy : RowAnswer env ns y) :
    x = y := by
  obtain ⟨d, hd⟩ := hx
  obtain ⟨e, he⟩ := hy
  have h1 := collect_mono (fun m b hb => meaning_mono env (Nat.le_max_left d e) m b hb) ns x hd
  have h2 := collect_mono (fun m b hb => meaning_mono env (Nat.le_max_right d e) m b hb) ns y he
  rw [h1] at h2
  exact Option.some.inj h2

theorem ex_ok : ∀ n l, RowAnswer (opEnv id exKern exOp exIn) (exIn n) (.ok l) →
    OpOk (exOp n) (l.map Prod.fst) (l.map Prod.snd) := by
  intro n l h
  match n with
  | 0 | 1 | 3 => trivial
  | 2 =>
    have h2 : RowAnswer (opEnv id exKern exOp exIn) (exIn 2)
        (.ok [([1], some ⟨[1], [-1]⟩), ([1], some ⟨[1], [3]⟩)]) := ⟨1, rfl⟩
    have := row_unique h h2
    simp only [Row.ok.injEq] at this
    subst this
    intro p hp v hv
    simp at hp
    subst hp
    simp at hv
    omega
  | n + 4 => trivial

/-- The inference finds `[-1, 3]` for the reshape although only the constants are known. -/
example : ∃ st, inferNode (opEnv id exKern exOp exIn) 3 0 St.fresh = some (st, .ok (some [-1, 3])) ∧
    getValue (opEnv id exKern exOp exIn) st 2 = some ⟨[2], [-1, 3]⟩ := ⟨_, rfl, rfl⟩

example : Describes [-1, 3] (exVal 0) := by
  refine (C45_shapes_partial id exKern exOp exIn exVal ex_executes ?_ ?_ ex_ok 3 0 _ [-1, 3] rfl).1
  · intro n a ha
    match n with
    | 0 | 1 | 2 | 3 => simp [exVal] at ha; omega
    | n + 4 => simp [exVal] at ha; omega
  · intro n s h
    match n with
    | 0 | 2 | 3 => cases h
    | 1 =>
      simp only [exOp, Op.param.injEq] at h
      subst h
      exact describes_iff.2 ⟨fun h => absurd h (by decide), fun _ => rfl, trivial⟩
    | n + 4 => cases h

/-! ## The excluded cases -/

/-- a node of type `o` over end points `ends` with their values; node `0` is the operator -/
def starOp (o : Op) (ends : List (Op × Val)) : Nat → Op
  | 0 => o
  | n + 1 => match ends[n]? with | some x => x.1 | none => .const ⟨[], []⟩

/-- the edges of that graph -/
def starIn (ends : List (Op × Val)) : Nat → List Nat
  | 0 => (List.range ends.length).map (· + 1)
  | _ + 1 => []

/-- the values of that graph; `v` is the result -/
def starEx (v : Val) (ends : List (Op × Val)) : Nat → Val
  | 0 => v
  | n + 1 => match ends[n]? with | some x => x.2 | none => ⟨[], []⟩

/-- **Specification**: a graph with one operator `o` above end points, an execution of it, and what the inference answers
for the operator. -/
structure Wrong (o : Op) (ends : List (Op × Val)) (v : Val) (p : List Int) (folded : Option Val) : Prop where
  executes : Executes (opEnv id (fun _ _ => []) (starOp o ends) (starIn ends)) (starEx v ends)
  extents : ∀ n, ∀ a ∈ (starEx v ends n).shape, 0 ≤ a
  fed : ∀ n s, starOp o ends n = .param s → Describes s (starEx v ends n)
  inferred : ∃ st, inferNode (opEnv id (fun _ _ => []) (starOp o ends) (starIn ends)) 2 0 St.fresh
    = some (st, .ok (some p)) ∧ getValue (opEnv id (fun _ _ => []) (starOp o ends) (starIn ends)) st 0 = folded

theorem wrong_intro {o : Op} {ends : List (Op × Val)} {v : Val} {p : List Int} {folded : Option Val}
    (ho : (∀ c, o ≠ .const c) ∧ ∀ s, o ≠ .param s)
    (hends : ∀ x ∈ ends, (∃ s, x.1 = .param s ∧ Describes s x.2) ∨ x.1 = .const x.2)
    (hrun : opRun id (fun _ _ => []) o ((starIn ends 0).map (starEx v ends)) = some v)
    (hpos : (∀ a ∈ v.shape, 0 ≤ a) ∧ ∀ x ∈ ends, ∀ a ∈ x.2.shape, 0 ≤ a)
    (hinf : ∃ st, inferNode (opEnv id (fun _ _ => []) (starOp o ends) (starIn ends)) 2 0 St.fresh
      = some (st, .ok (some p)) ∧ getValue (opEnv id (fun _ _ => []) (starOp o ends) (starIn ends)) st 0 = folded) :
    Wrong o ends v p folded := by
  refine ⟨⟨?_, ?_⟩, ?_, ?_, hinf⟩
  · intro n w h
    cases n with
    | zero => cases o <;> simp_all [opEnv, starOp]
    | succ n =>
      simp only [opEnv, starOp] at h
      simp only [starEx]
      cases he : ends[n]? with
      | none => rw [he] at h; simpa using h
      | some x =>
        rw [he] at h
        rcases hends x (List.mem_of_getElem? he) with ⟨s, hs, -⟩ | hs
        · simp [hs] at h
        · simp only [hs, Option.some.injEq] at h; exact h
  · intro n h
    cases n with
    | zero => exact hrun
    | succ n =>
      simp only [opEnv, starOp] at h
      cases he : ends[n]? with
      | none => rw [he] at h; simp at h
      | some x =>
        rw [he] at h
        rcases hends x (List.mem_of_getElem? he) with ⟨s, hs, -⟩ | hs <;> simp [hs] at h
  · intro n a ha
    cases n with
    | zero => exact hpos.1 a ha
    | succ n =>
      simp only [starEx] at ha
      cases he : ends[n]? with
      | none => rw [he] at ha; simp at ha
      | some x => rw [he] at ha; exact hpos.2 x (List.mem_of_getElem? he) a ha
  · intro n s h
    cases n with
    | zero => exact absurd h (ho.2 s)
    | succ n =>
      simp only [starOp] at h
      simp only [starEx]
      cases he : ends[n]? with
      | none => rw [he] at h; cases h
      | some x =>
        rw [he] at h
        simp only at h
        rcases hends x (List.mem_of_getElem? he) with ⟨s', hs, hd⟩ | hs
        · rw [hs] at h; simp only [Op.param.injEq] at h; subst h; exact hd
        · rw [hs] at h; cases h

/-- an end point fed with the declared shape -/
def fedExact (s : List Int) : Op × Val := (.param s, ⟨s, []⟩)
/-- a parameter declared `s` and fed with shape `t` -/
def fedWith (s t : List Int) : Op × Val := (.param s, ⟨t, []⟩)
/-- a constant -/
def constant (s i : List Int) : Op × Val := (.const ⟨s, i⟩, ⟨s, i⟩)

theorem describes_self (s i : List Int) : Describes s ⟨s, i⟩ := describes_iff.2 (Fits.refl _)

/-- **C45 fails for `_squeeze` without axes**: executed `[3]`, inferred `[1, 3]`. -/
theorem C45_squeeze_false : Wrong (.squeeze []) [fedExact [1, 3]] ⟨[3], []⟩ [1, 3] none :=
  wrong_intro ⟨by simp, by simp⟩ (by simp [fedExact, describes_self]) rfl (by simp [fedExact]) ⟨_, rfl, rfl⟩

/-- **C45 fails for `_squeeze` with negative axes**: executed `[]`, inferred `[1]`. -/
theorem C45_squeeze_negative_false : Wrong (.squeeze [-1, -2]) [fedExact [1, 1]] ⟨[], []⟩ [1] none :=
  wrong_intro ⟨by simp, by simp⟩ (by simp [fedExact, describes_self]) rfl (by simp [fedExact]) ⟨_, rfl, rfl⟩

/-- **C45 fails for `_expand` with limits**: one leading and one trailing `1` executed, two leading ones inferred. -/
theorem C45_expand_false : Wrong (.expand (some 1) (some 1) false) [fedExact [2, 3], constant [] [4]] ⟨[1, 2, 3, 1], []⟩
    [1, 1, 2, 3] none :=
  wrong_intro ⟨by simp, by simp⟩ (by simp [fedExact, constant, describes_self]) rfl (by simp [fedExact, constant])
    ⟨_, rfl, rfl⟩

/-- **C45 fails for `_transpose` without a permutation**: rank two executed, rank zero inferred. -/
theorem C45_transpose_false : ∃ v, Wrong (.transpose none) [fedExact [2, 3]] v [] none ∧ v.shape.length = 2 :=
  ⟨_, wrong_intro (v := ⟨[3, 3], []⟩) ⟨by simp, by simp⟩ (by simp [fedExact, describes_self]) rfl (by simp [fedExact])
    ⟨_, rfl, rfl⟩, rfl⟩

/-- **C45 fails for `_concat` if the first operand's extent is unknown**: executed `[5]`, inferred `[1]`. -/
theorem C45_concat_false : Wrong (.concat 0) [fedWith [-1] [3], fedExact [2]] ⟨[5], []⟩ [1] none :=
  wrong_intro ⟨by simp, by simp⟩
    (by
      intro x hx
      simp only [List.mem_cons, List.not_mem_nil, or_false] at hx
      rcases hx with rfl | rfl
      · exact Or.inl ⟨_, rfl, describes_iff.2 ⟨fun h => absurd h (by decide), trivial⟩⟩
      · exact Or.inl ⟨_, rfl, describes_self _ _⟩) rfl (by simp [fedExact, fedWith]) ⟨_, rfl, rfl⟩

/-- **C45 fails for `_flatten` with two unknown extents**: executed `[30]`, inferred `[3]`. -/
theorem C45_flatten_false : Wrong (.flatten 0) [fedWith [-1, 3, -1] [2, 3, 5]] ⟨[30], []⟩ [3] none :=
  wrong_intro ⟨by simp, by simp⟩
    (by
      intro x hx
      simp only [List.mem_cons, List.not_mem_nil, or_false] at hx
      subst hx
      exact Or.inl ⟨_, rfl, describes_iff.2 ⟨fun h => absurd h (by decide), fun _ => rfl, fun h => absurd h (by decide),
        trivial⟩⟩) rfl (by simp [fedWith]) ⟨_, rfl, rfl⟩

/-- **C45 fails for `_shape` of a tensor with an unknown extent**: the folded value holds `-1`, the executed one `4`. -/
theorem C45_shape_false : Wrong .shape [fedWith [-1, 6] [4, 6]] ⟨[2], [4, 6]⟩ [2] (some ⟨[2], [-1, 6]⟩) :=
  wrong_intro ⟨by simp, by simp⟩
    (by
      intro x hx
      simp only [List.mem_cons, List.not_mem_nil, or_false] at hx
      subst hx
      exact Or.inl ⟨_, rfl, describes_iff.2 ⟨fun h => absurd h (by decide), fun _ => rfl, trivial⟩⟩)
    rfl (by simp [fedWith]) ⟨_, rfl, rfl⟩

/-- a window with stride and dilation one and no padding -/
def unitWindow : ConvAttrs := ⟨fun _ => 0, fun _ => 1, fun _ => 1, fun _ => 1⟩

/-- **C45 fails for `conv2d` in NHWC layout**: the inference reads the kernel extents at other positions. -/
theorem C45_conv_nhwc_false : Wrong (.conv2d .nhwc unitWindow) [fedExact [1, 5, 5, 3], fedExact [2, 5, 3, 1]]
    ⟨[1, 1, 3, 2], []⟩ [1, 3, 5, 2] none :=
  wrong_intro ⟨by simp, by simp⟩ (by simp [fedExact, describes_self]) rfl (by simp [fedExact]) ⟨_, rfl, rfl⟩

/-- **C45 fails for `conv2d` with a kernel of unknown extent**: the unknown `-1` is used as a kernel size. -/
theorem C45_conv_kernel_false : Wrong (.conv2d .nchw unitWindow)
    [fedExact [1, 3, 5, 5], fedWith [2, 3, -1, 3] [2, 3, 3, 3]] ⟨[1, 2, 3, 3], []⟩ [1, 2, 7, 3] none :=
  wrong_intro ⟨by simp, by simp⟩
    (by
      intro x hx
      simp only [List.mem_cons, List.not_mem_nil, or_false] at hx
      rcases hx with rfl | rfl
      · exact Or.inl ⟨_, rfl, describes_self _ _⟩
      · exact Or.inl ⟨_, rfl, describes_iff.2 ⟨fun _ => rfl, fun _ => rfl, fun h => absurd h (by decide), fun _ => rfl,
          trivial⟩⟩) rfl (by simp [fedExact, fedWith]) ⟨_, rfl, rfl⟩

/-- **C45 fails for `pad` with negative paddings**: the execution keeps one element, the inference none. -/
theorem C45_pad_false : Wrong .pad [fedExact [3], constant [1, 2] [-2, -1]] ⟨[1], []⟩ [0] none :=
  wrong_intro ⟨by simp, by simp⟩ (by simp [fedExact, constant, describes_self]) rfl (by simp [fedExact, constant])
    ⟨_, rfl, rfl⟩

/-! ## Values left on the nodes

`infer` without a cache argument starts with an empty cache, but the `#value` attributes stay on the nodes. -/

/-- `0: _reshape_v2(1, 2)`, `1: parameter`, `2: copy(3)`, `3`: the given operator -/
def staleOp (three : Op) : Nat → Op
  | 0 => .reshapeV2
  | 1 => .param [6]
  | 2 => .copy
  | _ => three

/-- its edges -/
def staleIn : Nat → List Nat
  | 0 => [1, 2]
  | 2 => [3]
  | _ => []

/-- copying kernels -/
def staleKern : Op → List Val → List Int
  | .copy, [x] => x.ints
  | _, _ => []

/-- the execution after node 3 was replaced by a parameter fed with `[3, 2]` -/
def staleEx : Nat → Val
  | 0 => ⟨[3, 2], []⟩
  | 1 => ⟨[6], []⟩
  | _ => ⟨[2], [3, 2]⟩

/-- **C45 fails for a second inference after the graph changed.** Node 3, a constant `[2, 3]`, is replaced by a
parameter between two inferences, each with an empty cache. The second one still uses the value folded by the first:
it infers `[2, 3]` where the execution computes `[3, 2]`; on fresh nodes it answers `VOID`. -/
theorem C45_stale_value_false :
    let env1 := opEnv id staleKern (staleOp (.const ⟨[2], [2, 3]⟩)) staleIn
    let env2 := opEnv id staleKern (staleOp (.param [2])) staleIn
    ∃ st1 st2 r1,
      inferNode env1 4 0 St.fresh = some (st1, r1) ∧
      inferNode env2 4 0 ⟨fun _ => none, st1.vals⟩ = some (st2, .ok (some [2, 3])) ∧
      Executes env2 staleEx ∧ ¬ Describes [2, 3] (staleEx 0) ∧
      ∃ st3, inferNode env2 4 0 St.fresh = some (st3, .ok none) := by
  refine ⟨_, _, _, rfl, rfl, ⟨?_, ?_⟩, ?_, _, rfl⟩
  · intro n v h
    match n with
    | 0 | 1 | 2 => cases h
    | n + 3 => cases h
  · intro n h
    match n with
    | 0 => rfl
    | 1 => cases h
    | 2 => rfl
    | n + 3 => cases h
  · intro h
    have := h.2 0 2 rfl (by decide)
    simp [staleEx] at this

/-- the caching theorem applies to the example graph, from the empty cache and from the cache it leaves -/
example : ∃ st st', inferNode (opEnv id exKern exOp exIn) 3 0 St.fresh = some (st, .ok (some [-1, 3])) ∧
    inferNode (opEnv id exKern exOp exIn) 3 2 st = some (st', .ok (some [2])) ∧
    Answer (opEnv id exKern exOp exIn) 2 (.ok [2] (some ⟨[2], [-1, 3]⟩)) := by
  refine ⟨_, _, rfl, rfl, ?_⟩
  have h1 := C45_cache_transparent (opEnv id exKern exOp exIn) 3 0 St.fresh _ _ (consistent_fresh _) rfl
  exact (C45_cache_transparent _ 3 2 _ _ _ h1.1 rfl).2.2.2 [2] rfl

/-- a rank for the termination theorem -/
example : ∀ n, ∀ m ∈ (opEnv id exKern exOp exIn).inputs n, (fun n => if n = 0 then 2 else if n = 2 then 1 else 0 : Nat → Nat) m
    < (fun n => if n = 0 then 2 else if n = 2 then 1 else 0 : Nat → Nat) n := by
  intro n m hm
  match n with
  | 0 => simp [opEnv, exIn] at hm; rcases hm with rfl | rfl <;> decide
  | 1 | 3 => simp [opEnv, exIn] at hm
  | 2 => simp [opEnv, exIn] at hm; rcases hm with rfl | rfl <;> decide
  | n + 4 => simp [opEnv, exIn] at hm

end Verif.Props
