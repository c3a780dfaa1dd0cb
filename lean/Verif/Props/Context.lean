import Verif.Runtime.Context
/-!
# C90: device handles and current contexts

Specification. Read the calls of the administration functions in order. A handle is made once. It is used (activated,
synchronised) and given back only by the function and with the id of the device that made it, after it was made and
before it was given back; so it is given back at most once.
-/
namespace Verif.Props
open Verif.Runtime.Context

namespace Ctx90

/-- `e` may follow the calls `pre` -/
def MayFollow (pre : List Ev) : Ev → Prop
  | .made _ h => ∀ d, Ev.made d h ∉ pre
  | .given d h => Ev.made d h ∈ pre ∧ ∀ d', Ev.given d' h ∉ pre
  | .active d h => Ev.made d h ∈ pre ∧ ∀ d', Ev.given d' h ∉ pre
  | .synced d h => Ev.made d h ∈ pre ∧ ∀ d', Ev.given d' h ∉ pre

/-- every call may follow the calls before it -/
def Orderly (log : List Ev) : Prop := ∀ pre e post, log = pre ++ e :: post → MayFollow pre e

/-- what the proved part asks of the caller: a context that holds a handle is initialised again only on the device it is
on, a context that was moved from is not initialised again, and nothing is moved onto a context that holds a handle -/
def Careful (s : St) : Op → Prop
  | .init c d => ∀ x, s.ctxs c = some x → x.handle = none ∨ (x.admin = some d.type ∧ x.dev = d)
  | .moveAssign a b => a ≠ b → ∀ x, s.ctxs a = some x → x.handle = none ∨ x.admin = none
  | _ => True

/-- `Careful` at every call of a history -/
def AllCareful (r : Registry) : List Op → St → Prop
  | [], _ => True
  | op :: t, s => Careful s op ∧
    match step r op s with
    | .ok s' => AllCareful r t s'
    | .threw s' => AllCareful r t s'
    | .ub => True

/-- a context that owns its handle -/
def Owns (x : Ctx) (d : Dev) (h : Nat) : Prop := x.admin = some d.type ∧ x.handle = some h ∧ x.dev = d

structure Inv (r : Registry) (s : St) : Prop where
  orderly : Orderly s.log
  small : ∀ d h, Ev.made d h ∈ s.log → h < s.fresh
  adm : ∀ c x t, s.ctxs c = some x → x.admin = some t → r.admin t = true
  own : ∀ c x t h, s.ctxs c = some x → x.admin = some t → x.handle = some h →
    Owns x ⟨t, x.dev.id⟩ h ∧ Ev.made ⟨t, x.dev.id⟩ h ∈ s.log ∧ (∀ d, Ev.given d h ∉ s.log) ∧ r.memory t = true
  apart : ∀ c x c' x' t t' h, s.ctxs c = some x → s.ctxs c' = some x' → x.admin = some t → x'.admin = some t' →
    x.handle = some h → x'.handle = some h → c = c'
  kept : ∀ d h, Ev.made d h ∈ s.log → Ev.given d h ∈ s.log ∨ ∃ c x, s.ctxs c = some x ∧ Owns x d h

theorem orderly_append {log : List Ev} {e : Ev} (h : Orderly log) (he : MayFollow log e) : Orderly (log ++ [e]) := by
  intro pre e' post heq
  rcases List.eq_nil_or_concat post with rfl | ⟨post', l, rfl⟩
  · have := List.append_inj' heq (by simp)
    obtain ⟨rfl, h2⟩ := this
    simp only [List.cons.injEq, and_true] at h2
    subst h2
    exact he
  · have : log ++ [e] = (pre ++ e' :: post') ++ [l] := by rw [heq]; simp
    have := List.append_inj' this (by simp)
    exact h pre e' post' this.1

theorem inv_start (r : Registry) : Inv r St.start := by
  refine ⟨?_, ?_, ?_, ?_, ?_, ?_⟩ <;> simp [St.start, Orderly]

theorem setCtx_same (s : St) (c : Nat) (x : Option Ctx) : (s.setCtx c x).ctxs c = x := by simp [St.setCtx]

theorem setCtx_ne (s : St) {c k : Nat} (x : Option Ctx) (h : k ≠ c) : (s.setCtx c x).ctxs k = s.ctxs k := by
  simp [St.setCtx, h]

/-- an owned handle is used -/
theorem inv_use {r : Registry} {s : St} {c : Nat} {x : Ctx} (hi : Inv r s) (hc : s.ctxs c = some x) (e : List Ev)
    (he : e = syncEv x ∨ e = activeEv x) : Inv r { s with log := s.log ++ e } := by
  cases ha : x.admin with
  | none =>
    have : e = [] := by rcases he with rfl | rfl <;> simp [syncEv, activeEv, ha]
    subst this
    simpa using hi
  | some t =>
    cases hh : x.handle with
    | none =>
      have : e = [] := by rcases he with rfl | rfl <;> simp [syncEv, activeEv, hh]
      subst this
      simpa using hi
    | some h =>
      obtain ⟨o1, o2, o3, o4⟩ := hi.own c x t h hc ha hh
      have hmem : ∀ d k, Ev.made d k ∈ s.log ++ e ↔ Ev.made d k ∈ s.log := by
        intro d k
        rcases he with rfl | rfl <;> simp [syncEv, activeEv, ha, hh]
      have hgiv : ∀ d k, Ev.given d k ∈ s.log ++ e ↔ Ev.given d k ∈ s.log := by
        intro d k
        rcases he with rfl | rfl <;> simp [syncEv, activeEv, ha, hh]
      refine ⟨?_, ?_, hi.adm, ?_, hi.apart, ?_⟩
      · rcases he with rfl | rfl
        · simp only [syncEv, ha, hh]
          exact orderly_append hi.orderly ⟨o2, o3⟩
        · simp only [activeEv, ha, hh]
          exact orderly_append hi.orderly ⟨o2, o3⟩
      · intro d k hk
        exact hi.small d k ((hmem d k).1 hk)
      · intro c' x' t' h' h1 h2 h3
        obtain ⟨p1, p2, p3, p4⟩ := hi.own c' x' t' h' h1 h2 h3
        exact ⟨p1, (hmem _ _).2 p2, fun d hd => p3 d ((hgiv _ _).1 hd), p4⟩
      · intro d k hk
        rcases hi.kept d k ((hmem d k).1 hk) with h1 | h1
        · exact Or.inl ((hgiv _ _).2 h1)
        · exact Or.inr h1

/-- a context is replaced by one that owns nothing; what it owned is given back (`given`), or it owned nothing -/
theorem inv_release {r : Registry} {s : St} {c : Nat} {x : Ctx} (hi : Inv r s) (hc : s.ctxs c = some x) (y : Option Ctx)
    (hy : ∀ z, y = some z → (z.handle = none ∨ z.admin = none) ∧ ∀ t, z.admin = some t → r.admin t = true) :
    Inv r { s.setCtx c y with log := s.log ++ (finalizeCtx x).2 } := by
  have hfree : ∀ k z t h, (s.setCtx c y).ctxs k = some z → z.admin = some t → z.handle = some h → k ≠ c := by
    intro k z t h h1 h2 h3 hk
    subst hk
    rw [setCtx_same] at h1
    obtain ⟨h4 | h4, _⟩ := hy z h1
    · rw [h4] at h3; cases h3
    · rw [h4] at h2; cases h2
  have hadm : ∀ k z t, (s.setCtx c y).ctxs k = some z → z.admin = some t → r.admin t = true := by
    intro k z t h1 h2
    by_cases hk : k = c
    · subst hk
      rw [setCtx_same] at h1
      exact (hy z h1).2 t h2
    · rw [setCtx_ne s y hk] at h1
      exact hi.adm k z t h1 h2
  have hapart : ∀ k z k' z' t t' h, (s.setCtx c y).ctxs k = some z → (s.setCtx c y).ctxs k' = some z' →
      z.admin = some t → z'.admin = some t' → z.handle = some h → z'.handle = some h → k = k' := by
    intro k z k' z' t t' h h1 h2 h3 h4 h5 h6
    have n1 := hfree k z t h h1 h3 h5
    have n2 := hfree k' z' t' h h2 h4 h6
    rw [setCtx_ne s y n1] at h1
    rw [setCtx_ne s y n2] at h2
    exact hi.apart k z k' z' t t' h h1 h2 h3 h4 h5 h6
  by_cases hown : ∃ t h, x.admin = some t ∧ x.handle = some h
  · obtain ⟨t, h, ha, hh⟩ := hown
    obtain ⟨o1, o2, o3, o4⟩ := hi.own c x t h hc ha hh
    have hf : (finalizeCtx x).2 = [.given ⟨t, x.dev.id⟩ h] := by simp [finalizeCtx, ha, hh]
    rw [hf]
    refine ⟨orderly_append hi.orderly ⟨o2, o3⟩, ?_, hadm, ?_, hapart, ?_⟩
    · intro d k hk
      exact hi.small d k (by simpa using hk)
    · intro k z t' h' h1 h2 h3
      have n1 := hfree k z t' h' h1 h2 h3
      rw [show ({ s.setCtx c y with log := s.log ++ [.given ⟨t, x.dev.id⟩ h] } : St).ctxs = (s.setCtx c y).ctxs from rfl,
        setCtx_ne s y n1] at h1
      obtain ⟨p1, p2, p3, p4⟩ := hi.own k z t' h' h1 h2 h3
      refine ⟨p1, by simp [p2], ?_, p4⟩
      intro d hd
      rcases List.mem_append.1 hd with hd | hd
      · exact p3 d hd
      · simp only [List.mem_singleton, Ev.given.injEq] at hd
        obtain ⟨_, rfl⟩ := hd
        exact n1 (hi.apart k z c x t' t h' h1 hc h2 ha h3 hh)
    · intro d k hk
      have hk' : Ev.made d k ∈ s.log := by simpa using hk
      rcases hi.kept d k hk' with h1 | ⟨c', x', h1, h2, h3, h4⟩
      · exact Or.inl (by simp [h1])
      · by_cases hcc : c' = c
        · subst hcc
          rw [hc] at h1
          cases h1
          refine Or.inl ?_
          rw [hh] at h3
          cases h3
          obtain ⟨_, _, o5⟩ := o1
          simp only [List.mem_append, List.mem_singleton]
          right
          rw [← o5, h4]
        · refine Or.inr ⟨c', x', ?_, h2, h3, h4⟩
          show (s.setCtx c y).ctxs c' = _
          rw [setCtx_ne s y hcc]
          exact h1
  · have hf : (finalizeCtx x).2 = [] := by
      unfold finalizeCtx
      split
      · rename_i t h h1 h2
        exact absurd ⟨t, h, h1, h2⟩ hown
      · rfl
    rw [hf, List.append_nil]
    refine ⟨hi.orderly, hi.small, hadm, ?_, hapart, ?_⟩
    · intro k z t' h' h1 h2 h3
      have n1 := hfree k z t' h' h1 h2 h3
      rw [show ({ s.setCtx c y with log := s.log } : St).ctxs = (s.setCtx c y).ctxs from rfl, setCtx_ne s y n1] at h1
      exact hi.own k z t' h' h1 h2 h3
    · intro d k hk
      rcases hi.kept d k hk with h1 | ⟨c', x', h1, h2, h3, h4⟩
      · exact Or.inl h1
      · have hcc : c' ≠ c := by
          rintro rfl
          rw [hc] at h1
          cases h1
          exact hown ⟨_, _, h2, h3⟩
        refine Or.inr ⟨c', x', ?_, h2, h3, h4⟩
        show (s.setCtx c y).ctxs c' = _
        rw [setCtx_ne s y hcc]
        exact h1

/-- a context that owns nothing gets a fresh handle -/
theorem inv_make {r : Registry} {s : St} {c : Nat} {y : Ctx} (hi : Inv r s) (hc : s.ctxs c = some y) (hy : y.handle = none)
    (t : String) (ha : y.admin = some t) (ht : y.dev.type = t) (hm : r.memory t = true) :
    Inv r { s.setCtx c (some { y with handle := some s.fresh }) with
      fresh := s.fresh + 1, log := s.log ++ [.made ⟨t, y.dev.id⟩ s.fresh] } := by
  have hnew : ∀ d, Ev.made d s.fresh ∉ s.log := fun d hd => by have := hi.small d s.fresh hd; omega
  have hgiven : ∀ d k, Ev.given d k ∈ s.log → Ev.made d k ∈ s.log := by
    intro d k hk
    obtain ⟨pre, post, e⟩ := List.append_of_mem hk
    have := (hi.orderly pre _ post e).1
    rw [e]
    simp [this]
  have hold : ∀ k z t' h', k ≠ c → s.ctxs k = some z → z.admin = some t' → z.handle = some h' → h' < s.fresh := by
    intro k z t' h' _ h1 h2 h3
    exact hi.small _ _ (hi.own k z t' h' h1 h2 h3).2.1
  refine ⟨orderly_append hi.orderly hnew, ?_, ?_, ?_, ?_, ?_⟩
  · intro d k hk
    rcases List.mem_append.1 hk with hk | hk
    · have := hi.small d k hk
      show k < s.fresh + 1
      omega
    · simp only [List.mem_singleton, Ev.made.injEq] at hk
      show k < s.fresh + 1
      omega
  · intro k z t' h1 h2
    by_cases hk : k = c
    · subst hk
      have h1 : (s.setCtx k (some { y with handle := some s.fresh })).ctxs k = some z := h1
      rw [setCtx_same] at h1
      cases h1
      exact hi.adm k y t' hc h2
    · have h1 : (s.setCtx c (some { y with handle := some s.fresh })).ctxs k = some z := h1
      rw [setCtx_ne s _ hk] at h1
      exact hi.adm k z t' h1 h2
  · intro k z t' h' h1 h2 h3
    by_cases hk : k = c
    · subst hk
      have h1 : (s.setCtx k (some { y with handle := some s.fresh })).ctxs k = some z := h1
      rw [setCtx_same] at h1
      cases h1
      have h2 : y.admin = some t' := h2
      rw [ha] at h2
      cases h2
      have h3 : some s.fresh = some h' := h3
      cases h3
      refine ⟨⟨ha, rfl, ?_⟩, by simp, ?_, hm⟩
      · show y.dev = ⟨t, y.dev.id⟩
        rw [← ht]
      · intro d hd
        have hd : Ev.given d s.fresh ∈ s.log := by simpa using hd
        exact hnew d (hgiven d _ hd)
    · have h1 : (s.setCtx c (some { y with handle := some s.fresh })).ctxs k = some z := h1
      rw [setCtx_ne s _ hk] at h1
      obtain ⟨p1, p2, p3, p4⟩ := hi.own k z t' h' h1 h2 h3
      exact ⟨p1, by simp [p2], fun d hd => p3 d (by simpa using hd), p4⟩
  · intro k z k' z' t1 t2 h h1 h2 h3 h4 h5 h6
    have h1 : (s.setCtx c (some { y with handle := some s.fresh })).ctxs k = some z := h1
    have h2 : (s.setCtx c (some { y with handle := some s.fresh })).ctxs k' = some z' := h2
    by_cases hk : k = c
    · by_cases hk' : k' = c
      · rw [hk, hk']
      · subst hk
        rw [setCtx_same] at h1
        cases h1
        have h5 : some s.fresh = some h := h5
        cases h5
        rw [setCtx_ne s _ hk'] at h2
        have := hold k' z' t2 _ hk' h2 h4 h6
        omega
    · by_cases hk' : k' = c
      · subst hk'
        rw [setCtx_same] at h2
        cases h2
        have h6 : some s.fresh = some h := h6
        cases h6
        rw [setCtx_ne s _ hk] at h1
        have := hold k z t1 _ hk h1 h3 h5
        omega
      · rw [setCtx_ne s _ hk] at h1
        rw [setCtx_ne s _ hk'] at h2
        exact hi.apart k z k' z' t1 t2 h h1 h2 h3 h4 h5 h6
  · intro d k hk
    rcases List.mem_append.1 hk with hk | hk
    · rcases hi.kept d k hk with h1 | ⟨c', x', h1, h2, h3, h4⟩
      · exact Or.inl (by simp [h1])
      · have hcc : c' ≠ c := by
          rintro rfl
          rw [hc] at h1
          cases h1
          rw [hy] at h3
          cases h3
        refine Or.inr ⟨c', x', ?_, h2, h3, h4⟩
        show (s.setCtx c _).ctxs c' = _
        rw [setCtx_ne s _ hcc]
        exact h1
    · simp only [List.mem_singleton, Ev.made.injEq] at hk
      obtain ⟨rfl, rfl⟩ := hk
      refine Or.inr ⟨c, { y with handle := some s.fresh }, setCtx_same s c _, ha, rfl, ?_⟩
      show y.dev = ⟨t, y.dev.id⟩
      rw [← ht]

theorem inv_congr {r : Registry} {s s' : St} (hi : Inv r s) (h1 : s'.ctxs = s.ctxs) (h2 : s'.fresh = s.fresh)
    (h3 : s'.log = s.log) : Inv r s' := by
  obtain ⟨a, b, c, d, e, f⟩ := hi
  refine ⟨by rw [h3]; exact a, by rw [h3, h2]; exact b, by rw [h1]; exact c, by rw [h1, h3]; exact d, by rw [h1]; exact e,
    by rw [h1, h3]; exact f⟩

theorem inv_init {r : Registry} {s : St} {c : Nat} {d : Dev} (hi : Inv r s) (hcare : Careful s (.init c d)) :
    match initCtx r c d s with
    | .ok s' => Inv r s'
    | .threw s' => Inv r s'
    | .ub => True := by
  unfold initCtx
  cases hc : s.ctxs c with
  | none => trivial
  | some x =>
    simp only
    by_cases hm : r.memory d.type = true
    · rw [if_pos hm]
      -- the state after the old handle, if any, has been given back
      have key : finalizeCtx { x with dev := d, admin := if r.admin d.type then some d.type else none } =
            ({ x with dev := d, admin := if r.admin d.type then some d.type else none, handle := none }, (finalizeCtx x).2) := by
        rcases hcare x hc with h1 | ⟨h1, h2⟩
        · simp [finalizeCtx, h1]
        · subst h2
          have hadm := hi.adm c x _ hc h1
          rw [if_pos hadm]
          cases hh : x.handle with
          | none => simp [finalizeCtx, h1, hh]
          | some h => simp [finalizeCtx, h1, hh]
      rw [key]
      have hrel := inv_release hi hc (some { x with dev := d, admin := if r.admin d.type then some d.type else none, handle := none })
        (by
          intro z hz
          cases hz
          refine ⟨Or.inl rfl, ?_⟩
          intro t ht
          simp only at ht
          split at ht
          · cases ht; assumption
          · cases ht)
      by_cases hadm : r.admin d.type = true
      · simp only [hadm, if_true] at hrel ⊢
        by_cases hh : r.handle d.type = true
        · rw [if_pos hh]
          have := inv_make (c := c) (y := { x with dev := d, admin := some d.type, handle := none }) hrel
            (setCtx_same s c _) rfl d.type rfl rfl hm
          refine inv_congr this ?_ rfl rfl
          funext k
          by_cases hk : k = c <;> simp [St.setCtx, hk]
        · rw [if_neg hh]
          exact hrel
      · simp only [hadm] at hrel ⊢
        exact hrel
    · rw [if_neg hm]
      simp only
      rcases hcare x hc with h1 | ⟨h1, h2⟩
      · have hf : (finalizeCtx x).2 = [] := by simp [finalizeCtx, h1]
        have := inv_release hi hc (some { x with dev := d }) (by
          intro z hz
          cases hz
          exact ⟨Or.inl h1, fun t ht => hi.adm c x t hc ht⟩)
        rw [hf, List.append_nil] at this
        exact this
      · rcases hh : x.handle with _ | h
        case some => exact absurd (hi.own c x _ h hc h1 hh).2.2.2 hm
        case none =>
          have hf : (finalizeCtx x).2 = [] := by simp [finalizeCtx, hh]
          have := inv_release hi hc (some { x with dev := d }) (by
            intro z hz
            cases hz
            exact ⟨Or.inl hh, fun t ht => hi.adm c x t hc ht⟩)
          rw [hf, List.append_nil] at this
          rw [← hh]
          exact this

theorem inv_switch {r : Registry} {s s' : St} {t : Nat} {o : Option Nat} (hi : Inv r s) (h : switch t o s = .ok s') :
    Inv r s' := by
  unfold switch at h
  cases h1 : leaveEv (s.cur t) o s with
  | none => rw [h1] at h; cases h
  | some a =>
    rw [h1] at h
    simp only at h
    have i1 : Inv r { s with log := s.log ++ a } := by
      unfold leaveEv at h1
      split at h1
      · split at h1
        · rename_i p _ _
          cases hx : s.ctxs p with
          | none => rw [hx] at h1; cases h1
          | some x =>
            rw [hx] at h1
            simp only [Option.map_some, Option.some.injEq] at h1
            exact inv_use hi hx a (Or.inl h1.symm)
        · cases h1; simpa using hi
      · cases h1; simpa using hi
    cases h2 : enterEv o s with
    | none => rw [h2] at h; cases h
    | some b =>
      rw [h2] at h
      simp only [Out.ok.injEq] at h
      subst h
      unfold enterEv at h2
      split at h2
      · rename_i c
        cases hx : s.ctxs c with
        | none => rw [hx] at h2; cases h2
        | some x =>
          rw [hx] at h2
          simp only [Option.map_some, Option.some.injEq] at h2
          exact inv_congr (inv_use (s := { s with log := s.log ++ a }) i1 hx b (Or.inr h2.symm)) rfl rfl rfl
      · cases h2
        exact inv_congr i1 rfl rfl (by simp)

theorem switch_not_threw {t : Nat} {o : Option Nat} {s s' : St} : switch t o s ≠ .threw s' := by
  unfold switch
  split
  · simp
  · split <;> simp

theorem inv_step {r : Registry} {s : St} (op : Op) (hi : Inv r s) (hcare : Careful s op) :
    match step r op s with
    | .ok s' => Inv r s'
    | .threw s' => Inv r s'
    | .ub => True := by
  cases op with
  | create c =>
    simp only [step]
    cases hc : s.ctxs c with
    | some _ => trivial
    | none =>
      simp only
      have hne : ∀ k z, s.ctxs k = some z → k ≠ c := by
        rintro k z h1 rfl
        rw [hc] at h1
        cases h1
      have hold : ∀ k z, (s.setCtx c (some Ctx.new)).ctxs k = some z → (k = c ∧ z = Ctx.new) ∨ s.ctxs k = some z := by
        intro k z h1
        by_cases hk : k = c
        · subst hk
          rw [setCtx_same] at h1
          cases h1
          exact Or.inl ⟨rfl, rfl⟩
        · rw [setCtx_ne s _ hk] at h1
          exact Or.inr h1
      refine ⟨hi.orderly, hi.small, ?_, ?_, ?_, ?_⟩
      · intro k z t h1 h2
        rcases hold k z h1 with ⟨_, rfl⟩ | h1
        · cases h2
        · exact hi.adm k z t h1 h2
      · intro k z t h h1 h2 h3
        rcases hold k z h1 with ⟨_, rfl⟩ | h1
        · cases h2
        · exact hi.own k z t h h1 h2 h3
      · intro k z k' z' t t' h h1 h2 h3 h4 h5 h6
        rcases hold k z h1 with ⟨_, rfl⟩ | h1
        · cases h3
        · rcases hold k' z' h2 with ⟨_, rfl⟩ | h2
          · cases h4
          · exact hi.apart k z k' z' t t' h h1 h2 h3 h4 h5 h6
      · intro d k hk
        rcases hi.kept d k hk with h1 | ⟨c', x', h1, h2⟩
        · exact Or.inl h1
        · refine Or.inr ⟨c', x', ?_, h2⟩
          rw [setCtx_ne s _ (hne c' x' h1)]
          exact h1
  | init c d => exact inv_init hi hcare
  | finalize c =>
    simp only [step]
    cases hc : s.ctxs c with
    | none => trivial
    | some x =>
      simp only
      apply inv_release hi hc
      intro z hz
      cases hz
      have hadm : (finalizeCtx x).1.admin = x.admin := by unfold finalizeCtx; split <;> rfl
      refine ⟨?_, fun t ht => hi.adm c x t hc (by rw [← hadm]; exact ht)⟩
      cases ha : x.admin with
      | none => right; rw [hadm, ha]
      | some t =>
        left
        cases hh : x.handle with
        | none => simp [finalizeCtx, ha, hh]
        | some h => simp [finalizeCtx, ha, hh]
  | moveAssign a b =>
    simp only [step]
    cases ha : s.ctxs a with
    | none => trivial
    | some x =>
      cases hb : s.ctxs b with
      | none => trivial
      | some y =>
        simp only
        by_cases hab : a = b
        · rw [if_pos hab]; exact hi
        · rw [if_neg hab]
          have hx := hcare hab x ha
          have hown0 : ∀ t h, ¬ (x.admin = some t ∧ x.handle = some h) := by
            rintro t h ⟨h1, h2⟩
            rcases hx with h3 | h3
            · rw [h3] at h2; cases h2
            · rw [h3] at h1; cases h1
          have look : ∀ k z, ((s.setCtx a (some y)).setCtx b (some { y with admin := none })).ctxs k = some z →
              (k = a ∧ z = y) ∨ (k = b ∧ z = { y with admin := none }) ∨ (k ≠ a ∧ k ≠ b ∧ s.ctxs k = some z) := by
            intro k z h1
            by_cases hkb : k = b
            · subst hkb
              rw [setCtx_same] at h1
              cases h1
              exact Or.inr (Or.inl ⟨rfl, rfl⟩)
            · rw [setCtx_ne _ _ hkb] at h1
              by_cases hka : k = a
              · subst hka
                rw [setCtx_same] at h1
                cases h1
                exact Or.inl ⟨rfl, rfl⟩
              · rw [setCtx_ne _ _ hka] at h1
                exact Or.inr (Or.inr ⟨hka, hkb, h1⟩)
          refine ⟨hi.orderly, hi.small, ?_, ?_, ?_, ?_⟩
          · intro k z t h1 h2
            rcases look k z h1 with ⟨_, rfl⟩ | ⟨_, rfl⟩ | ⟨_, _, h1⟩
            · exact hi.adm b _ t hb h2
            · cases h2
            · exact hi.adm k z t h1 h2
          · intro k z t h h1 h2 h3
            rcases look k z h1 with ⟨_, rfl⟩ | ⟨_, rfl⟩ | ⟨_, _, h1⟩
            · exact hi.own b _ t h hb h2 h3
            · cases h2
            · exact hi.own k z t h h1 h2 h3
          · intro k z k' z' t t' h h1 h2 h3 h4 h5 h6
            rcases look k z h1 with ⟨rfl, rfl⟩ | ⟨_, rfl⟩ | ⟨k1, k2, hkz⟩
            · rcases look k' z' h2 with ⟨rfl, rfl⟩ | ⟨_, rfl⟩ | ⟨k1', k2', h2⟩
              · rfl
              · cases h4
              · exact absurd (hi.apart b z k' z' t t' h hb h2 h3 h4 h5 h6) (Ne.symm k2')
            · cases h3
            · rcases look k' z' h2 with ⟨rfl, rfl⟩ | ⟨_, rfl⟩ | ⟨k1', k2', h2⟩
              · exact absurd (hi.apart k z b z' t t' h hkz hb h3 h4 h5 h6) k2
              · cases h4
              · exact hi.apart k z k' z' t t' h hkz h2 h3 h4 h5 h6
          · intro d k hk
            rcases hi.kept d k hk with h1 | ⟨c', x', h1, h2, h3, h4⟩
            · exact Or.inl h1
            · by_cases hcb : c' = b
              · subst hcb
                rw [hb] at h1
                cases h1
                refine Or.inr ⟨a, y, ?_, h2, h3, h4⟩
                show ((s.setCtx a (some y)).setCtx c' _).ctxs a = _
                rw [setCtx_ne _ _ hab, setCtx_same]
              · have hca : c' ≠ a := by
                  rintro rfl
                  rw [ha] at h1
                  cases h1
                  exact hown0 _ _ ⟨h2, h3⟩
                refine Or.inr ⟨c', x', ?_, h2, h3, h4⟩
                show ((s.setCtx a (some y)).setCtx b _).ctxs c' = _
                rw [setCtx_ne _ _ hcb, setCtx_ne _ _ hca]
                exact h1
  | destroy c =>
    simp only [step]
    cases hc : s.ctxs c with
    | none => trivial
    | some x =>
      simp only
      exact inv_release hi hc none (by intro z hz; cases hz)
  | switch t o =>
    simp only [step]
    cases h : switch t o s with
    | ok s' => exact inv_switch hi h
    | threw s' => exact absurd h switch_not_threw
    | ub => trivial
  | enter t c =>
    simp only [step]
    cases h : switch t (some c) s with
    | ok s' => exact inv_congr (inv_switch hi h) rfl rfl rfl
    | threw s' => exact absurd h switch_not_threw
    | ub => trivial
  | leave t =>
    simp only [step]
    cases hs : s.saved t with
    | nil => trivial
    | cons p rest =>
      simp only
      cases h : switch t p s with
      | ok s' => exact inv_congr (inv_switch hi h) rfl rfl rfl
      | threw s' => exact absurd h switch_not_threw
      | ub => trivial

theorem inv_run {r : Registry} : ∀ (ops : List Op) (s s' : St), Inv r s → AllCareful r ops s → run r ops s = some s' → Inv r s'
  | [], s, s', hi, _, h => by
    simp only [run, Option.some.injEq] at h
    subst h
    exact hi
  | op :: t, s, s', hi, hc, h => by
    unfold run at h
    obtain ⟨h1, h2⟩ := hc
    have := inv_step op hi h1
    cases hs : step r op s with
    | ok s1 => rw [hs] at h h2 this; exact inv_run t s1 s' this h2 h
    | threw s1 => rw [hs] at h h2 this; exact inv_run t s1 s' this h2 h
    | ub => rw [hs] at h; cases h

end Ctx90
open Ctx90

/-- C90, handles: after every history of calls in any number of threads that initialises, moves, switches and destroys
contexts carefully, every handle has been made once, used only by its own device and only while it was not given back, and
given back at most once, to the device that made it; when no context is left every handle has been given back. Missing
from the claim: careless histories (`C90_reinit_false`, `C90_moved_from_false`, `C90_move_onto_false`,
`C90_failed_init_false`). -/
theorem C90_handles_partial (r : Registry) (ops : List Op) (s : St) (hc : AllCareful r ops St.start)
    (h : run r ops St.start = some s) :
    Orderly s.log ∧ ((∀ c, s.ctxs c = none) → ∀ d k, Ev.made d k ∈ s.log → Ev.given d k ∈ s.log) := by
  have hi := inv_run ops St.start s (inv_start r) hc h
  refine ⟨hi.orderly, ?_⟩
  intro hn d k hk
  rcases hi.kept d k hk with h1 | ⟨c, x, h1, _⟩
  · exact h1
  · rw [hn c] at h1
    cases h1

/-- every device is registered -/
def allDevices : Registry := ⟨fun _ => true, fun _ => true, fun _ => true⟩

/-- two contexts in two threads, one re-initialised, one moved from -/
def sampleOps : List Op :=
  [.create 0, .init 0 ⟨"gpu", 0⟩, .create 1, .init 1 ⟨"gpu", 1⟩, .switch 7 (some 0), .enter 8 1, .init 0 ⟨"gpu", 0⟩,
    .create 2, .moveAssign 2 0, .leave 8, .switch 7 none, .destroy 0, .destroy 1, .destroy 2]

example : AllCareful allDevices sampleOps St.start ∧
    (run allDevices sampleOps St.start).map (·.log) = some
      [.made ⟨"gpu", 0⟩ 0, .made ⟨"gpu", 1⟩ 1, .active ⟨"gpu", 0⟩ 0, .active ⟨"gpu", 1⟩ 1, .given ⟨"gpu", 0⟩ 0,
        .made ⟨"gpu", 0⟩ 2, .synced ⟨"gpu", 1⟩ 1, .given ⟨"gpu", 1⟩ 1, .given ⟨"gpu", 0⟩ 2] := by
  refine ⟨?_, by decide⟩
  simp [sampleOps, AllCareful, Careful, step, initCtx, St.setCtx, St.start, allDevices, finalizeCtx, switch, Ctx.new, syncEv,
    activeEv, leaveEv, enterEv]


namespace Ctx90

/-- the call does not set the current context of thread `t` -/
def Apart (t : Nat) : Op → Prop
  | .switch k _ => k ≠ t
  | .enter k _ => k ≠ t
  | .leave k => k ≠ t
  | _ => True

/-- in thread `t` scopes open and close properly; anything may happen in other threads -/
inductive Nested (t : Nat) : List Op → Prop
  | nil : Nested t []
  | other (op : Op) (rest : List Op) : Apart t op → Nested t rest → Nested t (op :: rest)
  | scope (c : Nat) (body rest : List Op) : Nested t body → Nested t rest →
      Nested t (.enter t c :: (body ++ .leave t :: rest))

theorem switch_cur {t : Nat} {o : Option Nat} {s s' : St} (h : switch t o s = .ok s') :
    s'.cur = (fun k => if k = t then o else s.cur k) ∧ s'.saved = s.saved ∧ s'.ctxs = s.ctxs := by
  unfold switch at h
  split at h
  · cases h
  · split at h
    · cases h
    · cases h
      exact ⟨rfl, rfl, rfl⟩

theorem run_append (r : Registry) : ∀ (a b : List Op) (s s' : St), run r (a ++ b) s = some s' →
    ∃ m, run r a s = some m ∧ run r b m = some s'
  | [], b, s, s', h => ⟨s, rfl, h⟩
  | op :: a, b, s, s', h => by
    rw [List.cons_append] at h
    unfold run at h
    cases hs : step r op s with
    | ok s1 =>
      rw [hs] at h
      obtain ⟨m, h1, h2⟩ := run_append r a b s1 s' h
      exact ⟨m, by unfold run; rw [hs]; exact h1, h2⟩
    | threw s1 =>
      rw [hs] at h
      obtain ⟨m, h1, h2⟩ := run_append r a b s1 s' h
      exact ⟨m, by unfold run; rw [hs]; exact h1, h2⟩
    | ub => rw [hs] at h; cases h

theorem step_apart {r : Registry} {t : Nat} {op : Op} (ha : Apart t op) {s s' : St}
    (h : step r op s = .ok s' ∨ step r op s = .threw s') : s'.cur t = s.cur t ∧ s'.saved t = s.saved t := by
  cases op with
  | create c =>
    simp only [step] at h
    split at h <;> rcases h with h | h <;> cases h <;> exact ⟨rfl, rfl⟩
  | init c d =>
    simp only [step, initCtx] at h
    split at h
    · rcases h with h | h <;> cases h
    · split at h
      · split at h
        · split at h <;> rcases h with h | h <;> cases h <;> exact ⟨rfl, rfl⟩
        · rcases h with h | h <;> cases h <;> exact ⟨rfl, rfl⟩
      · rcases h with h | h <;> cases h <;> exact ⟨rfl, rfl⟩
  | finalize c =>
    simp only [step] at h
    split at h <;> rcases h with h | h <;> cases h <;> exact ⟨rfl, rfl⟩
  | moveAssign a b =>
    simp only [step] at h
    split at h
    · split at h <;> rcases h with h | h <;> cases h <;> exact ⟨rfl, rfl⟩
    · rcases h with h | h <;> cases h
  | destroy c =>
    simp only [step] at h
    split at h <;> rcases h with h | h <;> cases h <;> exact ⟨rfl, rfl⟩
  | switch k o =>
    simp only [step] at h
    rcases h with h | h
    · obtain ⟨h1, h2, _⟩ := switch_cur h
      rw [h1, h2]
      exact ⟨by simp [Ne.symm ha], rfl⟩
    · exact absurd h switch_not_threw
  | enter k c =>
    simp only [step] at h
    cases hs : switch k (some c) s with
    | ok m =>
      rw [hs] at h
      obtain ⟨h1, h2, _⟩ := switch_cur hs
      rcases h with h | h <;> cases h
      simp [h1, h2, Ne.symm ha]
    | threw m => exact absurd hs switch_not_threw
    | ub => rw [hs] at h; rcases h with h | h <;> cases h
  | leave k =>
    simp only [step] at h
    split at h
    · rcases h with h | h <;> cases h
    · rename_i p rest hp
      cases hs : switch k p s with
      | ok m =>
        rw [hs] at h
        obtain ⟨h1, h2, _⟩ := switch_cur hs
        rcases h with h | h <;> cases h
        simp [h1, h2, Ne.symm ha]
      | threw m => exact absurd hs switch_not_threw
      | ub => rw [hs] at h; rcases h with h | h <;> cases h

theorem enter_effect {r : Registry} {t c : Nat} {rest : List Op} {s s' : St}
    (h : run r (.enter t c :: rest) s = some s') :
    ∃ m, m.cur t = some c ∧ m.saved t = s.cur t :: s.saved t ∧ run r rest m = some s' := by
  unfold run at h
  simp only [step] at h
  cases hs : switch t (some c) s with
  | ok m =>
    rw [hs] at h
    obtain ⟨h1, h2, _⟩ := switch_cur hs
    exact ⟨_, by simp [h1], by simp [h2], h⟩
  | threw m => exact absurd hs switch_not_threw
  | ub => rw [hs] at h; cases h

theorem leave_effect {r : Registry} {t : Nat} {rest : List Op} {s s' : St} {p : Option Nat} {l : List (Option Nat)}
    (hp : s.saved t = p :: l) (h : run r (.leave t :: rest) s = some s') :
    ∃ m, m.cur t = p ∧ m.saved t = l ∧ run r rest m = some s' := by
  unfold run at h
  simp only [step, hp] at h
  cases hs : switch t p s with
  | ok m =>
    rw [hs] at h
    obtain ⟨h1, h2, _⟩ := switch_cur hs
    exact ⟨_, by simp [h1], by simp, h⟩
  | threw m => exact absurd hs switch_not_threw
  | ub => rw [hs] at h; cases h

theorem nested_keeps (r : Registry) (t : Nat) (ops : List Op) (hn : Nested t ops) : ∀ (s s' : St),
    run r ops s = some s' → s'.cur t = s.cur t ∧ s'.saved t = s.saved t := by
  induction hn with
  | nil =>
    intro s s' h
    cases h
    exact ⟨rfl, rfl⟩
  | other op rest ha _ ih =>
    intro s s' h
    unfold run at h
    cases hs : step r op s with
    | ok s1 =>
      rw [hs] at h
      obtain ⟨h1, h2⟩ := ih s1 s' h
      obtain ⟨h3, h4⟩ := step_apart ha (Or.inl hs)
      exact ⟨h1.trans h3, h2.trans h4⟩
    | threw s1 =>
      rw [hs] at h
      obtain ⟨h1, h2⟩ := ih s1 s' h
      obtain ⟨h3, h4⟩ := step_apart ha (Or.inr hs)
      exact ⟨h1.trans h3, h2.trans h4⟩
    | ub => rw [hs] at h; cases h
  | scope c body rest _ _ ih1 ih2 =>
    intro s s' h
    obtain ⟨m, m1, m2, h⟩ := enter_effect h
    obtain ⟨n, h1, h2⟩ := run_append r body (.leave t :: rest) m s' h
    obtain ⟨n1, n2⟩ := ih1 m n h1
    obtain ⟨k, k1, k2, h⟩ := leave_effect (n2.trans m2) h2
    obtain ⟨e1, e2⟩ := ih2 k s' h
    exact ⟨e1.trans k1, e2.trans k2⟩

/-- calls on contexts that exist; a context is destroyed only when no thread uses it or will return to it -/
def Polite (s : St) : Op → Prop
  | .create c => s.ctxs c = none
  | .init c _ => s.ctxs c ≠ none
  | .finalize c => s.ctxs c ≠ none
  | .moveAssign a b => s.ctxs a ≠ none ∧ s.ctxs b ≠ none
  | .destroy c => s.ctxs c ≠ none ∧ ∀ t, s.cur t ≠ some c ∧ some c ∉ s.saved t
  | .switch _ o => ∀ c, o = some c → s.ctxs c ≠ none
  | .enter _ c => s.ctxs c ≠ none
  | .leave t => s.saved t ≠ []

def AllPolite (r : Registry) : List Op → St → Prop
  | [], _ => True
  | op :: t, s => Polite s op ∧
    match step r op s with
    | .ok s' => AllPolite r t s'
    | .threw s' => AllPolite r t s'
    | .ub => True

/-- no thread's context is gone -/
def Alive (s : St) : Prop := ∀ t, (∀ c, s.cur t = some c → s.ctxs c ≠ none) ∧ ∀ c, some c ∈ s.saved t → s.ctxs c ≠ none

theorem alive_mono {s s' : St} (h : Alive s) (h1 : s'.cur = s.cur) (h2 : s'.saved = s.saved)
    (h3 : ∀ c, s.ctxs c ≠ none → s'.ctxs c ≠ none) : Alive s' := by
  intro t
  rw [h1, h2]
  exact ⟨fun c hc => h3 c ((h t).1 c hc), fun c hc => h3 c ((h t).2 c hc)⟩

theorem setCtx_alive {s : St} {c : Nat} {x : Ctx} {k : Nat} (h : s.ctxs k ≠ none) :
    (s.setCtx c (some x)).ctxs k ≠ none := by
  by_cases hk : k = c
  · subst hk; rw [setCtx_same]; simp
  · rw [setCtx_ne _ _ hk]; exact h

theorem switch_alive {s : St} {t : Nat} {o : Option Nat} (ha : Alive s) (ho : ∀ c, o = some c → s.ctxs c ≠ none) :
    ∃ s', switch t o s = .ok s' ∧ Alive s' := by
  have h1 : ∃ e, leaveEv (s.cur t) o s = some e := by
    unfold leaveEv
    split
    · rename_i p hp
      split
      · rcases hx : s.ctxs p with _ | x
        · exact absurd hx ((ha t).1 p hp)
        · exact ⟨_, rfl⟩
      · exact ⟨_, rfl⟩
    · exact ⟨_, rfl⟩
  have h2 : ∃ e, enterEv o s = some e := by
    unfold enterEv
    split
    · rename_i c
      rcases hx : s.ctxs c with _ | x
      · exact absurd hx (ho c rfl)
      · exact ⟨_, rfl⟩
    · exact ⟨_, rfl⟩
  obtain ⟨e1, h1⟩ := h1
  obtain ⟨e2, h2⟩ := h2
  unfold switch
  simp only [h1, h2]
  refine ⟨_, rfl, ?_⟩
  intro k
  by_cases hk : k = t
  · subst hk
    refine ⟨?_, (ha k).2⟩
    intro c hc
    simp only [if_true] at hc
    exact ho c hc
  · refine ⟨?_, (ha k).2⟩
    intro c hc
    simp only [if_neg hk] at hc
    exact (ha k).1 c hc

theorem step_alive {r : Registry} {s : St} (op : Op) (ha : Alive s) (hp : Polite s op) :
    ∃ s', (step r op s = .ok s' ∨ step r op s = .threw s') ∧ Alive s' := by
  cases op with
  | create c =>
    refine ⟨_, Or.inl (by simp only [step]; rw [show s.ctxs c = none from hp]), ?_⟩
    exact alive_mono ha rfl rfl fun k hk => setCtx_alive hk
  | init c d =>
    rcases hx : s.ctxs c with _ | x
    · exact absurd hx hp
    · simp only [step, initCtx, hx]
      split
      · split
        · split
          · exact ⟨_, Or.inl rfl, alive_mono ha rfl rfl fun k hk => setCtx_alive hk⟩
          · exact ⟨_, Or.inl rfl, alive_mono ha rfl rfl fun k hk => setCtx_alive hk⟩
        · exact ⟨_, Or.inl rfl, alive_mono ha rfl rfl fun k hk => setCtx_alive hk⟩
      · exact ⟨_, Or.inr rfl, alive_mono ha rfl rfl fun k hk => setCtx_alive hk⟩
  | finalize c =>
    rcases hx : s.ctxs c with _ | x
    · exact absurd hx hp
    · simp only [step, hx]
      exact ⟨_, Or.inl rfl, alive_mono ha rfl rfl fun k hk => setCtx_alive hk⟩
  | moveAssign a b =>
    obtain ⟨p1, p2⟩ := hp
    rcases hx : s.ctxs a with _ | x
    · exact absurd hx p1
    · rcases hy : s.ctxs b with _ | y
      · exact absurd hy p2
      · simp only [step, hx, hy]
        split
        · exact ⟨_, Or.inl rfl, ha⟩
        · exact ⟨_, Or.inl rfl, alive_mono ha rfl rfl fun k hk => setCtx_alive (setCtx_alive hk)⟩
  | destroy c =>
    obtain ⟨p1, p2⟩ := hp
    rcases hx : s.ctxs c with _ | x
    · exact absurd hx p1
    · simp only [step, hx]
      refine ⟨_, Or.inl rfl, ?_⟩
      intro t
      obtain ⟨q1, q2⟩ := p2 t
      refine ⟨?_, ?_⟩
      · intro k hk
        have : k ≠ c := by rintro rfl; exact q1 hk
        show (s.setCtx c none).ctxs k ≠ none
        rw [setCtx_ne _ _ this]
        exact (ha t).1 k hk
      · intro k hk
        have : k ≠ c := by rintro rfl; exact q2 hk
        show (s.setCtx c none).ctxs k ≠ none
        rw [setCtx_ne _ _ this]
        exact (ha t).2 k hk
  | switch t o =>
    obtain ⟨s', h1, h2⟩ := switch_alive (t := t) (o := o) ha hp
    exact ⟨s', Or.inl h1, h2⟩
  | enter t c =>
    obtain ⟨s', h1, h2⟩ := switch_alive (t := t) (o := some c) ha (by intro k hk; cases hk; exact hp)
    simp only [step, h1]
    refine ⟨_, Or.inl rfl, ?_⟩
    obtain ⟨c1, c2, c3⟩ := switch_cur h1
    intro k
    refine ⟨(h2 k).1, ?_⟩
    intro z hz
    by_cases hk : k = t
    · subst hk
      simp only [if_true, List.mem_cons] at hz
      rcases hz with hz | hz
      · rw [show s'.ctxs = s.ctxs from c3]
        exact (ha k).1 z hz.symm
      · exact (h2 k).2 z hz
    · simp only [if_neg hk] at hz
      exact (h2 k).2 z hz
  | leave t =>
    rcases hs : s.saved t with _ | ⟨p, rest⟩
    · exact absurd hs hp
    · obtain ⟨s', h1, h2⟩ := switch_alive (t := t) (o := p) ha (by
        intro k hk
        exact (ha t).2 k (by rw [hs, hk]; simp))
      simp only [step, hs, h1]
      refine ⟨_, Or.inl rfl, ?_⟩
      obtain ⟨c1, c2, c3⟩ := switch_cur h1
      intro k
      refine ⟨(h2 k).1, ?_⟩
      intro z hz
      by_cases hk : k = t
      · subst hk
        simp only [if_true] at hz
        exact (h2 k).2 z (by rw [c2, hs]; exact List.mem_cons_of_mem _ hz)
      · simp only [if_neg hk] at hz
        exact (h2 k).2 z hz

theorem run_alive {r : Registry} : ∀ (ops : List Op) (s : St), Alive s → AllPolite r ops s →
    ∃ s', run r ops s = some s' ∧ Alive s'
  | [], s, ha, _ => ⟨s, rfl, ha⟩
  | op :: t, s, ha, hp => by
    obtain ⟨h1, h2⟩ := hp
    obtain ⟨s1, h3, h4⟩ := step_alive (r := r) op ha h1
    unfold run
    rcases h3 with h3 | h3
    · rw [h3] at h2 ⊢
      exact run_alive t s1 h4 h2
    · rw [h3] at h2 ⊢
      exact run_alive t s1 h4 h2

end Ctx90

/-- C90, scopes: whatever other threads do and whatever happens to contexts in between, after properly nested runs of
workbenches a thread's current context is the one from before; inside a scope, outside inner ones, it is the scope's. -/
theorem C90_scope (r : Registry) (t : Nat) (ops : List Op) (hn : Nested t ops) (s s' : St) :
    (run r ops s = some s' → s'.cur t = s.cur t ∧ s'.saved t = s.saved t) ∧
      ∀ c, run r (.enter t c :: ops) s = some s' → s'.cur t = some c := by
  refine ⟨nested_keeps r t ops hn s s', ?_⟩
  intro c h
  obtain ⟨m, m1, _, h⟩ := enter_effect h
  exact (nested_keeps r t ops hn m s' h).1.trans m1

example : Nested 7 [.create 0, .enter 8 0, .enter 7 0, .enter 7 1, .destroy 5, .leave 7, .leave 8, .leave 7] :=
  .other _ _ trivial (.other _ _ (show 8 ≠ 7 by decide) (.scope 0 [.enter 7 1, .destroy 5, .leave 7, .leave 8] []
    (.scope 1 [.destroy 5] [.leave 8] (.other _ _ trivial .nil) (.other _ _ (show 8 ≠ 7 by decide) .nil)) .nil))

/-- C90, no use after destruction: if contexts are destroyed only when no thread is on them or will return to them, no
call uses a context that is gone. Missing from the claim: nothing in the code makes sure of it (`C90_dangling_false`). -/
theorem C90_alive_partial (r : Registry) (ops : List Op) (h : AllPolite r ops St.start) :
    ∃ s', run r ops St.start = some s' ∧ ∀ t c, s'.cur t = some c → s'.ctxs c ≠ none := by
  obtain ⟨s', h1, h2⟩ := run_alive ops St.start (by intro t; simp [St.start]) h
  exact ⟨s', h1, fun t c hc => (h2 t).1 c hc⟩

example : AllPolite allDevices sampleOps St.start := by
  simp [sampleOps, AllPolite, Polite, step, initCtx, St.setCtx, St.start, allDevices, finalizeCtx, switch, Ctx.new, syncEv,
    activeEv, leaveEv, enterEv]
  constructor <;> intro t h7 h8 <;> simp [h7, h8]

/-- a context with a handle is initialised on another device: the old handle is given to the new device's function -/
theorem C90_reinit_false : ∃ (ops : List Op) (s : St), run allDevices ops St.start = some s ∧ ¬ Orderly s.log ∧
    s.log = [.made ⟨"gpu", 0⟩ 0, .given ⟨"npu", 1⟩ 0, .made ⟨"npu", 1⟩ 1] := by
  refine ⟨[.create 0, .init 0 ⟨"gpu", 0⟩, .init 0 ⟨"npu", 1⟩], _, rfl, ?_, rfl⟩
  intro h
  have := (h [.made ⟨"gpu", 0⟩ 0] (.given ⟨"npu", 1⟩ 0) [.made ⟨"npu", 1⟩ 1] rfl).1
  simp at this

/-- a context that was moved from still has the handle: initialising it again gives back the handle its new owner uses,
and the new owner gives it back a second time -/
theorem C90_moved_from_false : ∃ (ops : List Op) (s : St), run allDevices ops St.start = some s ∧ ¬ Orderly s.log ∧
    s.log = [.made ⟨"gpu", 0⟩ 0, .given ⟨"gpu", 0⟩ 0, .made ⟨"gpu", 0⟩ 1, .given ⟨"gpu", 0⟩ 0] := by
  refine ⟨[.create 0, .init 0 ⟨"gpu", 0⟩, .create 1, .moveAssign 1 0, .init 0 ⟨"gpu", 0⟩, .destroy 1], _, rfl, ?_, rfl⟩
  intro h
  have := (h [.made ⟨"gpu", 0⟩ 0, .given ⟨"gpu", 0⟩ 0, .made ⟨"gpu", 0⟩ 1] (.given ⟨"gpu", 0⟩ 0) [] rfl).2 ⟨"gpu", 0⟩
  simp at this

/-- moving onto a context that has a handle: the handle is never given back -/
theorem C90_move_onto_false : ∃ (ops : List Op) (s : St), run allDevices ops St.start = some s ∧ (∀ c, s.ctxs c = none) ∧
    s.log = [.made ⟨"gpu", 0⟩ 0, .made ⟨"gpu", 1⟩ 1, .given ⟨"gpu", 1⟩ 1] := by
  refine ⟨[.create 0, .init 0 ⟨"gpu", 0⟩, .create 1, .init 1 ⟨"gpu", 1⟩, .moveAssign 0 1, .destroy 0, .destroy 1], _, rfl, ?_, rfl⟩
  intro c
  simp only [St.setCtx]
  by_cases h0 : c = 0 <;> by_cases h1 : c = 1 <;> simp [h0, h1, St.start]

/-- initialising on a device without memory throws, but the context has the new id already: the handle is given back with
the wrong id -/
theorem C90_failed_init_false : ∃ (r : Registry) (ops : List Op) (s : St), run r ops St.start = some s ∧ ¬ Orderly s.log ∧
    s.log = [.made ⟨"gpu", 0⟩ 0, .given ⟨"gpu", 3⟩ 0] := by
  refine ⟨⟨fun _ => true, fun t => t == "gpu", fun _ => true⟩,
    [.create 0, .init 0 ⟨"gpu", 0⟩, .init 0 ⟨"tpu", 3⟩, .destroy 0], _, rfl, ?_, rfl⟩
  intro h
  have := (h [.made ⟨"gpu", 0⟩ 0] (.given ⟨"gpu", 3⟩ 0) [] rfl).1
  simp at this

/-- `ts_plugin_initial_device_context` (plugin.cpp:50-57) makes its context the thread's current one and
`ts_plugin_free_device_context` (plugin.cpp:59-63) destroys it without undoing that: the next run of any workbench in this
thread synchronises a context that is gone -/
theorem C90_dangling_false : ∃ s, run allDevices [.create 0, .init 0 ⟨"gpu", 0⟩, .switch 7 (some 0), .destroy 0, .create 1,
      .init 1 ⟨"gpu", 0⟩] St.start = some s ∧
    s.cur 7 = some 0 ∧ s.ctxs 0 = none ∧ run allDevices [.enter 7 1] s = none :=
  ⟨_, rfl, rfl, rfl, rfl⟩

end Verif.Props
