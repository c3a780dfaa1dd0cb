import Verif.Module.FusionLemmas
import Verif.Props.Module
/-!
# Property theorems: fusing modules (C39)

The submodules are given by their inputs and outputs, nodes of an arena `h0`; `Wired` (FusionLemmas.lean) is the
meaning of the same modules with some inputs wired to outputs.
-/
namespace Verif.Props
open Verif.Runtime Verif.Compiler Verif.Module Verif.Module.Fusion
variable {V : Type} [Inhabited V]

/-! ## Specification -/

/-- slot `s` of a list names `n`; a negative slot names the only element -/
def Pick (l : List Nat) (s : Int) (n : Nat) : Prop :=
  (0 ≤ s ∧ l[s.toNat]? = some n) ∨ (s < 0 ∧ l = [n])

/-- route `r` asks that the input `a` (slot `outInSlot` of module `out`) take the value of the output `b` (slot
`inOutSlot` of module `inn`) -/
def Asks (subs : List (Modl Nat)) (r : Route) (a b : Nat) : Prop :=
  ∃ m m', 0 ≤ r.inn ∧ subs[r.inn.toNat]? = some m ∧ 0 ≤ r.out ∧ subs[r.out.toNat]? = some m' ∧
    Pick m.outputs r.inOutSlot b ∧ Pick m'.inputs r.outInSlot a

/-- the routes ask, in order, for the wires -/
def AsksAll (subs : List (Modl Nat)) : List Route → List (Nat × Nat) → Prop
  | [], [] => True
  | r :: rs, p :: ps => Asks subs r p.1 p.2 ∧ AsksAll subs rs ps
  | _, _ => False

/-- the inputs the fused module should have: those of the modules, in order, that are not wired -/
def unfed (subs : List (Modl Nat)) (w : List (Nat × Nat)) : List Nat :=
  (subs.flatMap (·.inputs)).filter (fun n => n ∉ w.map Prod.fst)
/-- the outputs the fused module should have: those of the modules, in order, that feed nothing -/
def unused (subs : List (Modl Nat)) (w : List (Nat × Nat)) : List Nat :=
  (subs.flatMap (·.outputs)).filter (fun n => n ∉ w.map Prod.snd)

/-- the routes are listed so that a module receives all its routes before the first route from it -/
def FedBeforeFeeding (routes : List Route) : Prop :=
  ∀ (j k : Nat) (rj rk : Route), j ≤ k → routes[j]? = some rj → routes[k]? = some rk → rj.inn ≠ rk.out

/-- no input of a module is used by another module -/
def Separate (G : Graph Nat V) (subs : List (Modl Nat)) : Prop :=
  ∀ (i j : Nat) (a b : Modl Nat), subs[i]? = some a → subs[j]? = some b → i ≠ j →
    ∀ n ∈ a.outputs, ∀ m, Under G n m → m ∉ b.inputs

/-- the modules' nodes are in the arena -/
def InArena (h0 : Arena V) (subs : List (Modl Nat)) : Prop :=
  ∀ m ∈ subs, (∀ n ∈ m.inputs, n < h0.length) ∧ (∀ n ∈ m.outputs, n < h0.length)

/-! ## Route checks -/

theorem slot_ok {l : List Nat} {i : Int} {n : Nat} : slot l i = .ok n ↔ 0 ≤ i ∧ l[i.toNat]? = some n := by
  unfold slot
  cases h : l[i.toNat]? with
  | none => simp
  | some x =>
    simp only []
    split
    · simp [*]
    · simp [*]

theorem slot_ub {l : List Nat} {i : Int} (hi : 0 ≤ i) (h : slot l i = .ub) : l.length ≤ i.toNat := by
  unfold slot at h
  cases hh : l[i.toNat]? with
  | none => simpa using hh
  | some x => rw [hh] at h; simp [hi] at h

theorem slot_cases (l : List Nat) (i : Int) : (∃ n, slot l i = .ok n) ∨ slot l i = .ub := by
  unfold slot
  cases h : l[i.toNat]? with
  | none => exact .inr rfl
  | some x =>
    simp only []
    split
    · exact .inl ⟨x, rfl⟩
    · exact .inr rfl

theorem pick_slot {l : List Nat} {s : Int} {n : Nat} (h1 : ¬ (s < 0 ∧ l.length > 1)) :
    slot l (if s < 0 then 0 else s) = .ok n ↔ Pick l s n := by
  rw [slot_ok]
  unfold Pick
  by_cases hs : s < 0
  · rw [if_pos hs]
    have : l.length ≤ 1 := by omega
    match l with
    | [] => simp
    | [x] => constructor
             · rintro ⟨-, h⟩; right; simp at h; exact ⟨hs, by rw [h]⟩
             · rintro (h | ⟨-, h⟩)
               · omega
               · simp at h ⊢; exact h
    | x :: y :: z => simp at this
  · rw [if_neg hs]
    constructor
    · exact .inl
    · rintro (h | h)
      · exact h
      · exact absurd h.1 hs

/-- **C39, which slots a route means.** A route is accepted exactly if it names an existing output and an existing input
(a negative slot: the only one), and then these two are connected. -/
theorem C39_route_means (subs : List (Modl Nat)) (r : Route) (a b : Nat) :
    routeNodes subs r = .ok (a, b) ↔ Asks subs r a b := by
  unfold routeNodes Asks
  by_cases h1 : r.inn < 0 ∨ r.inn ≥ subs.length
  · rw [if_pos h1]
    simp only [reduceCtorEq, false_iff]
    rintro ⟨m, m', h2, h3, -⟩
    have := (List.getElem?_eq_some_iff.1 h3).1
    omega
  · rw [if_neg h1]
    by_cases h2 : r.out < 0 ∨ r.out ≥ subs.length
    · rw [if_pos h2]
      simp only [reduceCtorEq, false_iff]
      rintro ⟨m, m', -, -, h3, h4, -⟩
      have := (List.getElem?_eq_some_iff.1 h4).1
      omega
    · rw [if_neg h2]
      have e1 : r.inn.toNat < subs.length := by omega
      have e2 : r.out.toNat < subs.length := by omega
      rw [List.getElem?_eq_getElem e1, List.getElem?_eq_getElem e2]
      generalize subs[r.inn.toNat] = m
      generalize subs[r.out.toNat] = m'
      simp only []
      have pick_bound : ∀ (l : List Nat) (s : Int) n, Pick l s n → ¬ (s < 0 ∧ l.length > 1) ∧ ¬ s ≥ l.length := by
        rintro l s n (⟨h, h'⟩ | ⟨h, h'⟩)
        · have := (List.getElem?_eq_some_iff.1 h').1
          omega
        · subst h'; simp; omega
      by_cases c1 : r.inOutSlot < 0 ∧ m.outputs.length > 1
      · rw [if_pos c1]
        simp only [reduceCtorEq, false_iff]
        rintro ⟨x, x', -, hx, -, -, hp, -⟩
        cases hx
        exact (pick_bound _ _ _ hp).1 c1
      rw [if_neg c1]
      by_cases c2 : r.outInSlot < 0 ∧ m'.inputs.length > 1
      · rw [if_pos c2]
        simp only [reduceCtorEq, false_iff]
        rintro ⟨x, x', -, -, -, hx, -, hp⟩
        cases hx
        exact (pick_bound _ _ _ hp).1 c2
      rw [if_neg c2]
      by_cases c3 : r.inOutSlot ≥ m.outputs.length
      · rw [if_pos c3]
        simp only [reduceCtorEq, false_iff]
        rintro ⟨x, x', -, hx, -, -, hp, -⟩
        cases hx
        exact (pick_bound _ _ _ hp).2 c3
      rw [if_neg c3]
      by_cases c4 : r.outInSlot ≥ m'.inputs.length
      · rw [if_pos c4]
        simp only [reduceCtorEq, false_iff]
        rintro ⟨x, x', -, -, -, hx, -, hp⟩
        cases hx
        exact (pick_bound _ _ _ hp).2 c4
      rw [if_neg c4]
      constructor
      · intro h
        rcases slot_cases m'.inputs (if r.outInSlot < 0 then 0 else r.outInSlot) with ⟨x, hx⟩ | hx
        · rcases slot_cases m.outputs (if r.inOutSlot < 0 then 0 else r.inOutSlot) with ⟨y, hy⟩ | hy
          · rw [hx, hy] at h
            simp only [F.bind, F.ok.injEq, Prod.mk.injEq] at h
            obtain ⟨rfl, rfl⟩ := h
            exact ⟨m, m', by omega, rfl, by omega, rfl, (pick_slot c1).1 hy, (pick_slot c2).1 hx⟩
          · rw [hx, hy] at h; simp [F.bind] at h
        · rw [hx] at h; simp [F.bind] at h
      · rintro ⟨x, x', -, hx, -, hx', hp, hp'⟩
        cases hx; cases hx'
        rw [(pick_slot c1).2 hp, (pick_slot c2).2 hp']
        rfl

example : routeNodes [⟨[0, 1], [5]⟩, ⟨[2, 3], [6]⟩] ⟨0, -1, 1, 1⟩ = .ok (3, 5) := by decide
example : Asks [⟨[0, 1], [5]⟩, ⟨[2, 3], [6]⟩] ⟨0, -1, 1, 1⟩ 3 5 :=
  ⟨⟨[0, 1], [5]⟩, ⟨[2, 3], [6]⟩, by decide, rfl, by decide, rfl, .inr ⟨by decide, rfl⟩, .inl ⟨by decide, rfl⟩⟩

/-! ## The loop over the routes -/

/-- the wires can be made in this order -/
structure OrdW (h0 : Arena V) (w : List (Nat × Nat)) : Prop where
  nodup : (w.map Prod.fst).Nodup
  ord : ∀ (j k : Nat) (p q : Nat × Nat), j ≤ k → w[j]? = some p → w[k]? = some q → ¬ Under (graphOf h0) p.2 q.1
  bnd : ∀ p ∈ w, p.1 < h0.length ∧ p.2 < h0.length

structure RInv (h0 : Arena V) (w done : List (Nat × Nat)) (st : ZSt V) : Prop where
  inv : Inv h0 w st
  firsts : ∀ p ∈ done, st.ready p.1 ≠ none
  seconds : ∀ p ∈ done, st.ready p.2 ≠ none
  dom : ∀ n, n < h0.length → st.ready n ≠ none → ∃ p ∈ done, n = p.1 ∨ Under (graphOf h0) p.2 n

theorem ord_split {h0 : Arena V} {w : List (Nat × Nat)} (h : OrdW h0 w) {d : List (Nat × Nat)} {p : Nat × Nat}
    {r : List (Nat × Nat)} (e : w = d ++ p :: r) :
    ∀ x, (x ∈ d ∨ x = p) → ∀ q, (q = p ∨ q ∈ r) → ¬ Under (graphOf h0) x.2 q.1 := by
  intro x hx q hq
  have hj : ∃ j, j ≤ d.length ∧ w[j]? = some x := by
    rcases hx with hx | rfl
    · obtain ⟨j, hj, rfl⟩ := List.getElem_of_mem hx
      exact ⟨j, by omega, by rw [e, List.getElem?_append_left hj, List.getElem?_eq_getElem hj]⟩
    · exact ⟨d.length, Nat.le_refl _, by rw [e, List.getElem?_append_right (Nat.le_refl _)]; simp⟩
  have hk : ∃ k, d.length ≤ k ∧ w[k]? = some q := by
    rcases hq with rfl | hq
    · exact ⟨d.length, Nat.le_refl _, by rw [e, List.getElem?_append_right (Nat.le_refl _)]; simp⟩
    · obtain ⟨k, hk, rfl⟩ := List.getElem_of_mem hq
      exact ⟨d.length + (k + 1), by omega, by
        rw [e, List.getElem?_append_right (by omega)]
        have : d.length + (k + 1) - d.length = k + 1 := by omega
        rw [this, List.getElem?_cons_succ, List.getElem?_eq_getElem hk]⟩
  obtain ⟨j, hj, ej⟩ := hj
  obtain ⟨k, hk, ek⟩ := hk
  exact h.ord j k x q (by omega) ej ek

theorem ready_some {f : Nat → Option Nat} {n : Nat} (h : f n ≠ none) : ∃ c, f n = some c := by
  cases e : f n with
  | none => exact absurd e h
  | some c => exact ⟨c, rfl⟩

theorem route_pre {h0 : Arena V} {w d r : List (Nat × Nat)} {p : Nat × Nat} (hO : OrdW h0 w) (e : w = d ++ p :: r)
    {st : ZSt V} (hR : RInv h0 w d st) :
    ∀ m, Under (graphOf h0) p.2 m → st.ready m = none → m ∉ w.map Prod.fst := by
  intro m hm hr hw
  obtain ⟨q, hq, rfl⟩ := List.mem_map.1 hw
  rw [e] at hq
  rcases List.mem_append.1 hq with hq | hq
  · exact hR.firsts q hq hr
  · exact ord_split hO e p (.inr rfl) q (by simpa using hq) hm

theorem route_step {h0 : Arena V} {rank : Nat → Nat} (hRk : Ranked (graphOf h0) rank) (hcl : Closed h0)
    {w d r : List (Nat × Nat)} {a b : Nat} (hO : OrdW h0 w) (e : w = d ++ (a, b) :: r)
    {st st1 : ZSt V} (hR : RInv h0 w d st) {fuel c : Nat} (hc : cloneNode fuel st b = .ok (st1, c)) :
    RInv h0 w (d ++ [(a, b)])
      ⟨st1.heap ++ [copyNode c], ins (ins st1.ready a st1.heap.length) st1.heap.length st1.heap.length⟩ := by
  have hab := hO.bnd (a, b) (by rw [e]; simp)
  have hC := clone_post hRk hcl fuel b hab.2 st st1 c hR.inv (route_pre hO e hR) hc
  have hnone : st1.ready a = none := by
    cases h : st1.ready a with
    | none => rfl
    | some x =>
      exfalso
      rcases hC.dom a hab.1 (by rw [h]; simp) with h1 | h1
      · obtain ⟨q, hq, h2 | h2⟩ := hR.dom a hab.1 h1
        · have := hO.nodup
          rw [e] at this
          simp only [List.map_append, List.map_cons, List.nodup_append] at this
          exact this.2.2 a (List.mem_map.2 ⟨q, hq, h2.symm⟩) a (by simp) rfl
        · exact ord_split hO e q (.inl hq) (a, b) (.inl rfl) h2
      · exact ord_split hO e (a, b) (.inr rfl) (a, b) (.inl rfl) h1
  obtain ⟨hI, hE, hs, ho⟩ := push_inv hC.inv a (copyNode c) hab.1 hnone (by
    intro st' hE' hg
    exact .inr ⟨b, c, by rw [e]; simp, hab.2, hg, hE'.2 _ _ hC.rdy⟩)
  refine ⟨hI, ?_, ?_, ?_⟩
  · intro p hp
    rcases List.mem_append.1 hp with hp | hp
    · obtain ⟨x, hx⟩ := ready_some (hR.firsts p hp)
      rw [hE.2 _ _ (hC.ext.2 _ _ hx)]; simp
    · simp only [List.mem_singleton] at hp
      subst hp
      rw [hs]; simp
  · intro p hp
    rcases List.mem_append.1 hp with hp | hp
    · obtain ⟨x, hx⟩ := ready_some (hR.seconds p hp)
      rw [hE.2 _ _ (hC.ext.2 _ _ hx)]; simp
    · simp only [List.mem_singleton] at hp
      subst hp
      rw [hE.2 _ _ hC.rdy]; simp
  · intro n hn hr
    by_cases en : n = a
    · exact ⟨(a, b), by simp, .inl en⟩
    · rw [ho n hn en] at hr
      rcases hC.dom n hn hr with h | h
      · obtain ⟨q, hq, h2⟩ := hR.dom n hn h
        exact ⟨q, by simp [hq], h2⟩
      · exact ⟨(a, b), by simp, .inr h⟩

theorem fuseRoutes_post {h0 : Arena V} {rank : Nat → Nat} (hRk : Ranked (graphOf h0) rank) (hcl : Closed h0)
    {w : List (Nat × Nat)} (hO : OrdW h0 w) (subs : List (Modl Nat)) (fuel : Nat) :
    ∀ (rs : List Route) (rest done : List (Nat × Nat)) (st : ZSt V), w = done ++ rest → AsksAll subs rs rest →
    RInv h0 w done st → ∀ st' is os, fuseRoutes fuel subs st rs = .ok (st', is, os) →
    RInv h0 w w st' ∧ is = rest.map Prod.fst ∧ os = rest.map Prod.snd := by
  intro rs
  induction rs with
  | nil =>
    intro rest done st e ha hR st' is os h
    cases rest with
    | cons p q => simp [AsksAll] at ha
    | nil =>
      simp only [fuseRoutes, F.ok.injEq, Prod.mk.injEq] at h
      obtain ⟨rfl, rfl, rfl⟩ := h
      rw [List.append_nil] at e
      subst e
      exact ⟨hR, rfl, rfl⟩
  | cons r rs ih =>
    intro rest done st e ha hR st' is os h
    cases rest with
    | nil => simp [AsksAll] at ha
    | cons p rest =>
      obtain ⟨a, b⟩ := p
      simp only [AsksAll] at ha
      simp only [fuseRoutes] at h
      rw [(C39_route_means subs r a b).2 ha.1] at h
      simp only [F.bind] at h
      cases hc : cloneNode fuel st b with
      | err => rw [hc] at h; cases h
      | fuel => rw [hc] at h; cases h
      | ok q =>
        obtain ⟨st1, c⟩ := q
        rw [hc] at h
        simp only [ofR] at h
        have hs := route_step hRk hcl hO e hR hc
        cases hf : fuseRoutes fuel subs ⟨st1.heap ++ [copyNode c],
            ins (ins st1.ready a st1.heap.length) st1.heap.length st1.heap.length⟩ rs with
        | err => rw [hf] at h; cases h
        | ub => rw [hf] at h; cases h
        | fuel => rw [hf] at h; cases h
        | ok q =>
          obtain ⟨st2, is2, os2⟩ := q
          rw [hf] at h
          simp only [F.ok.injEq, Prod.mk.injEq] at h
          obtain ⟨rfl, rfl, rfl⟩ := h
          obtain ⟨h1, h2, h3⟩ := ih rest (done ++ [(a, b)]) _ (by rw [e]; simp) ha.2 hs st2 is2 os2 hf
          exact ⟨h1, by rw [h2]; rfl, by rw [h3]; rfl⟩

theorem fuseRoutes_total {h0 : Arena V} {rank : Nat → Nat} (hRk : Ranked (graphOf h0) rank) (hcl : Closed h0)
    {w : List (Nat × Nat)} (hO : OrdW h0 w) (subs : List (Modl Nat)) (fuel : Nat) (hf : ∀ n, n < h0.length → rank n < fuel) :
    ∀ (rs : List Route) (rest done : List (Nat × Nat)) (st : ZSt V), w = done ++ rest → AsksAll subs rs rest →
    RInv h0 w done st → ∃ p, fuseRoutes fuel subs st rs = .ok p := by
  intro rs
  induction rs with
  | nil => intro rest done st e ha hR; exact ⟨_, rfl⟩
  | cons r rs ih =>
    intro rest done st e ha hR
    cases rest with
    | nil => simp [AsksAll] at ha
    | cons p rest =>
      obtain ⟨a, b⟩ := p
      simp only [AsksAll] at ha
      simp only [fuseRoutes]
      rw [(C39_route_means subs r a b).2 ha.1]
      simp only [F.bind]
      have hb := (hO.bnd (a, b) (by rw [e]; simp)).2
      obtain ⟨⟨st1, c⟩, hc⟩ := clone_total hRk hcl fuel b hb (hf b hb) st hR.inv (route_pre hO e hR)
      rw [hc]
      simp only [ofR]
      obtain ⟨⟨st2, is, os⟩, h2⟩ := ih rest (done ++ [(a, b)]) _ (by rw [e]; simp) ha.2 (route_step hRk hcl hO e hR hc)
      rw [h2]
      exact ⟨_, rfl⟩

theorem asks_get {subs : List (Modl Nat)} : ∀ {rs : List Route} {w : List (Nat × Nat)}, AsksAll subs rs w →
    ∀ (i : Nat) p, w[i]? = some p → ∃ r, rs[i]? = some r ∧ Asks subs r p.1 p.2 := by
  intro rs
  induction rs with
  | nil => intro w h i p hp; cases w with
    | nil => simp at hp
    | cons x y => simp [AsksAll] at h
  | cons r rs ih =>
    intro w h i p hp
    cases w with
    | nil => simp at hp
    | cons x w =>
      simp only [AsksAll] at h
      cases i with
      | zero => simp only [List.getElem?_cons_zero, Option.some.injEq] at hp; subst hp; exact ⟨r, rfl, h.1⟩
      | succ i => simp only [List.getElem?_cons_succ] at hp ⊢; exact ih h.2 i p hp

theorem pick_mem {l : List Nat} {s : Int} {n : Nat} (h : Pick l s n) : n ∈ l := by
  rcases h with ⟨-, h⟩ | ⟨-, h⟩
  · exact List.mem_of_getElem? h
  · rw [h]; simp

theorem ordW_of {h0 : Arena V} {subs : List (Modl Nat)} {routes : List Route} {w : List (Nat × Nat)}
    (ha : AsksAll subs routes w) (hf : FedBeforeFeeding routes) (hs : Separate (graphOf h0) subs) (hin : InArena h0 subs)
    (hu : (w.map Prod.fst).Nodup) : OrdW h0 w := by
  refine ⟨hu, ?_, ?_⟩
  · intro j k p q hjk hp hq hun
    obtain ⟨rj, e1, m, m', h1, h2, h3, h4, h5, h6⟩ := asks_get ha j p hp
    obtain ⟨rk, e2, x, x', g1, g2, g3, g4, g5, g6⟩ := asks_get ha k q hq
    have := hf j k rj rk hjk e1 e2
    exact hs rj.inn.toNat rk.out.toNat m x' h2 g4 (by omega) p.2 (pick_mem h5) q.1 hun (pick_mem g6)
  · intro p hp
    obtain ⟨i, hi, rfl⟩ := List.getElem_of_mem hp
    obtain ⟨rj, e1, m, m', h1, h2, h3, h4, h5, h6⟩ := asks_get ha i w[i] (List.getElem?_eq_getElem hi)
    exact ⟨(hin m' (List.mem_of_getElem? h4)).1 _ (pick_mem h6), (hin m (List.mem_of_getElem? h2)).2 _ (pick_mem h5)⟩

theorem init_rinv (h0 : Arena V) (w : List (Nat × Nat)) : RInv h0 w [] ⟨h0, fun _ => none⟩ :=
  ⟨⟨⟨[], by simp⟩, by simp, by simp⟩, by simp, by simp, by simp⟩

theorem atAll_some {f : Nat → Option Nat} : ∀ {l cs : List Nat}, atAll f l = some cs → l.map f = cs.map some := by
  intro l
  induction l with
  | nil => intro cs h; simp only [atAll, Option.some.injEq] at h; subst h; rfl
  | cons x l ih =>
    intro cs h
    simp only [atAll] at h
    split at h
    · rename_i c cs' h1 h2
      cases h
      simp [h1, ih h2]
    · cases h

theorem atAll_total {f : Nat → Option Nat} : ∀ {l : List Nat}, (∀ n ∈ l, f n ≠ none) → ∃ cs, atAll f l = some cs := by
  intro l
  induction l with
  | nil => intro _; exact ⟨_, rfl⟩
  | cons x l ih =>
    intro h
    obtain ⟨c, hc⟩ := ready_some (h x (by simp))
    obtain ⟨cs, hcs⟩ := ih (fun n hn => h n (by simp [hn]))
    exact ⟨c :: cs, by simp [atAll, hc, hcs]⟩

/-! ## The fused module -/

/-- the state after the last clone -/
theorem final_state {h0 : Arena V} {rank : Nat → Nat} (hRk : Ranked (graphOf h0) rank) (hcl : Closed h0)
    {w : List (Nat × Nat)} (hO : OrdW h0 w) {fuel : Nat} {st st1 : ZSt V} (hR : RInv h0 w w st) {outs couts : List Nat}
    (hb : ∀ n ∈ outs, n < h0.length)
    (h : zipInputs (cloneNode fuel) st outs = .ok (st1, couts)) :
    LPost h0 w st outs st1 couts ∧ ∀ n, st.ready n = none → n ∉ w.map Prod.fst := by
  have key : ∀ n, st.ready n = none → n ∉ w.map Prod.fst := by
    intro m hm hw
    obtain ⟨q, hq, rfl⟩ := List.mem_map.1 hw
    exact hR.firsts q hq hm
  refine ⟨list_post (cloneNode fuel) outs st (fun n hn s s' c => ?_) hR.inv (fun n _ m _ hr => key m hr) st1 couts h, key⟩
  exact clone_post hRk hcl fuel n (hb n hn) s s' c

theorem unused_bound {h0 : Arena V} {subs : List (Modl Nat)} (hin : InArena h0 subs) (w : List (Nat × Nat)) :
    (∀ n ∈ unused subs w, n < h0.length) ∧ (∀ n ∈ unfed subs w, n < h0.length) := by
  constructor
  · intro n hn
    obtain ⟨m, hm, hn⟩ := List.mem_flatMap.1 (List.mem_filter.1 hn).1
    exact (hin m hm).2 n hn
  · intro n hn
    obtain ⟨m, hm, hn⟩ := List.mem_flatMap.1 (List.mem_filter.1 hn).1
    exact (hin m hm).1 n hn

/-- **C39, what the fused module computes.** Take acyclic modules no one of which uses inputs of another, and routes that
name existing slots, feed no input twice and list, for every module, the routes into it before those out of it. If `Fusion`
returns a module, then its inputs and outputs are, in order, the module inputs that are not fed and the module outputs that
feed nothing, and on every binding of those inputs each output has exactly the value it has in the modules wired as asked.
The source modules are untouched. Missing: routes in another order, refused even when they form no cycle
(`C39_any_order_false`). -/
theorem C39_fusion_partial (P : PackOps V) (h0 H : Arena V) (rank : Nat → Nat) (hRk : Ranked (graphOf h0) rank) (hcl : Closed h0)
    (subs : List (Modl Nat)) (hin : InArena h0 subs) (hsep : Separate (graphOf h0) subs)
    (routes : List Route) (w : List (Nat × Nat)) (ha : AsksAll subs routes w) (hf : FedBeforeFeeding routes)
    (hu : (w.map Prod.fst).Nodup) (fuel wfuel : Nat) (M : Modl Nat) (h : fusion fuel wfuel h0 subs routes = .ok (H, M)) :
    h0 <+: H ∧ M.inputs.length = (unfed subs w).length ∧ M.outputs.length = (unused subs w).length ∧
    ∀ env env' : Nat → Option V,
      (∀ (i : Nat) a b, (unfed subs w)[i]? = some a → M.inputs[i]? = some b → env' b = env a) →
      ∀ (k : Nat) a b v, (unused subs w)[k]? = some a → M.outputs[k]? = some b →
        (Den (graphOf H) P env' b v ↔ Wired (graphOf h0) P w env a v) := by
  have hO := ordW_of ha hf hsep hin hu
  unfold fusion at h
  cases hr : fuseRoutes fuel subs ⟨h0, fun _ => none⟩ routes with
  | err => rw [hr] at h; cases h
  | ub => rw [hr] at h; cases h
  | fuel => rw [hr] at h; cases h
  | ok q =>
    obtain ⟨st, is, os⟩ := q
    rw [hr] at h
    simp only [F.bind] at h
    obtain ⟨hR, rfl, rfl⟩ := fuseRoutes_post hRk hcl hO subs fuel routes w [] _ rfl ha (init_rinv h0 w) st is os hr
    rw [show (List.filter (fun n => decide ¬n ∈ List.map Prod.snd w) (List.flatMap (fun x => x.outputs) subs)) = unused subs w from rfl,
      show (List.filter (fun n => decide ¬n ∈ List.map Prod.fst w) (List.flatMap (fun x => x.inputs) subs)) = unfed subs w from rfl] at h
    cases hz : zipInputs (cloneNode fuel) st (unused subs w) with
    | err => rw [hz] at h; cases h
    | fuel => rw [hz] at h; cases h
    | ok q =>
      obtain ⟨st1, couts⟩ := q
      rw [hz] at h
      simp only [ofR] at h
      obtain ⟨hL, hk⟩ := final_state hRk hcl hO hR (unused_bound hin w).1 hz
      cases hat : atAll st1.ready (unfed subs w) with
      | none => rw [hat] at h; cases h
      | some cins =>
        rw [hat] at h
        simp only [] at h
        cases hg : graphWalker (graphOf st1.heap) (List.range' h0.length (st1.heap.length - h0.length)) wfuel couts with
        | none => rw [hg] at h; cases h
        | some o =>
          cases o with
          | none => rw [hg] at h; cases h
          | some found =>
            rw [hg] at h
            simp only [] at h
            split at h
            · cases h
            · rename_i M' hM
              obtain ⟨hall, hMi, hMo⟩ := (C09_sort_by_node _ M' cins).1 hM
              obtain ⟨mi, mo⟩ := M'
              simp only [Modl.load, List.nil_append] at hall hMi hMo
              subst hMi; subst hMo
              · simp only [F.ok.injEq, Prod.mk.injEq] at h
                obtain ⟨rfl, rfl⟩ := h
                have hci := atAll_some hat
                have li : (unfed subs w).length = mi.length := by simpa using congrArg List.length hci
                have lo : (unused subs w).length = mo.length := by simpa using congrArg List.length hL.rdy
                obtain ⟨t, ht⟩ := hL.inv.pre
                refine ⟨⟨t, ht.symm⟩, li.symm, lo.symm, ?_⟩
                intro env env' henv k a b v hka hkb
                simp only [] at hkb henv
                have hkl := (List.getElem?_eq_some_iff.1 hka).1
                have hra : st1.ready a = some b := by
                  have := map_get hL.rdy hkl (by omega)
                  rw [(List.getElem?_eq_some_iff.1 hka).2, (List.getElem?_eq_some_iff.1 hkb).2] at this
                  exact this
                have hal : a < h0.length := (unused_bound hin w).1 a (List.mem_of_getElem? hka)
                have hpost := wloop_post wfuel _ (winit_inv (graphOf st1.heap) _ mo) _ hg
                have hE : ∀ n, n < h0.length → (graphOf h0).kind n = .param → ∀ c', st1.ready n = some c' → n ∉ w.map Prod.fst →
                    Needs (graphOf st1.heap) [b] c' → env' c' = env n := by
                  intro n hn hkn c' hc' hnw hne
                  have hne' : Needs (graphOf st1.heap) mo c' := by
                    clear hc'
                    induction hne with
                    | root h =>
                      simp only [List.mem_singleton] at h
                      subst h
                      exact .root (List.mem_of_getElem? hkb)
                    | input _ hp hc hi ih => exact .input ih hp hc hi
                  have hkc : (graphOf st1.heap).kind c' = .param := by
                    rcases (hL.inv.ent n hn c' hc').2.2 with ⟨-, r, cs, e1, e2, -⟩ | ⟨m, d, e1, -⟩
                    · rw [(graphOf_get e2).1]; rw [(graphOf_get e1).1] at hkn; exact hkn
                    · exact absurd (List.mem_map.2 ⟨(n, m), e1, rfl⟩) hnw
                  have hmem : c' ∈ mi := hall c' ((hpost.2.1 c').2 ⟨hkc, hne'⟩)
                  obtain ⟨i, hi, rfl⟩ := List.getElem_of_mem hmem
                  have hi' : i < (unfed subs w).length := by omega
                  have := map_get hci hi' hi
                  have hnn := hL.inv.inj n _ mi[i] hn ((unused_bound hin w).2 _ (List.getElem_mem hi')) hc' this
                  rw [hnn]
                  exact henv i _ _ (List.getElem?_eq_getElem hi') (List.getElem?_eq_getElem hi)
                exact ⟨fun hd => den_wired hcl hL.inv P hd hE a hal hra, fun hd => wired_den hcl hu hL.inv P hd hal b hra hE⟩

/-- **C39, fusing succeeds** for modules as loading makes them (inputs: exactly the parameters the outputs need; no
operator without inputs) and routes as above. -/
theorem C39_fusion_total (h0 : Arena V) (rank : Nat → Nat) (hRk : Ranked (graphOf h0) rank) (hcl : Closed h0)
    (subs : List (Modl Nat)) (hin : InArena h0 subs) (hsep : Separate (graphOf h0) subs)
    (hload : ∀ m ∈ subs, (∀ n, n ∈ m.inputs ↔ (graphOf h0).kind n = .param ∧ Needs (graphOf h0) m.outputs n) ∧
      ∀ n, Needs (graphOf h0) m.outputs n →
        (graphOf h0).kind n = .param ∨ (graphOf h0).kind n = .const ∨ (graphOf h0).inputs n ≠ [])
    (routes : List Route) (w : List (Nat × Nat)) (ha : AsksAll subs routes w) (hf : FedBeforeFeeding routes)
    (hu : (w.map Prod.fst).Nodup) :
    ∃ fuel wfuel H M, fusion fuel wfuel h0 subs routes = .ok (H, M) := by
  have hO := ordW_of ha hf hsep hin hu
  obtain ⟨fuel, hfu⟩ : ∃ B, ∀ n, n < h0.length → rank n < B := by
    have : ∀ k, ∃ B, ∀ n, n < k → rank n < B := by
      intro k
      induction k with
      | zero => exact ⟨0, by intro n h; omega⟩
      | succ k ih =>
        obtain ⟨B, hB⟩ := ih
        refine ⟨B + rank k + 1, fun n hn => ?_⟩
        by_cases e : n = k
        · subst e; omega
        · have := hB n (by omega); omega
    exact this _
  obtain ⟨⟨st, is, os⟩, hr⟩ := fuseRoutes_total hRk hcl hO subs fuel hfu routes w [] _ rfl ha (init_rinv h0 w)
  obtain ⟨hR, rfl, rfl⟩ := fuseRoutes_post hRk hcl hO subs fuel routes w [] _ rfl ha (init_rinv h0 w) st is os hr
  have hk : ∀ n, st.ready n = none → n ∉ w.map Prod.fst := by
    intro m hm hw
    obtain ⟨q, hq, rfl⟩ := List.mem_map.1 hw
    exact hR.firsts q hq hm
  have hzt : ∀ (l : List Nat), (∀ n ∈ l, n < h0.length) → ∀ s, Inv h0 w s → (∀ n, s.ready n = none → n ∉ w.map Prod.fst) →
      ∃ p, zipInputs (cloneNode fuel) s l = .ok p := by
    intro l
    induction l with
    | nil => intro _ s _ _; exact ⟨_, rfl⟩
    | cons x l ih =>
      intro hl s hI hk
      obtain ⟨⟨s1, c⟩, e1⟩ := clone_total hRk hcl fuel x (hl x (by simp)) (hfu x (hl x (by simp))) s hI (fun m _ => hk m)
      have h1 := clone_post hRk hcl fuel x (hl x (by simp)) s s1 c hI (fun m _ => hk m) e1
      obtain ⟨⟨s2, cs⟩, e2⟩ := ih (fun n hn => hl n (by simp [hn])) s1 h1.inv (by
        intro n hn
        refine hk n ?_
        cases e : s.ready n with
        | none => rfl
        | some c' => rw [h1.ext.2 n c' e] at hn; cases hn)
      exact ⟨(s2, c :: cs), by simp [zipInputs, e1, e2, R.bind]⟩
  obtain ⟨⟨st1, couts⟩, hz⟩ := hzt (unused subs w) (unused_bound hin w).1 st hR.inv hk
  obtain ⟨hL, -⟩ := final_state hRk hcl hO hR (unused_bound hin w).1 hz
  have hrdy : ∀ n, st.ready n ≠ none → st1.ready n ≠ none := by
    intro n hn
    obtain ⟨c, hc⟩ := ready_some hn
    rw [hL.ext.2 n c hc]; simp
  -- every output is ready
  have hout : ∀ m ∈ subs, ∀ n ∈ m.outputs, st1.ready n ≠ none := by
    intro m hm n hn
    by_cases hw : n ∈ w.map Prod.snd
    · obtain ⟨p, hp, rfl⟩ := List.mem_map.1 hw
      exact hrdy _ (hR.seconds p hp)
    · have : n ∈ unused subs w := List.mem_filter.2 ⟨List.mem_flatMap.2 ⟨m, hm, hn⟩, by simpa using hw⟩
      obtain ⟨i, hi, rfl⟩ := List.getElem_of_mem this
      have lo : (unused subs w).length = couts.length := by simpa using congrArg List.length hL.rdy
      rw [map_get hL.rdy hi (by omega)]; simp
  -- wired inputs are parameters
  have hwp : ∀ n, n ∈ w.map Prod.fst → (graphOf h0).kind n = .param := by
    intro n hn
    obtain ⟨p, hp, rfl⟩ := List.mem_map.1 hn
    obtain ⟨i, hi, rfl⟩ := List.getElem_of_mem hp
    obtain ⟨rj, e1, m, m', h1, h2, h3, h4, h5, h6⟩ := asks_get ha i w[i] (List.getElem?_eq_getElem hi)
    exact ((hload m' (List.mem_of_getElem? h4)).1 _ |>.1 (pick_mem h6)).1
  have hws : ∀ p ∈ w, ∃ m ∈ subs, p.2 ∈ m.outputs := by
    intro p hp
    obtain ⟨i, hi, rfl⟩ := List.getElem_of_mem hp
    obtain ⟨rj, e1, m, m', h1, h2, h3, h4, h5, h6⟩ := asks_get ha i w[i] (List.getElem?_eq_getElem hi)
    exact ⟨m, List.mem_of_getElem? h2, pick_mem h5⟩
  have hnb : ∀ m ∈ subs, ∀ n, Needs (graphOf h0) m.outputs n → n < h0.length := by
    intro m hm n hn
    induction hn with
    | root h => exact (hin m hm).2 _ h
    | input _ _ _ hi _ => exact closed_inputs hcl hi
  have hneed : ∀ m ∈ subs, ∀ n, Needs (graphOf h0) m.outputs n → st1.ready n ≠ none := by
    intro m hm n hn
    induction hn with
    | root h => exact hout m hm _ h
    | @input x y hx hp hc hi ih =>
      obtain ⟨c, hc'⟩ := ready_some ih
      rcases (hL.inv.ent x (hnb m hm x hx) c hc').2.2 with ⟨-, r, cs, e1, e2, e3⟩ | ⟨m', d, e1, -⟩
      · rw [(graphOf_get e1).2.1] at hi
        obtain ⟨i, hi', rfl⟩ := List.getElem_of_mem hi
        have : r.inputs.length = cs.length := by simpa using congrArg List.length e3
        rw [map_get e3 hi' (by omega)]; simp
      · exact absurd (hwp x (List.mem_map.2 ⟨(x, m'), e1, rfl⟩)) hp
  obtain ⟨cins, hat⟩ := atAll_total (f := st1.ready) (l := unfed subs w) (by
    intro n hn
    obtain ⟨m, hm, hn'⟩ := List.mem_flatMap.1 (List.mem_filter.1 hn).1
    exact hneed m hm n ((hload m hm).1 n |>.1 hn').2)
  have hci := atAll_some hat
  obtain ⟨wfuel, r, hg⟩ := wloop_total (G := graphOf st1.heap)
    (nodes := List.range' h0.length (st1.heap.length - h0.length)) (outputs := couts) _ _ _
    (winit_inv (graphOf st1.heap) _ couts) rfl rfl
  have hpost := wloop_post wfuel _ (winit_inv (graphOf st1.heap) _ couts) r hg
  -- what the fused outputs need are clones of what the modules need
  have htrace : ∀ c, Needs (graphOf st1.heap) couts c →
      ∃ n m, m ∈ subs ∧ Needs (graphOf h0) m.outputs n ∧ st1.ready n = some c := by
    intro c hc
    induction hc with
    | @root c h =>
      obtain ⟨i, hi, rfl⟩ := List.getElem_of_mem h
      have lo : (unused subs w).length = couts.length := by simpa using congrArg List.length hL.rdy
      have hi' : i < (unused subs w).length := by omega
      obtain ⟨m, hm, hn'⟩ := List.mem_flatMap.1 (List.mem_filter.1 (List.getElem_mem hi')).1
      exact ⟨_, m, hm, .root hn', map_get hL.rdy hi' hi⟩
    | @input c c' hcn hp hc hi ih =>
      obtain ⟨n, m, hm, hn, hr⟩ := ih
      rcases (hL.inv.ent n (hnb m hm n hn) c hr).2.2 with ⟨-, r, cs, e1, e2, e3⟩ | ⟨m', d, e1, -, e2, e3⟩
      · rw [(graphOf_get e2).2.1] at hi
        obtain ⟨i, hi', rfl⟩ := List.getElem_of_mem hi
        have hl : r.inputs.length = cs.length := by simpa using congrArg List.length e3
        have hi2 : i < r.inputs.length := by simp only [] at hi'; omega
        refine ⟨r.inputs[i], m, hm, .input hn ?_ ?_ ?_, map_get e3 hi2 hi'⟩
        · rw [(graphOf_get e1).1]; rw [(graphOf_get e2).1] at hp; exact hp
        · rw [(graphOf_get e1).1]; rw [(graphOf_get e2).1] at hc; exact hc
        · rw [(graphOf_get e1).2.1]; exact List.getElem_mem hi2
      · rw [(graphOf_get e2).2.1] at hi
        simp only [copyNode, List.mem_singleton] at hi
        subst hi
        obtain ⟨m2, hm2, ho2⟩ := hws _ e1
        exact ⟨m', m2, hm2, .root ho2, e3⟩
  cases r with
  | none =>
    exfalso
    obtain ⟨c, hc, hbad⟩ := hpost
    obtain ⟨n, m, hm, hn, hr⟩ := htrace c hc
    obtain ⟨b1, b2, b3⟩ := hL.inv.ent n (hnb m hm n hn) c hr
    rcases hbad with hbad | ⟨hb1, hb2⟩
    · exact hbad (by rw [List.mem_range']; exact ⟨c - h0.length, by omega, by omega⟩)
    · rcases b3 with ⟨-, r, cs, e1, e2, e3⟩ | ⟨m', d, e1, -, e2, e3⟩
      · have hk2 : (graphOf st1.heap).kind c = (graphOf h0).kind n := by rw [(graphOf_get e1).1, (graphOf_get e2).1]
        rcases (hload m hm).2 n hn with h | h | h
        · exact hb1.1 (by rw [hk2, h])
        · exact hb1.2 (by rw [hk2, h])
        · rw [(graphOf_get e1).2.1] at h
          rw [(graphOf_get e2).2.1] at hb2
          simp only [] at hb2
          subst hb2
          cases hri : r.inputs with
          | nil => exact h hri
          | cons x y => rw [hri] at e3; simp at e3
      · rw [(graphOf_get e2).2.1] at hb2
        simp [copyNode] at hb2
  | some found =>
    have hall : ∀ n ∈ found, n ∈ cins := by
      intro c hc
      obtain ⟨hkc, hnc⟩ := (hpost.2.1 c).1 hc
      obtain ⟨n, m, hm, hn, hr⟩ := htrace c hnc
      rcases (hL.inv.ent n (hnb m hm n hn) c hr).2.2 with ⟨hnw, r, cs, e1, e2, e3⟩ | ⟨m', d, e1, -, e2, e3⟩
      · have hkn : (graphOf h0).kind n = .param := by
          rw [(graphOf_get e1).1]; rw [(graphOf_get e2).1] at hkc; exact hkc
        have : n ∈ unfed subs w :=
          List.mem_filter.2 ⟨List.mem_flatMap.2 ⟨m, hm, ((hload m hm).1 n).2 ⟨hkn, hn⟩⟩, by simpa using hnw⟩
        obtain ⟨i, hi, rfl⟩ := List.getElem_of_mem this
        have li : (unfed subs w).length = cins.length := by simpa using congrArg List.length hci
        have := map_get hci hi (by omega)
        rw [hr] at this
        cases this
        simp
      · rw [(graphOf_get e2).1] at hkc
        cases hkc
    refine ⟨fuel, wfuel, st1.heap, ⟨cins, couts⟩, ?_⟩
    unfold fusion
    rw [hr]
    simp only [F.bind]
    rw [show (List.filter (fun n => decide ¬n ∈ List.map Prod.snd w) (List.flatMap (fun x => x.outputs) subs)) = unused subs w from rfl,
      show (List.filter (fun n => decide ¬n ∈ List.map Prod.fst w) (List.flatMap (fun x => x.inputs) subs)) = unfed subs w from rfl]
    rw [hz]
    simp only [ofR]
    rw [hat]
    simp only [graphWalker, hg]
    rw [(C09_sort_by_node ((⟨[], []⟩ : Modl Nat).load found couts) ⟨cins, couts⟩ cins).2
      ⟨by simpa [Modl.load] using hall, rfl, by simp [Modl.load]⟩]

/-- **C39, wrong routes are refused.** If some route names a module or slot that does not exist, `Fusion` returns no module. -/
theorem C39_rejects (fuel wfuel : Nat) (h0 : Arena V) (subs : List (Modl Nat)) (routes : List Route) (r : Route)
    (hr : r ∈ routes) (hbad : ∀ a b, ¬ Asks subs r a b) (res : Arena V × Modl Nat) :
    fusion fuel wfuel h0 subs routes ≠ .ok res := by
  have key : ∀ (rs : List Route), r ∈ rs → ∀ st p, fuseRoutes (V := V) fuel subs st rs ≠ .ok p := by
    intro rs
    induction rs with
    | nil => intro h; cases h
    | cons x rs ih =>
      intro hm st p h
      simp only [fuseRoutes] at h
      cases hx : routeNodes subs x with
      | err => rw [hx] at h; cases h
      | ub => rw [hx] at h; cases h
      | fuel => rw [hx] at h; cases h
      | ok q =>
        obtain ⟨a, b⟩ := q
        rw [hx] at h
        simp only [F.bind] at h
        rcases List.mem_cons.1 hm with rfl | hm
        · exact hbad a b ((C39_route_means subs r a b).1 hx)
        · cases hc : cloneNode fuel st b with
          | err => rw [hc] at h; cases h
          | fuel => rw [hc] at h; cases h
          | ok q =>
            obtain ⟨st1, c⟩ := q
            rw [hc] at h
            simp only [ofR] at h
            generalize (⟨st1.heap ++ [copyNode c], ins (ins st1.ready a st1.heap.length) st1.heap.length st1.heap.length⟩ : ZSt V) = s at h
            cases hf : fuseRoutes fuel subs s rs with
            | err => rw [hf] at h; cases h
            | ub => rw [hf] at h; cases h
            | fuel => rw [hf] at h; cases h
            | ok q => exact ih hm s q hf
  unfold fusion
  cases h : fuseRoutes fuel subs ⟨h0, fun _ => none⟩ routes with
  | ok p => exact absurd h (key routes hr _ p)
  | err => simp [F.bind]
  | ub => simp [F.bind]
  | fuel => simp [F.bind]

/-! ## A concrete case -/

/-- one unary operator, one binary (`10 * x + y`), and their parameters -/
def fuseSample : Arena Nat :=
  [⟨.param, [], 0, fun _ => none⟩, ⟨.oper, [0], 0, fun vs => match vs with | [x] => some (x + 1) | _ => none⟩,
   ⟨.param, [], 0, fun _ => none⟩, ⟨.param, [], 0, fun _ => none⟩,
   ⟨.oper, [2, 3], 0, fun vs => match vs with | [x, y] => some (10 * x + y) | _ => none⟩]

/-- `x ↦ x + 1` and `(x, y) ↦ 10 x + y` -/
def fuseSubs : List (Modl Nat) := [⟨[0], [1]⟩, ⟨[2, 3], [4]⟩]

theorem fuseSample_closed : Closed fuseSample := by
  intro n r h m hm
  match n with
  | 0 | 2 | 3 => cases h; cases hm
  | 1 => cases h; simp at hm; subst hm; decide
  | 4 => cases h; simp at hm; rcases hm with rfl | rfl <;> decide
  | n + 5 => simp [fuseSample] at h

theorem fuseSample_inputs (n m : Nat) (h : m ∈ (graphOf fuseSample).inputs n) : (n = 1 ∧ m = 0) ∨ (n = 4 ∧ (m = 2 ∨ m = 3)) := by
  match n with
  | 0 | 2 | 3 => simp [graphOf, fuseSample] at h
  | 1 => simp [graphOf, fuseSample] at h; omega
  | 4 => simp [graphOf, fuseSample] at h; omega
  | n + 5 => simp [graphOf, fuseSample] at h

theorem fuseSample_ranked : Ranked (graphOf fuseSample) id := by
  intro n m h
  have := fuseSample_inputs n m h
  simp only [id]; omega

theorem fuseSample_inArena : InArena fuseSample fuseSubs := by
  intro m hm
  simp [fuseSubs] at hm
  rcases hm with rfl | rfl <;> simp [fuseSample]

theorem fuseSample_under {n m : Nat} (h : Under (graphOf fuseSample) n m) : (n ≤ 1 ↔ m ≤ 1) := by
  induction h with
  | refl => exact Iff.rfl
  | step h _ ih => have := fuseSample_inputs _ _ h; omega

theorem fuseSample_separate : Separate (graphOf fuseSample) fuseSubs := by
  intro i j a b hi hj hij n hn m hu
  have hu := fuseSample_under hu
  match i, j with
  | 0, 0 => exact absurd rfl hij
  | 1, 1 => exact absurd rfl hij
  | 0, 1 => cases hi; cases hj; simp at hn ⊢; omega
  | 1, 0 => cases hi; cases hj; simp at hn ⊢; omega
  | i + 2, _ => simp [fuseSubs] at hi
  | _, j + 2 => simp [fuseSubs] at hj

/-- the result as a pair, for reading it off -/
def resultOf : F (Arena Nat × Modl Nat) → Arena Nat × Modl Nat
  | .ok p => p
  | _ => ([], ⟨[], []⟩)
def isOk {α : Type} : F α → Bool
  | .ok _ => true
  | _ => false

/-- the hypotheses of `C39_fusion_partial` and `C39_fusion_total` hold of the sample with a route to the second input -/
example : AsksAll fuseSubs [⟨0, 0, 1, 1⟩] [(3, 1)] ∧ FedBeforeFeeding [⟨0, 0, 1, 1⟩] ∧ ([(3, 1)].map Prod.fst).Nodup ∧
    isOk (fusion 9 40 fuseSample fuseSubs [⟨0, 0, 1, 1⟩]) = true := by
  refine ⟨⟨⟨⟨[0], [1]⟩, ⟨[2, 3], [4]⟩, by decide, rfl, by decide, rfl, .inl ⟨by decide, rfl⟩, .inl ⟨by decide, rfl⟩⟩, trivial⟩,
    ?_, by decide, by decide⟩
  intro j k rj rk _ hj hk
  match j, k with
  | 0, 0 => cases hj; cases hk; decide
  | j + 1, _ => simp at hj
  | 0, k + 1 => simp at hk
example : unfed fuseSubs [(3, 1)] = [0, 2] ∧ unused fuseSubs [(3, 1)] = [4] := by decide

/-! ## What fails -/

theorem den_fun {G : Graph Nat V} {P : PackOps V} {env : Nat → Option V} {n : Nat} {v : V} (h : Den G P env n v) :
    ∀ v', Den G P env n v' → v = v' := by
  induction h with
  | @param n v hk he =>
    intro v' h'
    cases h' with
    | param _ he' => rw [he] at he'; exact Option.some.inj he'
    | const hk' => rw [hk] at hk'; cases hk'
    | node _ _ ha => simp [Graph.apply, hk] at ha
  | @const n hk =>
    intro v' h'
    cases h' with
    | param hk' => rw [hk] at hk'; cases hk'
    | const _ => rfl
    | node _ _ ha => simp [Graph.apply, hk] at ha
  | @node n vs v hlen hin hap ih =>
    intro v' h'
    cases h' with
    | param hk' => simp [Graph.apply, hk'] at hap
    | const hk' => simp [Graph.apply, hk'] at hap
    | @node _ vs' _ hlen' hin' hap' =>
      have : vs = vs' := by
        apply List.ext_getElem (by omega)
        intro i h1 h2
        exact ih i (by omega) h1 _ (hin' i (by omega) h2)
      subst this
      rw [hap] at hap'
      exact Option.some.inj hap'

/-- the claim for the C function: slot `o` of the second module is fed by slot `i` of the first -/
def ApiConnectsClaim : Prop :=
  ∀ (P : PackOps Nat) (h0 H : Arena Nat) (rank : Nat → Nat) (a b M : Modl Nat) (i o : Int) (x y : Nat) (fuel wfuel : Nat),
    Ranked (graphOf h0) rank → Closed h0 → InArena h0 [a, b] → Separate (graphOf h0) [a, b] → Asks [a, b] ⟨0, i, 1, o⟩ x y →
    apiFusion fuel wfuel h0 a i b o = .ok (H, M) →
    ∀ env env' : Nat → Option Nat,
      (∀ (i : Nat) p q, (unfed [a, b] [(x, y)])[i]? = some p → M.inputs[i]? = some q → env' q = env p) →
      ∀ (k : Nat) p q v, (unused [a, b] [(x, y)])[k]? = some p → M.outputs[k]? = some q →
        (Den (graphOf H) P env' q v ↔ Wired (graphOf h0) P [(x, y)] env p v)

/-- what `ts_Module_Fusion(in, 0, out, 1)` makes of the sample -/
def apiResult : Arena Nat :=
  fuseSample ++ [⟨.param, [], 0, fun _ => none⟩, ⟨.oper, [5], 0, fun vs => match vs with | [x] => some (x + 1) | _ => none⟩,
    copyNode 6, ⟨.param, [], 0, fun _ => none⟩,
    ⟨.oper, [7, 8], 0, fun vs => match vs with | [x, y] => some (10 * x + y) | _ => none⟩]

theorem apiResult_eq : apiFusion 9 40 fuseSample ⟨[0], [1]⟩ 0 ⟨[2, 3], [4]⟩ 1 = .ok (apiResult, ⟨[5, 8], [9]⟩) := rfl

def noFields : PackOps Nat := ⟨fun _ => 0, fun _ _ => none⟩
def envSample : Nat → Option Nat := fun n => if n = 0 ∨ n = 5 then some 1 else some 5

theorem wired_sample : Wired (graphOf fuseSample) noFields [(3, 1)] envSample 4 52 := by
  have w0 : Wired (graphOf fuseSample) noFields [(3, 1)] envSample 0 1 := .param (by decide) rfl rfl
  have w1 : Wired (graphOf fuseSample) noFields [(3, 1)] envSample 1 2 :=
    .node (vs := [1]) (by decide) rfl (by
      intro i h1 h2
      match i, h2 with
      | 0, _ => exact w0) rfl
  have w2 : Wired (graphOf fuseSample) noFields [(3, 1)] envSample 2 5 := .param (by decide) rfl rfl
  have w3 : Wired (graphOf fuseSample) noFields [(3, 1)] envSample 3 2 := .wire (by decide) w1
  exact .node (vs := [5, 2]) (by decide) rfl (by
      intro i h1 h2
      match i, h2 with
      | 0, _ => exact w2
      | 1, _ => exact w3) rfl

theorem den_sample : Den (graphOf apiResult) noFields envSample 9 25 := by
  have d0 : Den (graphOf apiResult) noFields envSample 5 1 := .param rfl rfl
  have d1 : Den (graphOf apiResult) noFields envSample 6 2 := .node (vs := [1]) rfl (by
      intro i h1 h2
      match i, h2 with
      | 0, _ => exact d0) rfl
  have d2 : Den (graphOf apiResult) noFields envSample 7 2 := .node (vs := [2]) rfl (by
      intro i h1 h2
      match i, h2 with
      | 0, _ => exact d1) rfl
  have d3 : Den (graphOf apiResult) noFields envSample 8 5 := .param rfl rfl
  exact .node (vs := [2, 5]) rfl (by
      intro i h1 h2
      match i, h2 with
      | 0, _ => exact d2
      | 1, _ => exact d3) rfl

/-- **C39, false clause.** `ts_Module_Fusion(in, 0, out, 1)` feeds input 0 of `out`: the route's constructor drops its last
argument. -/
theorem C39_api_slot_false : ¬ ApiConnectsClaim := by
  intro hcl
  have key := hcl noFields fuseSample apiResult id ⟨[0], [1]⟩ ⟨[2, 3], [4]⟩ ⟨[5, 8], [9]⟩ 0 1 3 1 9 40 fuseSample_ranked
    fuseSample_closed fuseSample_inArena fuseSample_separate
    ⟨⟨[0], [1]⟩, ⟨[2, 3], [4]⟩, by decide, rfl, by decide, rfl, .inl ⟨by decide, rfl⟩, .inl ⟨by decide, rfl⟩⟩
    apiResult_eq envSample envSample (by
      intro i p q hp hq
      match i with
      | 0 => cases hp; cases hq; rfl
      | 1 => cases hp; cases hq; rfl
      | i + 2 => simp at hq) 0 4 9 52 rfl rfl
  have := den_fun den_sample 52 (key.2 wired_sample)
  omega

/-- three modules `x ↦ x + 1` -/
def chainSample : Arena Nat :=
  let p : NodeRec Nat := ⟨.param, [], 0, fun _ => none⟩
  let o (i : Nat) : NodeRec Nat := ⟨.oper, [i], 0, fun vs => match vs with | [x] => some (x + 1) | _ => none⟩
  [p, o 0, p, o 2, p, o 4]
def chainSubs : List (Modl Nat) := [⟨[0], [1]⟩, ⟨[2], [3]⟩, ⟨[4], [5]⟩]

/-- the claim without the order of the routes: it is enough that the wiring has no cycle -/
def AnyOrderClaim : Prop :=
  ∀ (h0 : Arena Nat) (rank : Nat → Nat) (subs : List (Modl Nat)) (routes : List Route) (w : List (Nat × Nat)),
    Ranked (graphOf h0) rank → (∀ p ∈ w, rank p.2 < rank p.1) → Closed h0 → InArena h0 subs →
    AsksAll subs routes w → (w.map Prod.fst).Nodup →
    ∃ N, ∀ fuel wfuel, N ≤ fuel → N ≤ wfuel → ∃ p, fusion fuel wfuel h0 subs routes = .ok p

/-- **C39, false clause.** Chaining three modules A, B, C with the route B to C listed before A to B is refused, although the
other order is accepted. -/
theorem C39_any_order_false : ¬ AnyOrderClaim := by
  intro h
  have hin : ∀ n m, m ∈ (graphOf chainSample).inputs n → m + 1 = n := by
    intro n m h
    match n with
    | 0 | 2 | 4 => simp [graphOf, chainSample] at h
    | 1 | 3 | 5 => simp [graphOf, chainSample] at h; omega
    | n + 6 => simp [graphOf, chainSample] at h
  obtain ⟨N, hN⟩ := h chainSample id chainSubs [⟨1, 0, 2, 0⟩, ⟨0, 0, 1, 0⟩] [(4, 3), (2, 1)]
    (by intro n m h; have := hin n m h; simp only [id]; omega)
    (by intro p hp; simp at hp; rcases hp with rfl | rfl <;> decide)
    (by
      intro n r h m hm
      have := hin n m (by simp only [graphOf]; rw [h]; exact hm)
      have := (List.getElem?_eq_some_iff.1 h).1
      omega)
    (by intro m hm; simp [chainSubs] at hm; rcases hm with rfl | rfl | rfl <;> simp [chainSample])
    ⟨⟨⟨[2], [3]⟩, ⟨[4], [5]⟩, by decide, rfl, by decide, rfl, .inl ⟨by decide, rfl⟩, .inl ⟨by decide, rfl⟩⟩,
     ⟨⟨[0], [1]⟩, ⟨[2], [3]⟩, by decide, rfl, by decide, rfl, .inl ⟨by decide, rfl⟩, .inl ⟨by decide, rfl⟩⟩, trivial⟩
    (by decide)
  obtain ⟨p, hp⟩ := hN (N + 9) (N + 40) (by omega) (by omega)
  have : fusion (N + 9) (N + 40) chainSample chainSubs [⟨1, 0, 2, 0⟩, ⟨0, 0, 1, 0⟩] = .err := rfl
  rw [this] at hp
  cases hp
example : isOk (fusion 9 40 chainSample chainSubs [⟨0, 0, 1, 0⟩, ⟨1, 0, 2, 0⟩]) = true := by decide

/-- the claim that every route naming no slot is refused with an error -/
def RefusalClaim : Prop :=
  ∀ (subs : List (Modl Nat)) (r : Route), (∀ a b, ¬ Asks subs r a b) → routeNodes subs r = .err

/-- **C39, false clause.** A route with a negative slot from a module without outputs reads outside a vector. -/
theorem C39_refusal_ub_false : ¬ RefusalClaim := by
  intro h
  have := h [⟨[], []⟩, ⟨[0], [1]⟩] ⟨0, -1, 1, 0⟩ (by
    rintro a b ⟨m, m', -, hm, -, -, hp, -⟩
    cases hm
    rcases hp with ⟨h, -⟩ | ⟨-, h⟩
    · exact absurd h (by decide)
    · cases h)
  exact absurd this (by decide)

end Verif.Props
