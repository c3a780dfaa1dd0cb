import Verif.Compiler.SplitBuild
import Mathlib.Tactic.IntervalCases
/-!
# C88: cutting a graph into sub graphs

Specification: `Below` (dependency), `Fusable` (a set of nodes that one node can stand for, with its complete list of inputs and outputs), `Solves`
(values of the nodes of a graph), `FusedSolves` (values of the nodes of the fused graph and inside its sub graph).
-/
namespace Verif.Props
open Verif.Core Verif.Compiler.Split Relation

/-! ## specification -/

/-- the graph given to `split`: numbered inputs first; every node is a given input without inputs of its own, or needed for an output -/
structure SplitInput (g : Gr) (tops bottoms : List Nat) : Prop where
  ordered : Ordered g
  tops_in : ∀ t ∈ tops, t < g.size
  leaves : ∀ b ∈ bottoms, g.inputs b = [] ∧ b < g.size
  needed : ∀ n < g.size, n ∈ bottoms ∨ n ∈ tops ∨ ∃ t ∈ tops, Below g t n

/-- the rule refuses the fake end nodes behind the outputs and nodes without inputs -/
structure RuleFits (g : Gr) (tops : List Nat) (ru : Rule) : Prop where
  ends : ∀ j < tops.length, ru.takes (g.size + j) = false
  sources : ∀ n < g.size, ru.takes n = true → g.inputs n ≠ []

/-- a value for every node, computed by the operators from the values of the inputs -/
def Solves {V : Type} (g : Gr) (op : Nat → List V → V) (val : Nat → V) : Prop := ∀ n < g.size, val n = op n ((g.inputs n).map val)

/-- values of the fused graph with one sub graph: `w` outside, `v` inside. The sub node hands its inputs to the parameters in order, and its outputs are
the values of the output nodes inside. -/
structure FusedSolves {V : Type} (g : Gr) (op : Nat → List V → V) (grp : Nat → Prop) (io : IO) (L : Links) (w v : N → V) : Prop where
  outside : ∀ n < g.size, ¬ grp n → w (.orig n) = op n ((L.of (.orig n)).map w)
  inside : ∀ n < g.size, grp n → v (.orig n) = op n ((L.of (.orig n)).map v)
  enter : (io.inputs.map (N.param 0)).map v = (L.of (.sub 0)).map w
  leave : ∀ o ∈ io.outputs, w (outNode 0 io o) = v (.orig o)

/-! ## the graph with its ends -/

theorem withEnds_inputs {g : Gr} {tops : List Nat} {n : Nat} (h : n < g.size) : (withEnds g tops).inputs n = g.inputs n := by
  unfold withEnds; simp only; rw [if_pos h]

theorem withEnds_end {g : Gr} {tops : List Nat} {j : Nat} (h : j < tops.length) : (withEnds g tops).inputs (g.size + j) = [tops[j]] := by
  unfold withEnds; simp only
  rw [if_neg (by omega), Nat.add_sub_cancel_left, List.getElem?_eq_getElem h]
  rfl

theorem ordered_withEnds {g : Gr} {tops bottoms : List Nat} (h : SplitInput g tops bottoms) : Ordered (withEnds g tops) := by
  intro n m hm
  by_cases hn : n < g.size
  · rw [withEnds_inputs hn] at hm
    have := h.ordered n m hm
    exact ⟨this.1, by unfold withEnds; simp only; omega⟩
  · by_cases hj : n - g.size < tops.length
    · have : n = g.size + (n - g.size) := by omega
      rw [this, withEnds_end hj] at hm
      have hm : m = tops[n - g.size] := by simpa using hm
      have := h.tops_in m (by rw [hm]; exact List.getElem_mem hj)
      exact ⟨by omega, by unfold withEnds; simp only; omega⟩
    · exfalso
      unfold withEnds at hm; simp only at hm
      rw [if_neg hn, List.getElem?_eq_none (by omega)] at hm
      simp at hm

theorem below_withEnds {g : Gr} (hg : Ordered g) {tops : List Nat} {a b : Nat} (h : Below g a b) : Below (withEnds g tops) a b := by
  have key : ∀ x y, Uses g x y → Uses (withEnds g tops) x y := by
    intro x y hxy
    unfold Uses at hxy ⊢
    rw [withEnds_inputs (hg x y hxy).2]
    exact hxy
  induction h with
  | single h => exact TransGen.single (key _ _ h)
  | tail _ h ih => exact TransGen.tail ih (key _ _ h)

/-- the list of the ends -/
def endsOf (g : Gr) (tops : List Nat) : List Nat := (List.range tops.length).map (g.size + ·)

theorem below_end {g : Gr} {tops bottoms : List Nat} (h : SplitInput g tops bottoms) {n : Nat} (hn : n ∈ tops ∨ ∃ t ∈ tops, Below g t n) :
    ∃ j < tops.length, Below (withEnds g tops) (g.size + j) n := by
  have top : ∀ t ∈ tops, ∃ j < tops.length, t ∈ (withEnds g tops).inputs (g.size + j) := by
    intro t ht
    obtain ⟨j, hj, e⟩ := List.mem_iff_getElem.mp ht
    exact ⟨j, hj, by rw [withEnds_end hj, e]; exact List.mem_cons_self⟩
  rcases hn with hn | ⟨t, ht, hb⟩
  · obtain ⟨j, hj, e⟩ := top n hn
    exact ⟨j, hj, TransGen.single e⟩
  · obtain ⟨j, hj, e⟩ := top t ht
    exact ⟨j, hj, TransGen.head e (below_withEnds h.ordered hb)⟩

theorem live_withEnds {g : Gr} {tops bottoms : List Nat} (h : SplitInput g tops bottoms) : Live (withEnds g tops) (endsOf g tops) bottoms := by
  refine ⟨fun b hb => ?_, fun e he => ?_, fun n hn => ?_⟩
  · rw [withEnds_inputs (h.leaves b hb).2]; exact (h.leaves b hb).1
  · obtain ⟨j, hj, rfl⟩ := List.mem_map.mp he
    rw [List.mem_range] at hj
    unfold withEnds; simp only; omega
  · by_cases hs : n < g.size
    · rcases h.needed n hs with hb | hb
      · exact Or.inl hb
      · obtain ⟨j, hj, e⟩ := below_end h hb
        exact Or.inr ⟨g.size + j, List.mem_map.mpr ⟨j, List.mem_range.mpr hj, rfl⟩, Or.inr e⟩
    · have hn' : n < g.size + tops.length := hn
      exact Or.inr ⟨n, List.mem_map.mpr ⟨n - g.size, List.mem_range.mpr (by omega), by omega⟩, Or.inl rfl⟩

/-! ## C88: the groups -/

/-- the cache of references answers exactly "depends on" -/
theorem C88_ref {g : Gr} {tops bottoms : List Nat} (h : SplitInput g tops bottoms) (a b : Nat) :
    (setup (withEnds g tops) (endsOf g tops) bottoms).ref a b = true ↔ Below (withEnds g tops) a b :=
  setup_ref (ordered_withEnds h) (live_withEnds h) a b

/-- the loop inside `groups` -/
def loopOf (g : Gr) (cfg : Config) (ru : Rule) (tops bottoms : List Nat) : Res (Color × List Compiler.Split.IO) :=
  splitLoop (withEnds g tops) cfg ru (setup (withEnds g tops) (endsOf g tops) bottoms).ref (splitFuel (withEnds g tops) tops) (fun _ => -1) tops []

theorem groups_of_loop {g : Gr} {cfg : Config} {ru : Rule} {tops bottoms : List Nat} {c : Color} {ios : List Compiler.Split.IO} (h : loopOf g cfg ru tops bottoms = .ok (c, ios)) :
    groups g cfg ru tops bottoms = .ok (c, keepBig (withEnds g tops) cfg c (keepMax (withEnds g tops) cfg c ios)) := by
  unfold groups
  simp only
  change (match loopOf g cfg ru tops bottoms with
    | .err => Res.err
    | .ub => Res.ub
    | .ok (c, ios) => Res.ok (c, keepBig (withEnds g tops) cfg c (keepMax (withEnds g tops) cfg c ios))) = _
  rw [h]

theorem groups_loop {g : Gr} {tops bottoms : List Nat} {ru : Rule} {cfg : Config} (h : SplitInput g tops bottoms) (hR : RuleFits g tops ru)
    (h1 : cfg.singleInput = false) (h2 : cfg.singleOutput = false) :
    ∃ c ios, loopOf g cfg ru tops bottoms = .ok (c, ios) ∧
      LoopInv (withEnds g tops) ru c [] ios ∧ ∀ t ∈ tops, 0 ≤ c t := by
  have hg := ordered_withEnds h
  have hr := C88_ref h
  have htake : ∀ a, ru.takes a = true → a < (withEnds g tops).size → a < g.size := by
    intro a ha hlt
    by_contra hn
    have hlt : a < g.size + tops.length := hlt
    have := hR.ends (a - g.size) (by omega)
    rw [show g.size + (a - g.size) = a by omega, ha] at this
    cases this
  obtain ⟨c, ios, e1, e2, _, e4⟩ := splitLoop_spec hg hr h1 h2
    (fun n hn hlt => by rw [withEnds_inputs (htake n hn hlt)]; exact hR.sources n (htake n hn hlt) hn)
    (fun a ha hlt => by
      rcases h.needed a (htake a ha hlt) with hb | hb
      · exact absurd (h.leaves a hb).1 (hR.sources a (htake a ha hlt) ha)
      · obtain ⟨j, hj, e⟩ := below_end h hb
        exact ⟨g.size + j, hR.ends j hj, e⟩)
    (splitFuel (withEnds g tops) tops) (fun _ => -1) tops []
    { bound := fun m => by simp
      found := fun j io hj => by simp at hj
      colored := fun m hm => by omega
      pos := fun m hm => by omega
      zero := fun m hm => by omega
      queue := fun m hm => lt_of_lt_of_le (h.tops_in m hm) (Nat.le_add_right _ _)
      cover := fun _ m hm => by omega } (by
      have : blank (withEnds g tops) (fun _ => -1) ≤ (withEnds g tops).size := by
        unfold blank
        exact le_trans (List.length_filter_le _ _) (le_of_eq (List.length_range))
      have hmul := Nat.mul_le_mul_right ((withEnds g tops).size + allDeg (withEnds g tops)) this
      unfold splitFuel
      change _ < tops.length + (withEnds g tops).size * ((withEnds g tops).size + allDeg (withEnds g tops)) + 1
      omega)
  exact ⟨c, ios, e1, e2, e4⟩

theorem largest_mem (g : Gr) (c : Color) : ∀ (xs : List IO) (m : IO), largest g c m xs = m ∨ largest g c m xs ∈ xs := by
  intro xs
  induction xs with
  | nil => intro m; exact Or.inl rfl
  | cons x xs ih =>
    intro m
    unfold largest
    split
    · rcases ih x with h | h
      · exact Or.inr (by rw [h]; exact List.mem_cons_self)
      · exact Or.inr (List.mem_cons_of_mem _ h)
    · rcases ih m with h | h
      · exact Or.inl h
      · exact Or.inr (List.mem_cons_of_mem _ h)

theorem keepMax_sub (g : Gr) (cfg : Config) (c : Color) (ios : List IO) : (keepMax g cfg c ios).Sublist ios := by
  unfold keepMax
  split
  · split
    · exact List.Sublist.refl _
    · rename_i x xs
      rw [List.singleton_sublist]
      rcases largest_mem g c xs x with h | h
      · rw [h]; exact List.mem_cons_self
      · exact List.mem_cons_of_mem _ h
  · exact List.Sublist.refl _

theorem loop_colors {g : Gr} {ru : Rule} {c : Color} {ios : List IO} (hI : LoopInv g ru c [] ios) : ios.Pairwise fun a b => a.color ≠ b.color := by
  rw [List.pairwise_iff_getElem]
  intro a b ha hb hab
  have h1 := (hI.found a _ (List.getElem?_eq_getElem ha)).1
  have h2 := (hI.found b _ (List.getElem?_eq_getElem hb)).1
  rw [h1, h2]; omega

/-- Cutting succeeds, the sub graphs are disjoint, and each of them can be replaced by one node: only accepted nodes, at least one of them supported, no
outside node between two of its nodes, and its lists of inputs and outputs are exactly the ways in and out. -/
theorem C88_groups_partial {g : Gr} {tops bottoms : List Nat} {ru : Rule} {cfg : Config} (h : SplitInput g tops bottoms) (hR : RuleFits g tops ru)
    (h1 : cfg.singleInput = false) (h2 : cfg.singleOutput = false) :
    ∃ (c : Color) (ios : List IO), groups g cfg ru tops bottoms = .ok (c, ios) ∧ (ios.Pairwise fun a b => a.color ≠ b.color) ∧
      ∀ io ∈ ios, 0 < io.color ∧ Fusable (withEnds g tops) ru (fun m => c m = io.color) io.inputs io.outputs := by
  obtain ⟨c, ios, e1, e2, _⟩ := groups_loop h hR h1 h2
  have e1 := groups_of_loop e1
  have hs : (keepBig (withEnds g tops) cfg c (keepMax (withEnds g tops) cfg c ios)).Sublist ios :=
    (List.filter_sublist).trans (keepMax_sub _ _ _ _)
  refine ⟨c, _, e1, List.Pairwise.sublist hs (loop_colors e2), ?_⟩
  intro io hio
  obtain ⟨j, hj⟩ := List.mem_iff_getElem?.mp (hs.subset hio)
  obtain ⟨k1, k2⟩ := e2.found j io hj
  rw [k1]
  exact ⟨by omega, k2⟩

/-- With the default settings and a rule without pure routes, every needed node that the rule supports is in one of the sub graphs, and no other is. -/
theorem C88_complete_partial {g : Gr} {tops bottoms : List Nat} {ru : Rule} {cfg : Config} (h : SplitInput g tops bottoms) (hR : RuleFits g tops ru)
    (h1 : cfg.singleInput = false) (h2 : cfg.singleOutput = false) (h3 : cfg.onlyMax = false) (h4 : cfg.minSize = 0)
    (hroute : ∀ n, ru.route n = true → ru.support n = true) {c : Color} {ios : List IO} (ho : groups g cfg ru tops bottoms = .ok (c, ios))
    {n : Nat} (hn : n ∈ tops ∨ ∃ t ∈ tops, Below g t n) : ru.support n = true ↔ ∃ io ∈ ios, c n = io.color := by
  obtain ⟨c', ios', e1, e2, e3⟩ := groups_loop h hR h1 h2
  have e1 := groups_of_loop e1
  rw [e1] at ho
  obtain ⟨rfl, rfl⟩ : c' = c ∧ _ = ios := by
    have := Res.ok.inj ho
    exact ⟨congrArg Prod.fst this, congrArg Prod.snd this⟩
  have hkeep : keepBig (withEnds g tops) cfg c' (keepMax (withEnds g tops) cfg c' ios') = ios' := by
    unfold keepMax keepBig
    rw [h3]
    simp only [Bool.false_eq_true, if_false]
    rw [List.filter_eq_self]
    intro io _
    rw [h4]
    simp
  rw [hkeep]
  -- everything needed has a colour
  have hcol : 0 ≤ c' n := by
    have step : ∀ a b, 0 ≤ c' a → Below (withEnds g tops) a b → 0 ≤ c' b := by
      intro a b ha hab
      induction hab with
      | single hxy =>
        rcases e2.cover hroute _ ha _ hxy with h | h
        · exact h
        · cases h
      | tail _ hxy ih =>
        rcases e2.cover hroute _ ih _ hxy with h | h
        · exact h
        · cases h
    rcases hn with hn | ⟨t, ht, hb⟩
    · exact e3 n hn
    · exact step t n (e3 t ht) (below_withEnds h.ordered hb)
  constructor
  · intro hs
    have hpos : 0 < c' n := by
      rcases lt_or_eq_of_le hcol with h | h
      · exact h
      · rw [e2.zero n h.symm] at hs; cases hs
    have hb := e2.bound n
    have hj : (c' n - 1).toNat < ios'.length := by omega
    obtain ⟨k1, _⟩ := e2.found (c' n - 1).toNat _ (List.getElem?_eq_getElem hj)
    exact ⟨_, List.getElem_mem hj, by rw [k1]; omega⟩
  · rintro ⟨io, hio, hc⟩
    obtain ⟨j, hj⟩ := List.mem_iff_getElem?.mp hio
    have := (e2.found j io hj).1
    have ht := e2.pos n (by omega)
    simp only [Rule.takes, Bool.or_eq_true] at ht
    rcases ht with h | h
    · exact hroute n h
    · exact h

theorem largest_max (g : Gr) (c : Color) : ∀ (xs : List IO) (m io : IO), io = m ∨ io ∈ xs → (graphOf g c io.color).length ≤ (graphOf g c (largest g c m xs).color).length := by
  intro xs
  induction xs with
  | nil =>
    intro m io h
    rcases h with rfl | h
    · exact le_refl _
    · cases h
  | cons x xs ih =>
    intro m io h
    unfold largest
    split
    · rename_i hlt
      rcases h with rfl | h
      · exact le_trans (le_of_lt hlt) (ih x x (Or.inl rfl))
      · rcases List.mem_cons.mp h with rfl | h
        · exact ih _ _ (Or.inl rfl)
        · exact ih _ _ (Or.inr h)
    · rename_i hlt
      rcases h with rfl | h
      · exact ih _ _ (Or.inl rfl)
      · rcases List.mem_cons.mp h with rfl | h
        · exact le_trans (by omega) (ih m m (Or.inl rfl))
        · exact ih _ _ (Or.inr h)

/-- `only_max_graph` keeps one sub graph, the largest of those found without it; `min_graph_size` drops exactly the sub graphs with fewer nodes. -/
theorem C88_filters {g : Gr} {tops bottoms : List Nat} {ru : Rule} {cfg : Config} (h : SplitInput g tops bottoms) (hR : RuleFits g tops ru)
    (h1 : cfg.singleInput = false) (h2 : cfg.singleOutput = false) (hmin : 0 ≤ cfg.minSize) (hmax : cfg.minSize ≤ 2147483647) :
    ∃ (c : Color) (all ios : List IO), groups g { cfg with onlyMax := false, minSize := 0 } ru tops bottoms = .ok (c, all) ∧ groups g cfg ru tops bottoms = .ok (c, ios) ∧
      (cfg.onlyMax = false → ∀ io, io ∈ ios ↔ io ∈ all ∧ cfg.minSize ≤ (graphOf (withEnds g tops) c io.color).length) ∧
      (cfg.onlyMax = true → ios.length ≤ 1 ∧ ∀ io ∈ ios, io ∈ all ∧ cfg.minSize ≤ (graphOf (withEnds g tops) c io.color).length ∧
        ∀ o ∈ all, (graphOf (withEnds g tops) c o.color).length ≤ (graphOf (withEnds g tops) c io.color).length) := by
  obtain ⟨c, all, e1, _⟩ := groups_loop (cfg := { cfg with onlyMax := false, minSize := 0 }) h hR h1 h2
  -- the loop does not look at the two settings
  have hrun : ∀ (r : Nat → Nat → Bool) (i : Int) (f : Nat) (ph : Bool) (s : St),
      run (withEnds g tops) { cfg with onlyMax := false, minSize := 0 } ru r i f ph s = run (withEnds g tops) cfg ru r i f ph s := by
    intro r i f
    induction f with
    | zero => intro ph s; rfl
    | succ f ih =>
      intro ph s
      cases ph
      · unfold run
        split
        · exact ih _ _
        · split
          · rfl
          · exact ih _ _
      · unfold run
        split
        · exact ih _ _
        · split
          · rfl
          · split
            · rfl
            · exact ih _ _
  have hexp : ∀ (r : Nat → Nat → Bool) (c : Color) (i : Int) (n : Nat), explore (withEnds g tops) { cfg with onlyMax := false, minSize := 0 } ru r c i n = explore (withEnds g tops) cfg ru r c i n := by
    intro r c i n
    unfold explore
    simp only [hrun]
    rfl
  have hloop : ∀ (r : Nat → Nat → Bool) (f : Nat) (c : Color) (q : List Nat) (ios : List IO),
      splitLoop (withEnds g tops) { cfg with onlyMax := false, minSize := 0 } ru r f c q ios = splitLoop (withEnds g tops) cfg ru r f c q ios := by
    intro r f
    induction f with
    | zero => intro c q ios; rfl
    | succ f ih =>
      intro c q ios
      unfold splitLoop
      simp only [hexp, ih]
  have e2 : loopOf g cfg ru tops bottoms = .ok (c, all) := by rw [← e1]; exact (hloop _ _ _ _ _).symm
  have hall : keepBig (withEnds g tops) { cfg with onlyMax := false, minSize := 0 } c (keepMax (withEnds g tops) { cfg with onlyMax := false, minSize := 0 } c all) = all := by
    unfold keepMax keepBig
    simp only [Bool.false_eq_true, if_false]
    rw [List.filter_eq_self]
    intro io _
    simp
  have g1 := groups_of_loop e1
  rw [hall] at g1
  have hmod : cfg.minSize % 18446744073709551616 = cfg.minSize := Int.emod_eq_of_lt hmin (by omega)
  refine ⟨c, all, _, g1, groups_of_loop e2, ?_, ?_⟩
  · intro hm io
    unfold keepMax keepBig
    rw [hm, hmod]
    simp only [Bool.false_eq_true, if_false, List.mem_filter]
    apply and_congr_right
    intro _
    simp
  · intro hm
    unfold keepMax keepBig
    rw [hm, hmod]
    simp only [if_true]
    cases all with
    | nil => simp
    | cons x xs =>
      simp only
      refine ⟨le_trans (List.length_filter_le _ _) (le_of_eq rfl), ?_⟩
      intro io hio
      rw [List.mem_filter] at hio
      obtain ⟨k1, k2⟩ := hio
      have k1 : io = largest (withEnds g tops) c x xs := by simpa using k1
      refine ⟨?_, by simpa using k2, ?_⟩
      · rcases largest_mem (withEnds g tops) c xs x with h | h
        · rw [k1, h]; exact List.mem_cons_self
        · rw [k1]; exact List.mem_cons_of_mem _ h
      · intro o ho
        rw [k1]
        exact largest_max _ _ _ _ _ (List.mem_cons.mp ho)

/-! ## C88: the fused graph -/

theorem C88_links_partial {g : Gr} {tops bottoms : List Nat} {ru : Rule} {cfg : Config} (h : SplitInput g tops bottoms) (hR : RuleFits g tops ru)
    (h1 : cfg.singleInput = false) (h2 : cfg.singleOutput = false) {c : Color} {io : Compiler.Split.IO} {L : Links}
    (ho : split g cfg ru tops bottoms = .ok (c, [io], L)) (hC : Clean (withEnds g tops) (fun m => c m = io.color) io.inputs io.outputs) :
    (∀ a, c a = io.color → L.of (.orig a) = ((withEnds g tops).inputs a).map fun x => if c x = io.color then .orig x else .param 0 x) ∧
    (∀ t, c t ≠ io.color → L.of (.orig t) = ((withEnds g tops).inputs t).map fun x => if c x = io.color then outNode 0 io x else .orig x) ∧
    L.of (.sub 0) = io.inputs.map N.orig := by
  obtain ⟨c', ios, e1, _, e3⟩ := C88_groups_partial h hR h1 h2
  unfold split at ho
  rw [e1] at ho
  simp only at ho
  have ho := Res.ok.inj ho
  have hc : c' = c := congrArg Prod.fst ho
  have hios : ios = [io] := congrArg (fun x => x.2.1) ho
  have hL := congrArg (fun x => x.2.2) ho
  subst hc; subst hios
  simp only [buildAll] at hL
  obtain ⟨k1, k2⟩ := e3 io List.mem_cons_self
  rw [← hL]
  exact buildOne_spec (ordered_withEnds h) k1 k2 hC

theorem fused_value {V : Type} {g : Gr} (hg : Ordered g) {op : Nat → List V → V} {val : Nat → V} (hv : Solves g op val) {ru : Rule} {c : Color} {io : Compiler.Split.IO} {L : Links}
    (hF : Fusable g ru (fun m => c m = io.color) io.inputs io.outputs)
    (l1 : ∀ a, c a = io.color → L.of (.orig a) = (g.inputs a).map fun x => if c x = io.color then N.orig x else .param 0 x)
    (l2 : ∀ t, c t ≠ io.color → L.of (.orig t) = (g.inputs t).map fun x => if c x = io.color then outNode 0 io x else .orig x)
    (l3 : L.of (.sub 0) = io.inputs.map N.orig) {w v : N → V} (hs : FusedSolves g op (fun m => c m = io.color) io L w v) :
    (∀ n < g.size, c n ≠ io.color → w (.orig n) = val n) ∧ (∀ n < g.size, c n = io.color → v (.orig n) = val n) := by
  -- nodes that do not need the group
  have A : ∀ n < g.size, c n ≠ io.color → (∀ x, c x = io.color → ¬ Below g n x) → w (.orig n) = val n := by
    intro n
    induction n using Nat.strong_induction_on with
    | _ n ih =>
      intro hn hc hb
      rw [hs.outside n hn hc, hv n hn, l2 n hc, List.map_map]
      congr 1
      apply List.map_congr_left
      intro x hx
      have hxn := (hg n x hx).1
      have hxc : c x ≠ io.color := fun h => hb x h (TransGen.single hx)
      simp only [Function.comp, if_neg hxc]
      exact ih x hxn (by omega) hxc (fun y hy hxy => hb y hy (TransGen.head hx hxy))
  have B : ∀ b ∈ io.inputs, v (.param 0 b) = val b := by
    intro b hb
    have he := hs.enter
    rw [l3, List.map_map, List.map_map] at he
    have hpt := List.map_inj_left.mp he b hb
    obtain ⟨hbc, a, ha, hab⟩ := (hF.inputs b).mp hb
    have hbs : b < g.size := lt_trans (hg a b hab).1 (hg a b hab).2
    have := A b hbs hbc (fun x hx hbx => hbc (hF.convex a b x ha hx (TransGen.single hab) hbx))
    rw [← this]
    exact hpt
  have Cc : ∀ n < g.size, c n = io.color → v (.orig n) = val n := by
    intro n
    induction n using Nat.strong_induction_on with
    | _ n ih =>
      intro hn hc
      rw [hs.inside n hn hc, hv n hn, l1 n hc, List.map_map]
      congr 1
      apply List.map_congr_left
      intro x hx
      have hxn := (hg n x hx).1
      by_cases hxc : c x = io.color
      · simp only [Function.comp, if_pos hxc]
        exact ih x hxn (by omega) hxc
      · simp only [Function.comp, if_neg hxc]
        exact B x ((hF.inputs x).mpr ⟨hxc, n, hc, hx⟩)
  refine ⟨?_, Cc⟩
  intro n
  induction n using Nat.strong_induction_on with
  | _ n ih =>
    intro hn hc
    rw [hs.outside n hn hc, hv n hn, l2 n hc, List.map_map]
    congr 1
    apply List.map_congr_left
    intro x hx
    have hxn := (hg n x hx).1
    by_cases hxc : c x = io.color
    · simp only [Function.comp, if_pos hxc]
      rw [hs.leave x ((hF.outputs x).mpr ⟨hxc, n, hc, hx⟩)]
      exact Cc x (by omega) hxc
    · simp only [Function.comp, if_neg hxc]
      exact ih x hxn (by omega) hxc

/-- With one sub graph, and no node mixing (`Clean`), the fused graph computes the outputs of the original: whatever values solve it, the main outputs have
the values of the original outputs. -/
theorem C88_value_partial {V : Type} {g : Gr} {tops bottoms : List Nat} {ru : Rule} {cfg : Config} (h : SplitInput g tops bottoms) (hR : RuleFits g tops ru)
    (h1 : cfg.singleInput = false) (h2 : cfg.singleOutput = false) {c : Color} {io : Compiler.Split.IO} {L : Links}
    (ho : split g cfg ru tops bottoms = .ok (c, [io], L)) (hC : Clean (withEnds g tops) (fun m => c m = io.color) io.inputs io.outputs)
    {op : Nat → List V → V} {val : Nat → V} (hv : Solves (withEnds g tops) op val) {w v : N → V} (hs : FusedSolves (withEnds g tops) op (fun m => c m = io.color) io L w v) :
    (mainOutputs g tops L).map w = tops.map val := by
  obtain ⟨l1, l2, l3⟩ := C88_links_partial h hR h1 h2 ho hC
  have hF : Fusable (withEnds g tops) ru (fun m => c m = io.color) io.inputs io.outputs ∧ 0 < io.color := by
    obtain ⟨c', ios, e1, _, e3⟩ := C88_groups_partial h hR h1 h2
    unfold split at ho
    rw [e1] at ho
    simp only at ho
    have ho := Res.ok.inj ho
    have hc : c' = c := congrArg Prod.fst ho
    have hios : ios = [io] := congrArg (fun x => x.2.1) ho
    subst hc; subst hios
    exact ⟨(e3 io List.mem_cons_self).2, (e3 io List.mem_cons_self).1⟩
  obtain ⟨hF, _⟩ := hF
  obtain ⟨v1, v2⟩ := fused_value (ordered_withEnds h) hv hF l1 l2 l3 hs
  have hend : ∀ j, j < tops.length → c (g.size + j) ≠ io.color := by
    intro j hj hc
    have := (hF.members _ hc).2
    rw [hR.ends j hj] at this; cases this
  have hone : ∀ (j : Nat) (hj : j < tops.length), (L.of (.orig (g.size + j))).head? = some (if c tops[j] = io.color then outNode 0 io tops[j] else N.orig tops[j]) := by
    intro j hj
    rw [l2 _ (hend j hj), withEnds_end hj]; rfl
  have hout : mainOutputs g tops L = tops.map fun t => if c t = io.color then outNode 0 io t else N.orig t := by
    unfold mainOutputs
    apply List.ext_getElem?
    intro j
    have : ((List.range tops.length).filterMap fun j => (L.of (.orig (g.size + j))).head?) =
        (List.range tops.length).map fun j => if c (tops.getD j 0) = io.color then outNode 0 io (tops.getD j 0) else N.orig (tops.getD j 0) := by
      rw [← List.filterMap_eq_map]
      apply List.filterMap_congr
      intro x hx
      rw [List.mem_range] at hx
      simp only [Function.comp]
      rw [hone x hx, List.getD_eq_getElem?_getD, List.getElem?_eq_getElem hx, Option.getD_some]
    rw [this, List.getElem?_map, List.getElem?_map]
    by_cases hj : j < tops.length
    · rw [List.getElem?_range hj, List.getElem?_eq_getElem hj, Option.map_some, Option.map_some, List.getD_eq_getElem?_getD, List.getElem?_eq_getElem hj, Option.getD_some]
    · rw [List.getElem?_eq_none (by simpa using hj), List.getElem?_eq_none (by omega)]; rfl
  rw [hout, List.map_map]
  apply List.map_congr_left
  intro t ht
  simp only [Function.comp]
  have hts : t < (withEnds g tops).size := lt_of_lt_of_le (h.tops_in t ht) (Nat.le_add_right _ _)
  by_cases hc : c t = io.color
  · rw [if_pos hc]
    obtain ⟨j, hj, e⟩ := List.mem_iff_getElem.mp ht
    rw [hs.leave t ((hF.outputs t).mpr ⟨hc, g.size + j, hend j hj, by rw [withEnds_end hj, e]; exact List.mem_cons_self⟩)]
    exact v2 t hts hc
  · rw [if_neg hc]
    exact v1 t hts hc

/-- and there are such values: the fused graph can be evaluated -/
theorem C88_evaluates_partial {V : Type} {g : Gr} {tops bottoms : List Nat} {ru : Rule} {cfg : Config} (h : SplitInput g tops bottoms) (hR : RuleFits g tops ru)
    (h1 : cfg.singleInput = false) (h2 : cfg.singleOutput = false) {c : Color} {io : Compiler.Split.IO} {L : Links}
    (ho : split g cfg ru tops bottoms = .ok (c, [io], L)) (hC : Clean (withEnds g tops) (fun m => c m = io.color) io.inputs io.outputs)
    {op : Nat → List V → V} {val : Nat → V} (hv : Solves (withEnds g tops) op val) :
    ∃ w v : N → V, FusedSolves (withEnds g tops) op (fun m => c m = io.color) io L w v := by
  obtain ⟨l1, l2, l3⟩ := C88_links_partial h hR h1 h2 ho hC
  have hF : Fusable (withEnds g tops) ru (fun m => c m = io.color) io.inputs io.outputs := by
    obtain ⟨c', ios, e1, _, e3⟩ := C88_groups_partial h hR h1 h2
    unfold split at ho
    rw [e1] at ho
    simp only at ho
    have ho := Res.ok.inj ho
    have hc : c' = c := congrArg Prod.fst ho
    have hios : ios = [io] := congrArg (fun x => x.2.1) ho
    subst hc; subst hios
    exact (e3 io List.mem_cons_self).2
  let w : N → V := fun t => match t with
    | .orig n => val n
    | .sub _ => val (io.outputs.headD 0)
    | .field _ o => val o
    | .param _ b => val b
  have hw : ∀ o ∈ io.outputs, w (outNode 0 io o) = val o := by
    intro o hoo
    unfold outNode
    split
    · rename_i hl
      obtain ⟨x, hx⟩ := List.length_eq_one_iff.mp hl
      rw [hx] at hoo
      have : o = x := by simpa using hoo
      change val (io.outputs.headD 0) = val o
      rw [hx, this]; rfl
    · rfl
  refine ⟨w, w, ?_, ?_, ?_, ?_⟩
  · intro n hn hc
    rw [l2 n hc, List.map_map]
    change val n = _
    rw [hv n hn]
    congr 1
    apply List.map_congr_left
    intro x hx
    simp only [Function.comp]
    split
    · rename_i hxc
      exact (hw x ((hF.outputs x).mpr ⟨hxc, n, hc, hx⟩)).symm
    · rfl
  · intro n hn hc
    rw [l1 n hc, List.map_map]
    change val n = _
    rw [hv n hn]
    congr 1
    apply List.map_congr_left
    intro x hx
    simp only [Function.comp]
    split <;> rfl
  · rw [l3, List.map_map, List.map_map]; rfl
  · intro o hoo; exact hw o hoo

/-! ## examples -/

/-- a graph from the lists of inputs -/
def grOf (l : List (List Nat)) : Gr := ⟨l.length, fun n => l.getD n []⟩

theorem ordered_of {l : List (List Nat)} (h : ∀ n < l.length, ∀ m ∈ l.getD n [], m < n) : Ordered (grOf l) := by
  intro n m hm
  have hn : n < l.length := by
    by_contra hn
    have : (grOf l).inputs n = [] := by
      change l.getD n [] = []
      rw [List.getD_eq_getElem?_getD, List.getElem?_eq_none (by omega)]; rfl
    rw [this] at hm; cases hm
  exact ⟨h n hn m hm, hn⟩

theorem split_ok_of {g : Gr} {cfg : Config} {ru : Rule} {tops bottoms : List Nat} {p : Color → List Compiler.Split.IO → Links → Bool}
    (h : (match split g cfg ru tops bottoms with | .ok (c, ios, L) => p c ios L | _ => false) = true) :
    ∃ c ios L, split g cfg ru tops bottoms = .ok (c, ios, L) ∧ p c ios L = true := by
  cases hs : split g cfg ru tops bottoms with
  | ok r => obtain ⟨c, ios, L⟩ := r; rw [hs] at h; exact ⟨c, ios, L, rfl, h⟩
  | err => rw [hs] at h; cases h
  | ub => rw [hs] at h; cases h

/-- a rule that supports the listed nodes -/
def ruleOf (l : List Nat) : Rule := ⟨fun _ => false, fun n => l.contains n⟩

theorem clean_of {g : Gr} (hg : Ordered g) {grp : Nat → Prop} {ins outs : List Nat} (h : ∀ a < g.size, ∀ x ∈ g.inputs a, ∀ y ∈ g.inputs a, ¬ (x ∈ ins ∧ y ∈ outs)) :
    Clean g grp ins outs :=
  ⟨fun a x y _ hx hy h1 h2 => h a (hg a x hx).2 x hx y hy ⟨h1, h2⟩, fun a x y _ hx hy h1 h2 => h a (hg a x hx).2 y hy x hx ⟨h2, h1⟩⟩

/-- the graph of test/subgraph.cpp: `a b → c → d e → f → g h` -/
def testGraph : Gr := grOf [[], [], [0, 1], [2], [2], [3, 4], [5], [5]]

theorem testGraph_input : SplitInput testGraph [6, 7] [0, 1] := by
  have u : ∀ {a b : Nat}, b ∈ testGraph.inputs a → Below testGraph a b := fun h => TransGen.single h
  have h65 : Below testGraph 6 5 := u (by decide)
  have h63 := h65.trans (u (show 3 ∈ testGraph.inputs 5 by decide))
  have h64 := h65.trans (u (show 4 ∈ testGraph.inputs 5 by decide))
  have h62 := h63.trans (u (show 2 ∈ testGraph.inputs 3 by decide))
  refine ⟨ordered_of (by decide), by decide, by decide, ?_⟩
  intro n hn
  have hn : n < 8 := hn
  interval_cases n
  · exact Or.inl (by decide)
  · exact Or.inl (by decide)
  · exact Or.inr (Or.inr ⟨6, by decide, h62⟩)
  · exact Or.inr (Or.inr ⟨6, by decide, h63⟩)
  · exact Or.inr (Or.inr ⟨6, by decide, h64⟩)
  · exact Or.inr (Or.inr ⟨6, by decide, h65⟩)
  · exact Or.inr (Or.inl (by decide))
  · exact Or.inr (Or.inl (by decide))

/-- the test of the repository: everything is fused into one node with two inputs and two outputs -/
example : SplitInput testGraph [6, 7] [0, 1] ∧ RuleFits testGraph [6, 7] (ruleOf [2, 3, 4, 5, 6, 7]) ∧
    ∃ c ios L, split testGraph {} (ruleOf [2, 3, 4, 5, 6, 7]) [6, 7] [0, 1] = .ok (c, ios, L) ∧
      (decide (ios = [⟨[1, 0], [7, 6], true, 1⟩]) && decide ((List.range 10).map c = [0, 0, 1, 1, 1, 1, 1, 1, -1, -1])) = true :=
  ⟨testGraph_input, ⟨by decide, by decide⟩, split_ok_of (p := fun c ios _ => decide (ios = [⟨[1, 0], [7, 6], true, 1⟩]) && decide ((List.range 10).map c = [0, 0, 1, 1, 1, 1, 1, 1, -1, -1])) (by decide +kernel)⟩

/-- `C88_value_partial` and `C88_evaluates_partial` apply to that test, with the operators adding their inputs -/
example : ∃ c io L, split testGraph {} (ruleOf [2, 3, 4, 5, 6, 7]) [6, 7] [0, 1] = .ok (c, [io], L) ∧
    Clean (withEnds testGraph [6, 7]) (fun m => c m = io.color) io.inputs io.outputs ∧
    ∀ (val : Nat → Int), Solves (withEnds testGraph [6, 7]) (fun n l => if n < 2 then 7 else l.sum) val →
      ∃ w v : N → Int, FusedSolves (withEnds testGraph [6, 7]) (fun n l => if n < 2 then 7 else l.sum) (fun m => c m = io.color) io L w v := by
  obtain ⟨c, ios, L, h, hp⟩ := split_ok_of (g := testGraph) (cfg := {}) (ru := ruleOf [2, 3, 4, 5, 6, 7]) (tops := [6, 7]) (bottoms := [0, 1])
    (p := fun c ios _ => decide (ios = [⟨[1, 0], [7, 6], true, 1⟩]) && decide ((List.range 10).map c = [0, 0, 1, 1, 1, 1, 1, 1, -1, -1])) (by decide +kernel)
  simp only [Bool.and_eq_true, decide_eq_true_eq] at hp
  obtain ⟨rfl, hc⟩ := hp
  have hclean : Clean (withEnds testGraph [6, 7]) (fun m => c m = 1) [1, 0] [7, 6] := clean_of (ordered_withEnds testGraph_input) (by decide)
  refine ⟨c, _, L, h, hclean, fun val hv => ?_⟩
  exact C88_evaluates_partial (V := Int) testGraph_input ⟨by decide, by decide⟩ rfl rfl h hclean hv

/-! ## what does not hold -/

theorem below_of {g : Gr} {a b : Nat} (h : b ∈ g.inputs a) : Below g a b := TransGen.single h

/-- `o = add(x)`, `t = add(o, y)`, both outputs -/
def twoOut : Gr := grOf [[], [], [0], [2, 1]]

theorem twoOut_input : SplitInput twoOut [3, 2] [0, 1] := by
  refine ⟨ordered_of (by decide), by decide, by decide, ?_⟩
  intro n hn
  have hn : n < 4 := hn
  interval_cases n
  · exact Or.inl (by decide)
  · exact Or.inl (by decide)
  · exact Or.inr (Or.inl (by decide))
  · exact Or.inr (Or.inl (by decide))

/-- Even with a single sub graph, its body need not be closed: a node that reads an outside input and a node that is itself an output is linked to the output
*of the sub node* (one map serves both directions), so the sub graph contains its own result. -/
theorem C88_body_false : ¬ ∀ (g : Gr) (tops bottoms : List Nat) (ru : Rule), SplitInput g tops bottoms → RuleFits g tops ru →
    ∀ (c : Color) (io : Compiler.Split.IO) (L : Links), split g {} ru tops bottoms = .ok (c, [io], L) →
      ∀ a, c a = io.color → ∀ t ∈ L.of (.orig a), (∃ x, t = .orig x ∧ c x = io.color) ∨ ∃ b ∈ io.inputs, t = .param 0 b := by
  intro H
  obtain ⟨c, ios, L, h, hp⟩ := split_ok_of (g := twoOut) (cfg := {}) (ru := ruleOf [2, 3]) (tops := [3, 2]) (bottoms := [0, 1])
    (p := fun c ios L => decide (ios = [⟨[0, 1], [2, 3], true, 1⟩] ∧ c 3 = 1 ∧ N.field 0 2 ∈ L.of (.orig 3))) (by decide +kernel)
  simp only [decide_eq_true_eq] at hp
  obtain ⟨rfl, hc, hl⟩ := hp
  rcases H twoOut [3, 2] [0, 1] (ruleOf [2, 3]) twoOut_input ⟨by decide, by decide⟩ c _ L h 3 hc _ hl with ⟨x, hx, _⟩ | ⟨b, _, hb⟩
  · cases hx
  · cases hb

/-- a residual connection: `o = f(x)` supported, `u = g(o, x)` not -/
def residual : Gr := grOf [[], [0], [1, 0]]

theorem residual_input : SplitInput residual [2] [0] := by
  refine ⟨ordered_of (by decide), by decide, by decide, ?_⟩
  intro n hn
  have hn : n < 3 := hn
  interval_cases n
  · exact Or.inl (by decide)
  · exact Or.inr (Or.inr ⟨2, by decide, below_of (by decide)⟩)
  · exact Or.inr (Or.inl (by decide))

/-- A node outside that reads a result of the sub graph and one of its inputs (a residual connection) is linked to the parameter *inside* the sub graph, so the
main graph needs an input that nobody gives. -/
theorem C88_residual_false : ¬ ∀ (g : Gr) (tops bottoms : List Nat) (ru : Rule), SplitInput g tops bottoms → RuleFits g tops ru →
    ∀ (c : Color) (io : Compiler.Split.IO) (L : Links), split g {} ru tops bottoms = .ok (c, [io], L) →
      ∀ t, c t ≠ io.color → ∀ b, N.param 0 b ∉ L.of (.orig t) := by
  intro H
  obtain ⟨c, ios, L, h, hp⟩ := split_ok_of (g := residual) (cfg := {}) (ru := ruleOf [1]) (tops := [2]) (bottoms := [0])
    (p := fun c ios L => decide (ios = [⟨[0], [1], true, 1⟩] ∧ c 2 = 0 ∧ N.param 0 0 ∈ L.of (.orig 2))) (by decide +kernel)
  simp only [decide_eq_true_eq] at hp
  obtain ⟨rfl, hc, hl⟩ := hp
  exact H residual [2] [0] (ruleOf [1]) residual_input ⟨by decide, by decide⟩ c _ L h 2 (by rw [hc]; decide) 0 hl

/-- `p = f(x)`, `s = f(p)`, `t = g(p)` not supported, `u = f(t, p)`; outputs `s`, `u` -/
def leaky : Gr := grOf [[], [0], [1], [1], [3, 1]]

theorem leaky_input : SplitInput leaky [2, 4] [0] := by
  refine ⟨ordered_of (by decide), by decide, by decide, ?_⟩
  intro n hn
  have hn : n < 5 := hn
  interval_cases n
  · exact Or.inl (by decide)
  · exact Or.inr (Or.inr ⟨2, by decide, below_of (by decide)⟩)
  · exact Or.inr (Or.inl (by decide))
  · exact Or.inr (Or.inr ⟨4, by decide, below_of (by decide)⟩)
  · exact Or.inr (Or.inl (by decide))

/-- Two sub graphs, the second reading a result of the first: the body of the second reads the first sub node directly, and its own parameter stays unread. -/
theorem C88_two_graphs_false : ¬ ∀ (g : Gr) (tops bottoms : List Nat) (ru : Rule), SplitInput g tops bottoms → RuleFits g tops ru →
    ∀ (c : Color) (ios : List Compiler.Split.IO) (L : Links), split g {} ru tops bottoms = .ok (c, ios, L) →
      (∀ io ∈ ios, Clean (withEnds g tops) (fun m => c m = io.color) io.inputs io.outputs) →
      ∀ (k : Nat) (io : Compiler.Split.IO), ios[k]? = some io → ∀ a, c a = io.color →
        ∀ t ∈ L.of (.orig a), (∃ x, t = .orig x ∧ c x = io.color) ∨ ∃ b ∈ io.inputs, t = .param k b := by
  intro H
  obtain ⟨c, ios, L, h, hp⟩ := split_ok_of (g := leaky) (cfg := {}) (ru := ruleOf [1, 2, 4]) (tops := [2, 4]) (bottoms := [0])
    (p := fun c ios L => decide (ios = [⟨[0], [1, 2], true, 1⟩, ⟨[1, 3], [4], true, 2⟩] ∧ (List.range 7).map c = [0, 1, 1, 0, 2, -1, -1] ∧ N.field 0 1 ∈ L.of (.orig 4))) (by decide +kernel)
  simp only [decide_eq_true_eq] at hp
  obtain ⟨rfl, hc, hl⟩ := hp
  have hcn : ∀ n < 7, c n = [0, 1, 1, 0, 2, -1, -1].getD n 0 := by
    intro n hn
    rw [← hc, List.getD_eq_getElem?_getD, List.getElem?_map, List.getElem?_range hn]; rfl
  have hclean : ∀ io ∈ [(⟨[0], [1, 2], true, 1⟩ : Compiler.Split.IO), ⟨[1, 3], [4], true, 2⟩], Clean (withEnds leaky [2, 4]) (fun m => c m = io.color) io.inputs io.outputs := by
    intro io hio
    have hio : io = ⟨[0], [1, 2], true, 1⟩ ∨ io = ⟨[1, 3], [4], true, 2⟩ := by simpa using hio
    rcases hio with rfl | rfl
    · exact clean_of (ordered_withEnds leaky_input) (by decide)
    · exact clean_of (ordered_withEnds leaky_input) (by decide)
  rcases H leaky [2, 4] [0] (ruleOf [1, 2, 4]) leaky_input ⟨by decide, by decide⟩ c _ L h hclean 1 _ rfl 4 (hcn 4 (by decide)) _ hl with ⟨x, hx, _⟩ | ⟨b, _, hb⟩
  · cases hx
  · cases hb

/-- `s` needs `a1`, `a2`; `a1` needs `b1` through `x`; `b2` needs `a2` through `y`; `b1`, `b2` need `c` -/
def crossed : Gr := grOf [[], [0], [1], [2], [3], [0], [5], [6, 1], [4, 5]]

theorem crossed_input : SplitInput crossed [8, 7] [0] := by
  have h84 : Below crossed 8 4 := below_of (by decide)
  have h83 := h84.trans (below_of (show 3 ∈ crossed.inputs 4 by decide))
  have h82 := h83.trans (below_of (show 2 ∈ crossed.inputs 3 by decide))
  refine ⟨ordered_of (by decide), by decide, by decide, ?_⟩
  intro n hn
  have hn : n < 9 := hn
  interval_cases n
  · exact Or.inl (by decide)
  · exact Or.inr (Or.inr ⟨7, by decide, below_of (by decide)⟩)
  · exact Or.inr (Or.inr ⟨8, by decide, h82⟩)
  · exact Or.inr (Or.inr ⟨8, by decide, h83⟩)
  · exact Or.inr (Or.inr ⟨8, by decide, h84⟩)
  · exact Or.inr (Or.inr ⟨8, by decide, below_of (by decide)⟩)
  · exact Or.inr (Or.inr ⟨7, by decide, below_of (by decide)⟩)
  · exact Or.inr (Or.inl (by decide))
  · exact Or.inr (Or.inl (by decide))

/-- Each sub graph alone can be replaced, but not all of them together: the fused graph can have a cycle, the first sub node needing the second and the
second the first, so that it cannot be run at all. -/
theorem C88_cycle_false : ¬ ∀ (g : Gr) (tops bottoms : List Nat) (ru : Rule), SplitInput g tops bottoms → RuleFits g tops ru →
    ∀ (c : Color) (ios : List Compiler.Split.IO) (L : Links), split g {} ru tops bottoms = .ok (c, ios, L) →
      ∀ k, ¬ TransGen (fun a b => b ∈ L.of a) (N.sub k) (N.sub k) := by
  intro H
  obtain ⟨c, ios, L, h, hp⟩ := split_ok_of (g := crossed) (cfg := {}) (ru := ruleOf [1, 2, 4, 5, 7, 8]) (tops := [8, 7]) (bottoms := [0])
    (p := fun _ _ L => decide (N.orig 3 ∈ L.of (.sub 0) ∧ N.field 1 2 ∈ L.of (.orig 3) ∧ N.sub 1 ∈ L.of (.field 1 2) ∧ N.orig 6 ∈ L.of (.sub 1) ∧
      N.field 0 5 ∈ L.of (.orig 6) ∧ N.sub 0 ∈ L.of (.field 0 5))) (by decide +kernel)
  simp only [decide_eq_true_eq] at hp
  obtain ⟨p1, p2, p3, p4, p5, p6⟩ := hp
  refine H crossed [8, 7] [0] (ruleOf [1, 2, 4, 5, 7, 8]) crossed_input ⟨by decide, by decide⟩ c ios L h 0 ?_
  exact TransGen.head p1 (TransGen.head p2 (TransGen.head p3 (TransGen.head p4 (TransGen.head p5 (TransGen.single p6)))))

/-- With `single_output` no sub graph has any output, although it is read outside: the upward search, which alone records them, is skipped. -/
theorem C88_single_output_false : ¬ ∀ (g : Gr) (tops bottoms : List Nat) (ru : Rule), SplitInput g tops bottoms → RuleFits g tops ru →
    ∀ (c : Color) (ios : List Compiler.Split.IO) (L : Links), split g { singleOutput := true } ru tops bottoms = .ok (c, ios, L) →
      ∀ io ∈ ios, ∀ n t, c n = io.color → c t ≠ io.color → n ∈ (withEnds g tops).inputs t → n ∈ io.outputs := by
  intro H
  obtain ⟨c, ios, L, h, hp⟩ := split_ok_of (g := residual) (cfg := { singleOutput := true }) (ru := ruleOf [1]) (tops := [2]) (bottoms := [0])
    (p := fun c ios L => decide (ios = [⟨[], [], true, 1⟩] ∧ c 1 = 1 ∧ c 2 = 0)) (by decide +kernel)
  simp only [decide_eq_true_eq] at hp
  obtain ⟨rfl, hc, hc2⟩ := hp
  have := H residual [2] [0] (ruleOf [1]) residual_input ⟨by decide, by decide⟩ c _ L h _ List.mem_cons_self 1 2 hc (by rw [hc2]; decide) (by decide)
  cases this

/-- With `single_input` a sub graph of two nodes with two inputs reaches `std::set_intersection` on unordered sets. -/
theorem C88_single_input_false : ¬ ∀ (g : Gr) (tops bottoms : List Nat) (ru : Rule), SplitInput g tops bottoms → RuleFits g tops ru →
    split g { singleInput := true } ru tops bottoms ≠ .ub := by
  intro H
  have hub : (match split twoOut { singleInput := true } (ruleOf [2, 3]) [3, 2] [0, 1] with | .ub => true | _ => false) = true := by decide +kernel
  refine H twoOut [3, 2] [0, 1] (ruleOf [2, 3]) twoOut_input ⟨by decide, by decide⟩ ?_
  cases hs : split twoOut { singleInput := true } (ruleOf [2, 3]) [3, 2] [0, 1] with
  | ub => rfl
  | ok r => rw [hs] at hub; cases hub
  | err => rw [hs] at hub; cases hub

/-- a source `k` read by an unsupported node -/
def sourced : Gr := grOf [[], [0]]

theorem sourced_input : SplitInput sourced [1] [] := by
  refine ⟨ordered_of (by decide), by decide, by decide, ?_⟩
  intro n hn
  have hn : n < 2 := hn
  interval_cases n
  · exact Or.inr (Or.inr ⟨1, by decide, below_of (by decide)⟩)
  · exact Or.inr (Or.inl (by decide))

/-- A supported node without inputs gets a sub graph without outputs: the search stops before it looks upward. -/
theorem C88_source_false : ¬ ∀ (g : Gr) (tops bottoms : List Nat) (ru : Rule), SplitInput g tops bottoms → (∀ j < tops.length, ru.takes (g.size + j) = false) →
    ∀ (c : Color) (ios : List Compiler.Split.IO) (L : Links), split g {} ru tops bottoms = .ok (c, ios, L) →
      ∀ io ∈ ios, ∀ n t, c n = io.color → c t ≠ io.color → n ∈ (withEnds g tops).inputs t → n ∈ io.outputs := by
  intro H
  obtain ⟨c, ios, L, h, hp⟩ := split_ok_of (g := sourced) (cfg := {}) (ru := ruleOf [0]) (tops := [1]) (bottoms := [])
    (p := fun c ios L => decide (ios = [⟨[], [], true, 1⟩] ∧ c 0 = 1 ∧ c 1 = 0)) (by decide +kernel)
  simp only [decide_eq_true_eq] at hp
  obtain ⟨rfl, hc, hc2⟩ := hp
  have := H sourced [1] [] (ruleOf [0]) sourced_input (by decide) c _ L h _ List.mem_cons_self 0 1 hc (by rw [hc2]; decide) (by decide)
  cases this

/-- `s` supported, `u` not, `r` a route: a chain -/
def routed : Gr := grOf [[], [0], [1], [2]]

theorem routed_input : SplitInput routed [3] [0] := by
  have h32 : Below routed 3 2 := below_of (by decide)
  refine ⟨ordered_of (by decide), by decide, by decide, ?_⟩
  intro n hn
  have hn : n < 4 := hn
  interval_cases n
  · exact Or.inl (by decide)
  · exact Or.inr (Or.inr ⟨3, by decide, h32.trans (below_of (by decide))⟩)
  · exact Or.inr (Or.inr ⟨3, by decide, h32⟩)
  · exact Or.inr (Or.inl (by decide))

/-- Below a group of route nodes nothing is looked at: a supported node there stays outside every sub graph. -/
theorem C88_route_false : ¬ ∀ (g : Gr) (tops bottoms : List Nat) (ru : Rule), SplitInput g tops bottoms → RuleFits g tops ru →
    ∀ (c : Color) (ios : List Compiler.Split.IO), groups g {} ru tops bottoms = .ok (c, ios) →
      ∀ n, ru.support n = true → (∃ t ∈ tops, Below g t n) → ∃ io ∈ ios, c n = io.color := by
  intro H
  have he : (match groups routed {} ⟨fun n => n == 3, fun n => n == 1⟩ [3] [0] with | .ok (_, ios) => decide (ios = []) | _ => false) = true := by decide +kernel
  cases hs : groups routed {} ⟨fun n => n == 3, fun n => n == 1⟩ [3] [0] with
  | ub => rw [hs] at he; cases he
  | err => rw [hs] at he; cases he
  | ok r =>
    obtain ⟨c, ios⟩ := r
    rw [hs] at he
    have hios : ios = [] := by simpa using he
    obtain ⟨io, hio, _⟩ := H routed [3] [0] ⟨fun n => n == 3, fun n => n == 1⟩ routed_input ⟨by decide, by decide⟩ c ios hs 1 (by decide)
      ⟨3, by decide, (below_of (show 2 ∈ routed.inputs 3 by decide)).trans (below_of (by decide))⟩
    rw [hios] at hio; cases hio

/-- A negative `min_graph_size` removes every sub graph: it is compared as an unsigned number. -/
theorem C88_negative_min_false : ¬ ∀ (g : Gr) (tops bottoms : List Nat) (ru : Rule) (cfg : Config), SplitInput g tops bottoms → RuleFits g tops ru → cfg.minSize ≤ 0 →
    ∀ (c : Color) (ios : List Compiler.Split.IO), groups g cfg ru tops bottoms = .ok (c, ios) → groups g { cfg with minSize := 0 } ru tops bottoms = .ok (c, ios) := by
  intro H
  have he : (match groups residual { minSize := -1 } (ruleOf [1]) [2] [0] with | .ok (_, ios) => decide (ios = []) | _ => false) = true := by decide +kernel
  have he2 : (match groups residual { minSize := 0 } (ruleOf [1]) [2] [0] with | .ok (_, ios) => decide (ios ≠ []) | _ => false) = true := by decide +kernel
  cases hs : groups residual { minSize := -1 } (ruleOf [1]) [2] [0] with
  | ub => rw [hs] at he; cases he
  | err => rw [hs] at he; cases he
  | ok r =>
    obtain ⟨c, ios⟩ := r
    rw [hs] at he
    have hios : ios = [] := by simpa using he
    have := H residual [2] [0] (ruleOf [1]) { minSize := -1 } residual_input ⟨by decide, by decide⟩ (by decide) c ios hs
    have this : groups residual { minSize := 0 } (ruleOf [1]) [2] [0] = _ := this
    rw [this] at he2
    exact absurd hios (by simpa using he2)

end Verif.Props
