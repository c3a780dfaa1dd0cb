import Verif.Compiler.SplitLemmas
/-!
# The search for one sub graph: its invariant
-/
namespace Verif.Compiler.Split
open Verif.Core Relation

/-- what holds during the search: `c0` are the colours before, `i` the new colour -/
structure Inv (g : Gr) (ru : Rule) (c0 : Color) (i : Int) (s : St) : Prop where
  kept : ∀ n, s.color n = i ∨ s.color n = c0 n
  taken : ∀ n, s.color n = i → c0 n < 0 ∧ ru.takes n = true ∧ n < g.size
  ins : ∀ a b, s.color a = i → b ∈ g.inputs a → s.color b = i ∨ b ∈ s.bot ∨ b ∈ s.top ∨ b ∈ s.down
  outs : ∀ a b, s.color a = i → a ∈ g.inputs b → s.color b = i ∨ b ∈ s.bot ∨ b ∈ s.top ∨ b ∈ s.up
  bot_no : ∀ b a, b ∈ s.bot → s.color a = i → ¬ Below g b a
  top_no : ∀ t a, t ∈ s.top → s.color a = i → ¬ Below g a t
  down_no : ∀ d a, d ∈ s.down → s.color d ≠ i → s.color a = i → ¬ Below g d a
  up_no : ∀ u a, u ∈ s.up → s.color u ≠ i → s.color a = i → ¬ Below g a u
  down_in : ∀ d, d ∈ s.down → ∃ a, s.color a = i ∧ d ∈ g.inputs a
  up_in : ∀ u, u ∈ s.up → ∃ a, s.color a = i ∧ a ∈ g.inputs u
  bot_in : ∀ d, d ∈ s.bot → ∃ a, s.color a = i ∧ d ∈ g.inputs a
  top_in : ∀ u, u ∈ s.top → ∃ a, s.color a = i ∧ a ∈ g.inputs u
  bot_out : ∀ d, d ∈ s.bot → s.color d ≠ i
  top_out : ∀ d, d ∈ s.top → s.color d ≠ i

theorem add_color (g : Gr) (i : Int) (s : St) (n m : Nat) : (add g i s n).color m = if m = n then i else s.color m := rfl

theorem add_down {g : Gr} {i : Int} {s : St} {n d : Nat} (h : d ∈ (add g i s n).down) : d ∈ s.down ∨ d ∈ g.inputs n ∧ d ∉ s.bot ∧ d ≠ n ∧ s.color d ≠ i := by
  simp only [add, List.mem_append, List.mem_filter, Bool.and_eq_true, Bool.not_eq_true', bne_iff_ne, paint] at h
  rcases h with h | ⟨h1, h2, h3⟩
  · exact Or.inl h
  · refine Or.inr ⟨h1, by simpa using h2, ?_, ?_⟩
    · intro e; rw [if_pos e] at h3; exact h3 rfl
    · intro e; split at h3
      · exact h3 rfl
      · exact h3 e

theorem add_up {g : Gr} (hg : Ordered g) {i : Int} {s : St} {n d : Nat} (h : d ∈ (add g i s n).up) : d ∈ s.up ∨ n ∈ g.inputs d ∧ d ∉ s.top ∧ d ≠ n ∧ s.color d ≠ i := by
  simp only [add, List.mem_append, List.mem_filter, Bool.and_eq_true, Bool.not_eq_true', bne_iff_ne, paint, mem_outputs hg] at h
  rcases h with h | ⟨h1, h2, h3⟩
  · exact Or.inl h
  · refine Or.inr ⟨h1, by simpa using h2, ?_, ?_⟩
    · intro e; rw [if_pos e] at h3; exact h3 rfl
    · intro e; split at h3
      · exact h3 rfl
      · exact h3 e

theorem mem_add_down {g : Gr} {i : Int} {s : St} {n d : Nat} (h : d ∈ g.inputs n) : (add g i s n).color d = i ∨ d ∈ s.bot ∨ d ∈ (add g i s n).down := by
  by_cases h1 : (add g i s n).color d = i
  · exact Or.inl h1
  by_cases h2 : d ∈ s.bot
  · exact Or.inr (Or.inl h2)
  refine Or.inr (Or.inr ?_)
  simp only [add, List.mem_append, List.mem_filter, Bool.and_eq_true, Bool.not_eq_true', bne_iff_ne]
  exact Or.inr ⟨h, by simpa using h2, h1⟩

theorem mem_add_up {g : Gr} (hg : Ordered g) {i : Int} {s : St} {n d : Nat} (h : n ∈ g.inputs d) : (add g i s n).color d = i ∨ d ∈ s.top ∨ d ∈ (add g i s n).up := by
  by_cases h1 : (add g i s n).color d = i
  · exact Or.inl h1
  by_cases h2 : d ∈ s.top
  · exact Or.inr (Or.inl h2)
  refine Or.inr (Or.inr ?_)
  simp only [add, List.mem_append, List.mem_filter, Bool.and_eq_true, Bool.not_eq_true', bne_iff_ne]
  exact Or.inr ⟨(mem_outputs hg).mpr h, by simpa using h2, h1⟩

/-- on the way down from inside the group to `u` outside there is a first node outside -/
theorem exit_below {g : Gr} (P : Nat → Prop) {a u : Nat} (h : Below g a u) (ha : P a) (hu : ¬ P u) :
    ∃ p q, P p ∧ q ∈ g.inputs p ∧ ¬ P q ∧ (q = u ∨ Below g q u) := by
  induction h using TransGen.head_induction_on with
  | single h => exact ⟨_, u, ha, h, hu, Or.inl rfl⟩
  | head h ht ih =>
    rename_i a c
    by_cases hc : P c
    · exact ih hc
    · exact ⟨a, c, ha, h, hc, Or.inr ht⟩

/-- on the way from `d` outside down into the group there is a last node outside -/
theorem enter_below {g : Gr} (P : Nat → Prop) {d a : Nat} (h : Below g d a) (hd : ¬ P d) (ha : P a) :
    ∃ p q, ¬ P p ∧ q ∈ g.inputs p ∧ P q ∧ (p = d ∨ Below g d p) := by
  induction h with
  | single h => exact ⟨d, _, hd, h, ha, Or.inl rfl⟩
  | tail ht h ih =>
    rename_i c e
    by_cases hc : P c
    · exact ih hc
    · exact ⟨c, e, hc, h, ha, Or.inr ht⟩

theorem precious_spec {g : Gr} {cfg : Config} {ru : Rule} {r : Nat → Nat → Bool} (hr : ∀ a b, r a b = true ↔ Below g a b) {i : Int} {s : St} {n : Nat}
    (h : precious g cfg ru r i s n = true) : s.color n < 0 ∧ ru.takes n = true ∧ (∀ t ∈ s.bot, ¬ Below g t n) ∧ (∀ t ∈ s.top, ¬ Below g n t) := by
  simp only [precious, okToAdd, Bool.and_eq_true, List.all_eq_true, decide_eq_true_eq, Bool.not_eq_true'] at h
  obtain ⟨⟨⟨⟨h1, h2⟩, _⟩, h3⟩, h4⟩ := h
  refine ⟨h1, h2, fun t ht hb => ?_, fun t ht hb => ?_⟩
  · have := h3 t ht; rw [(hr t n).mpr hb] at this; cases this
  · have := h4 t ht; rw [(hr n t).mpr hb] at this; cases this

theorem walked_spec {i : Int} {s : St} {n : Nat} : walked i s n = true ↔ n ∈ s.top ∨ n ∈ s.bot ∨ s.color n = i := by
  simp [walked, or_assoc]

variable {g : Gr} {ru : Rule} {c0 : Color} {i : Int}

/-- one step of the way down -/
theorem inv_down (hg : Ordered g) {cfg : Config} {r : Nat → Nat → Bool} (hr : ∀ a b, r a b = true ↔ Below g a b) {s : St} {n : Nat} {rest : List Nat}
    (hi : 0 < i) (hI : Inv g ru c0 i s) (hp : popTop r s.down = some (n, rest)) : Inv g ru c0 i (visitDown g cfg ru r i { s with down := rest } n) := by
  obtain ⟨hperm, hmax⟩ := popTop_spec hg hr hp
  have hmem : ∀ x, x ∈ s.down ↔ x = n ∨ x ∈ rest := fun x => by rw [hperm.mem_iff, List.mem_cons]
  have hn : n ∈ s.down := (hmem n).mpr (Or.inl rfl)
  have hrest : ∀ x, x ∈ rest → x ∈ s.down := fun x hx => (hmem x).mpr (Or.inr hx)
  unfold visitDown
  split
  · -- seen before
    rename_i hw
    have hw' : n ∈ s.top ∨ n ∈ s.bot ∨ s.color n = i := walked_spec.mp hw
    refine { hI with ins := ?_, down_no := fun d a hd => hI.down_no d a (hrest d hd), down_in := fun d hd => hI.down_in d (hrest d hd) }
    intro a b ha hb
    rcases hI.ins a b ha hb with h | h | h | h
    · exact Or.inl h
    · exact Or.inr (Or.inl h)
    · exact Or.inr (Or.inr (Or.inl h))
    · rcases (hmem b).mp h with rfl | h
      · rcases hw' with h | h | h
        · exact Or.inr (Or.inr (Or.inl h))
        · exact Or.inr (Or.inl h)
        · exact Or.inl h
      · exact Or.inr (Or.inr (Or.inr h))
  · rename_i hw
    have hw' : ¬ (n ∈ s.top ∨ n ∈ s.bot ∨ s.color n = i) := fun h => hw (walked_spec.mpr h)
    obtain ⟨hnt, hnb, hnc⟩ := not_or.mp hw' |>.imp_right not_or.mp
    obtain ⟨a0, ha0, hna0⟩ := hI.down_in n hn
    have hnlt : n < g.size := lt_trans (hg a0 n hna0).1 (hg a0 n hna0).2
    split
    · -- added
      rename_i hpr
      obtain ⟨hc, ht, hpb, hpt⟩ := precious_spec hr hpr
      have hc : s.color n < 0 := hc
      have hpb : ∀ t ∈ s.bot, ¬ Below g t n := hpb
      have hpt : ∀ t ∈ s.top, ¬ Below g n t := hpt
      have hcol : ∀ m, (add g i { s with down := rest } n).color m = if m = n then i else s.color m := fun m => rfl
      have hcol' : ∀ m, (add g i { s with down := rest } n).color m = i ↔ m = n ∨ s.color m = i := by
        intro m; rw [hcol]; by_cases h : m = n <;> simp [h]
      refine ⟨?_, ?_, ?_, ?_, ?_, ?_, ?_, ?_, ?_, ?_, ?_, ?_, ?_, ?_⟩
      · intro m; rw [hcol]; split
        · exact Or.inl rfl
        · exact hI.kept m
      · intro m hm
        rcases (hcol' m).mp hm with rfl | hm
        · rcases hI.kept m with h | h
          · exact absurd h hnc
          · exact ⟨by omega, ht, hnlt⟩
        · exact hI.taken m hm
      · intro a b ha hb
        rcases (hcol' a).mp ha with rfl | ha
        · rcases mem_add_down (i := i) (s := { s with down := rest }) hb with h | h | h
          · exact Or.inl h
          · exact Or.inr (Or.inl h)
          · exact Or.inr (Or.inr (Or.inr h))
        · rcases hI.ins a b ha hb with h | h | h | h
          · exact Or.inl ((hcol' b).mpr (Or.inr h))
          · exact Or.inr (Or.inl h)
          · exact Or.inr (Or.inr (Or.inl h))
          · rcases (hmem b).mp h with rfl | h
            · exact Or.inl ((hcol' b).mpr (Or.inl rfl))
            · exact Or.inr (Or.inr (Or.inr (List.mem_append_left _ h)))
      · intro a b ha hb
        rcases (hcol' a).mp ha with rfl | ha
        · rcases mem_add_up hg (i := i) (s := { s with down := rest }) hb with h | h | h
          · exact Or.inl h
          · exact Or.inr (Or.inr (Or.inl h))
          · exact Or.inr (Or.inr (Or.inr h))
        · rcases hI.outs a b ha hb with h | h | h | h
          · exact Or.inl ((hcol' b).mpr (Or.inr h))
          · exact Or.inr (Or.inl h)
          · exact Or.inr (Or.inr (Or.inl h))
          · exact Or.inr (Or.inr (Or.inr (List.mem_append_left _ h)))
      · intro b a hb ha
        rcases (hcol' a).mp ha with rfl | ha
        · exact hpb b hb
        · exact hI.bot_no b a hb ha
      · intro t a hb ha
        rcases (hcol' a).mp ha with rfl | ha
        · exact hpt t hb
        · exact hI.top_no t a hb ha
      · intro d a hd hdc ha hb
        have hdn : d ≠ n ∧ s.color d ≠ i := by
          constructor
          · intro e; exact hdc ((hcol' d).mpr (Or.inl e))
          · intro e; exact hdc ((hcol' d).mpr (Or.inr e))
        rcases add_down hd with hd2 | ⟨hd2, _⟩
        · rcases (hcol' a).mp ha with rfl | ha
          · exact hmax d (hrest d hd2) hb
          · exact hI.down_no d a (hrest d hd2) hdn.2 ha hb
        · rcases (hcol' a).mp ha with rfl | ha
          · exact below_irrefl hg a (TransGen.head hd2 hb)
          · exact hI.down_no n a hn hnc ha (TransGen.head hd2 hb)
      · intro u a hu huc ha hb
        have hun : u ≠ n ∧ s.color u ≠ i := by
          constructor
          · intro e; exact huc ((hcol' u).mpr (Or.inl e))
          · intro e; exact huc ((hcol' u).mpr (Or.inr e))
        rcases add_up hg hu with hu2 | ⟨hu2, hut, _⟩
        · rcases (hcol' a).mp ha with rfl | ha
          · exact hI.up_no u a0 hu2 hun.2 ha0 (TransGen.head hna0 hb)
          · exact hI.up_no u a hu2 hun.2 ha hb
        · rcases (hcol' a).mp ha with rfl | ha
          · exact below_irrefl hg a (TransGen.tail hb hu2)
          · obtain ⟨p, q, hp1, hq, hq2, hqu⟩ := exit_below (fun m => s.color m = i) hb ha hun.2
            have hqn : Below g q n := by
              rcases hqu with rfl | h
              · exact TransGen.single hu2
              · exact TransGen.tail h hu2
            rcases hI.ins p q hp1 hq with h | h | h | h
            · exact hq2 h
            · exact hpb q h hqn
            · exact hI.top_no q p h hp1 (TransGen.single hq)
            · exact hmax q h hqn
      · intro d hd
        rcases add_down hd with hd | ⟨hd, _⟩
        · obtain ⟨a, h1, h2⟩ := hI.down_in d (hrest d hd)
          exact ⟨a, (hcol' a).mpr (Or.inr h1), h2⟩
        · exact ⟨n, (hcol' n).mpr (Or.inl rfl), hd⟩
      · intro u hu
        rcases add_up hg hu with hu | ⟨hu, _⟩
        · obtain ⟨a, h1, h2⟩ := hI.up_in u hu
          exact ⟨a, (hcol' a).mpr (Or.inr h1), h2⟩
        · exact ⟨n, (hcol' n).mpr (Or.inl rfl), hu⟩
      · intro d hd
        obtain ⟨a, h1, h2⟩ := hI.bot_in d hd
        exact ⟨a, (hcol' a).mpr (Or.inr h1), h2⟩
      · intro d hd
        obtain ⟨a, h1, h2⟩ := hI.top_in d hd
        exact ⟨a, (hcol' a).mpr (Or.inr h1), h2⟩
      · intro d hd h
        rcases (hcol' d).mp h with rfl | h
        · exact hnb hd
        · exact hI.bot_out d hd h
      · intro d hd h
        rcases (hcol' d).mp h with rfl | h
        · exact hnt hd
        · exact hI.top_out d hd h
    · -- refused
      refine { hI with ins := ?_, outs := ?_, bot_no := ?_, down_no := fun d a hd => hI.down_no d a (hrest d hd),
                       down_in := fun d hd => hI.down_in d (hrest d hd), bot_in := ?_, bot_out := ?_ }
      · intro a b ha hb
        rcases hI.ins a b ha hb with h | h | h | h
        · exact Or.inl h
        · exact Or.inr (Or.inl (List.mem_cons_of_mem _ h))
        · exact Or.inr (Or.inr (Or.inl h))
        · rcases (hmem b).mp h with rfl | h
          · exact Or.inr (Or.inl List.mem_cons_self)
          · exact Or.inr (Or.inr (Or.inr h))
      · intro a b ha hb
        rcases hI.outs a b ha hb with h | h | h | h
        · exact Or.inl h
        · exact Or.inr (Or.inl (List.mem_cons_of_mem _ h))
        · exact Or.inr (Or.inr (Or.inl h))
        · exact Or.inr (Or.inr (Or.inr h))
      · intro b a hb ha
        rcases List.mem_cons.mp hb with rfl | hb
        · exact hI.down_no b a hn hnc ha
        · exact hI.bot_no b a hb ha
      · intro d hd
        rcases List.mem_cons.mp hd with rfl | hd
        · exact hI.down_in d hn
        · exact hI.bot_in d hd
      · intro d hd
        rcases List.mem_cons.mp hd with rfl | hd
        · exact hnc
        · exact hI.bot_out d hd

/-- one step of the way up -/
theorem inv_up (hg : Ordered g) {cfg : Config} {r : Nat → Nat → Bool} (hr : ∀ a b, r a b = true ↔ Below g a b) {s : St} {n : Nat} {rest : List Nat}
    (hi : 0 < i) (hI : Inv g ru c0 i s) (hp : popBottom r s.up = some (n, rest)) : Inv g ru c0 i (visitUp g cfg ru r i { s with up := rest } n) := by
  obtain ⟨hperm, hmin⟩ := popBottom_spec hg hr hp
  have hmem : ∀ x, x ∈ s.up ↔ x = n ∨ x ∈ rest := fun x => by rw [hperm.mem_iff, List.mem_cons]
  have hn : n ∈ s.up := (hmem n).mpr (Or.inl rfl)
  have hrest : ∀ x, x ∈ rest → x ∈ s.up := fun x hx => (hmem x).mpr (Or.inr hx)
  unfold visitUp
  split
  · rename_i hw
    have hw' : n ∈ s.top ∨ n ∈ s.bot ∨ s.color n = i := walked_spec.mp hw
    refine { hI with outs := ?_, up_no := fun d a hd => hI.up_no d a (hrest d hd), up_in := fun d hd => hI.up_in d (hrest d hd) }
    intro a b ha hb
    rcases hI.outs a b ha hb with h | h | h | h
    · exact Or.inl h
    · exact Or.inr (Or.inl h)
    · exact Or.inr (Or.inr (Or.inl h))
    · rcases (hmem b).mp h with rfl | h
      · rcases hw' with h | h | h
        · exact Or.inr (Or.inr (Or.inl h))
        · exact Or.inr (Or.inl h)
        · exact Or.inl h
      · exact Or.inr (Or.inr (Or.inr h))
  · rename_i hw
    have hw' : ¬ (n ∈ s.top ∨ n ∈ s.bot ∨ s.color n = i) := fun h => hw (walked_spec.mpr h)
    obtain ⟨hnt, hnb, hnc⟩ := not_or.mp hw' |>.imp_right not_or.mp
    obtain ⟨a0, ha0, hna0⟩ := hI.up_in n hn
    have hnlt : n < g.size := (hg n a0 hna0).2
    split
    · rename_i hpr
      obtain ⟨hc, ht, hpb, hpt⟩ := precious_spec hr hpr
      have hc : s.color n < 0 := hc
      have hpb : ∀ t ∈ s.bot, ¬ Below g t n := hpb
      have hpt : ∀ t ∈ s.top, ¬ Below g n t := hpt
      have hcol : ∀ m, (add g i { s with up := rest } n).color m = if m = n then i else s.color m := fun m => rfl
      have hcol' : ∀ m, (add g i { s with up := rest } n).color m = i ↔ m = n ∨ s.color m = i := by
        intro m; rw [hcol]; by_cases h : m = n <;> simp [h]
      refine ⟨?_, ?_, ?_, ?_, ?_, ?_, ?_, ?_, ?_, ?_, ?_, ?_, ?_, ?_⟩
      · intro m; rw [hcol]; split
        · exact Or.inl rfl
        · exact hI.kept m
      · intro m hm
        rcases (hcol' m).mp hm with rfl | hm
        · rcases hI.kept m with h | h
          · exact absurd h hnc
          · exact ⟨by omega, ht, hnlt⟩
        · exact hI.taken m hm
      · intro a b ha hb
        rcases (hcol' a).mp ha with rfl | ha
        · rcases mem_add_down (i := i) (s := { s with up := rest }) hb with h | h | h
          · exact Or.inl h
          · exact Or.inr (Or.inl h)
          · exact Or.inr (Or.inr (Or.inr h))
        · rcases hI.ins a b ha hb with h | h | h | h
          · exact Or.inl ((hcol' b).mpr (Or.inr h))
          · exact Or.inr (Or.inl h)
          · exact Or.inr (Or.inr (Or.inl h))
          · exact Or.inr (Or.inr (Or.inr (List.mem_append_left _ h)))
      · intro a b ha hb
        rcases (hcol' a).mp ha with rfl | ha
        · rcases mem_add_up hg (i := i) (s := { s with up := rest }) hb with h | h | h
          · exact Or.inl h
          · exact Or.inr (Or.inr (Or.inl h))
          · exact Or.inr (Or.inr (Or.inr h))
        · rcases hI.outs a b ha hb with h | h | h | h
          · exact Or.inl ((hcol' b).mpr (Or.inr h))
          · exact Or.inr (Or.inl h)
          · exact Or.inr (Or.inr (Or.inl h))
          · rcases (hmem b).mp h with rfl | h
            · exact Or.inl ((hcol' b).mpr (Or.inl rfl))
            · exact Or.inr (Or.inr (Or.inr (List.mem_append_left _ h)))
      · intro b a hb ha
        rcases (hcol' a).mp ha with rfl | ha
        · exact hpb b hb
        · exact hI.bot_no b a hb ha
      · intro t a hb ha
        rcases (hcol' a).mp ha with rfl | ha
        · exact hpt t hb
        · exact hI.top_no t a hb ha
      · intro d a hd hdc ha hb
        have hdn : d ≠ n ∧ s.color d ≠ i := by
          constructor
          · intro e; exact hdc ((hcol' d).mpr (Or.inl e))
          · intro e; exact hdc ((hcol' d).mpr (Or.inr e))
        rcases add_down hd with hd2 | ⟨hd2, _⟩
        · rcases (hcol' a).mp ha with rfl | ha
          · exact hI.down_no d a0 hd2 hdn.2 ha0 (TransGen.tail hb hna0)
          · exact hI.down_no d a hd2 hdn.2 ha hb
        · rcases (hcol' a).mp ha with rfl | ha
          · exact below_irrefl hg a (TransGen.head hd2 hb)
          · obtain ⟨p, q, hp1, hq, hq2, hqd⟩ := enter_below (fun m => s.color m = i) hb hdn.2 ha
            have hnp : Below g n p := by
              rcases hqd with rfl | h
              · exact TransGen.single hd2
              · exact TransGen.head hd2 h
            rcases hI.outs q p hq2 hq with h | h | h | h
            · exact hp1 h
            · exact hI.bot_no p q h hq2 (TransGen.single hq)
            · exact hpt p h hnp
            · exact hmin p h hnp
      · intro u a hu huc ha hb
        have hun : u ≠ n ∧ s.color u ≠ i := by
          constructor
          · intro e; exact huc ((hcol' u).mpr (Or.inl e))
          · intro e; exact huc ((hcol' u).mpr (Or.inr e))
        rcases add_up hg hu with hu2 | ⟨hu2, hut, _⟩
        · rcases (hcol' a).mp ha with rfl | ha
          · exact hmin u (hrest u hu2) hb
          · exact hI.up_no u a (hrest u hu2) hun.2 ha hb
        · rcases (hcol' a).mp ha with rfl | ha
          · exact below_irrefl hg a (TransGen.tail hb hu2)
          · exact hI.up_no n a hn hnc ha (TransGen.tail hb hu2)
      · intro d hd
        rcases add_down hd with hd | ⟨hd, _⟩
        · obtain ⟨a, h1, h2⟩ := hI.down_in d hd
          exact ⟨a, (hcol' a).mpr (Or.inr h1), h2⟩
        · exact ⟨n, (hcol' n).mpr (Or.inl rfl), hd⟩
      · intro u hu
        rcases add_up hg hu with hu | ⟨hu, _⟩
        · obtain ⟨a, h1, h2⟩ := hI.up_in u (hrest u hu)
          exact ⟨a, (hcol' a).mpr (Or.inr h1), h2⟩
        · exact ⟨n, (hcol' n).mpr (Or.inl rfl), hu⟩
      · intro d hd
        obtain ⟨a, h1, h2⟩ := hI.bot_in d hd
        exact ⟨a, (hcol' a).mpr (Or.inr h1), h2⟩
      · intro d hd
        obtain ⟨a, h1, h2⟩ := hI.top_in d hd
        exact ⟨a, (hcol' a).mpr (Or.inr h1), h2⟩
      · intro d hd h
        rcases (hcol' d).mp h with rfl | h
        · exact hnb hd
        · exact hI.bot_out d hd h
      · intro d hd h
        rcases (hcol' d).mp h with rfl | h
        · exact hnt hd
        · exact hI.top_out d hd h
    · refine { hI with ins := ?_, outs := ?_, top_no := ?_, up_no := fun d a hd => hI.up_no d a (hrest d hd),
                       up_in := fun d hd => hI.up_in d (hrest d hd), top_in := ?_, top_out := ?_ }
      · intro a b ha hb
        rcases hI.ins a b ha hb with h | h | h | h
        · exact Or.inl h
        · exact Or.inr (Or.inl h)
        · exact Or.inr (Or.inr (Or.inl (List.mem_cons_of_mem _ h)))
        · exact Or.inr (Or.inr (Or.inr h))
      · intro a b ha hb
        rcases hI.outs a b ha hb with h | h | h | h
        · exact Or.inl h
        · exact Or.inr (Or.inl h)
        · exact Or.inr (Or.inr (Or.inl (List.mem_cons_of_mem _ h)))
        · rcases (hmem b).mp h with rfl | h
          · exact Or.inr (Or.inr (Or.inl List.mem_cons_self))
          · exact Or.inr (Or.inr (Or.inr h))
      · intro b a hb ha
        rcases List.mem_cons.mp hb with rfl | hb
        · exact hI.up_no b a hn hnc ha
        · exact hI.top_no b a hb ha
      · intro d hd
        rcases List.mem_cons.mp hd with rfl | hd
        · exact hI.up_in d hn
        · exact hI.top_in d hd
      · intro d hd
        rcases List.mem_cons.mp hd with rfl | hd
        · exact hnc
        · exact hI.top_out d hd

/-- the invariant holds at the start -/
theorem inv_start (hg : Ordered g) {n : Nat} (hi : 0 < i) (hnew : ∀ m, c0 m ≠ i) (hok : okToAdd ru c0 n = true) (hn : n < g.size) :
    Inv g ru c0 i (start g i c0 n) := by
  simp only [okToAdd, Bool.and_eq_true, decide_eq_true_eq] at hok
  have hcol' : ∀ m, (start g i c0 n).color m = i ↔ m = n := by
    intro m
    change (if m = n then i else c0 m) = i ↔ _
    by_cases h : m = n <;> simp [h, hnew m]
  refine ⟨?_, ?_, ?_, ?_, ?_, ?_, ?_, ?_, ?_, ?_, ?_, ?_, ?_, ?_⟩
  · intro m
    change (if m = n then i else c0 m) = i ∨ (if m = n then i else c0 m) = c0 m
    by_cases h : m = n <;> simp [h]
  · intro m hm
    rw [hcol'] at hm; subst hm; exact ⟨hok.1, hok.2, hn⟩
  · intro a b ha hb
    rw [hcol'] at ha; subst ha
    rcases mem_add_down (i := i) (s := ⟨c0, [], [], [], []⟩) hb with h | h | h
    · exact Or.inl h
    · cases h
    · exact Or.inr (Or.inr (Or.inr h))
  · intro a b ha hb
    rw [hcol'] at ha; subst ha
    rcases mem_add_up hg (i := i) (s := ⟨c0, [], [], [], []⟩) hb with h | h | h
    · exact Or.inl h
    · cases h
    · exact Or.inr (Or.inr (Or.inr h))
  · intro b a hb; cases hb
  · intro b a hb; cases hb
  · intro d a hd hdc ha hb
    rw [hcol'] at ha; subst ha
    rcases add_down hd with hd | ⟨hd, _⟩
    · cases hd
    · exact below_irrefl hg a (TransGen.head hd hb)
  · intro d a hd hdc ha hb
    rw [hcol'] at ha; subst ha
    rcases add_up hg hd with hd | ⟨hd, _⟩
    · cases hd
    · exact below_irrefl hg a (TransGen.tail hb hd)
  · intro d hd
    rcases add_down hd with hd | ⟨hd, _⟩
    · cases hd
    · exact ⟨n, (hcol' n).mpr rfl, hd⟩
  · intro d hd
    rcases add_up hg hd with hd | ⟨hd, _⟩
    · cases hd
    · exact ⟨n, (hcol' n).mpr rfl, hd⟩
  · intro d hd; cases hd
  · intro d hd; cases hd
  · intro d hd; cases hd
  · intro d hd; cases hd

end Verif.Compiler.Split
