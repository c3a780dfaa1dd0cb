import Verif.Compiler.SplitExplore
/-!
# The search for one sub graph: it ends, and what it gives
-/
namespace Verif.Compiler.Split
open Verif.Core Relation

variable {g : Gr} {ru : Rule} {c0 : Color} {i : Int}

/-! ## fuel -/

theorem sum_paint (c : Color) (n : Nat) (w : Nat → Nat) (hc : c n ≠ i) (N : Nat) :
    ((List.range N).map fun m => if paint c n i m = i then 0 else w m).sum + (if n < N then w n else 0) =
    ((List.range N).map fun m => if c m = i then 0 else w m).sum := by
  induction N with
  | zero => simp
  | succ N ih =>
    simp only [List.range_succ, List.map_append, List.sum_append, List.map_cons, List.map_nil, List.sum_cons, List.sum_nil, Nat.add_zero]
    by_cases h1 : N = n
    · subst h1
      rw [if_neg (lt_irrefl _)] at ih
      rw [if_pos (Nat.lt_succ_self _), if_neg hc, if_pos (by unfold paint; rw [if_pos rfl]), ← ih]
    · have : paint c n i N = c N := by unfold paint; rw [if_neg h1]
      rw [this]
      by_cases h2 : n < N
      · rw [if_pos h2] at ih
        rw [if_pos (show n < N + 1 by omega), ← ih]; omega
      · rw [if_neg h2] at ih
        rw [if_neg (show ¬ n < N + 1 by omega), ← ih]; omega

theorem degrees_paint {c : Color} {n : Nat} (hc : c n ≠ i) (hn : n < g.size) :
    degrees g (paint c n i) i + ((g.inputs n).length + (g.outputs n).length) = degrees g c i := by
  have := sum_paint (i := i) c n (fun n => (g.inputs n).length + (g.outputs n).length) hc g.size
  rw [if_pos hn] at this
  exact this

theorem ite01 (p : Prop) [Decidable p] : (if p then 1 else 0) ≤ 1 := by split <;> omega

/-- how much there is to do -/
def todo (g : Gr) (i : Int) (s : St) : Nat := s.down.length + s.up.length + degrees g s.color i

theorem todo_add {s : St} {n : Nat} (hc : s.color n ≠ i) (hn : n < g.size) : todo g i (add g i s n) ≤ todo g i s := by
  have h1 := degrees_paint (g := g) (i := i) hc hn
  have h2 := List.length_filter_le (fun t => !s.bot.contains t && paint s.color n i t != i) (g.inputs n)
  have h3 := List.length_filter_le (fun t => !s.top.contains t && paint s.color n i t != i) (g.outputs n)
  unfold todo add
  simp only [List.length_append]
  omega

theorem run_some (hg : Ordered g) {cfg : Config} {r : Nat → Nat → Bool} (hr : ∀ a b, r a b = true ↔ Below g a b) (hi : 0 < i) :
    ∀ (f : Nat) (ph : Bool) (s : St), Inv g ru c0 i s →
      2 * todo g i s + (if (if ph then s.down else s.up) = [] then 1 else 0) < f → ∃ s', run g cfg ru r i f ph s = some s' := by
  intro f
  induction f with
  | zero => intro ph s _ h; exact absurd h (Nat.not_lt_zero _)
  | succ f ih =>
    intro ph s hI hf
    cases ph with
    | true =>
      simp only [if_true] at hf
      unfold run
      cases hp : popTop r s.down with
      | some nr =>
        obtain ⟨n, rest⟩ := nr
        refine ih true _ (inv_down hg hr hi hI hp) ?_
        have hlen : s.down.length = rest.length + 1 := by
          have := (popTop_spec hg hr hp).1.length_eq
          simpa using this
        have hn : n ∈ s.down := (popTop_spec hg hr hp).1.mem_iff.mpr List.mem_cons_self
        obtain ⟨a0, _, hna0⟩ := hI.down_in n hn
        have hnlt : n < g.size := lt_trans (hg a0 n hna0).1 (hg a0 n hna0).2
        have hle : todo g i (visitDown g cfg ru r i { s with down := rest } n) ≤ todo g i { s with down := rest } := by
          unfold visitDown
          split
          · exact le_refl _
          · rename_i hw
            split
            · exact todo_add (s := { s with down := rest }) (fun h => hw (walked_spec.mpr (Or.inr (Or.inr h)))) hnlt
            · exact le_refl _
        have : todo g i s = todo g i { s with down := rest } + 1 := by unfold todo; simp only; omega
        refine lt_of_le_of_lt (Nat.add_le_add_left (ite01 _) _) ?_
        omega
      | none =>
        have hd : s.down = [] := by
          cases h : s.down with
          | nil => rfl
          | cons x xs => rw [h] at hp; simp [popTop] at hp
        rw [if_pos hd] at hf
        simp only
        split
        · exact ⟨s, rfl⟩
        · split
          · exact ⟨s, rfl⟩
          · rename_i hu
            refine ih false s hI ?_
            rw [if_neg (by simpa using hu)]
            omega
    | false =>
      simp only [Bool.false_eq_true, if_false] at hf
      unfold run
      cases hp : popBottom r s.up with
      | some nr =>
        obtain ⟨n, rest⟩ := nr
        refine ih false _ (inv_up hg hr hi hI hp) ?_
        have hlen : s.up.length = rest.length + 1 := by
          have := (popBottom_spec hg hr hp).1.length_eq
          simpa using this
        have hn : n ∈ s.up := (popBottom_spec hg hr hp).1.mem_iff.mpr List.mem_cons_self
        obtain ⟨a0, _, hna0⟩ := hI.up_in n hn
        have hnlt : n < g.size := (hg n a0 hna0).2
        have hle : todo g i (visitUp g cfg ru r i { s with up := rest } n) ≤ todo g i { s with up := rest } := by
          unfold visitUp
          split
          · exact le_refl _
          · rename_i hw
            split
            · exact todo_add (s := { s with up := rest }) (fun h => hw (walked_spec.mpr (Or.inr (Or.inr h)))) hnlt
            · exact le_refl _
        have : todo g i s = todo g i { s with up := rest } + 1 := by unfold todo; simp only; omega
        refine lt_of_le_of_lt (Nat.add_le_add_left (ite01 _) _) ?_
        omega
      | none =>
        have hd : s.up = [] := by
          cases h : s.up with
          | nil => rfl
          | cons x xs => rw [h] at hp; simp [popBottom] at hp
        rw [if_pos hd] at hf
        simp only
        split
        · exact ⟨s, rfl⟩
        · rename_i hu
          refine ih true s hI ?_
          rw [if_neg (by simpa using hu)]
          omega

/-! ## what is found -/

theorem visitDown_color {cfg : Config} {r : Nat → Nat → Bool} {s : St} {n m : Nat} (h : s.color m = i) : (visitDown g cfg ru r i s n).color m = i := by
  unfold visitDown
  split
  · exact h
  · split
    · rw [add_color]; split
      · rfl
      · exact h
    · exact h

theorem visitUp_color {cfg : Config} {r : Nat → Nat → Bool} {s : St} {n m : Nat} (h : s.color m = i) : (visitUp g cfg ru r i s n).color m = i := by
  unfold visitUp
  split
  · exact h
  · split
    · rw [add_color]; split
      · rfl
      · exact h
    · exact h

theorem run_spec (hg : Ordered g) {cfg : Config} {r : Nat → Nat → Bool} (hr : ∀ a b, r a b = true ↔ Below g a b) (hi : 0 < i) :
    ∀ (f : Nat) (ph : Bool) (s s' : St), Inv g ru c0 i s → run g cfg ru r i f ph s = some s' →
      Inv g ru c0 i s' ∧ (∀ m, s.color m = i → s'.color m = i) ∧ s'.down = [] ∧ (cfg.singleOutput = false → s'.up = []) := by
  intro f
  induction f with
  | zero => intro ph s s' _ h; cases h
  | succ f ih =>
    intro ph s s' hI h
    cases ph with
    | true =>
      unfold run at h
      cases hp : popTop r s.down with
      | some nr =>
        obtain ⟨n, rest⟩ := nr
        rw [hp] at h
        obtain ⟨k1, k2, k3⟩ := ih true _ s' (inv_down hg hr hi hI hp) h
        exact ⟨k1, fun m hm => k2 m (visitDown_color (s := { s with down := rest }) hm), k3⟩
      | none =>
        have hd : s.down = [] := by
          cases h : s.down with
          | nil => rfl
          | cons x xs => rw [h] at hp; simp [popTop] at hp
        rw [hp] at h
        simp only at h
        split at h
        · rename_i hso
          cases Option.some.inj h
          exact ⟨hI, fun _ h => h, hd, fun h => by rw [h] at hso; cases hso⟩
        · split at h
          · rename_i hu
            cases Option.some.inj h
            exact ⟨hI, fun _ h => h, hd, fun _ => by simpa using hu⟩
          · exact ih false s s' hI h
    | false =>
      unfold run at h
      cases hp : popBottom r s.up with
      | some nr =>
        obtain ⟨n, rest⟩ := nr
        rw [hp] at h
        obtain ⟨k1, k2, k3⟩ := ih false _ s' (inv_up hg hr hi hI hp) h
        exact ⟨k1, fun m hm => k2 m (visitUp_color (s := { s with up := rest }) hm), k3⟩
      | none =>
        have hd : s.up = [] := by
          cases h : s.up with
          | nil => rfl
          | cons x xs => rw [h] at hp; simp [popBottom] at hp
        rw [hp] at h
        simp only at h
        split at h
        · rename_i hu
          cases Option.some.inj h
          exact ⟨hI, fun _ h => h, by simpa using hu, fun _ => hd⟩
        · exact ih true s s' hI h

/-- no node outside the group lies between nodes of the group -/
theorem inv_convex {s : St} (hI : Inv g ru c0 i s) (hd : s.down = []) {a x b : Nat} (ha : s.color a = i) (hb : s.color b = i)
    (h1 : Below g a x) (h2 : Below g x b) : s.color x = i := by
  by_contra hx
  obtain ⟨p, q, hp, hq, hqc, hqx⟩ := exit_below (fun m => s.color m = i) h1 ha hx
  have hqb : Below g q b := by
    rcases hqx with rfl | h
    · exact h2
    · exact h.trans h2
  rcases hI.ins p q hp hq with h | h | h | h
  · exact hqc h
  · exact hI.bot_no q b h hb hqb
  · exact hI.top_no q p h hp (TransGen.single hq)
  · rw [hd] at h; cases h

/-- the recorded inputs of group nodes -/
theorem inv_bot {s : St} (hI : Inv g ru c0 i s) (hd : s.down = []) {b : Nat} :
    b ∈ s.bot ↔ s.color b ≠ i ∧ ∃ a, s.color a = i ∧ b ∈ g.inputs a := by
  constructor
  · intro h; exact ⟨hI.bot_out b h, hI.bot_in b h⟩
  · rintro ⟨hb, a, ha, hab⟩
    rcases hI.ins a b ha hab with h | h | h | h
    · exact absurd h hb
    · exact h
    · exact absurd (TransGen.single hab) (hI.top_no b a h ha)
    · rw [hd] at h; cases h

theorem inv_top {s : St} (hI : Inv g ru c0 i s) (hu : s.up = []) {t : Nat} :
    t ∈ s.top ↔ s.color t ≠ i ∧ ∃ a, s.color a = i ∧ a ∈ g.inputs t := by
  constructor
  · intro h; exact ⟨hI.top_out t h, hI.top_in t h⟩
  · rintro ⟨hb, a, ha, hab⟩
    rcases hI.outs a t ha hab with h | h | h | h
    · exact absurd h hb
    · exact absurd (TransGen.single hab) (hI.bot_no t a h ha)
    · exact h
    · rw [hu] at h; cases h

theorem mem_eraseDups (l : List Nat) (a : Nat) : a ∈ l.eraseDups ↔ a ∈ l := by
  simp

/-- on the way from `t` outside down to `a` inside: a step into the group -/
theorem last_above {g : Gr} (P : Nat → Prop) {t a : Nat} (h : Below g t a) (ht : ¬ P t) (ha : P a) :
    ∃ p q, ¬ P p ∧ q ∈ g.inputs p ∧ P q ∧ (q = a ∨ Below g q a) := by
  induction h using TransGen.head_induction_on with
  | single h => exact ⟨_, a, ht, h, ha, Or.inl rfl⟩
  | head h hc ih =>
    rename_i x c
    by_cases hP : P c
    · exact ⟨x, c, ht, h, hP, Or.inr hc⟩
    · exact ih hP

theorem mem_graphTops {s : St} (hI : Inv g ru c0 i s) (hu : s.up = []) {a : Nat} :
    a ∈ graphTops g i s ↔ s.color a = i ∧ ∃ t, s.color t ≠ i ∧ a ∈ g.inputs t := by
  unfold graphTops
  rw [mem_eraseDups]
  simp only [List.mem_flatMap, List.mem_filter, beq_iff_eq]
  constructor
  · rintro ⟨t, ht, hat, ha⟩
    exact ⟨ha, t, ((inv_top hI hu).mp ht).1, hat⟩
  · rintro ⟨ha, t, ht, hat⟩
    exact ⟨t, (inv_top hI hu).mpr ⟨ht, a, ha, hat⟩, hat, ha⟩

theorem mem_graphBottoms {r : Nat → Nat → Bool} (hr : ∀ a b, r a b = true ↔ Below g a b) {s : St} (hI : Inv g ru c0 i s) (hd : s.down = []) (hu : s.up = [])
    (hend : ∀ a, s.color a = i → ∃ t, s.color t ≠ i ∧ Below g t a) {b : Nat} :
    b ∈ graphBottoms r (graphTops g i s) s ↔ s.color b ≠ i ∧ ∃ a, s.color a = i ∧ b ∈ g.inputs a := by
  unfold graphBottoms
  rw [List.mem_filter, inv_bot hI hd, List.any_eq_true]
  constructor
  · intro h; exact h.1
  · rintro ⟨hb, a, ha, hab⟩
    refine ⟨⟨hb, a, ha, hab⟩, ?_⟩
    obtain ⟨t, ht, hta⟩ := hend a ha
    obtain ⟨p, q, hp, hq, hqc, hqa⟩ := last_above (fun m => s.color m = i) hta ht ha
    refine ⟨q, (mem_graphTops hI hu).mpr ⟨hqc, p, hp, hq⟩, (hr q b).mpr ?_⟩
    rcases hqa with rfl | h
    · exact TransGen.single hab
    · exact TransGen.tail h hab

end Verif.Compiler.Split
