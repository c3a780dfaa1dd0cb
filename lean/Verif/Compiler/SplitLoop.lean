import Verif.Compiler.SplitRun
import Mathlib.Algebra.Order.BigOperators.Group.List
/-!
# The loop over all sub graphs
-/
namespace Verif.Compiler.Split
open Verif.Core Relation

/-- a set of nodes that can be replaced by one: accepted by the rule, nothing outside between its nodes, and all its ways in and out are listed -/
structure Fusable (g : Gr) (ru : Rule) (grp : Nat → Prop) (ins outs : List Nat) : Prop where
  members : ∀ n, grp n → n < g.size ∧ ru.takes n = true
  supported : ∃ n, grp n ∧ ru.support n = true
  convex : ∀ a x b, grp a → grp b → Below g a x → Below g x b → grp x
  outputs : ∀ n, n ∈ outs ↔ grp n ∧ ∃ t, ¬ grp t ∧ n ∈ g.inputs t
  inputs : ∀ n, n ∈ ins ↔ ¬ grp n ∧ ∃ a, grp a ∧ n ∈ g.inputs a

variable {g : Gr} {ru : Rule} {c0 : Color} {i : Int}

/-! ## sizes -/

/-- everything that can be pushed -/
def allDeg (g : Gr) : Nat := degrees g (fun _ => -1) 0

theorem degrees_le (c : Color) (i : Int) : degrees g c i ≤ allDeg g := by
  unfold allDeg degrees
  apply List.sum_le_sum
  intro n _
  rw [if_neg (by omega : ¬ ((-1 : Int) = 0))]
  split <;> omega

theorem inputs_le {n : Nat} (hn : n < g.size) : (g.inputs n).length ≤ allDeg g := by
  unfold allDeg degrees
  have : (g.inputs n).length + (g.outputs n).length ≤ ((List.range g.size).map fun n => if ((fun _ => -1 : Color) n) = 0 then 0 else (g.inputs n).length + (g.outputs n).length).sum := by
    apply List.single_le_sum (fun _ _ => Nat.zero_le _)
    rw [List.mem_map]
    exact ⟨n, List.mem_range.mpr hn, by rw [if_neg (by omega : ¬ ((-1 : Int) = 0))]⟩
  omega

theorem run_bot (hg : Ordered g) {cfg : Config} {r : Nat → Nat → Bool} (hr : ∀ a b, r a b = true ↔ Below g a b) (hi : 0 < i) :
    ∀ (f : Nat) (ph : Bool) (s s' : St), Inv g ru c0 i s → run g cfg ru r i f ph s = some s' → s'.bot.length + todo g i s' ≤ s.bot.length + todo g i s := by
  intro f
  induction f with
  | zero => intro ph s s' _ h; cases h
  | succ f ih =>
    intro ph s s' hI h
    cases ph with
    | true =>
      unfold run at h
      cases hp : popTop r s.down with
      | some nr =>
        obtain ⟨n, rest⟩ := nr
        rw [hp] at h
        refine le_trans (ih true _ s' (inv_down hg hr hi hI hp) h) ?_
        have hlen : s.down.length = rest.length + 1 := by
          have := (popTop_spec hg hr hp).1.length_eq
          simpa using this
        have hn : n ∈ s.down := (popTop_spec hg hr hp).1.mem_iff.mpr List.mem_cons_self
        obtain ⟨a0, _, hna0⟩ := hI.down_in n hn
        have hnlt : n < g.size := lt_trans (hg a0 n hna0).1 (hg a0 n hna0).2
        have : todo g i s = todo g i { s with down := rest } + 1 := by unfold todo; simp only; omega
        unfold visitDown
        split
        · simp only; omega
        · rename_i hw
          split
          · have := todo_add (s := { s with down := rest }) (fun h => hw (walked_spec.mpr (Or.inr (Or.inr h)))) hnlt
            change s.bot.length + _ ≤ _
            omega
          · have e : todo g i { color := s.color, top := s.top, bot := n :: s.bot, down := rest, up := s.up } = todo g i { s with down := rest } := rfl
            simp only [e, List.length_cons]
            omega
      | none =>
        rw [hp] at h
        simp only at h
        split at h
        · cases Option.some.inj h; exact le_refl _
        · split at h
          · cases Option.some.inj h; exact le_refl _
          · exact ih false s s' hI h
    | false =>
      unfold run at h
      cases hp : popBottom r s.up with
      | some nr =>
        obtain ⟨n, rest⟩ := nr
        rw [hp] at h
        refine le_trans (ih false _ s' (inv_up hg hr hi hI hp) h) ?_
        have hlen : s.up.length = rest.length + 1 := by
          have := (popBottom_spec hg hr hp).1.length_eq
          simpa using this
        have hn : n ∈ s.up := (popBottom_spec hg hr hp).1.mem_iff.mpr List.mem_cons_self
        obtain ⟨a0, _, hna0⟩ := hI.up_in n hn
        have hnlt : n < g.size := (hg n a0 hna0).2
        have : todo g i s = todo g i { s with up := rest } + 1 := by unfold todo; simp only; omega
        unfold visitUp
        split
        · simp only; omega
        · rename_i hw
          split
          · have := todo_add (s := { s with up := rest }) (fun h => hw (walked_spec.mpr (Or.inr (Or.inr h)))) hnlt
            change s.bot.length + _ ≤ _
            omega
          · have e : todo g i { color := s.color, top := n :: s.top, bot := s.bot, down := s.down, up := rest } = todo g i { s with up := rest } := rfl
            simp only [e]
            omega
      | none =>
        rw [hp] at h
        simp only at h
        split at h
        · cases Option.some.inj h; exact le_refl _
        · exact ih true s s' hI h

/-! ## one sub graph -/

/-- what `explore` gives for a node the rule accepts -/
structure Found (g : Gr) (ru : Rule) (c : Color) (i : Int) (n : Nat) (io : IO) (c' : Color) : Prop where
  isSub : io.isSub = true
  seed : c' n = io.color
  kept : ∀ m, c' m = c m ∨ c m < 0 ∧ ru.takes m = true ∧ m < g.size ∧ c' m = io.color
  len : io.inputs.length ≤ allDeg g
  result : (io.color = 0 ∧ io.inputs = [] ∧ ∀ m, c' m ≠ c m → ru.support m = false) ∨ io.color = i ∧ Fusable g ru (fun m => c' m = i) io.inputs io.outputs

theorem explore_spec (hg : Ordered g) {cfg : Config} {r : Nat → Nat → Bool} (hr : ∀ a b, r a b = true ↔ Below g a b) (h1 : cfg.singleInput = false) (h2 : cfg.singleOutput = false)
    (hsrc : ∀ n, ru.takes n = true → n < g.size → g.inputs n ≠ []) (hend : ∀ a, ru.takes a = true → a < g.size → ∃ t, ru.takes t = false ∧ Below g t a)
    (hi : 0 < i) (hnew : ∀ m, c0 m ≠ i) {n : Nat} (hn : n < g.size) (hc : c0 n < 0) :
    (ru.takes n = false ∧ explore g cfg ru r c0 i n = .ok (notSub, c0)) ∨
    ∃ io c', explore g cfg ru r c0 i n = .ok (io, c') ∧ Found g ru c0 i n io c' := by
  unfold explore
  by_cases ht : ru.takes n = true
  · refine Or.inr ?_
    have hok : okToAdd ru c0 n = true := by simp [okToAdd, hc, ht]
    rw [hok]
    simp only [Bool.not_true, Bool.false_eq_true, if_false]
    have hI := inv_start hg hi hnew hok hn (ru := ru)
    have hcn : c0 n ≠ i := hnew n
    have hne : (start g i c0 n).down.isEmpty = false := by
      cases hin : g.inputs n with
      | nil => exact absurd hin (hsrc n ht hn)
      | cons b bs =>
        have hb : b ∈ g.inputs n := by rw [hin]; exact List.mem_cons_self
        have hbn : b ≠ n := by have := (hg n b hb).1; omega
        rcases mem_add_down (i := i) (s := ⟨c0, [], [], [], []⟩) hb with h | h | h
        · rw [add_color, if_neg hbn] at h
          exact absurd h (hnew b)
        · cases h
        · cases hd : (start g i c0 n).down with
          | nil => unfold start at hd; rw [hd] at h; cases h
          | cons => rfl
    rw [hne]
    simp only [Bool.false_eq_true, if_false]
    have htodo : todo g i (start g i c0 n) ≤ degrees g c0 i := by
      have := todo_add (g := g) (s := ⟨c0, [], [], [], []⟩) hcn hn
      simpa [todo, start] using this
    obtain ⟨s, hs⟩ := run_some hg (cfg := cfg) hr hi (2 * (degrees g c0 i + 1) + 2) true (start g i c0 n) hI
      (lt_of_le_of_lt (Nat.add_le_add_left (ite01 _) _) (by omega))
    rw [hs]
    obtain ⟨hI', hmono, hdown, hup⟩ := run_spec hg hr hi _ _ _ _ hI hs
    have hup := hup h2
    have hseed : s.color n = i := hmono n (by unfold start; rw [add_color, if_pos rfl])
    have hbl : s.bot.length ≤ allDeg g := by
      have h3 := run_bot hg hr hi _ _ _ _ hI hs
      have h4 : (start g i c0 n).bot.length = 0 := rfl
      have h5 := degrees_le (g := g) c0 i
      omega
    have hgrp : ∀ m, m ∈ graphOf g s.color i ↔ s.color m = i := by
      intro m
      unfold graphOf
      rw [List.mem_filter, List.mem_range, beq_iff_eq]
      exact ⟨fun h => h.2, fun h => ⟨(hI'.taken m h).2.2, h⟩⟩
    unfold finish
    simp only [h1, Bool.false_and, Bool.false_eq_true, if_false]
    by_cases hsup : (graphOf g s.color i).any ru.support = true
    · rw [if_pos hsup]
      refine ⟨_, _, rfl, rfl, hseed, ?_, ?_, Or.inr ⟨rfl, ?_⟩⟩
      · intro m
        rcases hI'.kept m with h | h
        · obtain ⟨k1, k2, k3⟩ := hI'.taken m h
          exact Or.inr ⟨k1, k2, k3, h⟩
        · exact Or.inl h
      · exact le_trans (List.length_filter_le _ _) hbl
      · refine ⟨fun m hm => ⟨(hI'.taken m hm).2.2, (hI'.taken m hm).2.1⟩, ?_, ?_, ?_, ?_⟩
        · rw [List.any_eq_true] at hsup
          obtain ⟨m, hm, hm2⟩ := hsup
          exact ⟨m, (hgrp m).mp hm, hm2⟩
        · intro a x b ha hb hax hxb
          exact inv_convex hI' hdown ha hb hax hxb
        · intro m
          exact mem_graphTops hI' hup
        · intro m
          refine mem_graphBottoms hr hI' hdown hup ?_
          intro a ha
          obtain ⟨k1, k2, k3⟩ := hI'.taken a ha
          obtain ⟨t, ht1, ht2⟩ := hend a k2 k3
          refine ⟨t, fun h => ?_, ht2⟩
          rw [(hI'.taken t h).2.1] at ht1; cases ht1
    · rw [if_neg hsup]
      refine ⟨_, _, rfl, rfl, ?_, ?_, Nat.zero_le _, Or.inl ⟨rfl, rfl, ?_⟩⟩
      · simp only [hseed, if_true]
      · intro m
        beta_reduce
        by_cases h : s.color m = i
        · obtain ⟨k1, k2, k3⟩ := hI'.taken m h
          exact Or.inr ⟨k1, k2, k3, by rw [if_pos h]⟩
        · rcases hI'.kept m with h' | h'
          · exact absurd h' h
          · exact Or.inl (by rw [if_neg h, h'])
      · intro m hm
        by_cases h : s.color m = i
        · have := fun h' => hsup (List.any_eq_true.mpr ⟨m, (hgrp m).mpr h, h'⟩)
          simpa using this
        · rw [if_neg h] at hm
          rcases hI'.kept m with h' | h'
          · exact absurd h' h
          · exact absurd h' hm
  · refine Or.inl ⟨by simpa using ht, ?_⟩
    have hok : okToAdd ru c0 n = false := by simp [okToAdd, ht]
    rw [hok]; rfl

/-! ## all sub graphs -/

/-- nodes without a colour -/
def blank (g : Gr) (c : Color) : Nat := ((List.range g.size).filter fun n => decide (c n < 0)).length

theorem blank_lt {c c' : Color} (hk : ∀ m, 0 ≤ c m → 0 ≤ c' m) {n : Nat} (hn : n < g.size) (h1 : c n < 0) (h2 : 0 ≤ c' n) : blank g c' < blank g c := by
  unfold blank
  have key : ∀ l : List Nat, (l.filter fun n => decide (c' n < 0)).length ≤ (l.filter fun n => decide (c n < 0)).length ∧
      (n ∈ l → (l.filter fun n => decide (c' n < 0)).length < (l.filter fun n => decide (c n < 0)).length) := by
    intro l
    induction l with
    | nil => simp
    | cons x xs ih =>
      have hx := hk x
      by_cases hxn : x = n
      · subst hxn
        rw [List.filter_cons_of_neg (by simpa using h2), List.filter_cons_of_pos (by simpa using h1), List.length_cons]
        exact ⟨by omega, fun _ => by omega⟩
      · by_cases a : c x < 0
        · by_cases b : c' x < 0
          · rw [List.filter_cons_of_pos (by simpa using b), List.filter_cons_of_pos (by simpa using a), List.length_cons, List.length_cons]
            refine ⟨by omega, fun h => ?_⟩
            rcases List.mem_cons.mp h with h | h
            · exact absurd h.symm hxn
            · have := ih.2 h; omega
          · rw [List.filter_cons_of_neg (by simpa using b), List.filter_cons_of_pos (by simpa using a), List.length_cons]
            exact ⟨by omega, fun _ => by omega⟩
        · have b : ¬ c' x < 0 := by have := hx (by omega); omega
          rw [List.filter_cons_of_neg (by simpa using b), List.filter_cons_of_neg (by simpa using a)]
          refine ⟨ih.1, fun h => ?_⟩
          rcases List.mem_cons.mp h with h | h
          · exact absurd h.symm hxn
          · exact ih.2 h
  exact (key _).2 (List.mem_range.mpr hn)

/-- what holds between two rounds of the loop -/
structure LoopInv (g : Gr) (ru : Rule) (c : Color) (q : List Nat) (ios : List IO) : Prop where
  bound : ∀ m, c m ≤ ios.length
  found : ∀ (j : Nat) (io : IO), ios[j]? = some io → io.color = (j : Int) + 1 ∧ Fusable g ru (fun m => c m = (j : Int) + 1) io.inputs io.outputs
  colored : ∀ m, 0 ≤ c m → m < g.size
  pos : ∀ m, 0 < c m → ru.takes m = true
  zero : ∀ m, c m = 0 → ru.support m = false
  queue : ∀ m ∈ q, m < g.size
  cover : (∀ n, ru.route n = true → ru.support n = true) → ∀ m, 0 ≤ c m → ∀ b ∈ g.inputs m, 0 ≤ c b ∨ b ∈ q

theorem mem_pushNew {c : Color} {q l : List Nat} {b : Nat} : b ∈ pushNew c q l ↔ b ∈ q ∨ b ∈ l ∧ c b < 0 := by
  unfold pushNew
  simp

theorem splitLoop_spec (hg : Ordered g) {cfg : Config} {r : Nat → Nat → Bool} (hr : ∀ a b, r a b = true ↔ Below g a b) (h1 : cfg.singleInput = false) (h2 : cfg.singleOutput = false)
    (hsrc : ∀ n, ru.takes n = true → n < g.size → g.inputs n ≠ []) (hend : ∀ a, ru.takes a = true → a < g.size → ∃ t, ru.takes t = false ∧ Below g t a) :
    ∀ (f : Nat) (c : Color) (q : List Nat) (ios : List IO), LoopInv g ru c q ios → q.length + blank g c * (g.size + allDeg g) < f →
      ∃ c' ios', splitLoop g cfg ru r f c q ios = .ok (c', ios') ∧ LoopInv g ru c' [] ios' ∧ (∀ m, 0 ≤ c m → 0 ≤ c' m) ∧ ∀ m ∈ q, 0 ≤ c' m := by
  intro f
  induction f with
  | zero => intro c q ios _ h; exact absurd h (Nat.not_lt_zero _)
  | succ f ih =>
    intro c q ios hI hf
    unfold splitLoop
    cases hp : popTop r q with
    | none =>
      have hq : q = [] := by
        cases h : q with
        | nil => rfl
        | cons x xs => rw [h] at hp; simp [popTop] at hp
      subst hq
      exact ⟨c, ios, rfl, hI, fun _ h => h, by simp⟩
    | some nr =>
      obtain ⟨n, rest⟩ := nr
      obtain ⟨hperm, _⟩ := popTop_spec hg hr hp
      have hmem : ∀ x, x ∈ q ↔ x = n ∨ x ∈ rest := fun x => by rw [hperm.mem_iff, List.mem_cons]
      have hlen : q.length = rest.length + 1 := by simpa using hperm.length_eq
      have hn : n < g.size := hI.queue n ((hmem n).mpr (Or.inl rfl))
      simp only
      by_cases hcn : 0 ≤ c n
      · rw [if_pos hcn]
        obtain ⟨c', ios', e1, e2, e3, e4⟩ := ih c rest ios { hI with
            queue := fun m hm => hI.queue m ((hmem m).mpr (Or.inr hm))
            cover := fun hr' m hm b hb => by
              rcases hI.cover hr' m hm b hb with h | h
              · exact Or.inl h
              · rcases (hmem b).mp h with rfl | h
                · exact Or.inl hcn
                · exact Or.inr h } (by omega)
        refine ⟨c', ios', e1, e2, e3, fun m hm => ?_⟩
        rcases (hmem m).mp hm with rfl | hm
        · exact e3 _ hcn
        · exact e4 m hm
      · rw [if_neg hcn]
        have hc : c n < 0 := by omega
        have hnew : ∀ m, c m ≠ (ios.length : Int) + 1 := fun m => by have := hI.bound m; omega
        rcases explore_spec hg hr h1 h2 hsrc hend (show (0 : Int) < (ios.length : Int) + 1 by omega) hnew hn hc with ⟨ht, he⟩ | ⟨io, c1, he, hF⟩
        · rw [he]
          simp only [notSub, Bool.not_false, if_true]
          have hk : ∀ m, 0 ≤ c m → 0 ≤ paint c n 0 m := fun m hm => by unfold paint; split <;> omega
          have hp0 : paint c n 0 n = 0 := by unfold paint; rw [if_pos rfl]
          have hpm : ∀ m, m ≠ n → paint c n 0 m = c m := fun m hm => by unfold paint; rw [if_neg hm]
          have hnotin : ∀ (j : Int), 0 < j → ∀ m, paint c n 0 m = j ↔ c m = j := by
            intro j hj m
            by_cases hm : m = n
            · subst hm; rw [hp0]; constructor <;> intro h <;> omega
            · rw [hpm m hm]
          obtain ⟨c', ios', e1, e2, e3, e4⟩ := ih (paint c n 0) (pushNew (paint c n 0) rest (g.inputs n)) ios
            { bound := fun m => by
                by_cases hm : m = n
                · subst hm; rw [hp0]; omega
                · rw [hpm m hm]; exact hI.bound m
              found := fun j io hj => by
                obtain ⟨k1, k2⟩ := hI.found j io hj
                refine ⟨k1, ?_⟩
                have : (fun m => paint c n 0 m = (j : Int) + 1) = fun m => c m = (j : Int) + 1 := by
                  funext m; exact propext (hnotin _ (by omega) m)
                rw [this]; exact k2
              colored := fun m hm => by
                by_cases hmn : m = n
                · rw [hmn]; exact hn
                · rw [hpm m hmn] at hm; exact hI.colored m hm
              pos := fun m hm => by
                by_cases hmn : m = n
                · rw [hmn, hp0] at hm; omega
                · rw [hpm m hmn] at hm; exact hI.pos m hm
              zero := fun m hm => by
                by_cases hmn : m = n
                · rw [hmn]
                  simp only [Rule.takes, Bool.or_eq_false_iff] at ht
                  exact ht.2
                · rw [hpm m hmn] at hm; exact hI.zero m hm
              queue := fun m hm => by
                rcases mem_pushNew.mp hm with h | ⟨h, _⟩
                · exact hI.queue m ((hmem m).mpr (Or.inr h))
                · exact lt_trans (hg n m h).1 hn
              cover := fun hr' m hm b hb => by
                by_cases hb0 : 0 ≤ paint c n 0 b
                · exact Or.inl hb0
                refine Or.inr (mem_pushNew.mpr ?_)
                by_cases hmn : m = n
                · subst hmn; exact Or.inr ⟨hb, by omega⟩
                · rw [hpm m hmn] at hm
                  rcases hI.cover hr' m hm b hb with h | h
                  · exact absurd (hk b h) hb0
                  · rcases (hmem b).mp h with rfl | h
                    · exact absurd (le_of_eq hp0.symm) hb0
                    · exact Or.inl h } (by
              have hb := blank_lt (g := g) hk hn hc (le_of_eq hp0.symm)
              have hl : (pushNew (paint c n 0) rest (g.inputs n)).length ≤ rest.length + allDeg g := by
                unfold pushNew
                rw [List.length_append]
                have := List.length_filter_le (fun b => decide (paint c n 0 b < 0)) (g.inputs n)
                have := inputs_le hn
                omega
              have hmul : (blank g (paint c n 0) + 1) * (g.size + allDeg g) ≤ blank g c * (g.size + allDeg g) := Nat.mul_le_mul_right _ hb
              rw [Nat.add_mul] at hmul
              omega)
          refine ⟨c', ios', e1, e2, fun m hm => e3 m (hk m hm), fun m hm => ?_⟩
          rcases (hmem m).mp hm with rfl | hm
          · exact e3 _ (le_of_eq hp0.symm)
          · exact e4 m (mem_pushNew.mpr (Or.inl hm))
        · rw [he]
          simp only [hF.isSub, Bool.not_true, Bool.false_eq_true, if_false]
          have hcol0 : 0 ≤ io.color := by
            rcases hF.result with ⟨h, _⟩ | ⟨h, _⟩ <;> omega
          have hk : ∀ m, 0 ≤ c m → 0 ≤ c1 m := fun m hm => by
            rcases hF.kept m with h | ⟨h, _⟩ <;> omega
          have hn1 : 0 ≤ c1 n := by rw [hF.seed]; exact hcol0
          have hfuel : (pushNew c1 rest io.inputs).length + blank g c1 * (g.size + allDeg g) < f := by
            have hb := blank_lt (g := g) hk hn hc hn1
            have hl : (pushNew c1 rest io.inputs).length ≤ rest.length + allDeg g := by
              unfold pushNew
              rw [List.length_append]
              have := List.length_filter_le (fun b => decide (c1 b < 0)) io.inputs
              have := hF.len
              omega
            have hmul : (blank g c1 + 1) * (g.size + allDeg g) ≤ blank g c * (g.size + allDeg g) := Nat.mul_le_mul_right _ hb
            rw [Nat.add_mul] at hmul
            omega
          have hcol1 : ∀ m, 0 ≤ c1 m → m < g.size := fun m hm => by
            rcases hF.kept m with h | ⟨_, _, h, _⟩
            · exact hI.colored m (by omega)
            · exact h
          have hold : ∀ (j : Nat) (io' : IO), ios[j]? = some io' → io'.color = (j : Int) + 1 ∧ Fusable g ru (fun m => c1 m = (j : Int) + 1) io'.inputs io'.outputs := by
            intro j io' hj
            obtain ⟨k1, k2⟩ := hI.found j io' hj
            refine ⟨k1, ?_⟩
            have hjl : j < ios.length := by
              by_contra h
              rw [List.getElem?_eq_none (by omega)] at hj; cases hj
            have : (fun m => c1 m = (j : Int) + 1) = fun m => c m = (j : Int) + 1 := by
              funext m
              apply propext
              rcases hF.kept m with h | ⟨h, _, _, h'⟩
              · rw [h]
              · rcases hF.result with ⟨h0, _⟩ | ⟨h0, _⟩
                · constructor <;> intro <;> omega
                · constructor <;> intro <;> omega
            rw [this]; exact k2
          rcases hF.result with ⟨h0, hin0, hns⟩ | ⟨h0, hfus⟩
          · rw [if_pos h0]
            obtain ⟨c', ios', e1, e2, e3, e4⟩ := ih c1 (pushNew c1 rest io.inputs) ios
              { bound := fun m => by
                  rcases hF.kept m with h | ⟨_, _, _, h⟩
                  · have := hI.bound m; omega
                  · omega
                found := hold
                colored := hcol1
                pos := fun m hm => by
                  rcases hF.kept m with h | ⟨_, h, _⟩
                  · exact hI.pos m (by omega)
                  · exact h
                zero := fun m hm => by
                  by_cases h : c1 m = c m
                  · exact hI.zero m (by omega)
                  · exact hns m h
                queue := fun m hm => by
                  rcases mem_pushNew.mp hm with h | ⟨h, h'⟩
                  · exact hI.queue m ((hmem m).mpr (Or.inr h))
                  · rw [hin0] at h; cases h
                cover := fun hr' m hm b hb => by
                  exfalso
                  have hne : c1 n ≠ c n := by omega
                  have hs := hns n hne
                  rcases hF.kept n with h | ⟨_, h, _⟩
                  · exact hne h
                  · simp only [Rule.takes, Bool.or_eq_true] at h
                    rcases h with h | h
                    · rw [hr' n h] at hs; cases hs
                    · rw [h] at hs; cases hs } hfuel
            refine ⟨c', ios', e1, e2, fun m hm => e3 m (hk m hm), fun m hm => ?_⟩
            rcases (hmem m).mp hm with rfl | hm
            · exact e3 _ hn1
            · exact e4 m (mem_pushNew.mpr (Or.inl hm))
          · rw [if_neg (by omega)]
            obtain ⟨c', ios', e1, e2, e3, e4⟩ := ih c1 (pushNew c1 rest io.inputs) (ios ++ [io])
              { bound := fun m => by
                  rw [List.length_append, List.length_singleton]
                  push_cast
                  rcases hF.kept m with h | ⟨_, _, _, h⟩
                  · have := hI.bound m; omega
                  · omega
                found := fun j io' hj => by
                  by_cases hjl : j < ios.length
                  · rw [List.getElem?_append_left hjl] at hj
                    exact hold j io' hj
                  · rw [List.getElem?_append_right (by omega)] at hj
                    have hj0 : j - ios.length = 0 := by
                      by_contra h
                      rw [List.getElem?_eq_none (by simp; omega)] at hj; cases hj
                    rw [hj0] at hj
                    have hio : io = io' := by simpa using hj
                    have hjj : j = ios.length := by omega
                    subst hio; subst hjj
                    exact ⟨h0, hfus⟩
                colored := hcol1
                pos := fun m hm => by
                  rcases hF.kept m with h | ⟨_, h, _⟩
                  · exact hI.pos m (by omega)
                  · exact h
                zero := fun m hm => by
                  rcases hF.kept m with h | ⟨_, _, _, h⟩
                  · exact hI.zero m (by omega)
                  · omega
                queue := fun m hm => by
                  rcases mem_pushNew.mp hm with h | ⟨h, h'⟩
                  · exact hI.queue m ((hmem m).mpr (Or.inr h))
                  · obtain ⟨_, a, _, ha⟩ := (hfus.inputs m).mp h
                    exact lt_trans (hg a m ha).1 (hg a m ha).2
                cover := fun hr' m hm b hb => by
                  by_cases hb0 : 0 ≤ c1 b
                  · exact Or.inl hb0
                  refine Or.inr (mem_pushNew.mpr ?_)
                  rcases hF.kept m with h | ⟨_, _, _, h⟩
                  · rcases hI.cover hr' m (by omega) b hb with h' | h'
                    · exact absurd (hk b h') hb0
                    · rcases (hmem b).mp h' with rfl | h'
                      · exact absurd hn1 hb0
                      · exact Or.inl h'
                  · refine Or.inr ⟨(hfus.inputs b).mpr ⟨fun h' => hb0 (by omega), m, by omega, hb⟩, by omega⟩ } hfuel
            refine ⟨c', ios', e1, e2, fun m hm => e3 m (hk m hm), fun m hm => ?_⟩
            rcases (hmem m).mp hm with rfl | hm
            · exact e3 _ hn1
            · exact e4 m (mem_pushNew.mpr (Or.inl hm))

end Verif.Compiler.Split
