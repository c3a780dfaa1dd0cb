import Mathlib.Tactic.Common
import Mathlib.Order.Basic
import Verif.Memory.Controller
/-!
# C111: a memory controller takes all memory of a device from one allocator

**Specification.** A history is any list of calls on any number of controllers. A call `Takes` a block for a controller and a device if it is an allocation
on them, or the first synchronisation to the device of a memory that the controller handed out. Of any two such calls in a history the blocks come from the
same allocator exactly if controller and device are the same and, unless the device is the controller's own, the device was not cleared in between.
-/
namespace Verif.Props.Ctl
open Verif.Memory.Ctl

variable {D α : Type} [DecidableEq D]

/-- **Specification**: the call `x` returns the new block `b`, of the device `d`, taken from controller `c` -/
def Takes (R : Registry D) (w : World D α) (x : Call D α) (c : Nat) (d : D) (b : Nat) : Prop :=
  (w.step R x).2 = some b ∧
    ((∃ junk, x = .alloc c d junk) ∨ ∃ m y, x = .sync m d ∧ w.mems[m]? = some y ∧ y.ctl = c ∧ d ∉ y.copies.map Prod.fst)

/-- **Specification**: `d` is the device controller `c` was made for -/
def Own (w : World D α) (c : Nat) (d : D) : Prop := ∃ k, w.ctls[c]? = some k ∧ k.own = d

/-! ## Which allocator serves a device -/

theorem find_append (m : List (D × Nat)) (d d' : D) (a : Nat) :
    find (m ++ [(d', a)]) d = (find m d).or (if d' = d then some a else none) := by
  unfold find
  rw [List.find?_append]
  cases h : m.find? (fun e => decide (e.1 = d)) with
  | some e => simp
  | none => by_cases h' : d' = d <;> simp [h']

theorem find_filter (m : List (D × Nat)) (d d' : D) :
    find (m.filter fun e => decide (e.1 ≠ d')) d = if d = d' then none else find m d := by
  unfold find
  induction m with
  | nil => simp
  | cons e m ih =>
    by_cases h1 : e.1 = d'
    · rw [List.filter_cons_of_neg (by simp [h1]), ih]
      by_cases h2 : d = d'
      · simp [h2]
      · rw [if_neg h2, if_neg h2, List.find?_cons_of_neg (by simp only [decide_eq_true_eq]; rw [h1]; exact fun e => h2 e.symm)]
    · rw [List.filter_cons_of_pos (by simp [h1])]
      by_cases h3 : e.1 = d
      · rw [List.find?_cons_of_pos (by simp [h3]), List.find?_cons_of_pos (by simp [h3]), if_neg (by rw [← h3]; exact h1)]
      · rw [List.find?_cons_of_neg (by simp [h3]), List.find?_cons_of_neg (by simp [h3]), ih]

theorem find_none (m : List (D × Nat)) (d : D) : find m d = none ↔ d ∉ m.map Prod.fst := by
  unfold find
  rw [Option.map_eq_none_iff, List.find?_eq_none]
  simp only [decide_eq_true_eq, List.mem_map, not_exists, not_and]

theorem find_some_mem {m : List (D × Nat)} {d : D} {a : Nat} (h : find m d = some a) : d ∈ m.map Prod.fst := by
  by_contra hc
  rw [(find_none m d).2 hc] at h
  cases h

/-- the allocator that `c` has for `d` -/
def served (w : World D α) (c : Nat) (d : D) : Option Nat := (w.ctls[c]?).bind fun k => find k.map d

/-- what a step may do to the allocators -/
structure Evo (w w' : World D α) : Prop where
  le : w.next ≤ w'.next
  at_ : ∀ c d, served w' c d = served w c d ∨ served w' c d = none ∨ (served w' c d = some w.next ∧ w.next < w'.next)
  one : ∀ c d c' d', served w' c d = some w.next → served w' c' d' = some w.next → c = c' ∧ d = d'
  own : ∀ c d, Own w c d → Own w' c d
  keep : ∀ c d, Own w c d → served w c d ≠ none → served w' c d = served w c d

structure Inv (w : World D α) : Prop where
  lt : ∀ c d a, served w c d = some a → a < w.next
  uniq : ∀ c d c' d' a, served w c d = some a → served w c' d' = some a → c = c' ∧ d = d'
  nodup : ∀ k ∈ w.ctls, (k.map.map Prod.fst).Nodup
  mine : ∀ c d, Own w c d → served w c d ≠ none

theorem Evo.same {w w' : World D α} (hi : Inv w) (h1 : w'.ctls = w.ctls) (h2 : w'.next = w.next) : Evo w w' := by
  have hs : ∀ c d, served w' c d = served w c d := fun c d => by unfold served; rw [h1]
  refine ⟨by omega, fun c d => .inl (hs c d), ?_, ?_, fun c d _ _ => hs c d⟩
  · intro c d c' d' h
    rw [hs] at h
    have := hi.lt c d _ h
    omega
  · rintro c d ⟨k, hk, rfl⟩
    exact ⟨k, by rw [h1]; exact hk, rfl⟩

theorem Inv.same {w w' : World D α} (hi : Inv w) (h1 : w'.ctls = w.ctls) (h2 : w'.next = w.next) : Inv w' := by
  have hs : ∀ c d, served w' c d = served w c d := fun c d => by unfold served; rw [h1]
  refine ⟨fun c d a h => by rw [h2]; exact hi.lt c d a (by rw [← hs]; exact h), fun c d c' d' a h h' => hi.uniq c d c' d' a (by rw [← hs]; exact h) (by rw [← hs]; exact h'), ?_, ?_⟩
  · rw [h1]; exact hi.nodup
  · rintro c d ⟨k, hk, rfl⟩
    rw [hs]
    exact hi.mine c _ ⟨k, by rw [← h1]; exact hk, rfl⟩

theorem Inv.evo {w w' : World D α} (hi : Inv w) (he : Evo w w') (hn : ∀ k ∈ w'.ctls, (k.map.map Prod.fst).Nodup)
    (hm : ∀ c d, Own w' c d → served w' c d ≠ none) : Inv w' := by
  refine ⟨?_, ?_, hn, hm⟩
  · intro c d a h
    rcases he.at_ c d with e | e | ⟨e, hlt⟩
    · have := hi.lt c d a (by rw [← e]; exact h)
      have := he.le
      omega
    · rw [e] at h; cases h
    · rw [e] at h; cases h; exact hlt
  · intro c d c' d' a h h'
    rcases he.at_ c d with e | e | ⟨e, hlt⟩
    · rcases he.at_ c' d' with e' | e' | ⟨e', -⟩
      · exact hi.uniq c d c' d' a (by rw [← e]; exact h) (by rw [← e']; exact h')
      · rw [e'] at h'; cases h'
      · rw [e'] at h'
        cases h'
        exact he.one c d c' d' h e'
    · rw [e] at h; cases h
    · rw [e] at h
      cases h
      exact he.one c d c' d' e h'

theorem make_ok (R : Registry D) {w : World D α} (hi : Inv w) (f : Bool) (d0 : D) : Evo w (w.make R f d0).1 ∧ Inv (w.make R f d0).1 := by
  unfold World.make
  split
  swap
  · exact ⟨.same hi rfl rfl, hi⟩
  have hs : ∀ c d, served ({ w with ctls := w.ctls ++ [⟨f, d0, [(d0, w.next)]⟩], next := w.next + 1 } : World D α) c d =
      if c = w.ctls.length then (if d0 = d then some w.next else none) else served w c d := by
    intro c d
    unfold served
    rw [List.getElem?_append]
    by_cases hc : c = w.ctls.length
    · subst hc
      by_cases hd : d0 = d <;> simp [find, hd]
    · rw [if_neg hc]
      split
      · rfl
      · rename_i hlt
        rw [List.getElem?_eq_none (l := w.ctls) (by omega), List.getElem?_eq_none (by simp; omega)]
  have hnone : ∀ d, served w w.ctls.length d = none := fun d => by unfold served; simp
  have hev : Evo w ({ w with ctls := w.ctls ++ [⟨f, d0, [(d0, w.next)]⟩], next := w.next + 1 } : World D α) := by
    refine ⟨by simp, ?_, ?_, ?_, ?_⟩
    · intro c d
      rw [hs]
      split
      · split
        · exact .inr (.inr ⟨rfl, by simp⟩)
        · exact .inr (.inl rfl)
      · exact .inl rfl
    · intro c d c' d' h h'
      rw [hs] at h h'
      split at h
      · split at h
        · split at h'
          · split at h'
            · simp_all
            · cases h'
          · have := hi.lt _ _ _ h'
            omega
        · cases h
      · have := hi.lt _ _ _ h
        omega
    · rintro c d ⟨k, hk, rfl⟩
      exact ⟨k, by rw [List.getElem?_append_left (List.getElem?_eq_some_iff.1 hk).1]; exact hk, rfl⟩
    · intro c d ⟨k, hk, _⟩ _
      have := (List.getElem?_eq_some_iff.1 hk).1
      rw [hs, if_neg (by omega)]
  refine ⟨hev, hi.evo hev ?_ ?_⟩
  · intro k hk
    rcases List.mem_append.1 hk with h | h
    · exact hi.nodup k h
    · simp only [List.mem_singleton] at h
      subst h
      simp
  · rintro c d ⟨k, hk, rfl⟩
    rw [hs]
    split
    · rename_i hc
      subst hc
      simp at hk
      subst hk
      simp
    · rename_i hc
      refine hi.mine c k.own ⟨k, ?_, rfl⟩
      rw [List.getElem?_append] at hk
      split at hk
      · exact hk
      · have : 0 < c - w.ctls.length := by omega
        rw [List.getElem?_eq_none (by simp; omega)] at hk
        cases hk

theorem served_set {w : World D α} {c0 : Nat} {k0 k : Ctl D} (h : w.ctls[c0]? = some k0) (n : Nat) (c : Nat) (d : D) :
    served ({ w with ctls := w.ctls.set c0 k, next := n } : World D α) c d = if c = c0 then find k.map d else served w c d := by
  have := (List.getElem?_eq_some_iff.1 h).1
  unfold served
  rw [List.getElem?_set]
  by_cases hc : c = c0
  · subst hc
    simp [this]
  · rw [if_neg (fun e => hc e.symm), if_neg hc]

omit [DecidableEq D] in
theorem own_set {w : World D α} {c0 : Nat} {k0 k : Ctl D} (h : w.ctls[c0]? = some k0) (ho : k.own = k0.own) (n : Nat) (c : Nat) (d : D) :
    Own ({ w with ctls := w.ctls.set c0 k, next := n } : World D α) c d ↔ Own w c d := by
  have := (List.getElem?_eq_some_iff.1 h).1
  unfold Own
  rw [List.getElem?_set]
  by_cases hc : c0 = c
  · subst hc
    rw [if_pos rfl, if_pos this, h]
    simp [ho]
  · simp [hc]

/-- the allocator that a controller uses: it stays, and all others stay -/
theorem serve_ok (R : Registry D) {w : World D α} (hi : Inv w) (c0 : Nat) (d0 : D) :
    Evo w (w.serve R c0 d0).1 ∧ Inv (w.serve R c0 d0).1 ∧ (w.serve R c0 d0).1.blocks = w.blocks ∧ (w.serve R c0 d0).1.mems = w.mems ∧
      (∀ c d, served w c d ≠ none → served (w.serve R c0 d0).1 c d = served w c d) ∧
      ∀ a, (w.serve R c0 d0).2 = some a → served (w.serve R c0 d0).1 c0 d0 = some a := by
  unfold World.serve
  split
  · exact ⟨.same hi rfl rfl, hi, rfl, rfl, fun _ _ _ => rfl, fun _ h => by cases h⟩
  rename_i k hk
  split
  · rename_i a ha
    refine ⟨.same hi rfl rfl, hi, rfl, rfl, fun _ _ _ => rfl, fun a' h => ?_⟩
    cases h
    simp [served, hk, ha]
  rename_i ha
  split
  swap
  · exact ⟨.same hi rfl rfl, hi, rfl, rfl, fun _ _ _ => rfl, fun _ h => by cases h⟩
  have hs : ∀ c d, served ({ w with ctls := w.ctls.set c0 ⟨k.flow, k.own, k.map ++ [(d0, w.next)]⟩, next := w.next + 1 } : World D α) c d =
      if c = c0 ∧ d0 = d then some w.next else served w c d := by
    intro c d
    rw [served_set hk]
    by_cases hc : c = c0
    · subst hc
      rw [if_pos rfl]
      show find (k.map ++ [(d0, w.next)]) d = _
      rw [find_append]
      have e : served w c d = find k.map d := by simp [served, hk]
      rw [e]
      by_cases hd : d0 = d
      · subst hd
        simp [ha]
      · simp [hd]
    · simp [hc]
  have hnone : served w c0 d0 = none := by simp [served, hk, ha]
  have hown := own_set (w := w) hk (k := ⟨k.flow, k.own, k.map ++ [(d0, w.next)]⟩) rfl (w.next + 1)
  have hkeep : ∀ c d, served w c d ≠ none →
      served ({ w with ctls := w.ctls.set c0 ⟨k.flow, k.own, k.map ++ [(d0, w.next)]⟩, next := w.next + 1 } : World D α) c d = served w c d := by
    intro c d h
    rw [hs, if_neg]
    rintro ⟨rfl, rfl⟩
    exact h hnone
  have hev : Evo w ({ w with ctls := w.ctls.set c0 ⟨k.flow, k.own, k.map ++ [(d0, w.next)]⟩, next := w.next + 1 } : World D α) := by
    refine ⟨by simp, ?_, ?_, fun c d h => (hown c d).2 h, fun c d _ h => hkeep c d h⟩
    · intro c d
      rw [hs]
      split
      · exact .inr (.inr ⟨rfl, by simp⟩)
      · exact .inl rfl
    · intro c d c' d' h h'
      rw [hs] at h h'
      split at h
      · split at h'
        · simp_all
        · have := hi.lt _ _ _ h'
          omega
      · have := hi.lt _ _ _ h
        omega
  refine ⟨hev, hi.evo hev ?_ ?_, rfl, rfl, hkeep, ?_⟩
  · intro q hq
    rcases List.mem_or_eq_of_mem_set hq with h | rfl
    · exact hi.nodup q h
    · rw [List.map_append, List.nodup_append]
      refine ⟨hi.nodup k (List.mem_of_getElem? hk), by simp, ?_⟩
      intro a h1 b h2
      simp only [List.map_cons, List.map_nil, List.mem_singleton] at h2
      subst h2
      intro e
      subst e
      exact (find_none _ _).1 ha h1
  · intro c d h
    rw [hkeep c d (hi.mine c d ((hown c d).1 h))]
    exact hi.mine c d ((hown c d).1 h)
  · intro a h
    cases h
    rw [hs, if_pos ⟨rfl, rfl⟩]

theorem clear_ok {w : World D α} (hi : Inv w) (c0 : Nat) (d0 : D) :
    Evo w (w.clear c0 d0).1 ∧ Inv (w.clear c0 d0).1 ∧ (∀ c d, (c, d) ≠ (c0, d0) → served (w.clear c0 d0).1 c d = served w c d) ∧
      (Own w c0 d0 ∨ served (w.clear c0 d0).1 c0 d0 = none) := by
  unfold World.clear
  split
  · rename_i hc
    exact ⟨.same hi rfl rfl, hi, fun _ _ _ => rfl, .inr (by simp [served, hc])⟩
  rename_i k hk
  split
  · rename_i hd
    exact ⟨.same hi rfl rfl, hi, fun _ _ _ => rfl, .inl ⟨k, hk, hd.symm⟩⟩
  rename_i hd
  have hs : ∀ c d, served ({ w with ctls := w.ctls.set c0 ⟨k.flow, k.own, k.map.filter fun e => decide (e.1 ≠ d0)⟩ } : World D α) c d =
      if c = c0 ∧ d = d0 then none else served w c d := by
    intro c d
    rw [show ({ w with ctls := w.ctls.set c0 ⟨k.flow, k.own, k.map.filter fun e => decide (e.1 ≠ d0)⟩ } : World D α) =
      { w with ctls := w.ctls.set c0 ⟨k.flow, k.own, k.map.filter fun e => decide (e.1 ≠ d0)⟩, next := w.next } from rfl, served_set hk]
    by_cases hc : c = c0
    · subst hc
      rw [if_pos rfl]
      show find (k.map.filter _) d = _
      rw [find_filter]
      have e : served w c d = find k.map d := by simp [served, hk]
      rw [e]
      simp
    · simp [hc]
  have hnown : ¬ Own w c0 d0 := by
    rintro ⟨q, hq, rfl⟩
    rw [hk] at hq
    cases hq
    exact hd rfl
  have hkeep : ∀ c d, Own w c d → served w c d ≠ none →
      served ({ w with ctls := w.ctls.set c0 ⟨k.flow, k.own, k.map.filter fun e => decide (e.1 ≠ d0)⟩ } : World D α) c d = served w c d := by
    intro c d ho _
    rw [hs, if_neg]
    rintro ⟨rfl, rfl⟩
    exact hnown ho
  have hown := own_set (w := w) hk (k := ⟨k.flow, k.own, k.map.filter fun e => decide (e.1 ≠ d0)⟩) rfl w.next
  have hev : Evo w ({ w with ctls := w.ctls.set c0 ⟨k.flow, k.own, k.map.filter fun e => decide (e.1 ≠ d0)⟩ } : World D α) := by
    refine ⟨by simp, ?_, ?_, fun c d h => (hown c d).2 h, hkeep⟩
    · intro c d
      rw [hs]
      split
      · exact .inr (.inl rfl)
      · exact .inl rfl
    · intro c d c' d' h
      rw [hs] at h
      split at h
      · cases h
      · have := hi.lt _ _ _ h
        omega
  refine ⟨hev, hi.evo hev ?_ ?_, ?_, .inr (by rw [hs, if_pos ⟨rfl, rfl⟩])⟩
  · intro q hq
    rcases List.mem_or_eq_of_mem_set hq with h | rfl
    · exact hi.nodup q h
    · exact (hi.nodup k (List.mem_of_getElem? hk)).sublist (List.Sublist.map _ List.filter_sublist)
  · intro c d h
    have ho := (hown c d).1 h
    rw [hkeep c d ho (hi.mine c d ho)]
    exact hi.mine c d ho
  · intro c d h
    rw [hs, if_neg]
    rintro ⟨rfl, rfl⟩
    exact h rfl

theorem Evo.blocks {w w' w'' : World D α} (h : Evo w w') (h1 : w''.ctls = w'.ctls) (h2 : w''.next = w'.next) : Evo w w'' := by
  have hs : ∀ c d, served w'' c d = served w' c d := fun c d => by unfold served; rw [h1]
  refine ⟨by rw [h2]; exact h.le, ?_, ?_, ?_, ?_⟩
  · intro c d; rw [hs, h2]; exact h.at_ c d
  · intro c d c' d'; rw [hs, hs]; exact h.one c d c' d'
  · intro c d ho
    obtain ⟨k, hk, e⟩ := h.own c d ho
    exact ⟨k, by rw [h1]; exact hk, e⟩
  · intro c d; rw [hs]; exact h.keep c d

/-- what one call does to the allocators -/
theorem step_ok (R : Registry D) {w : World D α} (hi : Inv w) (x : Call D α) :
    Evo w (w.step R x).1 ∧ Inv (w.step R x).1 ∧
      (∀ c d, served w c d ≠ none → x ≠ .clear c d → served (w.step R x).1 c d = served w c d) := by
  cases x with
  | make f d =>
    obtain ⟨h1, h2⟩ := make_ok R hi f d
    refine ⟨h1, h2, fun c d' h _ => ?_⟩
    show served (w.make R f d).1 c d' = _
    unfold World.make
    split
    · unfold served at h ⊢
      cases hk : w.ctls[c]? with
      | none => rw [hk] at h; exact absurd rfl h
      | some k => rw [List.getElem?_append_left (List.getElem?_eq_some_iff.1 hk).1, hk]
    · rfl
  | clone c0 =>
    simp only [World.step, World.clone]
    split
    · exact ⟨.same hi rfl rfl, hi, fun _ _ _ _ => rfl⟩
    · rename_i k hk
      obtain ⟨h1, h2⟩ := make_ok R hi k.flow k.own
      refine ⟨h1, h2, fun c d' h _ => ?_⟩
      unfold World.make
      split
      · unfold served at h ⊢
        cases hk : w.ctls[c]? with
        | none => rw [hk] at h; exact absurd rfl h
        | some k => rw [List.getElem?_append_left (List.getElem?_eq_some_iff.1 hk).1, hk]
      · rfl
  | clear c0 d0 =>
    obtain ⟨h1, h2, h3, -⟩ := clear_ok hi c0 d0
    refine ⟨h1, h2, fun c d _ hne => h3 c d ?_⟩
    rintro h
    cases h
    exact hne rfl
  | alloc c0 d0 junk =>
    obtain ⟨h1, h2, -, -, h3, -⟩ := serve_ok R hi c0 d0
    simp only [World.step, World.alloc]
    split
    · rename_i w1 hw
      rw [hw] at h1 h2 h3
      exact ⟨h1, h2, fun c d h _ => h3 c d h⟩
    · rename_i w1 a hw
      rw [hw] at h1 h2 h3
      split
      · exact ⟨h1.blocks rfl rfl, h2.same rfl rfl, fun c d h _ => h3 c d h⟩
      · exact ⟨h1, h2, fun c d h _ => h3 c d h⟩
  | sync m d0 =>
    simp only [World.step, World.sync]
    split
    · exact ⟨.same hi rfl rfl, hi, fun _ _ _ _ => rfl⟩
    rename_i y hy
    split
    · exact ⟨.same hi rfl rfl, hi, fun _ _ _ _ => rfl⟩
    obtain ⟨h1, h2, -, -, h3, -⟩ := serve_ok R hi y.ctl d0
    split
    · rename_i w1 hw
      rw [hw] at h1 h2 h3
      exact ⟨h1, h2, fun c d h _ => h3 c d h⟩
    · rename_i w1 a hw
      rw [hw] at h1 h2 h3
      split
      · exact ⟨h1, h2, fun c d h _ => h3 c d h⟩
      · split
        · exact ⟨h1.blocks rfl rfl, h2.same rfl rfl, fun c d h _ => h3 c d h⟩
        · exact ⟨h1, h2, fun c d h _ => h3 c d h⟩
  | write b bytes =>
    simp only [World.step, World.write]
    split
    · exact ⟨.same hi rfl rfl, hi, fun _ _ _ _ => rfl⟩
    · exact ⟨.same hi rfl rfl, hi.same rfl rfl, fun _ _ _ _ => rfl⟩

theorem inv_empty : Inv (World.empty : World D α) := by
  refine ⟨?_, ?_, ?_, ?_⟩
  · intro c d a h; simp [served, World.empty] at h
  · intro c d c' d' a h; simp [served, World.empty] at h
  · intro k hk; simp [World.empty] at hk
  · rintro c d ⟨k, hk, -⟩; simp [World.empty] at hk

theorem run_append (R : Registry D) (w : World D α) (h1 h2 : List (Call D α)) : w.run R (h1 ++ h2) = (w.run R h1).run R h2 := by
  induction h1 generalizing w with
  | nil => rfl
  | cons x t ih => exact ih _

theorem run_inv (R : Registry D) {w : World D α} (hi : Inv w) (h : List (Call D α)) : Inv (w.run R h) := by
  induction h generalizing w with
  | nil => exact hi
  | cons x t ih => exact ih (step_ok R hi x).2.1

/-- the allocator `a` is used for nothing but `c` and `d` from now on -/
def Held (a c : Nat) (d : D) (w : World D α) : Prop := a < w.next ∧ ∀ c' d', served w c' d' = some a → c' = c ∧ d' = d

theorem held_evo {a c : Nat} {d : D} {w w' : World D α} (h : Held a c d w) (he : Evo w w') : Held a c d w' := by
  refine ⟨Nat.lt_of_lt_of_le h.1 he.le, fun c' d' hs => ?_⟩
  rcases he.at_ c' d' with e | e | ⟨e, -⟩
  · exact h.2 c' d' (by rw [← e]; exact hs)
  · rw [e] at hs; cases hs
  · rw [e] at hs
    cases hs
    exact absurd h.1 (Nat.lt_irrefl _)

/-- the allocator `a` is used for nothing any more -/
def Dead (a : Nat) (w : World D α) : Prop := a < w.next ∧ ∀ c d, served w c d ≠ some a

theorem dead_evo {a : Nat} {w w' : World D α} (h : Dead a w) (he : Evo w w') : Dead a w' := by
  refine ⟨Nat.lt_of_lt_of_le h.1 he.le, fun c d hs => ?_⟩
  rcases he.at_ c d with e | e | ⟨e, -⟩
  · exact h.2 c d (by rw [← e]; exact hs)
  · rw [e] at hs; cases hs
  · rw [e] at hs
    cases hs
    exact absurd h.1 (Nat.lt_irrefl _)

theorem held_run (R : Registry D) {a c : Nat} {d : D} {w : World D α} (hi : Inv w) (h : Held a c d w) (t : List (Call D α)) : Held a c d (w.run R t) := by
  induction t generalizing w with
  | nil => exact h
  | cons x t ih => exact ih (step_ok R hi x).2.1 (held_evo h (step_ok R hi x).1)

theorem dead_run (R : Registry D) {a : Nat} {w : World D α} (hi : Inv w) (h : Dead a w) (t : List (Call D α)) : Dead a (w.run R t) := by
  induction t generalizing w with
  | nil => exact h
  | cons x t ih => exact ih (step_ok R hi x).2.1 (dead_evo h (step_ok R hi x).1)

theorem own_run (R : Registry D) {c : Nat} {d : D} {w : World D α} (hi : Inv w) (h : Own w c d) (t : List (Call D α)) : Own (w.run R t) c d := by
  induction t generalizing w with
  | nil => exact h
  | cons x t ih => exact ih (step_ok R hi x).2.1 ((step_ok R hi x).1.own c d h)

/-- an allocator stays with its device unless the device is cleared -/
theorem served_run (R : Registry D) {c : Nat} {d : D} {w : World D α} (hi : Inv w) (h : served w c d ≠ none) (t : List (Call D α))
    (hc : Own w c d ∨ (.clear c d : Call D α) ∉ t) : served (w.run R t) c d = served w c d := by
  induction t generalizing w with
  | nil => rfl
  | cons x t ih =>
    obtain ⟨h1, h2, h3⟩ := step_ok R hi x
    have e : served (w.step R x).1 c d = served w c d := by
      rcases hc with ho | hc
      · exact h1.keep c d ho h
      · exact h3 c d h (fun e => hc (by rw [e]; simp))
    have := ih h2 (by rw [e]; exact h) (by
      rcases hc with ho | hc
      · exact .inl (h1.own c d ho)
      · exact .inr (fun hm => hc (List.mem_cons_of_mem _ hm)))
    rw [← e]
    exact this

/-- the block that a call takes -/
theorem takes_block (R : Registry D) {w : World D α} (hi : Inv w) {x : Call D α} {c b : Nat} {d : D} (h : Takes R w x c d b) :
    b = w.blocks.length ∧ ∃ B, (w.step R x).1.blocks = w.blocks ++ [B] ∧ B.dev = d ∧ served (w.step R x).1 c d = some B.alloc ∧ R.allocates d = true := by
  obtain ⟨hb, ⟨junk, rfl⟩ | ⟨m, y, rfl, hy, rfl, hd⟩⟩ := h
  · obtain ⟨-, -, h1, -, -, h2⟩ := serve_ok R hi c d
    simp only [World.step, World.alloc] at hb ⊢
    split at hb
    · cases hb
    · rename_i w1 a hw
      rw [hw] at h1 h2
      split at hb
      · rename_i hal
        simp only [Option.some.injEq] at hb
        simp only at h1
        refine ⟨by rw [← hb, h1], _, by rw [if_pos hal, h1], rfl, ?_, hal⟩
        rw [if_pos hal]
        exact h2 a rfl
      · cases hb
  · simp only [World.step, World.sync, hy] at hb ⊢
    have hn := (find_none y.copies d).2 hd
    simp only [hn] at hb ⊢
    obtain ⟨-, -, h1, -, -, h2⟩ := serve_ok R hi y.ctl d
    split at hb
    · cases hb
    · rename_i w1 a hw
      rw [hw] at h1 h2
      split at hb
      · cases hb
      · rename_i src hsrc
        split at hb
        · rename_i hal
          simp only [Option.some.injEq] at hb
          simp only at h1
          simp only [if_pos hal]
          refine ⟨by rw [← hb, h1], ⟨d, a, src.bytes⟩, by rw [h1], rfl, ?_, hal.1⟩
          exact h2 a rfl
        · cases hb

/-- where a block is and where it came from never changes -/
theorem step_blocks (R : Registry D) {w : World D α} (hi : Inv w) (x : Call D α) (b : Nat) (B : Block D α) (h : w.blocks[b]? = some B) :
    ∃ B', (w.step R x).1.blocks[b]? = some B' ∧ B'.dev = B.dev ∧ B'.alloc = B.alloc ∧ ((∀ y, x ≠ .write b y) → B'.bytes = B.bytes) := by
  have hl := (List.getElem?_eq_some_iff.1 h).1
  have same : ∀ w' : World D α, w'.blocks = w.blocks → ∃ B', w'.blocks[b]? = some B' ∧ B'.dev = B.dev ∧ B'.alloc = B.alloc ∧ ((∀ y, x ≠ .write b y) → B'.bytes = B.bytes) :=
    fun w' e => ⟨B, by rw [e]; exact h, rfl, rfl, fun _ => rfl⟩
  have more : ∀ (w' : World D α) B1, w'.blocks = w.blocks ++ [B1] →
      ∃ B', w'.blocks[b]? = some B' ∧ B'.dev = B.dev ∧ B'.alloc = B.alloc ∧ ((∀ y, x ≠ .write b y) → B'.bytes = B.bytes) :=
    fun w' B1 e => ⟨B, by rw [e, List.getElem?_append_left hl]; exact h, rfl, rfl, fun _ => rfl⟩
  cases x with
  | make f d =>
    simp only [World.step, World.make]
    split <;> exact same _ rfl
  | clone c0 =>
    simp only [World.step, World.clone]
    split
    · exact same _ rfl
    · simp only [World.make]
      split <;> exact same _ rfl
  | clear c0 d0 =>
    simp only [World.step, World.clear]
    split
    · exact same _ rfl
    · split <;> exact same _ rfl
  | alloc c0 d0 junk =>
    obtain ⟨-, -, h1, -, -, -⟩ := serve_ok R hi c0 d0
    simp only [World.step, World.alloc]
    split
    · rename_i w1 hw
      rw [hw] at h1
      exact same _ h1
    · rename_i w1 a hw
      rw [hw] at h1
      simp only at h1
      split
      · exact more _ _ (by rw [h1])
      · exact same _ h1
  | sync m d0 =>
    simp only [World.step, World.sync]
    split
    · exact same _ rfl
    rename_i y hy
    split
    · exact same _ rfl
    obtain ⟨-, -, h1, -, -, -⟩ := serve_ok R hi y.ctl d0
    split
    · rename_i w1 hw
      rw [hw] at h1
      exact same _ h1
    · rename_i w1 a hw
      rw [hw] at h1
      simp only at h1
      split
      · exact same _ h1
      · split
        · exact more _ _ (by rw [h1])
        · exact same _ h1
  | write b0 bytes =>
    simp only [World.step, World.write]
    split
    · exact same _ rfl
    · rename_i X hX
      by_cases hb : b0 = b
      · subst hb
        rw [h] at hX
        cases hX
        exact ⟨⟨B.dev, B.alloc, bytes⟩, by simp [hl], rfl, rfl, fun hne => absurd rfl (hne bytes)⟩
      · exact ⟨B, by simp only; rw [List.getElem?_set_ne hb]; exact h, rfl, rfl, fun _ => rfl⟩

theorem run_blocks (R : Registry D) {w : World D α} (hi : Inv w) (t : List (Call D α)) (b : Nat) (B : Block D α) (h : w.blocks[b]? = some B) :
    ∃ B', (w.run R t).blocks[b]? = some B' ∧ B'.dev = B.dev ∧ B'.alloc = B.alloc ∧ ((∀ y, (.write b y : Call D α) ∉ t) → B'.bytes = B.bytes) := by
  induction t generalizing w B with
  | nil => exact ⟨B, h, rfl, rfl, fun _ => rfl⟩
  | cons x t ih =>
    obtain ⟨B1, e1, e2, e3, e4⟩ := step_blocks R hi x b B h
    obtain ⟨B2, f1, f2, f3, f4⟩ := ih (step_ok R hi x).2.1 B1 e1
    refine ⟨B2, f1, by rw [f2, e2], by rw [f3, e3], fun hw => ?_⟩
    rw [f4 (fun y hm => hw y (List.mem_cons_of_mem _ hm)), e4 (fun y e => hw y (by rw [e]; simp))]

/-! ## The properties -/

/-- **C111.** In every history, the blocks of two calls that take one come from the same allocator exactly if they were taken from the same controller for
the same device, and the device is the controller's own or was not cleared in between. -/
theorem C111_one_allocator (R : Registry D) (h1 h2 h3 : List (Call D α)) (x y : Call D α) (c c' b b' : Nat) (d d' : D) (B B' : Block D α)
    (hx : Takes R ((World.empty : World D α).run R h1) x c d b)
    (hy : Takes R ((World.empty : World D α).run R (h1 ++ x :: h2)) y c' d' b')
    (hB : ((World.empty : World D α).run R (h1 ++ x :: h2 ++ y :: h3)).blocks[b]? = some B)
    (hB' : ((World.empty : World D α).run R (h1 ++ x :: h2 ++ y :: h3)).blocks[b']? = some B') :
    B.alloc = B'.alloc ↔ c = c' ∧ d = d' ∧ (Own ((World.empty : World D α).run R (h1 ++ [x])) c d ∨ (.clear c d : Call D α) ∉ h2) := by
  have i1 : Inv ((World.empty : World D α).run R h1) := run_inv R inv_empty h1
  rw [run_append] at hy
  rw [run_append, run_append] at hB hB'
  rw [run_append]
  simp only [World.run] at hy hB hB' ⊢
  generalize (World.empty : World D α).run R h1 = w1 at *
  obtain ⟨rfl, X, ex, -, hxs, -⟩ := takes_block R i1 hx
  obtain ⟨evx, i2, -⟩ := step_ok R i1 x
  have hX : (w1.step R x).1.blocks[w1.blocks.length]? = some X := by rw [ex]; simp
  generalize (w1.step R x).1 = w2 at *
  have i3 := run_inv R i2 h2
  obtain ⟨rfl, Y, ey, -, hys, -⟩ := takes_block R i3 hy
  obtain ⟨evy, i4, hky⟩ := step_ok R i3 y
  have hY : ((w2.run R h2).step R y).1.blocks[(w2.run R h2).blocks.length]? = some Y := by rw [ey]; simp
  obtain ⟨B1, q1, -, q2, -⟩ := run_blocks R i4 h3 _ Y hY
  rw [hB'] at q1
  cases q1
  obtain ⟨B2, q3, -, q4, -⟩ := run_blocks R i2 h2 _ X hX
  obtain ⟨B3, q5, -, q6, -⟩ := run_blocks R i3 (y :: h3) _ B2 q3
  simp only [World.run] at q5
  rw [hB] at q5
  cases q5
  rw [q6, q4, q2]
  have hnc : ∀ c d, y ≠ .clear c d := by
    intro c d e
    subst e
    rcases hy.2 with ⟨_, e⟩ | ⟨_, _, e, -⟩ <;> cases e
  have held : Held X.alloc c d w2 := ⟨i2.lt _ _ _ hxs, fun c' d' h => i2.uniq _ _ _ _ _ h hxs⟩
  constructor
  · intro e
    rw [← e] at hys
    obtain ⟨rfl, rfl⟩ := (held_evo (held_run R i2 held h2) evy).2 c' d' hys
    refine ⟨rfl, rfl, ?_⟩
    by_contra hcon
    rw [not_or, not_not] at hcon
    obtain ⟨hno, hmem⟩ := hcon
    obtain ⟨p, q, hpq⟩ := List.append_of_mem hmem
    have hrun : w2.run R h2 = (((w2.run R p).step R (.clear c' d')).1).run R q := by
      rw [hpq, run_append]; rfl
    have ip := run_inv R i2 p
    have hp := held_run R i2 held p
    obtain ⟨evc, ic, -⟩ := step_ok R ip (.clear c' d')
    have hdead : Dead X.alloc ((w2.run R p).step R (.clear c' d')).1 := by
      refine ⟨Nat.lt_of_lt_of_le hp.1 evc.le, fun c d hs => ?_⟩
      obtain ⟨rfl, rfl⟩ := (held_evo hp evc).2 c d hs
      rcases (clear_ok ip c d).2.2.2 with ho | hnone
      · refine hno ?_
        -- the own device of a controller is fixed from the start
        obtain ⟨k, hk, hkd⟩ := ho
        have : ∃ k2, w2.ctls[c]? = some k2 := by
          cases h : w2.ctls[c]? with
          | none => simp [served, h] at hxs
          | some k2 => exact ⟨k2, rfl⟩
        obtain ⟨k2, hk2⟩ := this
        obtain ⟨k3, hk3, e3⟩ := own_run R i2 (c := c) (d := k2.own) ⟨k2, hk2, rfl⟩ p
        rw [hk] at hk3
        cases hk3
        exact ⟨k2, hk2, by rw [← hkd, e3]⟩
      · have hs' : served ((w2.run R p).clear c d).1 c d = some X.alloc := hs
        rw [hnone] at hs'
        cases hs'
    have := dead_evo (dead_run R ic hdead q) (by rw [← hrun]; exact evy)
    exact this.2 _ _ (by simpa using hys)
  · rintro ⟨rfl, rfl, hc⟩
    have hne : served w2 c d ≠ none := by rw [hxs]; simp
    have e1 := served_run R i2 hne h2 hc
    have e2 := hky c d (by rw [e1]; exact hne) (hnc c d)
    rw [e2, e1, hxs] at hys
    exact Option.some.inj hys

/-- a registry that knows every device, and every conversion -/
def all : Registry Nat := ⟨fun _ => true, fun _ _ => true⟩

/-- device 0: made; memory for device 1; its copy on device 0; device 1 cleared; memory for device 1 again -/
def story : List (Call Nat Nat) := [.make false 0, .alloc 0 1 [7, 8], .sync 0 0, .clear 0 1]

/-- Before and after the clear: two allocators. -/
example : ∃ B B' : Block Nat Nat, (World.empty.run all (story ++ [.alloc 0 1 [9]])).blocks[0]? = some B ∧
    (World.empty.run all (story ++ [.alloc 0 1 [9]])).blocks[2]? = some B' ∧ B.alloc ≠ B'.alloc := by
  refine ⟨_, _, rfl, rfl, fun h => ?_⟩
  have := (C111_one_allocator all [.make false 0] [.sync 0 0, .clear 0 1] [] (.alloc 0 1 [7, 8]) (.alloc 0 1 [9]) 0 0 0 2 1 1 _ _
    ⟨rfl, .inl ⟨_, rfl⟩⟩ ⟨rfl, .inl ⟨_, rfl⟩⟩ rfl rfl).1 h
  rcases this.2.2 with ⟨k, hk, ho⟩ | h
  · cases hk
    cases ho
  · exact h (by simp)

/-- The copy on device 0 comes from the allocator that was made with the controller. -/
example : ((World.empty.run all story).blocks.map Block.alloc, (World.empty.run all story).blocks.map Block.bytes) = ([1, 0], [[7, 8], [7, 8]]) := by decide

/-- **C111, the block.** A block that is taken is new, of the device asked for, and that device has a registered allocator; an allocation holds what was
asked for, a synchronisation what the block of the memory's own device holds at that moment; no call before or after changes where a block is, and only
writing to it changes its bytes. -/
theorem C111_block (R : Registry D) (h1 h2 : List (Call D α)) (x : Call D α) (c b : Nat) (d : D)
    (hx : Takes R ((World.empty : World D α).run R h1) x c d b) :
    b = ((World.empty : World D α).run R h1).blocks.length ∧ R.allocates d = true ∧
      ∃ B, ((World.empty : World D α).run R (h1 ++ x :: h2)).blocks[b]? = some B ∧ B.dev = d ∧
        ((∀ y, (.write b y : Call D α) ∉ h2) →
          (∀ junk, x = .alloc c d junk → B.bytes = junk) ∧
          ∀ m y, x = .sync m d → ((World.empty : World D α).run R h1).mems[m]? = some y →
            ∃ b0 S, find y.copies y.dev = some b0 ∧ ((World.empty : World D α).run R h1).blocks[b0]? = some S ∧ B.bytes = S.bytes) := by
  have i1 : Inv ((World.empty : World D α).run R h1) := run_inv R inv_empty h1
  rw [run_append]
  simp only [World.run]
  generalize (World.empty : World D α).run R h1 = w1 at *
  obtain ⟨rfl, X, ex, hd, hxs, hal⟩ := takes_block R i1 hx
  have i2 := (step_ok R i1 x).2.1
  have hX : (w1.step R x).1.blocks[w1.blocks.length]? = some X := by rw [ex]; simp
  obtain ⟨B, q1, q2, -, q4⟩ := run_blocks R i2 h2 _ X hX
  refine ⟨rfl, hal, B, q1, by rw [q2, hd], fun hw => ⟨?_, ?_⟩⟩
  · rintro junk rfl
    rw [q4 hw]
    simp only [World.step, World.alloc] at ex
    obtain ⟨-, -, e1, -, -, -⟩ := serve_ok R i1 c d
    split at ex
    · rename_i w2 hw2
      rw [hw2] at e1
      simp only at e1
      rw [e1] at ex
      simp at ex
    · rename_i w2 a hw2
      rw [hw2] at e1
      simp only at e1
      rw [if_pos hal] at ex
      simp only [e1, List.append_cancel_left_eq, List.cons.injEq, and_true] at ex
      rw [← ex]
  · rintro m y rfl hy
    obtain ⟨hb, ⟨junk, hj⟩ | ⟨m', y', hj, hy', rfl, hdn⟩⟩ := hx
    · cases hj
    cases hj
    rw [hy] at hy'
    cases hy'
    rw [q4 hw]
    have hn := (find_none y.copies d).2 hdn
    obtain ⟨-, -, e1, -, -, -⟩ := serve_ok R i1 y.ctl d
    simp only [World.step, World.sync, hy, hn] at ex hb
    split at hb
    · cases hb
    · rename_i w2 a hw2
      rw [hw2] at e1
      simp only at e1
      split at hb
      · cases hb
      · rename_i src hsrc
        split at hb
        · rename_i hcv
          simp only [hw2, hsrc, if_pos hcv] at ex
          simp only [e1, List.append_cancel_left_eq, List.cons.injEq, and_true] at ex
          obtain ⟨b0, hb0, hS⟩ := Option.bind_eq_some_iff.1 hsrc
          exact ⟨b0, src, hb0, by rw [← e1]; exact hS, by rw [← ex]⟩
        · cases hb

/-- **C111, synchronising again.** Once a memory has a block on a device, synchronising to it returns that block and makes nothing. -/
theorem C111_sync_again (R : Registry D) (w : World D α) (hi : Inv w) (m c b : Nat) (d : D) (h : Takes R w (.sync m d) c d b) :
    (w.step R (.sync m d)).1.step R (.sync m d) = ((w.step R (.sync m d)).1, some b) := by
  obtain ⟨hb, ⟨junk, hj⟩ | ⟨m', y, hj, hy, rfl, hdn⟩⟩ := h
  · cases hj
  cases hj
  have hn := (find_none y.copies d).2 hdn
  obtain ⟨-, -, -, e2, -, -⟩ := serve_ok R hi y.ctl d
  have hl := (List.getElem?_eq_some_iff.1 hy).1
  simp only [World.step, World.sync, hy, hn] at hb ⊢
  split at hb
  · cases hb
  · rename_i w2 a hw2
    rw [hw2] at e2
    simp only at e2
    split at hb
    · cases hb
    · rename_i src hsrc
      split at hb
      · rename_i hcv
        simp only [hsrc, if_pos hcv]
        rw [List.getElem?_set_self (by rw [e2]; exact hl)]
        simp only [find_append, hn, if_true, Option.none_or]
        exact congrArg _ hb
      · cases hb

/-- **C111, `summary`.** It names every device at most once; after a block was taken for a device it names it until the device is cleared; the own device is
always named; and right after clearing another device it does not name that one. -/
theorem C111_summary (R : Registry D) (h1 h2 : List (Call D α)) (x : Call D α) (c : Nat) (d : D) :
    (((World.empty : World D α).run R h1).summary c).Nodup ∧
    (∀ b, Takes R ((World.empty : World D α).run R h1) x c d b → (.clear c d : Call D α) ∉ h2 →
      d ∈ ((World.empty : World D α).run R (h1 ++ x :: h2)).summary c) ∧
    (Own ((World.empty : World D α).run R h1) c d → d ∈ ((World.empty : World D α).run R h1).summary c) ∧
    (¬ Own ((World.empty : World D α).run R h1) c d → d ∉ ((World.empty : World D α).run R (h1 ++ [.clear c d])).summary c) := by
  have i1 : Inv ((World.empty : World D α).run R h1) := run_inv R inv_empty h1
  have key : ∀ w : World D α, served w c d ≠ none ↔ d ∈ w.summary c := by
    intro w
    unfold served World.summary
    cases w.ctls[c]? with
    | none => simp
    | some k =>
      have := find_none k.map d
      simp only [Option.bind_some, ne_eq]
      rw [this, not_not]
  rw [run_append, run_append]
  simp only [World.run]
  generalize (World.empty : World D α).run R h1 = w1 at *
  refine ⟨?_, ?_, ?_, ?_⟩
  · unfold World.summary
    cases hk : w1.ctls[c]? with
    | none => simp
    | some k => exact i1.nodup k (List.mem_of_getElem? hk)
  · intro b hx hc
    obtain ⟨-, X, -, -, hxs, -⟩ := takes_block R i1 hx
    have i2 := (step_ok R i1 x).2.1
    rw [← key, served_run R i2 (by rw [hxs]; simp) h2 (.inr hc), hxs]
    simp
  · intro ho
    exact (key w1).1 (i1.mine c d ho)
  · intro hno
    rw [← key, not_not]
    rcases (clear_ok i1 c d).2.2.2 with ho | hn
    · exact absurd ho hno
    · exact hn

/-- **C111, refusals.** A controller's own device cannot be cleared: the call is refused and changes nothing. A controller of dynamic memory is not made for
a device without allocator, and gives no memory of such a device, and asking changes nothing. -/
theorem C111_refused (R : Registry D) (w : World D α) (c : Nat) (d : D) :
    (Own w c d → w.clear c d = (w, false)) ∧
    (R.allocates d = false → w.make R false d = (w, false)) ∧
    (R.allocates d = false → ∀ k, w.ctls[c]? = some k → k.flow = false → d ∉ w.summary c → ∀ junk, w.step R (.alloc c d junk) = (w, none)) := by
  refine ⟨?_, ?_, ?_⟩
  · rintro ⟨k, hk, rfl⟩
    simp [World.clear, hk]
  · intro h
    simp [World.make, World.makes, h]
  · intro h k hk hf hd junk
    have hn : find k.map d = none := (find_none _ _).2 (by simpa [World.summary, hk] using hd)
    simp [World.step, World.alloc, World.serve, hk, hn, World.makes, hf, h]

/-- **C111, clones.** A clone has the device of its original and nothing else, and is a controller of its own. -/
theorem C111_clone (R : Registry D) (w : World D α) (c : Nat) (k : Ctl D) (hk : w.ctls[c]? = some k) (h : R.allocates k.own = true) :
    ((w.step R (.clone c)).1).summary w.ctls.length = [k.own] ∧ Own (w.step R (.clone c)).1 w.ctls.length k.own ∧
      ∀ c' < w.ctls.length, (w.step R (.clone c)).1.ctls[c']? = w.ctls[c']? := by
  simp only [World.step, World.clone, hk, World.make, World.makes, h, Bool.or_true, if_true, World.summary, Own]
  refine ⟨by simp, ⟨_, List.getElem?_concat_length, rfl⟩, fun c' hc => List.getElem?_append_left hc⟩

/-- **C111 fails for flow memory of a device without allocator: the controller is made all the same, names the device, and every allocation throws.** -/
theorem C111_flow_false (R : Registry D) (d : D) (h : R.allocates d = false) (junk : List α) :
    ((World.empty : World D α).make R true d).2 = true ∧ (((World.empty : World D α).make R true d).1).summary 0 = [d] ∧
      ((((World.empty : World D α).make R true d).1).alloc R 0 d junk).2 = none := by
  refine ⟨rfl, rfl, ?_⟩
  simp [World.make, World.makes, World.empty, World.alloc, World.serve, find, h]

/-- **C111: a synchronisation that fails is not without effect: the controller names the device from then on.** -/
theorem C111_failed_sync_false : ∃ (R : Registry Nat) (w : World Nat Nat), w = World.empty.run R [.make false 0, .alloc 0 0 [5]] ∧
    (w.step R (.sync 0 1)).2 = none ∧ w.summary 0 = [0] ∧ (w.step R (.sync 0 1)).1.summary 0 = [0, 1] :=
  ⟨⟨fun _ => true, fun _ _ => false⟩, _, rfl, rfl, rfl, rfl⟩

example : Takes all (World.empty.run all [.make false 0, .alloc 0 1 [7, 8]]) (.sync 0 0) 0 0 1 :=
  ⟨rfl, .inr ⟨0, _, rfl, rfl, rfl, by decide⟩⟩

end Verif.Props.Ctl
