import Verif.Core.Scan
/-!
# C92: a loop yields the steps of its description

Specification: `steps` is the list of steps that a description means, written out.
-/
namespace Verif.Props
open Verif.Core.Scan

namespace S92

mutual
/-- a step repeated, or parts one after the other, all repeated -/
def steps : It → List Int
  | .null => []
  | .step t k => List.replicate t k
  | .iters t l => (List.replicate t (stepsAll l)).flatten
def stepsAll : List It → List Int
  | [] => []
  | a :: l => steps a ++ stepsAll l
end

mutual
/-- no part is missing (moved away) -/
def Whole : It → Prop
  | .null => False
  | .step _ _ => True
  | .iters _ l => WholeAll l
def WholeAll : List It → Prop
  | [] => True
  | a :: l => Whole a ∧ WholeAll l
end

/-- what a status still has to yield -/
def remains (x : Status) : List Int :=
  match x.proto with
  | .null => []
  | .step _ k => List.replicate x.count k
  | .iters _ l => (List.replicate x.count (stepsAll l)).flatten

def remainsAll : List Status → List Int
  | [] => []
  | x :: s => remains x ++ remainsAll s

def Ready (s : List Status) : Prop := s = [] ∨ ∃ t k c rest, s = ⟨.step t k, c + 1⟩ :: rest

theorem make_ok {a : It} (h : Whole a) : ∃ x, Status.make a = some x ∧ remains x = steps a ∧ Whole x.proto := by
  cases a with
  | null => exact absurd h (by simp [Whole])
  | step t k => exact ⟨_, rfl, by simp [remains, steps], h⟩
  | iters t l => exact ⟨_, rfl, by simp [remains, steps], h⟩

theorem pushAll_ok : ∀ (l : List It) (s : List Status), WholeAll l → (∀ x ∈ s, Whole x.proto) →
    ∃ s', pushAll l s = some s' ∧ remainsAll s' = stepsAll l ++ remainsAll s ∧ ∀ x ∈ s', Whole x.proto
  | [], s, _, hs => ⟨s, rfl, by simp [stepsAll], hs⟩
  | a :: l, s, hl, hs => by
    obtain ⟨ha, hl⟩ := (by simpa [WholeAll] using hl : Whole a ∧ WholeAll l)
    obtain ⟨s1, h1, h2, h3⟩ := pushAll_ok l s hl hs
    obtain ⟨x, h4, h5, h6⟩ := make_ok ha
    refine ⟨x :: s1, by simp [pushAll, h1, h4], ?_, ?_⟩
    · simp [remainsAll, h2, h5, stepsAll]
    · intro y hy
      rcases List.mem_cons.1 hy with rfl | hy
      · exact h6
      · exact h3 y hy

theorem deploy_ok (s : List Status) (hs : ∀ x ∈ s, Whole x.proto) :
    ∃ s', deploy s = some s' ∧ remainsAll s' = remainsAll s ∧ (∀ x ∈ s', Whole x.proto) ∧ Ready s' := by
  induction hn : stackCost s using Nat.strongRecOn generalizing s with
  | _ n ih =>
  subst hn
  cases s with
  | nil => exact ⟨[], by unfold deploy; rfl, rfl, by simp, Or.inl rfl⟩
  | cons x rest =>
    obtain ⟨p, c⟩ := x
    cases c with
    | zero =>
      have hlt : stackCost rest < stackCost (⟨p, 0⟩ :: rest) := by
        simp only [stackCost, List.map_cons, List.sum_cons, Status.cost]
        split <;> omega
      obtain ⟨s', h1, h2, h3, h4⟩ := ih _ hlt rest (fun y hy => hs y (by simp [hy])) rfl
      refine ⟨s', by rw [deploy]; exact h1, ?_, h3, h4⟩
      rw [h2]
      cases p <;> simp [remainsAll, remains]
    | succ c =>
      cases p with
      | null => exact absurd (hs _ List.mem_cons_self) (by simp [Whole])
      | step t k =>
        exact ⟨_, by rw [deploy], rfl, hs, Or.inr ⟨t, k, c, rest, rfl⟩⟩
      | iters t l =>
        have hw : WholeAll l := by simpa [Whole] using hs _ (List.mem_cons_self)
        obtain ⟨s1, h1, h2, h3⟩ := pushAll_ok l (⟨.iters t l, c⟩ :: rest) hw (by
          intro y hy
          rcases List.mem_cons.1 hy with rfl | hy
          · simpa [Whole] using hw
          · exact hs y (by simp [hy]))
        have hlt : stackCost s1 < stackCost (⟨.iters t l, c + 1⟩ :: rest) := by
          have := pushAll_cost _ _ _ h1
          simp only [stackCost, List.map_cons, List.sum_cons, Status.cost] at *
          rw [this, Nat.add_mul c 1]
          omega
        obtain ⟨s', h4, h5, h6, h7⟩ := ih _ hlt s1 h3 rfl
        refine ⟨s', ?_, ?_, h6, h7⟩
        · rw [deploy]
          split
          · rename_i h; rw [h1] at h; cases h
          · rename_i h; rw [h1] at h; cases h; exact h4
        · rw [h5, h2]
          simp [remainsAll, remains, List.replicate_succ]

theorem nexts_ok : ∀ (n : Nat) (s : List Status), (∀ x ∈ s, Whole x.proto) → Ready s →
    ∃ s', nexts n s = some ((remainsAll s).take n ++ List.replicate (n - (remainsAll s).length) finish, s') ∧
      peek s' = some ((remainsAll s).getD n finish)
  | 0, s, _, hr => by
    refine ⟨s, by simp [nexts], ?_⟩
    rcases hr with rfl | ⟨t, k, c, rest, rfl⟩
    · simp [peek, remainsAll]
    · simp [peek, remainsAll, remains, List.replicate_succ]
  | n + 1, s, hs, hr => by
    rcases hr with rfl | ⟨t, k, c, rest, rfl⟩
    · obtain ⟨s', h1, h2⟩ := nexts_ok n [] hs (Or.inl rfl)
      refine ⟨s', ?_, ?_⟩
      · simp [nexts, next, h1, remainsAll, List.replicate_succ]
      · simpa [remainsAll] using h2
    · obtain ⟨s1, h1, h2, h3, h4⟩ := deploy_ok (⟨.step t k, c⟩ :: rest) (by
        intro y hy
        rcases List.mem_cons.1 hy with rfl | hy
        · simp [Whole]
        · exact hs y (by simp [hy]))
      obtain ⟨s', h5, h6⟩ := nexts_ok n s1 h3 h4
      have he : remainsAll (⟨.step t k, c + 1⟩ :: rest) = k :: remainsAll s1 := by
        rw [h2]
        simp [remainsAll, remains, List.replicate_succ]
      refine ⟨s', ?_, ?_⟩
      · simp only [nexts, next, h1, h5, he]
        simp
      · rw [he, h6]
        simp

theorem bind_ok {it : It} (h : Whole it) : ∃ s, bindTo it = some s ∧ remainsAll s = steps it ∧ (∀ x ∈ s, Whole x.proto) ∧ Ready s := by
  obtain ⟨x, h1, h2, h3⟩ := make_ok h
  obtain ⟨s, h4, h5, h6, h7⟩ := deploy_ok [x] (by simpa using h3)
  refine ⟨s, ?_, ?_, h6, h7⟩
  · cases it with
    | null => cases h1
    | step t k => simp only [bindTo, h1, h4]
    | iters t l => simp only [bindTo, h1, h4]
  · rw [h5]
    simpa [remainsAll] using h2

mutual
theorem clone_eq : ∀ it, clone it = it
  | .null => rfl
  | .step _ _ => rfl
  | .iters t l => by rw [clone, cloneAll_eq l]
theorem cloneAll_eq : ∀ l, cloneAll l = l
  | [] => rfl
  | a :: l => by rw [cloneAll, clone_eq a, cloneAll_eq l]
end

mutual
/-- every repeated group that is reached has a step -/
def Busy : It → Prop
  | .null => True
  | .step _ _ => True
  | .iters t l => t = 0 ∨ (stepsAll l ≠ [] ∧ BusyAll l)
def BusyAll : List It → Prop
  | [] => True
  | a :: l => Busy a ∧ BusyAll l
end

mutual
/-- nothing is repeated no times, no group is empty and no part is missing -/
def Tight : It → Prop
  | .null => False
  | .step t _ => t ≠ 0
  | .iters t l => t ≠ 0 ∧ l ≠ [] ∧ TightAll l
def TightAll : List It → Prop
  | [] => True
  | a :: l => Tight a ∧ TightAll l
end

theorem length_iters (t : Nat) (l : List It) : (steps (.iters t l)).length = t * (stepsAll l).length := by
  simp [steps]

mutual
theorem update_ok : ∀ it, Busy it → (steps it).length < 2 ^ 64 →
    ∃ u, update it = some u ∧ u.count = (steps it).length ∧ (u.count ≠ 0 → Tight u.it ∧ steps u.it = steps it)
  | .null, _, _ => ⟨_, rfl, by simp [steps], by simp⟩
  | .step t k, _, _ => by
    by_cases h : t = 0
    · subst h
      exact ⟨⟨0, .null⟩, by simp [update], by simp [steps], by simp⟩
    · exact ⟨⟨t, .step t k⟩, by simp [update, h], by simp [steps], fun _ => ⟨by simpa [Tight] using h, rfl⟩⟩
  | .iters t l, hb, hl => by
    by_cases h : t = 0
    · subst h
      exact ⟨⟨0, .null⟩, by simp [update], by simp [steps], by simp⟩
    · obtain ⟨h1, h2⟩ : stepsAll l ≠ [] ∧ BusyAll l := by
        have : t = 0 ∨ (stepsAll l ≠ [] ∧ BusyAll l) := by simpa [Busy] using hb
        exact this.resolve_left h
      have hlen : (stepsAll l).length < 2 ^ 64 := by
        rw [length_iters] at hl
        exact Nat.lt_of_le_of_lt (Nat.le_mul_of_pos_left _ (Nat.pos_of_ne_zero h)) hl
      obtain ⟨l', h3, h4, h5⟩ := updateAll_ok l h2 hlen
      have hne : (stepsAll l).length ≠ 0 := by simpa using h1
      refine ⟨⟨(t * (stepsAll l).length) % 2 ^ 64, .iters t l'⟩, by simp only [update, if_neg h, h3, if_neg hne], ?_, ?_⟩
      · rw [length_iters] at hl ⊢
        exact Nat.mod_eq_of_lt hl
      · intro _
        refine ⟨?_, by simp [steps, h5]⟩
        have : l' ≠ [] := by
          rintro rfl
          rw [← h5] at h1
          exact h1 (by simp [stepsAll])
        simpa [Tight] using ⟨h, this, h4⟩
theorem updateAll_ok : ∀ l, BusyAll l → (stepsAll l).length < 2 ^ 64 →
    ∃ l', updateAll l = some ((stepsAll l).length, l') ∧ TightAll l' ∧ stepsAll l' = stepsAll l
  | [], _, _ => ⟨[], by simp [updateAll, stepsAll], by simp [TightAll], rfl⟩
  | a :: l, hb, hl => by
    obtain ⟨b1, b2⟩ := (by simpa [BusyAll] using hb : Busy a ∧ BusyAll l)
    have hsum : (stepsAll (a :: l)).length = (steps a).length + (stepsAll l).length := by simp [stepsAll]
    obtain ⟨u, h1, h2, h3⟩ := update_ok a b1 (by omega)
    obtain ⟨l', h4, h5, h6⟩ := updateAll_ok l b2 (by omega)
    by_cases h : u.count = 0
    · refine ⟨l', ?_, h5, ?_⟩
      · simp only [updateAll, h1, h4, if_pos h, hsum]
        rw [← h2, h]
        simp
      · have : steps a = [] := List.length_eq_zero_iff.1 (by omega)
        simp [stepsAll, this, h6]
    · obtain ⟨h7, h8⟩ := h3 h
      refine ⟨u.it :: l', ?_, by simpa [TightAll] using ⟨h7, h5⟩, by simp [stepsAll, h6, h8]⟩
      simp only [updateAll, h1, h4, if_neg h]
      rw [h2, hsum, Nat.mod_eq_of_lt (by omega)]
end

end S92
open S92

/-- C92, the loop: for every description without missing parts, however deep and with any counts (also 0), binding returns,
and `n` calls of `next` return the first `n` steps of the written-out description and then `finish`; `step` shows what the
next call returns -/
theorem C92_loop (it : It) (h : Whole it) : ∃ s, bindTo it = some s ∧ ∀ n, ∃ s',
    nexts n s = some ((steps it).take n ++ List.replicate (n - (steps it).length) finish, s') ∧
      peek s' = some ((steps it).getD n finish) := by
  obtain ⟨s, h1, h2, h3, h4⟩ := bind_ok h
  refine ⟨s, h1, fun n => ?_⟩
  have := nexts_ok n s h3 h4
  rw [h2] at this
  exact this

example : Whole (.iters 2 [.step 2 1, .iters 0 [.step 1 9], .iters 1 [.step 1 7], .step 0 5]) ∧
    steps (.iters 2 [.step 2 1, .iters 0 [.step 1 9], .iters 1 [.step 1 7], .step 0 5]) = [1, 1, 7, 1, 1, 7] := by
  simp [Whole, WholeAll, steps, stepsAll, List.replicate]

/-- C92, the end: when every step is a `long` other than the least one, the answer of `step` after `n` calls of `next` is
the least `long` exactly when all steps were returned -/
theorem C92_end (it : It) (h : Whole it) (hs : ∀ k ∈ steps it, (-9223372036854775808 : Int) < k) : ∃ s, bindTo it = some s ∧
    ∀ n, ∃ l s' v, nexts n s = some (l, s') ∧ peek s' = some v ∧ (v = (-9223372036854775808 : Int) ↔ (steps it).length ≤ n) := by
  obtain ⟨s, h1, h2⟩ := C92_loop it h
  refine ⟨s, h1, fun n => ?_⟩
  obtain ⟨s', h3, h4⟩ := h2 n
  refine ⟨_, s', _, h3, h4, ?_⟩
  constructor
  · intro he
    by_cases hn : n < (steps it).length
    · rw [List.getD_eq_getElem?_getD, List.getElem?_eq_getElem hn] at he
      have := hs _ (List.getElem_mem hn)
      simp only [Option.getD_some] at he
      omega
    · omega
  · intro hn
    rw [List.getD_eq_getElem?_getD, List.getElem?_eq_none hn]
    simp [finish]

example : Whole (.iters 2 [.step 2 1, .step 1 (-7)]) ∧ ∀ k ∈ steps (.iters 2 [.step 2 1, .step 1 (-7)]), (-9223372036854775808 : Int) < k := by
  simp [Whole, WholeAll, steps, stepsAll, List.replicate]

/-- an empty description is finished at once -/
theorem C92_empty : bindTo .null = some [] ∧ ∀ n, nexts n [] = some (List.replicate n finish, []) := by
  refine ⟨rfl, ?_⟩
  intro n
  induction n with
  | zero => rfl
  | succ n ih => simp [nexts, next, ih, List.replicate_succ]

/-- C92, copies: a copied description is the same tree -/
theorem C92_clone (it : It) : clone it = it := clone_eq it

/-- C92, update: the number of steps is returned and the description means the same, with nothing superfluous left; for
descriptions of fewer than 2^64 steps in which no repeated group is empty. Missing: those, `C92_update_empty_false` and
`C92_update_wrap_false`. -/
theorem C92_update_partial (it : It) (hb : Busy it) (hl : (steps it).length < 2 ^ 64) : ∃ u, updateRoot it = some u ∧
    u.count = (steps it).length ∧ steps u.it = steps it ∧ (steps it ≠ [] → Tight u.it) := by
  obtain ⟨u, h1, h2, h3⟩ := update_ok it hb hl
  by_cases h : u.count = 0
  · refine ⟨⟨0, .null⟩, by simp [updateRoot, h1, h], h ▸ h2, ?_, ?_⟩
    · have : steps it = [] := List.length_eq_zero_iff.1 (by omega)
      rw [this]
      simp [steps]
    · intro hne
      exact absurd (List.length_eq_zero_iff.1 (by omega)) hne
  · obtain ⟨h4, h5⟩ := h3 h
    exact ⟨u, by simp [updateRoot, h1, h], h2, h5, fun _ => h4⟩

example : Busy (.iters 2 [.step 2 1, .iters 0 [.step 1 9], .iters 1 [.step 1 7, .null], .step 0 5]) ∧
    (steps (.iters 2 [.step 2 1, .iters 0 [.step 1 9], .iters 1 [.step 1 7, .null], .step 0 5])).length < 2 ^ 64 := by
  simp [Busy, BusyAll, steps, stepsAll, List.replicate]

/-- a repeated group whose parts all have no steps (and whose own groups are not empty): it is read after it was deleted,
for every such group -/
theorem C92_update_empty_false (t : Nat) (l : List It) (ht : t ≠ 0) (hb : BusyAll l) (hl : stepsAll l = []) :
    update (.iters t l) = none := by
  obtain ⟨l', h1, _, _⟩ := updateAll_ok l hb (by simp [hl])
  simp [update, ht, h1, hl]

example : BusyAll [.step 0 3, .null] ∧ stepsAll [.step 0 3, .null] = [] := by simp [BusyAll, Busy, stepsAll, steps]

/-- 2^64 steps are counted as none, and the description is emptied -/
theorem C92_update_wrap_false : updateRoot (.iters (2 ^ 32) [.step (2 ^ 32) 1]) = some ⟨0, .null⟩ := by
  simp [updateRoot, update, updateAll]

/-- C92, missing parts: a description built from a descriptor that was moved away (scan.h:222-227) cannot be run -/
theorem C92_moved_false (t : Nat) (l r : List It) (ht : t ≠ 0) : bindTo (.iters t (l ++ .null :: r)) = none := by
  have hp : ∀ (l : List It) s, pushAll (l ++ .null :: r) s = none := by
    intro l
    induction l with
    | nil => intro s; simp only [List.nil_append, pushAll]; split <;> simp [Status.make]
    | cons a l ih => intro s; simp [pushAll, ih]
  obtain ⟨c, rfl⟩ := Nat.exists_eq_succ_of_ne_zero ht
  simp only [bindTo, Status.make]
  rw [deploy]
  split
  · rfl
  · rename_i h
    rw [hp] at h
    cases h

/-- a step of the value of `finish` cannot be told from the end: the two loops return the same for ever, one has a step -/
theorem C92_finish_false : ∃ s s' : List Status, bindTo (.iters 1 [.step 1 finish]) = some s ∧ bindTo (.iters 1 []) = some s' ∧
    steps (.iters 1 [.step 1 finish]) ≠ steps (.iters 1 []) ∧
    ∀ n, (nexts n s).map Prod.fst = (nexts n s').map Prod.fst := by
  obtain ⟨s, h1, h2⟩ := C92_loop (.iters 1 [.step 1 finish]) (by simp [Whole, WholeAll])
  obtain ⟨s', h3, h4⟩ := C92_loop (.iters 1 []) (by simp [Whole, WholeAll])
  refine ⟨s, s', h1, h3, by simp [steps, stepsAll], ?_⟩
  intro n
  obtain ⟨a, h5, _⟩ := h2 n
  obtain ⟨b, h6, _⟩ := h4 n
  rw [h5, h6]
  cases n with
  | zero => simp
  | succ n => simp [steps, stepsAll, List.replicate_succ]

end Verif.Props
