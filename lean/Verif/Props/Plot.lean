import Verif.Module.Plot
/-!
# C109: printing a graph shows every node once, after its inputs
-/
namespace Verif.Props.Plot
open Verif.Module.Plot

/-! ## specification -/

/-- node `k` is `n` or an input of an input ... of `n` -/
inductive Below (ins : Nat → List Nat) : Nat → Nat → Prop where
  | refl (n) : Below ins n n
  | input {n m k} : m ∈ ins n → Below ins m k → Below ins n k

/-- node `k` belongs to the graph that ends in `nodes` -/
def Part (ins : Nat → List Nat) (nodes : List Nat) (k : Nat) : Prop := ∃ n ∈ nodes, Below ins n k

/-- no node is below its own inputs -/
def Acyclic (ins : Nat → List Nat) (nodes : List Nat) : Prop := ∀ k, Part ins nodes k → ∀ m ∈ ins k, ¬ Below ins m k

/-- every node stands behind its inputs -/
def Ordered (ins : Nat → List Nat) (l : List Nat) : Prop := ∀ a n b, l = a ++ n :: b → ∀ m ∈ ins n, m ∈ a

/-! ## proofs -/

variable {ins : Nat → List Nat}

theorem plotNode_out (s : St) (n : Nat) : ∀ k, k ∈ (plotNode s n).out ↔ k ∈ s.out ∨ k = n := by
  intro k
  unfold plotNode
  split
  · constructor
    · exact .inl
    · rintro (h | rfl)
      · exact h
      · assumption
  · simp

theorem ordered_snoc {l : List Nat} {n : Nat} (h : Ordered ins l) (hn : ∀ m ∈ ins n, m ∈ l) : Ordered ins (l ++ [n]) := by
  intro a x b e m hm
  rcases List.eq_nil_or_concat b with rfl | ⟨b', y, rfl⟩
  · have := List.append_inj' e rfl
    rw [← this.1]
    have e2 : n = x := by simpa using this.2
    exact hn m (e2 ▸ hm)
  · have e2 : l ++ [n] = (a ++ x :: b') ++ [y] := by rw [e]; simp
    have := List.append_inj' e2 rfl
    exact h a x b' this.1 m hm

theorem plotNode_inv {s : St} {n : Nat} (h1 : s.out.Nodup) (h2 : Ordered ins s.out) (hn : ∀ m ∈ ins n, m ∈ s.out) :
    (plotNode s n).out.Nodup ∧ Ordered ins (plotNode s n).out ∧ (plotNode s n).calls = s.calls := by
  unfold plotNode
  split
  · exact ⟨h1, h2, rfl⟩
  · rename_i hx
    refine ⟨?_, ordered_snoc h2 hn, rfl⟩
    rw [List.nodup_append]
    refine ⟨h1, by simp, ?_⟩
    intro a ha b hb e
    simp at hb
    subst hb
    exact hx (e ▸ ha)

theorem foldl_inv : ∀ (nodes : List Nat) {s : St}, s.out.Nodup → Ordered ins s.out → (∀ n ∈ nodes, ∀ m ∈ ins n, m ∈ s.out) →
    (nodes.foldl plotNode s).out.Nodup ∧ Ordered ins (nodes.foldl plotNode s).out ∧ (nodes.foldl plotNode s).calls = s.calls ∧
    ∀ k, k ∈ (nodes.foldl plotNode s).out ↔ k ∈ s.out ∨ k ∈ nodes
  | [], s, h1, h2, _ => ⟨h1, h2, rfl, by simp⟩
  | n :: ns, s, h1, h2, h3 => by
    obtain ⟨a1, a2, a3⟩ := plotNode_inv h1 h2 (h3 n (by simp))
    obtain ⟨b1, b2, b3, b4⟩ := foldl_inv ns a1 a2 (fun x hx m hm => (plotNode_out s n m).mpr (.inl (h3 x (by simp [hx]) m hm)))
    refine ⟨b1, b2, b3.trans a3, fun k => ?_⟩
    rw [List.foldl_cons, b4, plotNode_out, List.mem_cons]
    constructor
    · rintro ((h | h) | h)
      · exact .inl h
      · exact .inr (.inl h)
      · exact .inr (.inr h)
    · rintro (h | h | h)
      · exact .inl (.inl h)
      · exact .inl (.inr h)
      · exact .inr h

/-- what holds of a call that returns -/
def Good (ins : Nat → List Nat) (rec : List Nat → St → Option St) : Prop := ∀ nodes s s', rec nodes s = some s' → s.out.Nodup → Ordered ins s.out →
  s'.out.Nodup ∧ Ordered ins s'.out ∧ ∀ k, k ∈ s'.out ↔ k ∈ s.out ∨ Part ins nodes k

theorem visit_inv {rec : List Nat → St → Option St} (hr : Good ins rec) : ∀ (nodes : List Nat) (s s' : St), visit rec ins nodes s = some s' →
    s.out.Nodup → Ordered ins s.out →
    s'.out.Nodup ∧ Ordered ins s'.out ∧ ∀ k, k ∈ s'.out ↔ k ∈ s.out ∨ ∃ n ∈ nodes, Part ins (ins n) k
  | [], s, s', h, h1, h2 => by simp only [visit, Option.some.injEq] at h; subst h; exact ⟨h1, h2, by simp⟩
  | n :: ns, s, s', h, h1, h2 => by
    rw [visit] at h
    cases e : rec (ins n) s with
    | none => rw [e] at h; cases h
    | some t =>
      rw [e] at h
      obtain ⟨a1, a2, a3⟩ := hr _ _ _ e h1 h2
      obtain ⟨b1, b2, b3⟩ := visit_inv hr ns t s' h a1 a2
      refine ⟨b1, b2, fun k => ?_⟩
      rw [b3, a3]
      simp only [List.mem_cons, exists_eq_or_imp]
      exact or_assoc

theorem plotRec_good : ∀ f, Good ins (plotRec ins f)
  | 0, _, _, _, h, _, _ => by cases h
  | f + 1, nodes, s, s', h, h1, h2 => by
    rw [plotRec] at h
    cases e : visit (plotRec ins f) ins nodes ⟨s.out, s.calls + 1⟩ with
    | none => rw [e] at h; cases h
    | some t =>
      rw [e] at h
      simp only [Option.some.injEq] at h
      subst h
      obtain ⟨a1, a2, a3⟩ := visit_inv (plotRec_good f) nodes _ _ e h1 h2
      obtain ⟨b1, b2, _, b4⟩ := foldl_inv nodes a1 a2 (fun n hn m hm => (a3 m).mpr (.inr ⟨n, hn, m, hm, .refl m⟩))
      refine ⟨b1, b2, fun k => ?_⟩
      rw [b4, a3]
      constructor
      · rintro ((h | ⟨n, hn, m, hm, hk⟩) | h)
        · exact .inl h
        · exact .inr ⟨n, hn, .input hm hk⟩
        · exact .inr ⟨k, h, .refl k⟩
      · rintro (h | ⟨n, hn, hk⟩)
        · exact .inl (.inl h)
        · cases hk with
          | refl => exact .inr hn
          | input hm hk => exact .inl (.inr ⟨n, hn, _, hm, hk⟩)

theorem visit_mem {rec : List Nat → St → Option St} : ∀ (nodes : List Nat) (s s' : St), visit rec ins nodes s = some s' → ∀ n ∈ nodes, ∃ t t', rec (ins n) t = some t'
  | [], _, _, _, n, hn => by cases hn
  | x :: xs, s, s', h, n, hn => by
    rw [visit] at h
    cases e : rec (ins x) s with
    | none => rw [e] at h; cases h
    | some t =>
      rw [e] at h
      rcases List.mem_cons.mp hn with rfl | hn
      · exact ⟨s, t, e⟩
      · exact visit_mem xs t s' h n hn

/-- a call on these nodes with this fuel returns -/
def Returns (ins : Nat → List Nat) (f : Nat) (nodes : List Nat) : Prop := ∃ s s', plotRec ins f nodes s = some s'

theorem returns_input {f : Nat} {nodes : List Nat} (h : Returns ins (f + 1) nodes) {n : Nat} (hn : n ∈ nodes) : Returns ins f (ins n) := by
  obtain ⟨s, s', h⟩ := h
  rw [plotRec] at h
  cases e : visit (plotRec ins f) ins nodes ⟨s.out, s.calls + 1⟩ with
  | none => rw [e] at h; cases h
  | some t => exact visit_mem nodes _ _ e n hn

theorem returns_below {n k : Nat} (hb : Below ins n k) : ∀ f, Returns ins f (ins n) → ∃ g ≤ f, Returns ins g (ins k) := by
  induction hb with
  | refl n => exact fun f h => ⟨f, Nat.le_refl f, h⟩
  | input hm _ ih =>
    intro f h
    cases f with
    | zero => obtain ⟨_, _, h⟩ := h; cases h
    | succ f =>
      obtain ⟨g, hg, hr⟩ := ih f (returns_input h hm)
      exact ⟨g, by omega, hr⟩

theorem cycle_never {k m : Nat} (hm : m ∈ ins k) (hb : Below ins m k) : ∀ f, ¬ Returns ins f (ins k) := by
  intro f
  induction f using Nat.strongRecOn with
  | ind f ih =>
    intro h
    cases f with
    | zero => obtain ⟨_, _, h⟩ := h; cases h
    | succ f =>
      obtain ⟨g, hg, hr⟩ := returns_below hb f (returns_input h hm)
      exact ih g (by omega) hr

/-! ## C109 -/

/-- **C109, listing.** Whatever is printed by a call that returns: every node of the graph that ends in the given nodes, no other, each once, and each behind its
inputs; one line per node. -/
theorem C109_listing (g : G) (f : Nat) (nodes : List Nat) {t : String} (h : plotText g f nodes = some t) :
    ∃ l : List Nat, t = String.join (l.map (line g)) ∧ l.Nodup ∧ (∀ k, k ∈ l ↔ Part g.ins nodes k) ∧ Ordered g.ins l := by
  unfold plotText plotGraph at h
  cases e : plotRec g.ins f nodes ⟨[], 0⟩ with
  | none => rw [e] at h; cases h
  | some s =>
    rw [e] at h
    simp only [Option.map_some, Option.some.injEq] at h
    obtain ⟨a, b, c⟩ := plotRec_good f nodes _ _ e (by simp) (by intro a n b e; simp at e)
    exact ⟨s.out, h.symm, a, fun k => by simpa using c k, b⟩

theorem visit_returns {rec : List Nat → St → Option St} : ∀ (nodes : List Nat), (∀ n ∈ nodes, ∀ s, ∃ s', rec (ins n) s = some s') →
    ∀ s, ∃ s', visit rec ins nodes s = some s'
  | [], _, s => ⟨s, rfl⟩
  | n :: ns, h, s => by
    obtain ⟨t, ht⟩ := h n (by simp) s
    obtain ⟨t', ht'⟩ := visit_returns ns (fun x hx => h x (by simp [hx])) t
    exact ⟨t', by rw [visit, ht]; exact ht'⟩

theorem rank_returns (r : Nat → Nat) : ∀ (f : Nat) (nodes : List Nat), (∀ k, Part ins nodes k → ∀ m ∈ ins k, r m < r k) → (∀ n ∈ nodes, r n < f) →
    ∀ s, ∃ s', plotRec ins (f + 1) nodes s = some s'
  | f, nodes, hr, hf, s => by
    have key : ∀ n ∈ nodes, ∀ s, ∃ s', plotRec ins f (ins n) s = some s' := by
      intro n hn s
      cases f with
      | zero => exact absurd (hf n hn) (by omega)
      | succ f =>
        refine rank_returns r f (ins n) (fun k hk m hm => hr k ?_ m hm) (fun m hm => ?_) s
        · obtain ⟨x, hx, hk⟩ := hk
          exact ⟨n, hn, .input hx hk⟩
        · have := hf n hn
          have := hr n ⟨n, hn, .refl n⟩ m hm
          omega
    obtain ⟨t, ht⟩ := visit_returns nodes key ⟨s.out, s.calls + 1⟩
    exact ⟨_, by rw [plotRec, ht]⟩

/-- **C109, return.** The call returns for every graph in which nodes can be ranked above their inputs (every finite graph without cycles), -/
theorem C109_returns (g : G) (nodes : List Nat) (r : Nat → Nat) (hr : ∀ k, Part g.ins nodes k → ∀ m ∈ g.ins k, r m < r k) :
    ∃ f t, plotText g f nodes = some t := by
  have hb : ∀ nodes : List Nat, ∃ b, ∀ n ∈ nodes, r n < b := by
    intro nodes
    induction nodes with
    | nil => exact ⟨0, by simp⟩
    | cons n ns ih =>
      obtain ⟨b, hb⟩ := ih
      refine ⟨max b (r n + 1), fun x hx => ?_⟩
      rcases List.mem_cons.mp hx with rfl | hx
      · omega
      · have := hb x hx; omega
  obtain ⟨b, hb⟩ := hb nodes
  obtain ⟨s, hs⟩ := rank_returns r b nodes hr hb ⟨[], 0⟩
  exact ⟨b + 1, _, by unfold plotText plotGraph; rw [hs]; rfl⟩

/-- **C109, cycles.** and returns for no graph with a cycle: the recursion never ends. -/
theorem C109_cycle_false (g : G) (nodes : List Nat) (hc : ¬ Acyclic g.ins nodes) : ∀ f, plotText g f nodes = none := by
  intro f
  cases e : plotText g f nodes with
  | none => rfl
  | some t =>
    exfalso
    apply hc
    intro k ⟨n, hn, hb⟩ m hm hb2
    have hret : Returns g.ins f nodes := by
      unfold plotText plotGraph at e
      cases e2 : plotRec g.ins f nodes ⟨[], 0⟩ with
      | none => rw [e2] at e; cases e
      | some s => exact ⟨_, _, e2⟩
    cases f with
    | zero => obtain ⟨_, _, h⟩ := hret; cases h
    | succ f =>
      obtain ⟨x, -, hx⟩ := returns_below hb f (returns_input hret hn)
      exact cycle_never hm hb2 x hx

/-- a graph in which each node uses the node before it twice, such as repeated doubling `x + x` -/
def ladder : Nat → List Nat
  | 0 => []
  | n + 1 => [n, n]

theorem foldl_calls : ∀ (l : List Nat) (s : St), (l.foldl plotNode s).calls = s.calls
  | [], _ => rfl
  | n :: ns, s => by rw [List.foldl_cons, foldl_calls ns]; unfold plotNode; split <;> rfl

theorem ladder_calls : ∀ (f n : Nat) (s s' : St), plotRec ladder f (ladder n) s = some s' → s'.calls + 1 = s.calls + 2 ^ (n + 1)
  | 0, _, _, _, h => by cases h
  | f + 1, 0, s, s', h => by
    simp only [plotRec, ladder, visit, List.foldl_nil, Option.some.injEq] at h
    subst h
    rfl
  | f + 1, n + 1, s, s', h => by
    have hl : ladder (n + 1) = [n, n] := rfl
    rw [plotRec, hl] at h
    cases e : visit (plotRec ladder f) ladder [n, n] ⟨s.out, s.calls + 1⟩ with
    | none => rw [e] at h; cases h
    | some t =>
      rw [e] at h
      simp only [Option.some.injEq] at h
      subst h
      rw [visit] at e
      cases e1 : plotRec ladder f (ladder n) ⟨s.out, s.calls + 1⟩ with
      | none => rw [e1] at e; cases e
      | some t1 =>
        rw [e1] at e
        simp only [visit] at e
        cases e2 : plotRec ladder f (ladder n) t1 with
        | none => rw [e2] at e; cases e
        | some t2 =>
          rw [e2] at e
          simp only [Option.some.injEq] at e
          subst e
          have a := ladder_calls f n _ _ e1
          have b := ladder_calls f n _ _ e2
          simp only at a
          rw [foldl_calls, Nat.pow_succ]
          omega

/-- **C109, disproved: the work is not proportional to what is printed.** Inputs are visited whether they are printed or not: `n` doublings print `n + 1` lines with
more than `2 ^ n` calls. -/
theorem C109_exponential_false (n f : Nat) {s : St} (h : plotGraph ladder f [n] = some s) : 2 ^ n < s.calls := by
  cases f with
  | zero => cases h
  | succ f =>
    unfold plotGraph at h
    rw [plotRec] at h
    cases e : visit (plotRec ladder f) ladder [n] ⟨[], 0 + 1⟩ with
    | none => rw [e] at h; cases h
    | some t =>
      rw [e] at h
      simp only [Option.some.injEq] at h
      subst h
      rw [visit] at e
      cases e1 : plotRec ladder f (ladder n) ⟨[], 0 + 1⟩ with
      | none => rw [e1] at e; cases e
      | some t1 =>
        rw [e1] at e
        simp only [visit, Option.some.injEq] at e
        subst e
        have a := ladder_calls f n _ _ e1
        simp only at a
        rw [foldl_calls]
        have : 0 < 2 ^ n := Nat.pos_of_ne_zero (by simp)
        rw [Nat.pow_succ] at a
        omega

/-- the claim that the text tells graphs apart -/
def TextClaim : Prop := ∀ (g h : G) (nodes : List Nat) (f : Nat) (t : String), plotText g f nodes = some t → plotText h f nodes = some t →
  ∀ k, Part g.ins nodes k → g.ins k = h.ins k

/-- two parameters of the same name, the third node reads the one or the other -/
def twins (i : Nat) : G := ⟨fun n => if n = 2 then [i] else [], fun n => if n = 2 then "abs" else "<param>", fun n => if n = 2 then "y" else "x"⟩

/-- **C109, disproved: inputs are shown by name only**, so graphs that differ can print the same text. -/
theorem C109_names_false : ¬ TextClaim := by
  intro h
  have := h (twins 0) (twins 1) [0, 1, 2] 3 "<param>: [x] <== \n<param>: [x] <== \nabs: [y] <== [x]\n" (by decide +kernel) (by decide +kernel) 2 ⟨2, by simp, .refl 2⟩
  revert this
  decide

/-! ### examples -/

/-- a diamond: 3 reads 1 and 2, which read 0 -/
def diamond : G := ⟨fun n => if n = 3 then [1, 2] else if n = 0 then [] else [0], fun n => if n = 0 then "<param>" else "add", fun n => ["a", "b", "c", "d"].getD n ""⟩

example : plotText diamond 4 [3] = some "<param>: [a] <== \nadd: [b] <== [a]\nadd: [c] <== [a]\nadd: [d] <== [b], [c]\n" := by decide +kernel

example : ∃ r : Nat → Nat, ∀ k, Part diamond.ins [3] k → ∀ m ∈ diamond.ins k, r m < r k := by
  refine ⟨fun n => if n = 0 then 0 else if n = 3 then 2 else 1, fun k _ m hm => ?_⟩
  simp only [diamond] at hm
  split at hm
  · rename_i h; subst h; simp at hm; rcases hm with rfl | rfl <;> decide
  · split at hm
    · simp at hm
    · rename_i h1 h2; simp at hm; subst hm; simp [h1, h2]

/-- a node that reads itself -/
example : ¬ Acyclic (fun _ => [0]) [0] := fun h => h 0 ⟨0, by simp, .refl 0⟩ 0 (by simp) (.refl 0)

/-- the calls of the ladder do return -/
example : ∃ s, plotGraph ladder 6 [4] = some s ∧ s.out = [0, 1, 2, 3, 4] ∧ s.calls = 32 := ⟨_, rfl, by decide +kernel, by decide +kernel⟩

end Verif.Props.Plot
