import Verif.Compiler.Pipeline
/-!
# Property theorems: the graph compiler (C01, C02, C05, C06, C07, C41)

The specification of all of them is `Den`/`DenRow`/`Needs`/`DependsOn` in `Verif/Compiler/Graph.lean`.
-/
namespace Verif.Props
open Verif.Runtime Verif.Runtime.Stk Verif.Compiler

/-! ## C01: compiled code computes the graph -/

section
variable {N V : Type} [DecidableEq N]

/-- **C01, full claim** for one graph: if compilation succeeds then the program takes the graph's inputs,
returns the graph's outputs, and every launch on every stack returns exactly the values of the output nodes
when the inputs have the given values, or throws when some output has no value; the stack is restored.
`refs` is arbitrary: the reordering heuristic cannot make the result wrong. -/
def CompileCorrect (G : Graph N V) (P : PackOps V) (ops : OpTable N V) (inputs outputs : List N) : Prop :=
  ∀ (refs : N → N → Bool) (fuel : Nat) (blk : Block V), compile G ops refs inputs outputs fuel = some (some blk) →
    blk.nargs = inputs.length ∧ blk.nresults = outputs.length ∧
    ∀ (adj : Adjust V) (args : List V) (env : N → Option V) (s : Stk V), s.Wf → args.length = inputs.length →
      (∀ i (h1 : i < inputs.length) (h2 : i < args.length), env inputs[i] = some args[i]) →
      (∃ outs, DenRow G P env outputs outs ∧ launchOffline P adj blk.prog args s = .ok s outs) ∨
      ((¬ ∃ outs, DenRow G P env outputs outs) ∧ launchOffline P adj blk.prog args s = .err s)

/-- C01 for operators that do what they say and have at least one input, distinct inputs, and graphs that
use at least one of their inputs (or have none). Without the last two the claim is false, see
`C01_duplicate_inputs_false` and `C01_unused_inputs_false`; the third is C03's defect with nullary operators
(`C01_nullary_operator_false`), removed for the whole pipeline by constant folding
(`C01_pipeline_partial`). -/
theorem C01_compile_correct_partial (G : Graph N V) (P : PackOps V) (ops : OpTable N V)
    (inputs outputs : List N) (ho : OpsOk G ops outputs) (hnd : inputs.Nodup)
    (hne : inputs = [] ∨ ∃ p, G.kind p = .param ∧ Needs G outputs p) :
    CompileCorrect G P ops inputs outputs := by
  intro refs fuel blk hc
  have hcases := compile_cases (G := G) (ops := ops) (refs := refs) (inputs := inputs) (outputs := outputs)
    (fuel := fuel)
  rw [hc] at hcases
  obtain ⟨-, -, hna, hnr, st, hl, hR, hpar, hf, hd⟩ := hcases
  refine ⟨hna, hnr, ?_⟩
  intro adj args env s hs hlen henv
  have hG : Good G P env outputs st := by
    have := loop_reaches (ops := ops) (refs := refs) (fuel := fuel) (init_inv G outputs)
      (init_reach G outputs) (Good G P env outputs) (init_good G P env outputs)
      (fun st st' hI hR hG hm => move_good ho hI hR hG hm)
    rw [hl] at this
    exact this.2.2.1
  refine launch_block_result P adj blk args s hs (by rw [hna, hlen]) (DenRow G P env outputs)
    (fun o h => by rw [hnr]; exact h.1) ?_
  intro lo bs
  rw [hd]
  exact finish_good hG hR hpar hnd hne hf args lo bs hlen henv

/-- **C01, errors.** When the compiler stops, it rejects the graph exactly when a needed node cannot run on
the device (unknown operator, malformed field access, Variable) or a needed parameter is not an input. -/
theorem C01_compile_errors (G : Graph N V) (ops : OpTable N V) (refs : N → N → Bool)
    (inputs outputs : List N) (fuel : Nat) (hterm : compile G ops refs inputs outputs fuel ≠ none) :
    compile G ops refs inputs outputs fuel = some none ↔
      ((∃ n, Needs G outputs n ∧ ¬ Supported G ops n) ∨
        ∃ p, G.kind p = .param ∧ Needs G outputs p ∧ p ∉ inputs) := by
  have hcases := compile_cases (G := G) (ops := ops) (refs := refs) (inputs := inputs) (outputs := outputs)
    (fuel := fuel)
  cases hc : compile G ops refs inputs outputs fuel with
  | none => exact absurd hc hterm
  | some o =>
    rw [hc] at hcases
    cases o with
    | none => simp only at hcases; simp only [true_iff]; exact hcases
    | some blk =>
      simp only at hcases
      simp only [Option.some.injEq, reduceCtorEq, false_iff]
      rintro (⟨n, h1, h2⟩ | ⟨p, h1, h2, h3⟩)
      · exact h2 (hcases.1 n h1)
      · exact h3 (hcases.2.1 p h1 h2)

end

/-- an operator applying `f` to its whole frame -/
def liftOp {V : Type} (f : List V → Option V) : Op V := fun s =>
  match f s.frame with
  | some v => .ok (s.push v) 1
  | none => .err s

theorem liftOp_implements {V : Type} (f : List V → Option V) (n : Nat) : Implements (liftOp f) n f := by
  intro lo args bs _
  have : (Stk.mk (lo ++ args) lo.length bs).frame = args := by simp [frame]
  cases h : f args with
  | some v => exact ⟨args, by simp [liftOp, this, h, Stk.push]⟩
  | none => exact ⟨args, by simp [liftOp, this, h]⟩

/-- numbers as tensors, packing by summing, no fields -/
def natPack : PackOps Nat := ⟨fun l => l.sum, fun _ _ => none⟩

def addSem : List Nat → Option Nat | [a, b] => some (a + b) | _ => none
def subSem : List Nat → Option Nat | [a, b] => if b ≤ a then some (a - b) else none | _ => none

/-- `x` (0), `y` (1), constant 5 (2), `a = x + 5` (3), `b = a - y` (4) -/
def sampleArena : Arena Nat :=
  [⟨.param, [], 0, fun _ => none⟩, ⟨.param, [], 0, fun _ => none⟩, ⟨.const, [], 5, fun _ => none⟩,
   ⟨.oper, [0, 2], 0, addSem⟩, ⟨.oper, [3, 1], 0, subSem⟩]

def opsOf (h : Arena Nat) : OpTable Nat Nat := fun n => some (liftOp ((graphOf h).sem n))

/-- the block compiled for outputs `b` and `a`, with the reference sets of the code (each node refers to its
transitive inputs) -/
def sampleBlock : Option (Option (Block Nat)) :=
  compile (graphOf sampleArena) (opsOf sampleArena)
    (refsOf (buildRefs (graphOf sampleArena) [(0, 3), (2, 3), (1, 2), (3, 2), (4, 1)])) [0, 1] [4, 3] 50

/-- non-vacuity of C01: a successful compilation with sharing, constants and two outputs, whose operators
satisfy the hypotheses, and whose launch returns `[x + 5 - y, x + 5]` and throws when `y > x + 5` -/
example : (match sampleBlock with
    | some (some b) => (launchOffline natPack some b.prog [7, 4] ⟨[9], 0, []⟩,
        launchOffline natPack some b.prog [1, 40] ⟨[9], 0, []⟩)
    | _ => (.ub, .ub)) = (.ok ⟨[9], 0, []⟩ [8, 12], .err ⟨[9], 0, []⟩) := by decide

example : OpsOk (graphOf sampleArena) (opsOf sampleArena) [4, 3] ∧ [0, 1].Nodup ∧
    ∃ p, (graphOf sampleArena).kind p = .param ∧ Needs (graphOf sampleArena) [4, 3] p := by
  refine ⟨⟨?_, ?_⟩, by decide, 1, rfl, .input (m := 4) (.root (by simp)) (by decide) (by decide) (by decide)⟩
  · intro n f _ _ hf
    simp only [opsOf, Option.some.injEq] at hf
    subst hf; exact liftOp_implements _ _
  · intro n _ hk
    match n, hk with
    | 0, hk | 1, hk | 2, hk => cases hk
    | 3, _ | 4, _ => decide
    | n + 5, hk => simp [graphOf, sampleArena] at hk

/-- C01 is false with a repeated input: inputs `[x, x, y]`, output `y` returns `x`
(`working_input_nodes` numbers distinct nodes, compiler.cpp:358-359). -/
theorem C01_duplicate_inputs_false :
    ¬ CompileCorrect (graphOf sampleArena) natPack (opsOf sampleArena) [0, 0, 1] [1] := by
  intro h
  have h1 := h (fun _ _ => false) 5 ⟨3, 1, [], [.push 1, .erase 0 (-1)]⟩ rfl
  have h2 := h1.2.2 some [7, 7, 4] (fun n => if n = 0 then some 7 else some 4) ⟨[], 0, []⟩ (by simp [Wf]) rfl (by
    intro i h1 h2
    match i, h1 with
    | 0, _ => rfl
    | 1, _ => rfl
    | 2, _ => rfl)
  have hl : launchOffline natPack some (Block.prog ⟨3, 1, [], [.push 1, .erase 0 (-1)]⟩) [7, 7, 4]
      ⟨[], 0, []⟩ = .ok ⟨[], 0, []⟩ [7] := by decide
  rw [hl] at h2
  rcases h2 with ⟨outs, hd, h3⟩ | ⟨-, h3⟩
  · simp at h3
    subst h3
    have := hd.2 0 (by simp) (by simp)
    have h4 : Den (graphOf sampleArena) natPack (fun n => if n = 0 then some 7 else some 4) 1 4 :=
      .param rfl rfl
    have := this.det h4
    simp at this
  · cases h3

/-- C01 is false when no input is used: the inputs stay on the stack (`erase(0, -0)` erases nothing) and the
launch of `[x] ↦ 5` throws. -/
theorem C01_unused_inputs_false :
    ¬ CompileCorrect (graphOf sampleArena) natPack (opsOf sampleArena) [0] [2] := by
  intro h
  have h1 := h (fun _ _ => false) 5 ⟨1, 1, [5], [.erase 0 0, .dataSeg 0]⟩ rfl
  have h2 := h1.2.2 some [7] (fun _ => some 7) ⟨[], 0, []⟩ (by simp [Wf]) rfl (by
    intro i h1 h2
    match i, h1 with
    | 0, _ => rfl)
  have hl : launchOffline natPack some (Block.prog ⟨1, 1, [5], [.erase 0 0, .dataSeg 0]⟩) [7]
      ⟨[], 0, []⟩ = .err ⟨[], 0, []⟩ := by decide
  rw [hl] at h2
  rcases h2 with ⟨outs, hd, h3⟩ | ⟨hn, -⟩
  · cases h3
  · apply hn
    exact ⟨[5], rfl, by
      intro i h1 h2
      match i, h1 with
      | 0, _ => exact .const rfl⟩

/-- C01 is false for an operator node without inputs left in the graph: it erases the values below it. -/
theorem C01_nullary_operator_false :
    ¬ CompileCorrect (graphOf [⟨.param, [], 0, fun _ => none⟩, ⟨.oper, [], 0, fun _ => some 9⟩] : Graph Nat Nat)
        natPack (fun _ => some (fun s => .ok (s.push 9) 1)) [0] [0, 1] := by
  intro h
  have h1 := h (fun _ _ => false) 5 ⟨1, 2, [], [.op (fun s => .ok (s.push 9) 1) 0 1]⟩ rfl
  have h2 := h1.2.2 some [7] (fun _ => some 7) ⟨[], 0, []⟩ (by simp [Wf]) rfl (by
    intro i h1 h2
    match i, h1 with
    | 0, _ => rfl)
  have hl : launchOffline natPack some (Block.prog ⟨1, 2, [], [.op (fun s => .ok (s.push 9) 1) 0 1]⟩) [7]
      ⟨[], 0, []⟩ = .err ⟨[], 0, []⟩ := by decide
  rw [hl] at h2
  rcases h2 with ⟨outs, hd, h3⟩ | ⟨hn, -⟩
  · cases h3
  · apply hn
    refine ⟨[7, 9], rfl, ?_⟩
    intro i h1 h2
    match i, h1 with
    | 0, _ => exact .param rfl rfl
    | 1, _ => exact .node (vs := []) rfl (by intro i h1; cases h1) rfl

/-! ## C07: the node listing -/
section
variable {N V : Type} [DecidableEq N]

/-- **C07.** On every finite acyclic graph the listing of referenced nodes terminates, and whatever order the
unordered containers and the unstable sort pick, it contains every node reachable from the roots exactly
once, and every node after all of its inputs. -/
theorem C07_listing_is_topological (G : Graph N V) (nodes : List N)
    (hfin : ∀ n m, m ∈ G.inputs n → m ∈ nodes) (hacyc : ∀ n, ¬ DependsOn G n n) (roots : List N) :
    ∃ fuel st, walk G fuel (walkInit roots) = some st ∧
      ∀ l, IsSchedule st l →
        (l.map Prod.fst).Nodup ∧
        (∀ n, n ∈ l.map Prod.fst ↔ n ∈ roots ∨ ∃ r ∈ roots, DependsOn G r n) ∧
        ∀ before n after, l.map Prod.fst = before ++ n :: after → ∀ m ∈ G.inputs n, m ∈ before := by
  obtain ⟨rank, hR⟩ := exists_rank nodes hfin hacyc
  obtain ⟨fuel, st, h⟩ := walk_total hR nodes hfin roots
  refine ⟨fuel, st, h, ?_⟩
  intro l hl
  obtain ⟨a, b, c⟩ := schedule_topo h hl
  exact ⟨a, b, c⟩

/-- the reference sets the compiler works with are exactly the transitive inputs -/
theorem refs_exact {G : Graph N V} {roots : List N} {fuel : Nat} {st : LSt N}
    (h : walk G fuel (walkInit roots) = some st) {l : List (N × Nat)} (hl : IsSchedule st l) (m n : N)
    (hm : m ∈ roots ∨ ∃ r ∈ roots, DependsOn G r m) :
    refsOf (buildRefs G l) m n = true ↔ DependsOn G m n := by
  obtain ⟨a, b, c⟩ := schedule_topo h hl
  have hmr : m ∈ l.map Prod.fst := (b m).mpr hm
  have := (buildRefs_spec G (l.map Prod.fst) (fun _ => none) [] (by simpa using a) (by simp)
    (by intro x n y hxy m hm; simpa using c x n y hxy m hm) m).1 (by simpa using hmr)
  obtain ⟨s, hs, hk⟩ := this
  simp only [refsOf, buildRefs, hs, Option.getD_some, List.contains_iff_mem]
  exact hk n

theorem refs_sound {G : Graph N V} {roots : List N} {fuel : Nat} {st : LSt N}
    (h : walk G fuel (walkInit roots) = some st) {l : List (N × Nat)} (hl : IsSchedule st l) (m n : N)
    (hr : refsOf (buildRefs G l) m n = true) : DependsOn G m n := by
  obtain ⟨a, b, c⟩ := schedule_topo h hl
  have sp := buildRefs_spec G (l.map Prod.fst) (fun _ => none) [] (by simpa using a) (by simp)
    (by intro x n y hxy m hm; simpa using c x n y hxy m hm) m
  by_cases hm : m ∈ l.map Prod.fst
  · obtain ⟨s, hs, hk⟩ := sp.1 (by simpa using hm)
    simp only [refsOf, buildRefs, hs, Option.getD_some, List.contains_iff_mem] at hr
    exact (hk n).mp hr
  · have := sp.2 (by simpa using hm)
    simp [refsOf, buildRefs, this] at hr

/-! ## C02: compilation terminates -/

/-- **C02, full claim** for one graph: the listing terminates and with the reference sets built from any
listing the main loop terminates. -/
def CompileTerminates (G : Graph N V) (ops : OpTable N V) (inputs outputs : List N) : Prop :=
  ∃ fuel st, walk G fuel (walkInit outputs) = some st ∧
    ∀ l, IsSchedule st l → ∃ fuel', compile G ops (refsOf (buildRefs G l)) inputs outputs fuel' ≠ none

/-- C02 for every finite acyclic graph whose parameters have no inputs. Missing: parameters with inputs, for
which it is false (`C02_parameter_with_inputs_false`). -/
theorem C02_compile_terminates_partial (G : Graph N V) (ops : OpTable N V) (inputs outputs : List N)
    (nodes : List N) (hfin : ∀ n m, m ∈ G.inputs n → m ∈ nodes) (hacyc : ∀ n, ¬ DependsOn G n n)
    (hpar : ∀ p, G.kind p = .param → G.inputs p = []) : CompileTerminates G ops inputs outputs := by
  obtain ⟨rank, hR⟩ := exists_rank nodes hfin hacyc
  obtain ⟨fuel, st, h⟩ := walk_total hR nodes hfin outputs
  refine ⟨fuel, st, h, ?_⟩
  intro l hl
  obtain ⟨fuel', hf⟩ := loop_terminates (ops := ops) hR (fun m n => refs_sound h hl m n) hpar _ _
    (initSt G outputs) (init_inv G outputs) rfl rfl
  refine ⟨fuel', ?_⟩
  intro hc
  have hcases := compile_cases (G := G) (ops := ops) (refs := refsOf (buildRefs G l)) (inputs := inputs)
    (outputs := outputs) (fuel := fuel')
  rw [hc] at hcases
  exact hf hcases

end

theorem walk_fuel {N V : Type} [DecidableEq N] (G : Graph N V) (k j : Nat) (st st' : LSt N)
    (h : walk G k st = some st') : walk G (k + j) st = some st' := by
  induction k generalizing st with
  | zero => simp [walk] at h
  | succ k ih =>
    rw [show k + 1 + j = (k + j) + 1 by omega]
    simp only [walk] at h ⊢
    cases hq : st.queue with
    | nil => simpa [hq] using h
    | cons n q => simp only [hq] at h ⊢; exact ih _ h

/-- a parameter (0) with an input: the operator node 1 -/
def loopArena : Arena Nat :=
  [⟨.param, [1], 0, fun _ => none⟩, ⟨.oper, [2], 0, fun _ => some 0⟩, ⟨.const, [], 3, fun _ => none⟩]

/-- C02 is false when a parameter node has inputs: on the outputs `[p, x]` with `x` an input of `p`, the loop
swaps `x` below `p` because `p` refers to it, then `p` below `x` because `p` is a parameter, forever. -/
theorem C02_parameter_with_inputs_false :
    ¬ CompileTerminates (graphOf loopArena) (opsOf loopArena) [0] [0, 1] := by
  rintro ⟨fuel, st, hw, h⟩
  have hst : st.keys = [0, 1, 2] ∧ st.depth 0 = some 1 ∧ st.depth 1 = some 2 ∧ st.depth 2 = some 3 := by
    obtain ⟨x, hx⟩ : ∃ x, walk (graphOf loopArena) 6 (walkInit [0, 1]) = some x := ⟨_, rfl⟩
    have e := (walk_fuel (graphOf loopArena) fuel 6 _ st hw).symm.trans
      ((congrArg (walk (graphOf loopArena) · (walkInit [0, 1])) (Nat.add_comm fuel 6)).trans
        (walk_fuel (graphOf loopArena) 6 fuel _ x hx))
    cases e
    cases hx
    exact ⟨rfl, rfl, rfl, rfl⟩
  obtain ⟨hk, h0, h1, h2⟩ := hst
  obtain ⟨fuel', hf⟩ := h [(2, 3), (1, 2), (0, 1)] (by
    refine ⟨?_, by decide⟩
    rw [hk]
    simp only [List.map_cons, List.map_nil, h0, h1, h2, Option.getD_some]
    decide)
  apply hf
  have : ∀ k (st : CSt Nat Nat), st.unsolved = 1 →
      ((st.sim = [0, 1] ∧ st.working 0 = some 0 ∧ st.working 1 = some 1) ∨
       (st.sim = [1, 0] ∧ st.working 1 = some 0 ∧ st.working 0 = some 1)) →
      loop (graphOf loopArena) (opsOf loopArena)
        (refsOf (buildRefs (graphOf loopArena) [(2, 3), (1, 2), (0, 1)])) k st = none := by
    intro k
    induction k with
    | zero => intros; rfl
    | succ k ih =>
      intro st hu hst
      have r01 : refsOf (buildRefs (graphOf loopArena) [(2, 3), (1, 2), (0, 1)]) 0 1 = true := by decide
      have r11 : refsOf (buildRefs (graphOf loopArena) [(2, 3), (1, 2), (0, 1)]) 1 1 = false := by decide
      have k0 : (graphOf loopArena).kind 0 = .param := rfl
      have k1 : (graphOf loopArena).kind 1 = .oper := rfl
      rcases hst with ⟨hs, w0, w1⟩ | ⟨hs, w1, w0⟩
      · have hstep : step (graphOf loopArena) (opsOf loopArena)
            (refsOf (buildRefs (graphOf loopArena) [(2, 3), (1, 2), (0, 1)])) st =
            .next (simSwap (emit st [.swap 1 0]) 1 0 1 0) := by
          simp [step, hu, hs, w1, k1, findLast, r01, r11, Option.filter]
        simp only [loop, hstep]
        refine ih _ hu (.inr ?_)
        simp [simSwap, emit, hs, w0, w1, upd]
      · have hstep : step (graphOf loopArena) (opsOf loopArena)
            (refsOf (buildRefs (graphOf loopArena) [(2, 3), (1, 2), (0, 1)])) st =
            .next (simSwap (emit st [.swap 1 0]) 1 0 0 1) := by
          simp [step, hu, hs, w0, k0, k1, findLast, Option.filter]
        simp only [loop, hstep]
        refine ih _ hu (.inl ?_)
        simp [simSwap, emit, hs, w0, w1, upd]
  simp only [compile]
  rw [this fuel' _ (by decide) (.inl ⟨by decide, by decide, by decide⟩)]

/-- acyclicity from a numbering -/
theorem acyclic_of_rank {N V : Type} [DecidableEq N] {G : Graph N V} {rank : N → Nat} (h : Ranked G rank) (n : N) :
    ¬ DependsOn G n n := fun hd => Nat.lt_irrefl _ (dep_rank h hd)

theorem sample_ranked : Ranked (graphOf sampleArena) id := by
  intro n m hm
  match n with
  | 0 | 1 | 2 => simp [graphOf, sampleArena] at hm
  | 3 => simp [graphOf, sampleArena] at hm; rcases hm with rfl | rfl <;> decide
  | 4 => simp [graphOf, sampleArena] at hm; rcases hm with rfl | rfl <;> decide
  | n + 5 => simp [graphOf, sampleArena] at hm

theorem sample_fin : ∀ n m, m ∈ (graphOf sampleArena).inputs n → m ∈ [0, 1, 2, 3] := by
  intro n m hm
  match n with
  | 0 | 1 | 2 => simp [graphOf, sampleArena] at hm
  | 3 => simp [graphOf, sampleArena] at hm; rcases hm with rfl | rfl <;> decide
  | 4 => simp [graphOf, sampleArena] at hm; rcases hm with rfl | rfl <;> decide
  | n + 5 => simp [graphOf, sampleArena] at hm

/-- non-vacuity of C02 and C07: the sample graph is finite and acyclic, with leaf parameters -/
example : CompileTerminates (graphOf sampleArena) (opsOf sampleArena) [0, 1] [4, 3] :=
  C02_compile_terminates_partial _ _ _ _ [0, 1, 2, 3] sample_fin (acyclic_of_rank sample_ranked) (by
    intro p hp
    match p with
    | 0 | 1 | 2 => rfl
    | 3 | 4 => cases hp
    | p + 5 => simp [graphOf, sampleArena] at hp)

example : ∃ fuel st, walk (graphOf sampleArena) fuel (walkInit [4, 3]) = some st ∧
    IsSchedule st [(0, 3), (2, 3), (3, 2), (1, 2), (4, 1)] :=
  ⟨20, _, rfl, by decide, by decide⟩

/-! ## C41: sharing -/
section
variable {N V : Type} [DecidableEq N]

/-- **C41.** With the reference sets of the code, compiled code computes every needed node exactly once and
nothing else: its computing instructions are, in order, those of a duplicate-free list of exactly the nodes
needed for the outputs that are neither parameters nor constants; and the data segment holds the value of
every needed constant exactly once. (The code has no jumps: every instruction runs once per launch.) -/
theorem C41_each_node_computed_once (G : Graph N V) (ops : OpTable N V) (inputs outputs : List N)
    {fuel : Nat} {st : LSt N} (hw : walk G fuel (walkInit outputs) = some st)
    {l : List (N × Nat)} (hl : IsSchedule st l) (fuel' : Nat) (blk : Block V)
    (hc : compile G ops (refsOf (buildRefs G l)) inputs outputs fuel' = some (some blk)) :
    (∃ ns : List N, ns.Nodup ∧
      (∀ n, n ∈ ns ↔ Needs G outputs n ∧ G.kind n ≠ .param ∧ G.kind n ≠ .const) ∧
      blk.code.filter isCompute = ns.flatMap (fun n => (convertOp G ops n).getD [])) ∧
    ∃ cs : List N, cs.Nodup ∧ (∀ n, n ∈ cs ↔ Needs G outputs n ∧ G.kind n = .const) ∧
      blk.data = cs.map G.value := by
  have hcases := compile_cases (G := G) (ops := ops) (refs := refsOf (buildRefs G l)) (inputs := inputs)
    (outputs := outputs) (fuel := fuel')
  rw [hc] at hcases
  obtain ⟨-, -, -, -, st', hlp, hR, hpar, hf, hd⟩ := hcases
  have hrefs : ∀ m n, Needs G outputs m → DependsOn G m n → refsOf (buildRefs G l) m n = true := by
    intro m n hm hdep
    refine (refs_exact hw hl m n ?_).mpr hdep
    clear hdep
    induction hm with
    | root h => exact .inl h
    | @input a b _ _ _ hi ih =>
      rcases ih with h | ⟨r, hr, hd⟩
      · exact .inr ⟨a, h, .direct hi⟩
      · exact .inr ⟨r, hr, hd.tail (.direct hi)⟩
  have key := loop_reaches (ops := ops) (refs := refsOf (buildRefs G l)) (fuel := fuel') (init_inv G outputs)
    (init_reach G outputs) (fun s => (∃ done, OnceD G ops outputs s done) ∧ DataOnce G outputs s)
    ⟨⟨[], init_onceD G ops outputs⟩, init_dataOnce G outputs⟩
    (fun st st' hI hR hO hm => ⟨move_once hrefs hI hR hO.1 hm, move_dataOnce hI hR hO.2 hm⟩)
  rw [hlp] at key
  obtain ⟨-, -, ⟨⟨done, -, hnd, hcode, hin, hcov, -⟩, cs, hcnd, hcd, hcin, -, hccov⟩, -⟩ := key
  have hno : ∀ n, Needs G st'.sim n → G.kind n = .param := by
    intro n hn
    rcases hn.cases_root with h | ⟨r, hr, h1, -, -⟩
    · exact hpar n h
    · exact absurd (hpar r hr) h1
  refine ⟨⟨done, hnd, ?_, ?_⟩, cs, hcnd, ?_, by rw [hd, hcd]⟩
  · intro n
    constructor
    · intro h; exact ⟨(hin n h).1, (hin n h).2.1⟩
    · rintro ⟨h1, h2⟩
      rcases hcov n h1 h2 with h | h
      · exact h
      · exact absurd (hno n h) h2.1
  · rw [← hcode]
    unfold finish at hf
    split at hf
    · split at hf
      · simp only [Option.some.injEq] at hf; rw [← hf]
      · simp only [Option.some.injEq] at hf; rw [← hf]
        rw [List.filter_append, List.filter_append]
        have : (st'.sim.map fun n => Instr.push (V := V) (((inputIndex inputs n).getD 0 : Nat) : Int)).filter
            isCompute = [] := by
          rw [List.filter_eq_nil_iff]
          intro i hi
          simp only [List.mem_map] at hi
          obtain ⟨n, -, rfl⟩ := hi
          simp [isCompute]
        rw [this]
        simp [isCompute]
    · cases hf
  · intro n
    constructor
    · intro h; exact ⟨(hcin n h).2, (hcin n h).1⟩
    · rintro ⟨h1, h2⟩
      rcases hccov n h1 h2 with h | h
      · exact h
      · rw [hno n h] at h2; cases h2

end

/-- non-vacuity of C41: `a` is an output and an input of `b`, and still two instructions compute everything -/
example : (match sampleBlock with
    | some (some b) => ((b.code.filter isCompute).length, b.data)
    | _ => (0, [])) = (2, [5]) := by decide

/-! ## C05: constant folding -/
section
variable {V : Type} [Inhabited V]

/-- **C05.** Whenever folding a well formed graph succeeds: the original nodes are untouched (new nodes are
only appended), the new outputs have exactly the values of the old ones for every input, and nothing
constant is left to compute: every node still to be computed has an input that is not a constant. -/
theorem C05_constant_folding (P : PackOps V) (h : Arena V) (hc : Closed h) (outputs : List Nat)
    (hout : ∀ n ∈ outputs, n < h.length) (fuel : Nat) (h' : Arena V) (outputs' : List Nat)
    (hf : constFold fuel h outputs = .ok (h', outputs')) :
    (∃ new, h' = h ++ new) ∧ Closed h' ∧ (∀ n ∈ outputs', n < h'.length) ∧
    (∀ env vs, DenRow (graphOf h) P env outputs vs ↔ DenRow (graphOf h') P env outputs' vs) ∧
    ∀ m, Needs (graphOf h') outputs' m → (graphOf h').kind m ≠ .param → (graphOf h').kind m ≠ .const →
      ∃ i ∈ (graphOf h').inputs m, (graphOf h').kind i ≠ .const := by
  unfold constFold at hf
  cases hr : foldRoots fuel ⟨h, fun _ => none, fun _ => none⟩ outputs with
  | err => rw [hr] at hf; simp [R.bind] at hf
  | fuel => rw [hr] at hf; simp [R.bind] at hf
  | ok res =>
    obtain ⟨st, cs⟩ := res
    rw [hr] at hf
    simp only [R.bind, R.ok.injEq, Prod.mk.injEq] at hf
    obtain ⟨rfl, rfl⟩ := hf
    obtain ⟨a, ⟨e, b⟩, c, d, f⟩ := foldRoots_post (P := P) hc fuel outputs hout
      ⟨h, fun _ => none, fun _ => none⟩ ⟨⟨[], by simp⟩, hc, by simp, by simp⟩ st cs hr
    refine ⟨⟨e, b⟩, a.closed, c, fun env vs => d.den env vs, ?_⟩
    intro m hm
    have : ∃ k ∈ cs, Needs (graphOf st.heap) [k] m := by
      induction hm with
      | @root x hx => exact ⟨x, hx, .root (by simp)⟩
      | @input x y _ hp hc hi ih =>
        obtain ⟨k, hk, hn⟩ := ih
        exact ⟨k, hk, .input hn hp hc hi⟩
    obtain ⟨k, hk, hn⟩ := this
    exact f k hk m hn

/-- **C05, termination.** Folding an acyclic graph terminates. -/
theorem C05_terminates (h : Arena V) (hc : Closed h) (hacyc : ∀ n, ¬ DependsOn (graphOf h) n n)
    (outputs : List Nat) (hout : ∀ n ∈ outputs, n < h.length) :
    ∃ fuel, constFold fuel h outputs ≠ .fuel := by
  obtain ⟨rank, hR⟩ := exists_rank (G := graphOf h) (List.range h.length)
    (fun n m hm => List.mem_range.mpr (closed_inputs hc hm)) hacyc
  refine ⟨(outputs.map rank).sum + 1, ?_⟩
  have := foldRoots_fuel (P := ⟨fun _ => default, fun _ _ => none⟩) hc hR ((outputs.map rank).sum + 1) outputs hout
    (fun n hn => by have := le_sum_of_mem rank outputs n hn; omega)
    ⟨h, fun _ => none, fun _ => none⟩ ⟨⟨[], by simp⟩, hc, by simp, by simp⟩
  unfold constFold
  cases hr : foldRoots ((outputs.map rank).sum + 1) ⟨h, fun _ => none, fun _ => none⟩ outputs with
  | fuel => exact absurd hr this
  | err => simp [R.bind]
  | ok res => simp [R.bind]

end

/-- a constant sub-graph: `k = 5 + 5`, `a = x + k` -/
def foldArena : Arena Nat :=
  [⟨.param, [], 0, fun _ => none⟩, ⟨.const, [], 5, fun _ => none⟩, ⟨.oper, [1, 1], 0, addSem⟩,
   ⟨.oper, [0, 2], 0, addSem⟩]

/-- non-vacuity of C05: folding succeeds and appends the constant 10 and a copy of `a` using it -/
example : (match constFold 10 foldArena [3] with
    | .ok (h, outs) => (h.map (fun r => (r.kind, r.inputs, r.value)), outs)
    | _ => ([], [])) =
    ([(.param, [], 0), (.const, [], 5), (.oper, [1, 1], 0), (.oper, [0, 2], 0), (.const, [], 10),
      (.oper, [0, 4], 0)], [5]) := by decide
example : Closed foldArena ∧ ∀ n ∈ [3], n < foldArena.length := by
  refine ⟨?_, by decide⟩
  intro n r hr m hm
  match n with
  | 0 | 1 => simp [foldArena] at hr; subst hr; simp at hm
  | 2 => simp [foldArena] at hr; subst hr; simp at hm; subst hm; decide
  | 3 => simp [foldArena] at hr; subst hr; simp at hm; rcases hm with rfl | rfl <;> decide
  | n + 4 => simp [foldArena] at hr

/-- Folding refuses graphs that have a value: packing two constants throws, because the pack layer is an
instruction and no operator is registered under its name (intime.cpp:19-46). -/
theorem C05_pack_of_constants_rejected :
    let h : Arena Nat := [⟨.const, [], 5, fun _ => none⟩, ⟨.pack, [0, 0], 0, fun _ => none⟩]
    constFold 10 h [1] = .err ∧ ∀ env, Den (graphOf h) natPack env 1 10 := by
  refine ⟨rfl, fun env => .node (vs := [5, 5]) rfl ?_ rfl⟩
  intro i h1 h2
  match i, h2 with
  | 0, _ => exact .const rfl
  | 1, _ => exact .const rfl

/-! ## C06: zipping -/
section
variable {V : Type} [Inhabited V]

theorem zipRoots_ok {os : List (ZipOption V)} {fuel : Nat} {h h' : Arena V} {outputs outputs' : List Nat}
    (hz : zipRoots os fuel h outputs = .ok (h', outputs')) :
    (os = [] ∧ h' = h ∧ outputs' = outputs) ∨
    ∃ st, zipInputs (zipNode os fuel) ⟨h, fun _ => none⟩ outputs = .ok (st, outputs') ∧ h' = st.heap := by
  unfold zipRoots at hz
  split at hz
  · rename_i he
    simp at he hz
    exact .inl ⟨he, hz.1.symm, hz.2.symm⟩
  · right
    cases hr : zipInputs (zipNode os fuel) ⟨h, fun _ => none⟩ outputs with
    | err => rw [hr] at hz; simp [R.bind] at hz
    | fuel => rw [hr] at hz; simp [R.bind] at hz
    | ok res =>
      obtain ⟨st, cs⟩ := res
      rw [hr] at hz
      simp only [R.bind, R.ok.injEq, Prod.mk.injEq] at hz
      obtain ⟨rfl, rfl⟩ := hz
      exact ⟨st, rfl, rfl⟩

/-- **C06, meaning.** Zipping with any list of options that each preserve a node's values leaves the original
nodes untouched and returns outputs with exactly the same values. -/
theorem C06_zip_preserves_meaning (P : PackOps V) (os : List (ZipOption V)) (hos : ∀ o ∈ os, OptionOk P o)
    (h : Arena V) (hc : Closed h) (hl : ParamLeaf h) (outputs : List Nat) (hout : ∀ n ∈ outputs, n < h.length)
    (fuel : Nat) (h' : Arena V) (outputs' : List Nat) (hz : zipRoots os fuel h outputs = .ok (h', outputs')) :
    (∃ new, h' = h ++ new) ∧ Closed h' ∧ ParamLeaf h' ∧ (∀ n ∈ outputs', n < h'.length) ∧
    ∀ env vs, DenRow (graphOf h) P env outputs vs ↔ DenRow (graphOf h') P env outputs' vs := by
  rcases zipRoots_ok hz with ⟨-, rfl, rfl⟩ | ⟨st, hr, rfl⟩
  · exact ⟨⟨[], by simp⟩, hc, hl, hout, fun _ _ => Iff.rfl⟩
  · obtain ⟨a, b, c, d, -⟩ := zipInputs_post (P := P) (h0 := h) (zipNode os fuel) (zipNode_post os hos fuel) outputs
      ⟨h, fun _ => none⟩ ⟨⟨[], by simp⟩, hc, hl, by simp⟩ hout st outputs' hr
    exact ⟨b, a.closed, a.leaf, c, fun env vs => d.den env vs⟩

/-- **C06, sharing and termination**, for options that never make a node higher (otherwise zipping may rewrite
the same pattern for ever): zipping stops, and each source node is rewritten once — there is one rewriting
function `f`, used for the outputs and for the inputs of every rewritten node. -/
theorem C06_zip_shares_and_terminates (P : PackOps V) (os : List (ZipOption V)) (hos : ∀ o ∈ os, OptionOk P o)
    (hfl : ∀ o ∈ os, OptionFlat o) (h : Arena V) (hc : Closed h) (hl : ParamLeaf h)
    (hacyc : ∀ n, ¬ DependsOn (graphOf h) n n) (outputs : List Nat) (hout : ∀ n ∈ outputs, n < h.length) :
    ∃ fuel, zipRoots os fuel h outputs ≠ .fuel ∧
      ∀ h' outputs', zipRoots os fuel h outputs = .ok (h', outputs') → os ≠ [] →
        ∃ f : Nat → Option Nat, outputs.map f = outputs'.map some ∧
          ∀ n c, f n = some c → ∃ z, (∀ env v, Den (graphOf h') P env n v ↔ Den (graphOf h') P env z v) ∧
            ((graphOf h').inputs z).map f = ((graphOf h').inputs c).map some := by
  obtain ⟨rank, hR⟩ := exists_rank (G := graphOf h) (List.range h.length)
    (fun n m hm => List.mem_range.mpr (closed_inputs hc hm)) hacyc
  have hh : ∀ n, HH (graphOf h) n (rank n) := by
    intro n
    have : ∀ k n, rank n = k → HH (graphOf h) n k := by
      intro k
      induction k using Nat.strongRecOn with
      | _ k ih =>
        rintro n rfl
        exact HH_iff.mpr fun m hm => ⟨rank m, hR n m hm, ih _ (hR n m hm) m rfl⟩
    exact this _ n rfl
  let K := (outputs.map rank).sum
  have hK : ∀ i ∈ outputs, i < h.length ∧ HH (graphOf h) i K := fun i hi =>
    ⟨hout i hi, (hh i).mono (le_sum_of_mem rank outputs i hi)⟩
  have hI : ZInv P h (⟨h, fun _ => none⟩ : ZSt V) := ⟨⟨[], by simp⟩, hc, hl, by simp⟩
  have hH : HInv (⟨h, fun _ => none⟩ : ZSt V) := by intro n z k hr; simp at hr
  have hS : SInv P (⟨h, fun _ => none⟩ : ZSt V) := by intro n z hr; simp at hr
  obtain ⟨x1, x2⟩ := zipInputs_height (zipNode os (K + 1)) K (zipNode_post os hos (K + 1))
    (fun st n a b c d => zipNode_height (h0 := h) os hos hfl (K + 1) st n K a b c d (by omega)) outputs _ hI hH hK
  refine ⟨K + 1, ?_, ?_⟩
  · unfold zipRoots
    split
    · simp
    · cases hr : zipInputs (zipNode os (K + 1)) ⟨h, fun _ => none⟩ outputs with
      | fuel => exact absurd hr x1
      | err => simp [R.bind]
      | ok res => simp [R.bind]
  · intro h' outputs' hz hne
    rcases zipRoots_ok hz with ⟨he, -, -⟩ | ⟨st, hr, rfl⟩
    · exact absurd he hne
    · obtain ⟨y1, y2, y3, y4⟩ := x2 st outputs' hr
      obtain ⟨a, b, c, d, -⟩ := zipInputs_post (P := P) (h0 := h) (zipNode os (K + 1)) (zipNode_post os hos (K + 1))
        outputs _ hI hout st outputs' hr
      have hS' := zipInputs_shared (zipNode os (K + 1)) K (zipNode_post os hos (K + 1))
        (fun st n a b c d => zipNode_height (h0 := h) os hos hfl (K + 1) st n K a b c d (by omega))
        (fun st n res a b c d e g => zipNode_shared os hos hfl (K + 1) st n K res a b c d e (by omega) g)
        outputs _ hI hH hS hK st outputs' hr
      refine ⟨st.ready, map_ready d.1 y4, ?_⟩
      intro n c hnc
      obtain ⟨-, z, -, hz1, hz2⟩ := hS' n c hnc
      exact ⟨z, hz1, hz2⟩

end

/-- an option that replaces `x + x` by a fresh copy of itself (same inputs, same value) -/
def copyOption : ZipOption Nat := fun h n =>
  match h[n]? with
  | some r => if r.kind = .oper then some ([r], h.length) else none
  | none => none

/-- non-vacuity of C06: the option preserves values and heights, and zipping with it rewrites the sample -/
example (P : PackOps Nat) : OptionOk P copyOption ∧ OptionFlat copyOption := by
  constructor
  · intro h n new z hc hl hn ho
    unfold copyOption at ho
    obtain ⟨r, hr⟩ : ∃ r, h[n]? = some r := ⟨_, List.getElem?_eq_getElem hn⟩
    simp only [hr] at ho
    split at ho
    · rename_i hk
      simp at ho
      obtain ⟨rfl, rfl⟩ := ho
      have hin : ∀ m ∈ r.inputs, m < h.length := hc n r hr
      refine ⟨closed_append hc hin, ?_, by simp, ?_⟩
      · intro m x hx hxk
        rcases Nat.lt_or_ge m h.length with hm | hm
        · rw [List.getElem?_append_left hm] at hx; exact hl m x hx hxk
        · rw [List.getElem?_append_right hm] at hx
          have : x ∈ [r] := List.mem_of_getElem? hx
          simp at this; subst this; rw [hk] at hxk; cases hxk
      · exact sameDen_copy (P := P) hr (by simp [hk]) (by simp [hk]) hc hin ⟨rfl, fun _ _ _ _ _ => Iff.rfl⟩
    · cases ho
  · intro h n new z k hc hn ho hh
    unfold copyOption at ho
    obtain ⟨r, hr⟩ : ∃ r, h[n]? = some r := ⟨_, List.getElem?_eq_getElem hn⟩
    simp only [hr] at ho
    split at ho
    · simp at ho
      obtain ⟨rfl, rfl⟩ := ho
      rw [HH_iff] at hh ⊢
      rw [(graphOf_last h r).2.1]
      rw [(graphOf_get hr).2.1] at hh
      intro m hm
      obtain ⟨k', h1, h2⟩ := hh m hm
      exact ⟨k', h1, (HH.extend hc (hc n r hr m hm)).mpr h2⟩
    · cases ho
example : (match zipRoots [copyOption] 20 foldArena [3, 2] with
    | .ok (h, outs) => (h.map (fun r => r.inputs), outs)
    | _ => ([], [])) =
    ([[], [], [1, 1], [0, 2], [0, 2], [1, 1], [0, 5]], [6, 5]) := by decide

/-! ## C01 for the whole pipeline -/
section
variable {V : Type} [Inhabited V]

/-- **C01, pipeline** (`Compiler::compile` from the zipper on, compiler.cpp:123-377): zipping, folding and
compiling a graph gives a program that returns the values the *original* graph gives its outputs; the
requirement that operator nodes have inputs has become unnecessary, since folding removes the others.
Missing for the full claim: repeated inputs, and graphs using none of their inputs (both false, see above);
the optional device converter (compiler.cpp:112-122) is not modelled. -/
theorem C01_pipeline_partial (P : PackOps V) (os : List (ZipOption V)) (hos : ∀ o ∈ os, OptionOk P o)
    (h : Arena V) (hc : Closed h) (hl : ParamLeaf h) (inputs outputs : List Nat)
    (hout : ∀ n ∈ outputs, n < h.length) (hnd : inputs.Nodup)
    (f1 f2 f3 : Nat) (h1 h2 : Arena V) (outs1 outs2 : List Nat)
    (hz : zipRoots os f1 h outputs = .ok (h1, outs1)) (hf : constFold f2 h1 outs1 = .ok (h2, outs2))
    (hused : inputs = [] ∨ ∃ p, (graphOf h2).kind p = .param ∧ Needs (graphOf h2) outs2 p)
    (ops : OpTable Nat V) (refs : Nat → Nat → Bool)
    (hops : ∀ n f, Needs (graphOf h2) outs2 n → (graphOf h2).kind n = .oper → ops n = some f →
      Implements f ((graphOf h2).inputs n).length ((graphOf h2).sem n))
    (blk : Block V) (hcomp : compile (graphOf h2) ops refs inputs outs2 f3 = some (some blk)) :
    blk.nargs = inputs.length ∧ blk.nresults = outputs.length ∧
    ∀ (adj : Adjust V) (args : List V) (env : Nat → Option V) (s : Stk V), s.Wf → args.length = inputs.length →
      (∀ i (h1 : i < inputs.length) (h2 : i < args.length), env inputs[i] = some args[i]) →
      (∃ outs, DenRow (graphOf h) P env outputs outs ∧ launchOffline P adj blk.prog args s = .ok s outs) ∨
      ((¬ ∃ outs, DenRow (graphOf h) P env outputs outs) ∧ launchOffline P adj blk.prog args s = .err s) := by
  obtain ⟨-, a2, -, a4, a5⟩ := C06_zip_preserves_meaning P os hos h hc hl outputs hout f1 h1 outs1 hz
  obtain ⟨-, -, -, b4, b5⟩ := C05_constant_folding P h1 a2 outs1 a4 f2 h2 outs2 hf
  have hlen : outs2.length = outputs.length := by
    have l1 : outs1.length = outputs.length := by
      rcases zipRoots_ok hz with ⟨-, -, rfl⟩ | ⟨st, hr, -⟩
      · rfl
      · exact (zipInputs_post (P := P) (h0 := h) (zipNode os f1) (zipNode_post os hos f1) outputs
          ⟨h, fun _ => none⟩ ⟨⟨[], by simp⟩, hc, hl, by simp⟩ hout st outs1 hr).2.2.2.1.1
    have l2 : outs2.length = outs1.length := by
      unfold constFold at hf
      cases hr : foldRoots f2 ⟨h1, fun _ => none, fun _ => none⟩ outs1 with
      | err => rw [hr] at hf; simp [R.bind] at hf
      | fuel => rw [hr] at hf; simp [R.bind] at hf
      | ok res =>
        obtain ⟨st, cs⟩ := res
        rw [hr] at hf
        simp only [R.bind, R.ok.injEq, Prod.mk.injEq] at hf
        obtain ⟨rfl, rfl⟩ := hf
        exact (foldRoots_post (P := P) a2 f2 outs1 a4 ⟨h1, fun _ => none, fun _ => none⟩
          ⟨⟨[], by simp⟩, a2, by simp, by simp⟩ st cs hr).2.2.2.1.1
    omega
  obtain ⟨c1, c2, c3⟩ := C01_compile_correct_partial (graphOf h2) P ops inputs outs2
    ⟨hops, fun n hn hk => by
      obtain ⟨i, hi, -⟩ := b5 n hn (by rw [hk]; simp) (by rw [hk]; simp)
      exact List.length_pos_of_mem hi⟩ hnd hused refs f3 blk hcomp
  refine ⟨c1, by rw [c2, hlen], ?_⟩
  intro adj args env s hs hla henv
  have e : ∀ vs, DenRow (graphOf h) P env outputs vs ↔ DenRow (graphOf h2) P env outs2 vs :=
    fun vs => (a5 env vs).trans (b4 env vs)
  have := c3 adj args env s hs hla henv
  simpa only [e] using this

end

/-- non-vacuity of the pipeline theorem: zip, fold and compile `a = x + (5 + 5)`, then run it -/
example : (match zipRoots [copyOption] 20 foldArena [3] with
    | .ok (h1, o1) => match constFold 20 h1 o1 with
      | .ok (h2, o2) => match compile (graphOf h2) (opsOf h2) (fun _ _ => false) [0] o2 50 with
        | some (some b) => launchOffline natPack some b.prog [7] ⟨[], 0, []⟩
        | _ => .ub
      | _ => .ub
    | _ => .ub) = .ok ⟨[], 0, []⟩ [17] := by decide

/-- C41 does not survive constant folding: with `k = 5 + 5`, `a = x + k`, `b = a + a` and outputs `[a, b]`,
`a` is rewritten twice, because the call for an output memoises the *new* node under itself
(`run_const_node(node, node, …)`, compiler.cpp:453-461, where the out-parameter is the key); the compiled
program then computes three operators for two nodes. -/
theorem C41_folding_loses_sharing :
    let h := foldArena ++ [⟨.oper, [3, 3], 0, addSem⟩]
    (match constFold 20 h [3, 4] with
      | .ok (h2, o2) => match compile (graphOf h2) (opsOf h2)
            (refsOf (buildRefs (graphOf h2) ((List.range h2.length).map fun n => (n, 0)))) [0] o2 50 with
        | some (some b) => (b.code.filter isCompute).length
        | _ => 0
      | _ => 0) = 3 := by decide

end Verif.Props
