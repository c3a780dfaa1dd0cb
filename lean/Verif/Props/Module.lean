import Verif.Module.LoadLemmas
/-! # Properties of loading a module and sorting its inputs -/
namespace Verif.Props
open Verif.Compiler Verif.Module

section
variable {N V : Type} [DecidableEq N]

/-! ## C08 -/

/-- **C08.** Whatever the graph (cyclic or not) and the outputs, walking it terminates. It fails exactly when
some node the outputs need is outside the graph, or is neither parameter nor constant and has no inputs.
Otherwise the inputs it reports, in whatever order the hash set yields, are exactly the parameters the outputs
need, each once. -/
theorem C08_load_finds_inputs (G : Graph N V) (nodes outputs : List N) :
    ∃ fuel r, graphWalker G nodes fuel outputs = some r ∧
      (r = none ↔ ∃ n, Needs G outputs n ∧
        (n ∉ nodes ∨ (G.kind n ≠ .param ∧ G.kind n ≠ .const ∧ G.inputs n = []))) ∧
      ∀ found, r = some found → ∀ l, SetOrder found l →
        ∀ m : Modl N, (m.load l outputs).outputs = m.outputs ++ outputs ∧
          ∃ new, (m.load l outputs).inputs = m.inputs ++ new ∧ new.Nodup ∧
            ∀ n, n ∈ new ↔ G.kind n = .param ∧ Needs G outputs n := by
  obtain ⟨fuel, r, hr⟩ := wloop_total (G := G) (nodes := nodes) (outputs := outputs) _ _ _
    (winit_inv G nodes outputs) rfl rfl
  have hp := wloop_post fuel _ (winit_inv G nodes outputs) r hr
  refine ⟨fuel, r, hr, ?_, ?_⟩
  · constructor
    · rintro rfl
      obtain ⟨n, hn, hb⟩ := hp
      refine ⟨n, hn, ?_⟩
      rcases hb with hb | ⟨⟨a, b⟩, c⟩
      · exact .inl hb
      · exact .inr ⟨a, b, c⟩
    · rintro ⟨n, hn, hb⟩
      cases r with
      | none => rfl
      | some l =>
        refine absurd ?_ (hp.2.2 n hn)
        rcases hb with hb | ⟨a, b, c⟩
        · exact .inl hb
        · exact .inr ⟨⟨a, b⟩, c⟩
  · rintro found rfl l hl m
    refine ⟨rfl, l, rfl, hl.1, ?_⟩
    intro n
    rw [hl.2 n]
    exact hp.2.1 n

/-- a graph with a parameter (0), a constant (1), an operator using both twice (2), an unused parameter (3)
and an operator without inputs (4) -/
def walkSample : Graph Nat Nat where
  kind | 0 | 3 => .param | 1 => .const | _ => .oper
  inputs | 2 => [0, 1, 0] | _ => []
  value _ := 0
  sem _ _ := none

example : graphWalker walkSample [0, 1, 2, 3, 4] 10 [2, 2] = some (some [0]) := by decide
example : graphWalker walkSample [0, 1, 2, 3, 4] 10 [2, 4] = some none := by decide
example : graphWalker walkSample [0, 2, 3, 4] 10 [2] = some none := by decide

/-- **C08 (outputs by name).** Selecting outputs by name succeeds exactly when every requested name is borne by
exactly one node of the graph, and then selects those nodes in the requested order. -/
theorem C08_outputs_by_name (name : N → String) (nodes : List N) (req : List String) (sel : List N)
    (hnd : nodes.Nodup) :
    selectOutputs name nodes req = some sel ↔
      (∀ s ∈ req, ∃ n ∈ nodes, name n = s ∧ ∀ k ∈ nodes, name k = s → k = n) ∧
      sel.map name = req ∧ ∀ n ∈ sel, n ∈ nodes := by
  have key := findNames_spec name req nodes (fun _ => none) [] (by simp) (by simp)
  simp only [List.nil_append] at key
  unfold selectOutputs
  cases hf : findNames name nodes (fun _ => none) req with
  | none =>
    simp only [reduceCtorEq, false_iff]
    rintro ⟨h, -⟩
    obtain ⟨s, hs, h2⟩ := key.1 hf
    obtain ⟨n, hn, hns, hu⟩ := h s hs
    obtain ⟨a, ha, b, hb, hab, h1, h2⟩ := h2 hnd
    exact hab ((hu a ha h1).trans (hu b hb h2).symm)
  | some tbl =>
    have ht := key.2 tbl hf
    simp only
    constructor
    · intro h
      split at h
      · rename_i hall
        rw [List.all_eq_true] at hall
        refine ⟨?_, ?_, ?_⟩
        · intro s hs
          have := hall s hs
          obtain ⟨n, hn⟩ := Option.isSome_iff_exists.mp this
          obtain ⟨h1, h2, h3⟩ := (ht s n hs).mp hn
          exact ⟨n, h1, h2, h3⟩
        · exact mapM_map tbl name req sel (fun s hs n hn => ((ht s n hs).mp hn).2.1) h
        · intro n hn
          obtain ⟨s, hs, hsn⟩ := mapM_mem tbl req sel h n hn
          exact ((ht s n hs).mp hsn).1
      · cases h
    · rintro ⟨h1, h2, h3⟩
      have hall : req.all (fun s => (tbl s).isSome) = true := by
        rw [List.all_eq_true]
        intro s hs
        obtain ⟨n, hn, hns, hu⟩ := h1 s hs
        rw [(ht s n hs).mpr ⟨hn, hns, hu⟩]; rfl
      rw [if_pos hall]
      apply mapM_of_map tbl name req sel h2
      intro n hn
      have hr : name n ∈ req := by rw [← h2]; exact List.mem_map.mpr ⟨n, hn, rfl⟩
      obtain ⟨k, hk, hks, hu⟩ := h1 _ hr
      have : n = k := hu n (h3 n hn) rfl
      subst this
      exact (ht _ _ hr).mpr ⟨hk, rfl, hu⟩

example : selectOutputs (fun n : Nat => if n = 0 then "a" else if n = 1 then "b" else "c") [0, 1, 2, 3]
    ["b", "a", "b"] = some [1, 0, 1] := by decide
example : selectOutputs (fun n : Nat => if n = 0 then "a" else if n = 1 then "b" else "c") [0, 1, 2, 3]
    ["b", "c"] = none := by decide

/-- The full claim "each required parameter is a module input once" fails when a module loads twice from the
same graph: the shared parameter is listed twice (and by `C01_duplicate_inputs_false` such a module does not
compile to what it means). -/
theorem C08_second_load_repeats_inputs_false :
    ∃ (found : List Nat), graphWalker walkSample [0, 1, 2] 10 [2] = some (some found) ∧ SetOrder found [0] ∧
      ¬ ((((⟨[], []⟩ : Modl Nat).load [0] [2]).load [0] [2]).inputs).Nodup :=
  ⟨[0], by decide, ⟨by decide, by simp⟩, by decide⟩

/-! ## C09 -/

/-- **C09 (by node).** Sorting succeeds exactly when every current input is mentioned, and then the inputs are
exactly the given list and the outputs are unchanged. On failure there is no new module: the old one stays. -/
theorem C09_sort_by_node (m m' : Modl N) (req : List N) :
    sortNodes m req = some m' ↔ (∀ n ∈ m.inputs, n ∈ req) ∧ m'.inputs = req ∧ m'.outputs = m.outputs := by
  unfold sortNodes
  simp only [List.all_eq_true]
  constructor
  · intro h
    split at h
    · rename_i hall
      cases h
      exact ⟨fun n hn => by simpa using hall n hn, rfl, rfl⟩
    · cases h
  · rintro ⟨h1, h2, h3⟩
    rw [if_pos (fun n hn => by simpa using h1 n hn)]
    cases m'
    simp_all

/-- **C09 (by name).** Sorting by names succeeds exactly when the current inputs have distinct names, every
requested name is a current input's and every current input is requested; then the `i`-th input is the current
input bearing the `i`-th name and the outputs are unchanged. -/
theorem C09_sort_by_name (name : N → String) (m m' : Modl N) (req : List String) :
    sortNames name m req = some m' ↔
      (m.inputs.map name).Nodup ∧ (∀ s, s ∈ req ↔ s ∈ m.inputs.map name) ∧
      m'.inputs.map name = req ∧ (∀ n ∈ m'.inputs, n ∈ m.inputs) ∧ m'.outputs = m.outputs := by
  have key := nameTable_spec name m.inputs (fun _ => none) [] (by simp) (by simp)
  simp only [List.nil_append] at key
  unfold sortNames
  cases hf : nameTable name m.inputs (fun _ => none) with
  | none =>
    simp only [reduceCtorEq, false_iff]
    rintro ⟨h, -⟩
    exact key.1.mp hf h
  | some tbl =>
    have hnames : (m.inputs.map name).Nodup := by
      apply Classical.byContradiction
      intro h
      rw [key.1.mpr h] at hf; cases hf
    have ht := key.2 tbl hf
    simp only
    cases hm : req.mapM tbl with
    | none =>
      simp only [reduceCtorEq, false_iff]
      rintro ⟨-, h2, h3, h4, -⟩
      rw [mapM_of_map tbl name req m'.inputs h3 (fun n hn => (ht (name n) n).mpr ⟨h4 n hn, rfl⟩)] at hm
      cases hm
    | some sorted =>
      simp only
      have hs1 : sorted.map name = req := mapM_map tbl name req sorted (fun s _ n hn => ((ht s n).mp hn).2) hm
      have hs2 : ∀ n ∈ sorted, n ∈ m.inputs := by
        intro n hn
        obtain ⟨s, -, hsn⟩ := mapM_mem tbl req sorted hm n hn
        exact ((ht s n).mp hsn).1
      have hcov := distinct_lt_iff m.inputs sorted (nodup_of_map hnames) hs2
      split
      · rename_i hlt
        simp only [reduceCtorEq, false_iff]
        rintro ⟨-, h2, h3, h4, -⟩
        obtain ⟨n, hn, hns⟩ := hcov.mp hlt
        apply hns
        have : name n ∈ req := (h2 _).mpr (List.mem_map.mpr ⟨n, hn, rfl⟩)
        rw [← hs1] at this
        obtain ⟨k, hk, hkn⟩ := List.mem_map.mp this
        have : k = n := map_inj hnames (hs2 k hk) hn hkn
        subst this; exact hk
      · rename_i hlt
        constructor
        · rintro h; cases h
          refine ⟨hnames, ?_, hs1, hs2, rfl⟩
          intro s
          constructor
          · intro h
            rw [← hs1] at h
            obtain ⟨k, hk, hkn⟩ := List.mem_map.mp h
            exact List.mem_map.mpr ⟨k, hs2 k hk, hkn⟩
          · intro h
            obtain ⟨k, hk, hkn⟩ := List.mem_map.mp h
            apply Classical.byContradiction
            intro hsr
            apply hlt
            apply hcov.mpr
            refine ⟨k, hk, ?_⟩
            intro hks
            apply hsr
            rw [← hs1, ← hkn]
            exact List.mem_map.mpr ⟨k, hks, rfl⟩
        · rintro ⟨-, h2, h3, h4, h5⟩
          have : m'.inputs = sorted := by
            apply map_inj_list hnames _ _ h4 hs2
            rw [h3, hs1]
          cases m'
          simp_all

example : sortNames (fun n : Nat => toString n) ⟨[4, 7], [9]⟩ ["7", "4", "7"] = some ⟨[7, 4, 7], [9]⟩ := by decide
example : sortNames (fun n : Nat => toString n) ⟨[4, 7], [9]⟩ ["7"] = none := by decide
example : sortNodes (⟨[4, 7], [9]⟩ : Modl Nat) [7, 5, 4] = some ⟨[7, 5, 4], [9]⟩ := by decide
end
end Verif.Props
