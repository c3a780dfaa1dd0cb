import Verif.Runtime.Bench
import Verif.Props.Runtime
import Mathlib.Data.List.Perm.Subperm
import Mathlib.Data.List.Nodup
/-!
# Property theorems: workbench inputs and outputs (C36)
-/
namespace Verif.Props
open Verif.Runtime Verif.Runtime.Bench
variable {V : Type}

/-! ## Specification, written from the history of calls alone -/

/-- which slot a call binds, and to what: an existing slot, or the first input carrying the name -/
def bindsTo (ins : List String) : Call V → Option (Nat × V)
  | .inSlot i v => if 0 ≤ i ∧ i < ins.length then some (i.toNat, v) else none
  | .inName n v => (ins.idxOf? n).map (·, v)
  | _ => none

/-- the value last bound to slot `i`, in a history with the newest call first; the empty tensor if there is none -/
def lastBound (nil : V) (ins : List String) : List (Call V) → Nat → V
  | [], _ => nil
  | c :: h, i => match bindsTo ins c with
    | some (j, v) => if i = j then v else lastBound nil ins h i
    | none => lastBound nil ins h i

/-- what the inputs are after a history -/
def boundArgs (nil : V) (ins : List String) (h : List (Call V)) : List V :=
  (List.range ins.length).map (lastBound nil ins h)

/-- is the call a run? -/
def isRun : Call V → Bool
  | .run => true
  | .runHook _ => true
  | _ => false

/-- is the call a program change? -/
def isSetup : Call V → Bool
  | .setup _ => true
  | _ => false

/-- the results of the last run that completed (newest call first), each run on the inputs bound when it was called;
`f args` is what the program gives on `args` -/
def lastResults (nil : V) (ins outs : List String) (f : List V → Option (List V)) : List (Call V) → List V
  | [] => List.replicate outs.length nil
  | c :: h =>
    if isRun c then match f (boundArgs nil ins h) with
      | some r => r
      | none => lastResults nil ins outs f h
    else lastResults nil ins outs f h

/-- what a launch of `p` gives (the stack is restored: C04) -/
def progResult (P : PackOps V) (adj : Adjust V) (p : Prog V) (s : Stk V) (args : List V) : Option (List V) :=
  match launchOffline P adj p args s with
  | .ok _ outs => some outs
  | _ => none

/-! ## Lemmas -/

theorem slotMap_eq (ns : List String) : ∀ (k : Nat) (m : String → Option Nat) (x : String),
    slotMap m k ns x = match m x with
      | some j => some j
      | none => (ns.idxOf? x).map (· + k) := by
  induction ns with
  | nil => intro k m x; simp [slotMap]; cases m x <;> rfl
  | cons n ns ih =>
    intro k m x
    simp only [slotMap]
    rw [ih]
    by_cases h : x = n
    · subst h
      simp only [if_true]
      cases hm : m x <;> simp [List.idxOf?_cons]
    · rw [if_neg h]
      cases hm : m x
      · simp only [List.idxOf?_cons]
        have : (n == x) = false := by simp [Ne.symm h]
        rw [this]
        cases ns.idxOf? x <;> simp; omega
      · rfl

theorem slotMap_idxOf (ns : List String) (x : String) : slotMap (fun _ => none) 0 ns x = ns.idxOf? x := by
  rw [slotMap_eq]; simp

theorem idxOf?_lt {ns : List String} {x : String} {k : Nat} (h : ns.idxOf? x = some k) : k < ns.length := by
  rw [List.idxOf?, List.findIdx?_eq_some_iff_getElem] at h
  exact h.1

theorem boundArgs_length (nil : V) (ins : List String) (h : List (Call V)) : (boundArgs nil ins h).length = ins.length := by
  simp [boundArgs]

theorem boundArgs_bind (nil : V) (ins : List String) (c : Call V) (h : List (Call V)) {j : Nat} {v : V}
    (hb : bindsTo ins c = some (j, v)) : boundArgs nil ins (c :: h) = (boundArgs nil ins h).set j v := by
  apply List.ext_getElem (by simp [boundArgs])
  intro i h1 h2
  simp only [boundArgs, List.getElem_map, List.getElem_range, lastBound, hb, List.getElem_set]
  by_cases e : j = i
  · simp [e]
  · rw [if_neg e, if_neg (Ne.symm e)]

theorem boundArgs_other (nil : V) (ins : List String) (c : Call V) (h : List (Call V))
    (hb : bindsTo ins c = none) : boundArgs nil ins (c :: h) = boundArgs nil ins h := by
  apply List.ext_getElem (by simp [boundArgs])
  intro i h1 h2
  simp only [boundArgs, List.getElem_map, List.getElem_range, lastBound, hb]

theorem saveInputs_some (b : Bench V) (d : Desk V) (hd : b.desktop = some d) (h1 : b.inputs.length = d.nin)
    (h2 : d.inNames.length = d.nin) : ∃ m, b.saveInputs = some m := by
  unfold saveInputs
  rw [hd]
  simp only []
  have : ∀ (l : List Nat) (m : String → Option V), (∀ i ∈ l, i < d.nin) →
      ∃ m', l.foldl (fun (m : Option (String → Option V)) i =>
        match m, b.inputs[i]?, d.inNames[i]? with
        | some m, some v, some n => some fun x => if x = n then some v else m x
        | _, _, _ => none) (some m) = some m' := by
    intro l
    induction l with
    | nil => intro m _; exact ⟨m, rfl⟩
    | cons i l ih =>
      intro m hl
      have hi := hl i (by simp)
      have e1 : b.inputs[i]? = some (b.inputs[i]'(by omega)) := List.getElem?_eq_getElem _
      have e2 : d.inNames[i]? = some (d.inNames[i]'(by omega)) := List.getElem?_eq_getElem _
      rw [List.foldl_cons, e1, e2]
      exact ih _ (fun j hj => hl j (by simp [hj]))
  exact this _ _ (by simp)

/-- the state of a bench running `d`, as far as the claims are concerned -/
structure BenchAt (d : Desk V) (s : Stk V) (ins : List V) (outs : List V) (b : Bench V) : Prop where
  desk : b.desktop = some d
  stk : b.stack = s
  inp : b.inputs = ins
  out : b.outputs = outs

section
variable (P : PackOps V) (adj : Adjust V) (nil : V)

theorem runWith_at {d : Desk V} (hp : Checked d.prog) {s : Stk V} (hs : s.Wf) {ins outs : List V} {b : Bench V}
    (hb : BenchAt d s ins outs b) (hooks) :
    (∃ r, progResult P adj d.prog s ins = some r ∧
      b.runWith P adj hooks = .ok { b with stack := s, hooked := hooks (d.trace ins), outputs := r } ()) ∨
    (progResult P adj d.prog s ins = none ∧
      b.runWith P adj hooks = .err { b with stack := s, hooked := hooks (d.trace ins) }) := by
  unfold runWith progResult
  rw [hb.desk, hb.inp, hb.stk]
  simp only []
  rcases C04_launch_restores_stack P adj d.prog hp ins s hs with ⟨r, h⟩ | h
  · rw [h]; exact Or.inl ⟨r, rfl, rfl⟩
  · rw [h]; exact Or.inr ⟨rfl, rfl⟩

theorem call_at {insN outsN : List String} {data : List V} {code : List (Instr V)} {filter : Nat → Prog V}
    {cast : Nat → Option (Op V)} {trace : List V → List (String × V)} {d : Desk V}
    (hd : d = Desk.compiled insN outsN data code filter cast trace) (hp : Checked d.prog) {s : Stk V} (hs : s.Wf)
    {b : Bench V} {h : List (Call V)}
    (hb : BenchAt d s (boundArgs nil insN h) (lastResults nil insN outsN (progResult P adj d.prog s) h) b)
    (c : Call V) (hc : isSetup c = false) :
    ∃ b', (b.call P adj nil c = .ok b' () ∨ b.call P adj nil c = .err b') ∧
      BenchAt d s (boundArgs nil insN (c :: h)) (lastResults nil insN outsN (progResult P adj d.prog s) (c :: h)) b' := by
  have hlen : b.inputs.length = insN.length := by rw [hb.inp, boundArgs_length]
  have slot : ∀ (i : Int) (v : V) (c : Call V), isRun c = false →
      bindsTo insN c = (if 0 ≤ i ∧ i < insN.length then some (i.toNat, v) else none) →
      ∃ b', (b.inputSlot i v = .ok b' () ∨ b.inputSlot i v = .err b') ∧
        BenchAt d s (boundArgs nil insN (c :: h)) (lastResults nil insN outsN (progResult P adj d.prog s) (c :: h)) b' := by
    intro i v c hr hbd
    unfold inputSlot
    have e : lastResults nil insN outsN (progResult P adj d.prog s) (c :: h) =
        lastResults nil insN outsN (progResult P adj d.prog s) h := by simp [lastResults, hr]
    by_cases hi : 0 ≤ i ∧ i < insN.length
    · rw [if_pos hi] at hbd
      rw [if_neg (by omega)]
      refine ⟨_, Or.inl rfl, ⟨hb.desk, hb.stk, ?_, ?_⟩⟩
      · simp only [hb.inp]; rw [boundArgs_bind nil insN c h hbd]
      · rw [e]; exact hb.out
    · rw [if_neg hi] at hbd
      rw [if_pos (by omega)]
      refine ⟨_, Or.inr rfl, ⟨hb.desk, hb.stk, ?_, ?_⟩⟩
      · rw [boundArgs_other nil insN c h hbd]; exact hb.inp
      · rw [e]; exact hb.out
  cases c with
  | setup d => simp [isSetup] at hc
  | inSlot i v => exact slot i v _ rfl rfl
  | inName n v =>
    simp only [call, inputName]
    rw [hb.desk]
    simp only []
    have e : d.inSlots n = insN.idxOf? n := by rw [hd]; exact slotMap_idxOf _ _
    rw [e]
    cases hk : insN.idxOf? n with
    | none =>
      refine ⟨b, Or.inr rfl, ⟨hb.desk, hb.stk, ?_, ?_⟩⟩
      · rw [boundArgs_other nil insN _ h (by simp [bindsTo, hk])]; exact hb.inp
      · simpa [lastResults, isRun] using hb.out
    | some k =>
      have := idxOf?_lt hk
      exact slot k v _ rfl (by rw [if_pos (by omega)]; simp [bindsTo, hk])
  | run =>
    have e : boundArgs nil insN (Call.run :: h) = boundArgs nil insN h := boundArgs_other nil insN _ h rfl
    rcases runWith_at P adj hp hs hb (fun _ _ => none) with ⟨r, h1, h2⟩ | ⟨h1, h2⟩
    · refine ⟨_, Or.inl h2, ⟨hb.desk, rfl, ?_, ?_⟩⟩
      · rw [e]; exact hb.inp
      · simp [lastResults, isRun, h1]
    · refine ⟨_, Or.inr h2, ⟨hb.desk, rfl, ?_, ?_⟩⟩
      · rw [e]; exact hb.inp
      · simp [lastResults, isRun, h1]; exact hb.out
  | runHook ns =>
    have e : boundArgs nil insN (Call.runHook ns :: h) = boundArgs nil insN h := boundArgs_other nil insN _ h rfl
    obtain ⟨m, hm⟩ := saveInputs_some b d hb.desk (by rw [hlen, hd]; rfl) (by rw [hd]; rfl)
    have hb' : BenchAt d s (boundArgs nil insN h) (lastResults nil insN outsN (progResult P adj d.prog s) h)
      { b with hooked := m } := ⟨hb.desk, hb.stk, hb.inp, hb.out⟩
    simp only [call, runHook, hm]
    rcases runWith_at P adj hp hs hb' (fun t => hookStore ns t (fun _ => none)) with ⟨r, h1, h2⟩ | ⟨h1, h2⟩
    · refine ⟨_, Or.inl h2, ⟨hb.desk, rfl, ?_, ?_⟩⟩
      · rw [e]; exact hb.inp
      · simp [lastResults, isRun, h1]
    · refine ⟨_, Or.inr h2, ⟨hb.desk, rfl, ?_, ?_⟩⟩
      · rw [e]; exact hb.inp
      · simp [lastResults, isRun, h1]; exact hb.out

theorem hist_at {insN outsN : List String} {data : List V} {code : List (Instr V)} {filter : Nat → Prog V}
    {cast : Nat → Option (Op V)} {trace : List V → List (String × V)} {d : Desk V}
    (hd : d = Desk.compiled insN outsN data code filter cast trace) (hp : Checked d.prog) {s : Stk V} (hs : s.Wf)
    (cs : List (Call V)) : ∀ {b : Bench V} {h : List (Call V)},
    BenchAt d s (boundArgs nil insN h) (lastResults nil insN outsN (progResult P adj d.prog s) h) b →
    (∀ c ∈ cs, isSetup c = false) →
    ∃ b', hist P adj nil b cs = some b' ∧ BenchAt d s (boundArgs nil insN (cs.reverse ++ h))
      (lastResults nil insN outsN (progResult P adj d.prog s) (cs.reverse ++ h)) b' := by
  induction cs with
  | nil => intro b h hb _; exact ⟨b, rfl, hb⟩
  | cons c cs ih =>
    intro b h hb hc
    obtain ⟨b1, h1, h2⟩ := call_at P adj nil hd hp hs hb c (hc c (by simp))
    obtain ⟨b2, h3, h4⟩ := ih h2 (fun x hx => hc x (by simp [hx]))
    refine ⟨b2, ?_, by simpa using h4⟩
    simp only [hist]
    rcases h1 with h1 | h1 <;> rw [h1] <;> exact h3

/-! ## Theorems -/

/-- **C36, inputs and outputs over every history.** On a workbench set up once with a compiled program, whatever sequence of
bindings (by slot or by name, right or wrong), runs and hooked runs follows, nothing is undefined, every input slot holds the
value last bound to it (a name means the first module input of that name), and the outputs are, in the order of the module
outputs, those of the last run that completed, computed from the inputs bound at that moment. Missing: a workbench whose
program is changed, and the clause about stale outputs, both false (below). -/
theorem C36_history_partial (insN outsN : List String) (data : List V) (code : List (Instr V)) (filter : Nat → Prog V)
    (cast : Nat → Option (Op V)) (trace : List V → List (String × V)) (s : Stk V) (hs : s.Wf)
    (hp : Checked (Desk.compiled insN outsN data code filter cast trace).prog)
    (cs : List (Call V)) (hc : ∀ c ∈ cs, isSetup c = false) :
    ∃ b, hist P adj nil (new s) (.setup (some (Desk.compiled insN outsN data code filter cast trace)) :: cs) = some b ∧
      b.stack = s ∧
      b.inputs = boundArgs nil insN cs.reverse ∧
      b.outputs = lastResults nil insN outsN
        (progResult P adj (Desk.compiled insN outsN data code filter cast trace).prog s) cs.reverse := by
  have h0 : BenchAt (Desk.compiled insN outsN data code filter cast trace) s (boundArgs nil insN ([] : List (Call V)))
      (lastResults nil insN outsN (progResult P adj (Desk.compiled insN outsN data code filter cast trace).prog s) [])
      ((new s).setup nil (some (Desk.compiled insN outsN data code filter cast trace))) := by
    refine ⟨rfl, rfl, ?_, ?_⟩
    · simp only [setup, new, resize, boundArgs, Desk.compiled]
      apply List.ext_getElem (by simp)
      intro i _ _; simp [lastBound]
    · simp [setup, new, resize, lastResults, Desk.compiled]
  obtain ⟨b, h1, h2⟩ := hist_at P adj nil rfl hp hs cs h0 hc
  exact ⟨b, h1, h2.stk, by simpa using h2.inp, by simpa using h2.out⟩

/-- **C36, a run that returns has delivered.** After any history whatever, if `run` returns normally then the outputs are the
results of the program on the inputs, and reading output `k` gives the `k`-th of them; nothing hooked earlier remains. -/
theorem C36_run_delivers (b b' : Bench V) (h : b.run P adj = .ok b' ()) :
    ∃ d outs, b.desktop = some d ∧ progResult P adj d.prog b.stack b.inputs = some outs ∧
      (∀ k : Nat, b'.outputSlot k = outs[k]?) ∧
      (∀ n, b'.outputName n = (d.outSlots n).bind fun k => outs[k]?) := by
  unfold run runWith at h
  split at h
  · simp at h
  · rename_i d hd
    unfold progResult
    cases hl : launchOffline P adj d.prog b.inputs b.stack with
    | err s => rw [hl] at h; simp at h
    | ub => rw [hl] at h; simp at h
    | ok s outs =>
      rw [hl] at h
      simp only [Out.ok.injEq, and_true] at h
      subst h
      have hk : ∀ k : Nat, ({ b with stack := s, hooked := fun _ => none, outputs := outs } : Bench V).outputSlot k =
          outs[k]? := by
        intro k
        simp only [outputSlot]
        split
        · rename_i hx
          rw [eq_comm, List.getElem?_eq_none_iff]; omega
        · simp
      refine ⟨d, outs, hd, by rw [hl], hk, ?_⟩
      intro n
      simp only [outputName, hd]
      cases d.outSlots n with
      | none => rfl
      | some k => exact hk k

/-- **C36, wrong slots and names.** In every state: a slot outside the inputs, a name that is no input, and any name without a
program are refused and nothing changes; a slot outside the outputs cannot be read, nor a name that is neither hooked nor an
output. -/
theorem C36_rejects (b : Bench V) (v : V) :
    (∀ i : Int, (i < 0 ∨ b.inputs.length ≤ i) → b.inputSlot i v = .err b ∧ b.getInput i = none) ∧
    (∀ i : Int, (i < 0 ∨ b.outputs.length ≤ i) → b.outputSlot i = none) ∧
    (∀ n, (∀ d, b.desktop = some d → d.inSlots n = none) → b.inputName n v = .err b) ∧
    (∀ n, b.hooked n = none → (∀ d, b.desktop = some d → d.outSlots n = none) → b.outputName n = none) := by
  refine ⟨?_, ?_, ?_, ?_⟩
  · intro i hi; simp [inputSlot, getInput, hi]
  · intro i hi; simp [outputSlot, hi]
  · intro n hn
    unfold inputName
    cases hd : b.desktop with
    | none => rfl
    | some d => simp only []; rw [hn d hd]
  · intro n hh hn
    unfold outputName
    rw [hh]
    cases hd : b.desktop with
    | none => rfl
    | some d => simp only []; rw [hn d hd]

/-- **C36, names of a compiled program** are the node names of the module inputs (outputs); if several share a name, the
first one is meant. -/
theorem C36_names (insN outsN : List String) (data : List V) (code : List (Instr V)) (filter : Nat → Prog V)
    (cast : Nat → Option (Op V)) (trace : List V → List (String × V)) (n : String) (k : Nat) :
    ((Desk.compiled insN outsN data code filter cast trace).inSlots n = some k ↔
      insN[k]? = some n ∧ ∀ j < k, insN[j]? ≠ some n) ∧
    ((Desk.compiled insN outsN data code filter cast trace).outSlots n = some k ↔
      outsN[k]? = some n ∧ ∀ j < k, outsN[j]? ≠ some n) := by
  have key : ∀ ns : List String, ns.idxOf? n = some k ↔ ns[k]? = some n ∧ ∀ j < k, ns[j]? ≠ some n := by
    intro ns
    rw [List.idxOf?, List.findIdx?_eq_some_iff_getElem]
    constructor
    · rintro ⟨h1, h2, h3⟩
      refine ⟨by rw [List.getElem?_eq_getElem h1]; simpa using h2, ?_⟩
      intro j hj hx
      have := h3 j hj
      rw [List.getElem?_eq_getElem (by omega)] at hx
      simp at hx
      simp [hx] at this
    · rintro ⟨h1, h2⟩
      have h3 : k < ns.length := by
        rcases Nat.lt_or_ge k ns.length with h | h
        · exact h
        · rw [List.getElem?_eq_none h] at h1; simp at h1
      refine ⟨h3, ?_, ?_⟩
      · rw [List.getElem?_eq_getElem h3] at h1; simpa using h1
      · intro j hj hx
        apply h2 j hj
        rw [List.getElem?_eq_getElem (by omega)]
        simpa using hx
  exact ⟨by simp only [Desk.compiled, slotMap_idxOf]; exact key _, by simp only [Desk.compiled, slotMap_idxOf]; exact key _⟩

/-- the last value reported for a name -/
def lastReported (t : List (String × V)) (n : String) : Option V := (t.reverse.find? fun p => p.1 = n).map (·.2)

theorem hookStore_eq (names : List String) (n : String) : ∀ (t : List (String × V)) (m : String → Option V),
    hookStore names t m n = if n ∈ names then (lastReported t n).or (m n) else m n := by
  intro t
  induction t with
  | nil => intro m; simp [hookStore, lastReported]
  | cons p t ih =>
    intro m
    obtain ⟨x, v⟩ := p
    simp only [hookStore, ih]
    by_cases hn : n ∈ names
    · simp only [if_pos hn, lastReported, List.reverse_cons, List.find?_append]
      cases hf : t.reverse.find? (fun p => decide (p.1 = n)) with
      | some q => simp
      | none =>
        simp only [Option.map_none, Option.none_or]
        by_cases e : x = n
        · subst e; simp [hn]
        · have e' : ¬ n = x := Ne.symm e
          by_cases hx : x ∈ names <;> simp [e, e', hx]
    · simp only [if_neg hn]
      by_cases hx : x ∈ names
      · rw [if_pos hx, if_neg]
        intro e; exact hn (e ▸ hx)
      · rw [if_neg hx]

/-- **C36, hooked runs.** After a hooked run (completed or not), reading a requested name gives the first result of the
operator of that name that ran last; a name that was not requested or did not run is looked up among the outputs. -/
theorem C36_run_hook (names : List String) (b b' : Bench V)
    (h : b.runHook P adj names = .ok b' () ∨ b.runHook P adj names = .err b') :
    ∃ d, b.desktop = some d ∧
      (∀ n ∈ names, ∀ v, lastReported (d.trace b.inputs) n = some v → b'.outputName n = some v) ∧
      (∀ n, (n ∉ names ∨ lastReported (d.trace b.inputs) n = none) →
        b'.outputName n = (d.outSlots n).bind fun k => b'.outputSlot k) := by
  unfold runHook at h
  cases hm : b.saveInputs with
  | none => rw [hm] at h; simp at h
  | some m =>
    rw [hm] at h
    simp only [runWith] at h
    cases hd : b.desktop with
    | none => simp [saveInputs, hd] at hm
    | some d =>
      rw [hd] at h
      simp only [] at h
      have fin : b'.desktop = some d ∧ b'.hooked = hookStore names (d.trace b.inputs) (fun _ => none) := by
        cases hl : launchOffline P adj d.prog b.inputs b.stack with
        | ub => rw [hl] at h; simp at h
        | ok s outs => rw [hl] at h; simp at h; subst h; exact ⟨rfl, rfl⟩
        | err s => rw [hl] at h; simp at h; subst h; exact ⟨rfl, rfl⟩
      refine ⟨d, rfl, ?_, ?_⟩
      · intro n hn v hv
        simp [outputName, fin.2, hookStore_eq, hn, hv]
      · intro n hn
        have : b'.hooked n = none := by
          rw [fin.2, hookStore_eq]
          rcases hn with hn | hn
          · simp [hn]
          · simp [hn]
        simp only [outputName, this, fin.1]
        cases d.outSlots n <;> rfl

end

/-! ## Launching with arguments by name -/

/-- **C36, arguments by name.** If the call with a name→tensor map gets as far as launching, then every module input is given
exactly once, under its own name; it is refused when a name is unknown, when the number is wrong (so also when two module
inputs share a name). -/
theorem C36_launch_by_name (nil : V) (insN outsN : List String) (data : List V) (code : List (Instr V))
    (filter : Nat → Prog V) (cast : Nat → Option (Op V)) (trace : List V → List (String × V))
    (args : List (String × V)) (hnd : (args.map (·.1)).Nodup) :
    (∀ l, argsByName (Desk.compiled insN outsN data code filter cast trace) nil args = some l →
      insN.Nodup ∧ (∀ n, n ∈ insN ↔ n ∈ args.map (·.1)) ∧ l.length = insN.length ∧
      ∀ (k : Nat) n v, insN[k]? = some n → (n, v) ∈ args → l[k]? = some v) ∧
    (argsByName (Desk.compiled insN outsN data code filter cast trace) nil args = none ↔
      args.length ≠ insN.length ∨ ∃ a ∈ args, a.1 ∉ insN) := by
  let d := Desk.compiled insN outsN data code filter cast trace
  let step := fun (l : Option (List V)) (a : String × V) => match l, d.inSlots a.1 with
    | some l, some k => some (l.set k a.2)
    | _, _ => (none : Option (List V))
  have hslot : ∀ n, d.inSlots n = insN.idxOf? n := fun n => slotMap_idxOf insN n
  have hnone : ∀ as : List (String × V), as.foldl step none = none := by
    intro as; induction as with
    | nil => rfl
    | cons a as ih => exact ih
  have stepUnk : ∀ (l : List V) (a : String × V), a.1 ∉ insN → step (some l) a = none := by
    intro l a ha
    have : d.inSlots a.1 = none := by rw [hslot]; exact List.idxOf?_eq_none_iff.2 ha
    simp only [step, this]
  have stepKn : ∀ (l : List V) (a : String × V) (k : Nat), insN.idxOf? a.1 = some k → step (some l) a = some (l.set k a.2) := by
    intro l a k ha
    have : d.inSlots a.1 = some k := by rw [hslot]; exact ha
    simp only [step, this]
  -- the fold: unknown name ⇒ none; else each slot holds the value of its name
  have hfold : ∀ (as : List (String × V)) (l0 : List V), (as.map (·.1)).Nodup →
      ((∃ a ∈ as, a.1 ∉ insN) → as.foldl step (some l0) = none) ∧
      ((∀ a ∈ as, a.1 ∈ insN) → ∃ l, as.foldl step (some l0) = some l ∧ l.length = l0.length ∧
        (∀ a ∈ as, ∀ k, insN.idxOf? a.1 = some k → k < l0.length → l[k]? = some a.2) ∧
        (∀ k, (∀ a ∈ as, insN.idxOf? a.1 ≠ some k) → l[k]? = l0[k]?)) := by
    intro as
    induction as with
    | nil => intro l0 _; refine ⟨by simp, fun _ => ⟨l0, rfl, rfl, by simp, fun _ _ => rfl⟩⟩
    | cons a as ih =>
      intro l0 hnd
      simp only [List.map_cons, List.nodup_cons] at hnd
      constructor
      · rintro ⟨x, hx, hx'⟩
        rw [List.foldl_cons]
        by_cases ha : a.1 ∈ insN
        · obtain ⟨k, hk⟩ : ∃ k, insN.idxOf? a.1 = some k := by
            cases h : insN.idxOf? a.1 with
            | none => exact absurd ha (List.idxOf?_eq_none_iff.1 h)
            | some k => exact ⟨k, rfl⟩
          rw [stepKn l0 a k hk]
          apply (ih _ hnd.2).1
          rcases List.mem_cons.1 hx with rfl | hx
          · exact absurd ha hx'
          · exact ⟨x, hx, hx'⟩
        · rw [stepUnk l0 a ha]; exact hnone as
      · intro hall
        have ha := hall a (by simp)
        obtain ⟨k, hk⟩ : ∃ k, insN.idxOf? a.1 = some k := by
          cases h : insN.idxOf? a.1 with
          | none => exact absurd ha (List.idxOf?_eq_none_iff.1 h)
          | some k => exact ⟨k, rfl⟩
        obtain ⟨l, h1, h2, h3, h4⟩ := (ih (l0.set k a.2) hnd.2).2 (fun x hx => hall x (by simp [hx]))
        refine ⟨l, by rw [List.foldl_cons, stepKn l0 a k hk]; exact h1, by simpa using h2, ?_, ?_⟩
        · intro x hx j hj hjl
          rcases List.mem_cons.1 hx with rfl | hx
          · have hjk : j = k := by rw [hk] at hj; simpa using hj.symm
            subst hjk
            rw [h4 j]
            · rw [List.getElem?_set]; simp [hjl]
            · intro y hy e
              have : y.1 = x.1 := by
                rw [List.idxOf?, List.findIdx?_eq_some_iff_getElem] at e hk
                obtain ⟨a1, b1, -⟩ := e; obtain ⟨a2, b2, -⟩ := hk
                simp only [beq_iff_eq] at b1 b2
                rw [← b1, ← b2]
              exact hnd.1 (List.mem_map.2 ⟨y, hy, this⟩)
          · exact h3 x hx j hj (by simpa using hjl)
        · intro j hj
          rw [h4 j (fun x hx => hj x (by simp [hx])), List.getElem?_set]
          have : k ≠ j := by intro e; exact hj a (by simp) (by rw [hk, e])
          rw [if_neg this]
  have hdef : argsByName d nil args =
      if d.nin ≠ args.length then none else args.foldl step (some (List.replicate args.length nil)) := rfl
  have hnin : d.nin = insN.length := rfl
  rw [show Desk.compiled insN outsN data code filter cast trace = d from rfl, hdef, hnin]
  obtain ⟨f1, f2⟩ := hfold args (List.replicate args.length nil) hnd
  by_cases hlen : insN.length = args.length
  · rw [if_neg (by simp [hlen])]
    constructor
    · intro l hl
      have hall : ∀ a ∈ args, a.1 ∈ insN := by
        intro a ha
        by_contra hx
        rw [f1 ⟨a, ha, hx⟩] at hl; simp at hl
      obtain ⟨l', g1, g2, g3, -⟩ := f2 hall
      rw [hl] at g1; simp only [Option.some.injEq] at g1; subst g1
      have hsub : (args.map (·.1)).Subperm insN := List.Nodup.subperm hnd (by
        intro x hx; obtain ⟨a, ha, rfl⟩ := List.mem_map.1 hx; exact hall a ha)
      have hperm : (args.map (·.1)).Perm insN := hsub.perm_of_length_le (by simp [hlen])
      have hnd' : insN.Nodup := hperm.nodup_iff.1 hnd
      refine ⟨hnd', fun n => (hperm.mem_iff).symm, by rw [g2]; simp [hlen], ?_⟩
      intro k n v hk hv
      have hkl : k < insN.length := by
        rcases Nat.lt_or_ge k insN.length with h | h
        · exact h
        · rw [List.getElem?_eq_none h] at hk; simp at hk
      apply g3 (n, v) hv k _ (by simp [← hlen, hkl])
      rw [List.getElem?_eq_getElem hkl] at hk
      simp only [Option.some.injEq] at hk
      rw [List.idxOf?, List.findIdx?_eq_some_iff_getElem]
      refine ⟨hkl, by simp [hk], ?_⟩
      intro j hj hx
      simp only [beq_iff_eq] at hx
      rw [← hk] at hx
      exact absurd ((List.Nodup.getElem_inj_iff hnd').1 hx) (by omega)
    · constructor
      · intro h
        right
        by_contra hx
        obtain ⟨l', g1, -⟩ := f2 (by intro a ha; by_contra hx2; exact hx ⟨a, ha, hx2⟩)
        rw [h] at g1; simp at g1
      · rintro (h | h)
        · exact absurd hlen.symm h
        · exact f1 h
  · rw [if_pos hlen]
    exact ⟨by simp, ⟨fun _ => Or.inl (Ne.symm hlen), fun _ => rfl⟩⟩

/-! ## Non-vacuity and the false clauses -/

/-- adds one to its argument; refuses the empty tensor `0` -/
def succOp : Op Nat := fun s => match s.index 0 with
  | some 0 => .err s
  | some (n + 1) => .ok (s.push (n + 2)) 1
  | none => .err s

theorem succOp_local : FrameLocal succOp := by
  intro s hs
  unfold succOp
  match h : s.index 0 with
  | some 0 => exact ⟨rfl, rfl, hs, rfl⟩
  | none => exact ⟨rfl, rfl, hs, rfl⟩
  | some (n + 1) =>
    refine ⟨rfl, rfl, ?_, ?_⟩
    · simp [Stk.push]; exact Nat.le_trans hs (Nat.le_succ _)
    · simp only [Stk.push]; exact List.take_append_of_le_length hs

/-- `y = x + 1` -/
def succDesk : Desk Nat := Desk.compiled ["x"] ["y"] [] [.op succOp 1 1] (fun _ => .nofilter) (fun _ => none)
  (fun a => match a with | [n] => if n = 0 then [] else [("y", n + 1)] | _ => [])

theorem succDesk_checked : Checked succDesk.prog := by
  refine ⟨⟨1, by decide⟩, ?_, fun _ => trivial, by intros; contradiction, by intros; contradiction⟩
  intro i hi
  simp [succDesk, Desk.compiled] at hi
  subst hi
  exact ⟨succOp_local, by intro s _; unfold succOp; split <;> simp⟩

/-- no packing in the samples -/
def noPack : PackOps Nat := ⟨fun _ => 0, fun _ _ => none⟩

/-- a history with a refused name, a bound name, a run, another value and a hooked run -/
example : (hist noPack some 0 (new ⟨[9], 0, []⟩)
    [.setup (some succDesk), .inName "z" 3, .inName "x" 4, .run, .inSlot 0 6, .runHook ["y"]]).map
      (fun b => (b.inputs, b.outputs, b.outputName "y", b.outputName "x", b.stack.cells)) =
    some ([6], [7], some 7, none, [9]) := by decide
example : argsByName succDesk 0 [("x", 4)] = some [4] := by decide

/-- the clause about stale outputs: a run that fails leaves no earlier result to be read -/
def NoStaleAfterFailureClaim (V : Type) : Prop :=
  ∀ (P : PackOps V) (adj : Adjust V) (nil : V) (d : Desk V) (s : Stk V) (cs : List (Call V)) (b b' : Bench V),
    Checked d.prog → s.Wf → (∀ c ∈ cs, isSetup c = false) → hist P adj nil (new s) (.setup (some d) :: cs) = some b →
    b.run P adj = .err b' → ∀ k v, b'.outputSlot k = some v → v = nil

/-- **C36, false clause.** After a run that failed, the results of the run before are still delivered. -/
theorem C36_stale_after_failure_false : ¬ NoStaleAfterFailureClaim Nat := by
  intro h
  have := h noPack some 0 succDesk ⟨[], 0, []⟩ [.inSlot 0 4, .run, .inSlot 0 0]
    ⟨some succDesk, [0], [5], fun _ => none, ⟨[], 0, []⟩⟩ ⟨some succDesk, [0], [5], fun _ => none, ⟨[], 0, []⟩⟩
    succDesk_checked (by simp [Stk.Wf]) (by simp [isSetup]) (by rfl) (by rfl) 0 5 (by rfl)
  revert this; decide

/-- the clause for program changes: a program that has just been set up has no inputs bound and no results -/
def FreshAfterSetupClaim (V : Type) : Prop :=
  ∀ (P : PackOps V) (adj : Adjust V) (nil : V) (d : Desk V) (s : Stk V) (cs : List (Call V)) (b : Bench V),
    Checked d.prog → s.Wf → hist P adj nil (new s) (cs ++ [.setup (some d)]) = some b →
    (∀ k v, b.getInput k = some v → v = nil) ∧ (∀ k v, b.outputSlot k = some v → v = nil)

/-- **C36, false clause.** Setting up another program keeps the inputs bound for, and the results of, the one before. -/
theorem C36_fresh_after_setup_false : ¬ FreshAfterSetupClaim Nat := by
  intro h
  have := (h noPack some 0 succDesk ⟨[], 0, []⟩ [.setup (some succDesk), .inSlot 0 4, .run]
    ⟨some succDesk, [4], [5], fun _ => none, ⟨[], 0, []⟩⟩ succDesk_checked (by simp [Stk.Wf]) (by rfl)).2 0 5 (by rfl)
  revert this; decide

/-- a program set up after taking the old one down starts clean -/
theorem C36_fresh_after_reset (P : PackOps V) (adj : Adjust V) (nil : V) (d : Desk V) (b : Bench V) :
    ∃ b', hist P adj nil b [.setup none, .setup (some d)] = some b' ∧
      b'.inputs = List.replicate d.nin nil ∧ b'.outputs = List.replicate d.nout nil ∧ ∀ n, b'.hooked n = none :=
  ⟨_, rfl, by simp [setup, resize], by simp [setup, resize], fun _ => rfl⟩

/-- Setting up a program, from whatever state, forgets the tensors hooked in the program before: a name is looked up
among the outputs of the new program only. -/
theorem C36_setup_forgets_hooks (P : PackOps V) (adj : Adjust V) (nil : V) (d : Desk V) (b : Bench V) :
    ∃ b', hist P adj nil b [.setup (some d)] = some b' ∧
      ∀ name, b'.outputName name = (d.outSlots name).bind fun k => b'.outputSlot k := by
  refine ⟨_, rfl, ?_⟩
  intro name
  simp only [outputName, setup]
  cases d.outSlots name <;> rfl

/-- a hooked tensor that would otherwise be found under a name that is no output -/
example : (⟨some succDesk, [4], [5], fun n => if n = "h" then some 9 else none, ⟨[], 0, []⟩⟩ : Bench Nat).outputName "h"
    = some 9 ∧ succDesk.outSlots "h" = none := ⟨by rfl, by decide⟩

end Verif.Props
