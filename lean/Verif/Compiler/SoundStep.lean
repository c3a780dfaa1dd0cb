import Verif.Compiler.Sound
/-! Semantic invariant of the main loop (helper lemmas for C01). -/
namespace Verif.Compiler
open Verif.Runtime Verif.Runtime.Stk
variable {N V : Type} [DecidableEq N]

theorem denRow_iff {G : Graph N V} {P : PackOps V} {env : N → Option V} {ns : List N} :
    (∃ vs, DenRow G P env ns vs) ↔ ∀ n ∈ ns, ∃ v, Den G P env n v := by
  constructor
  · rintro ⟨vs, hl, hv⟩ n hn
    obtain ⟨i, hi, rfl⟩ := List.getElem_of_mem hn
    exact ⟨_, hv i hi (by omega)⟩
  · intro h
    induction ns with
    | nil => exact ⟨[], rfl, by simp⟩
    | cons n ns ih =>
      obtain ⟨v, hv⟩ := h n (by simp)
      obtain ⟨vs, hvs⟩ := ih (fun m hm => h m (by simp [hm]))
      exact ⟨v :: vs, DenRow.append (DenRow.single hv) hvs⟩

/-- semantic invariant: the code emitted so far turns the values of the simulator's nodes into the values
of the outputs, or throws when the outputs have no value -/
structure Good (G : Graph N V) (P : PackOps V) (env : N → Option V) (outputs : List N) (st : CSt N V) :
    Prop where
  run : ∀ (ext lo : List V) (bs : List Nat) (vs : List V), DenRow G P env st.sim vs →
    (∃ outs, DenRow G P env outputs outs ∧
      runCode P (st.data ++ ext) st.code ⟨lo ++ vs, lo.length, bs⟩ = .ok ⟨lo ++ outs, lo.length, bs⟩ ()) ∨
    ((¬ ∃ outs, DenRow G P env outputs outs) ∧ ∃ fr',
      runCode P (st.data ++ ext) st.code ⟨lo ++ vs, lo.length, bs⟩ = .err ⟨lo ++ fr', lo.length, bs⟩)
  need : (∃ outs, DenRow G P env outputs outs) → ∃ vs, DenRow G P env st.sim vs

theorem good_emit {G : Graph N V} {P : PackOps V} {env : N → Option V} {outputs : List N} {st st' : CSt N V}
    (h : Good G P env outputs st) (is : List (Instr V)) (hc : st'.code = is ++ st.code)
    (d : List V) (hd : st'.data = st.data ++ d)
    (hA : ∀ (ext lo : List V) (bs : List Nat) (vs : List V), DenRow G P env st'.sim vs →
      (∃ vs', DenRow G P env st.sim vs' ∧
        runCode P (st'.data ++ ext) is ⟨lo ++ vs, lo.length, bs⟩ = .ok ⟨lo ++ vs', lo.length, bs⟩ ()) ∨
      ((¬ ∃ vs', DenRow G P env st.sim vs') ∧ ∃ fr',
        runCode P (st'.data ++ ext) is ⟨lo ++ vs, lo.length, bs⟩ = .err ⟨lo ++ fr', lo.length, bs⟩))
    (hB : (∃ vs, DenRow G P env st.sim vs) → ∃ vs, DenRow G P env st'.sim vs) :
    Good G P env outputs st' := by
  refine ⟨?_, fun ho => hB (h.need ho)⟩
  intro ext lo bs vs hvs
  rw [hc, runCode_append]
  rcases hA ext lo bs vs hvs with ⟨vs', hvs', hr⟩ | ⟨hn, fr', hr⟩
  · rw [hr, hd]
    simp only [Out.bind]
    have := h.run (d ++ ext) lo bs vs' hvs'
    rw [← List.append_assoc] at this
    exact this
  · right
    refine ⟨fun ho => hn (h.need ho), fr', ?_⟩
    rw [hr]; rfl

theorem runCode_one (P : PackOps V) (data : List V) (i : Instr V) (s : Stk V) :
    runCode P data [i] s = runInstr P data i s := by
  simp only [runCode]
  cases runInstr P data i s with
  | ok s u => cases u; rfl
  | err s => rfl
  | ub => rfl

/-- swapping two entries of a row -/
def swapL {α : Type} (l : List α) (i j : Nat) (a b : α) : List α := (l.set i b).set j a

theorem denRow_swap {G : Graph N V} {P : PackOps V} {env : N → Option V} {ns : List N} {vs : List V}
    {i j : Nat} (hi : i < ns.length) (hj : j < ns.length) (hi' : i < vs.length) (hj' : j < vs.length)
    (h : DenRow G P env ns vs) :
    DenRow G P env ((ns.set i ns[j]).set j ns[i]) ((vs.set i vs[j]).set j vs[i]) := by
  refine ⟨by simp [h.1], ?_⟩
  intro k h1 h2
  simp only [List.length_set] at h1 h2
  simp only [List.getElem_set]
  by_cases e1 : j = k
  · simp only [e1, if_true]; exact h.2 i hi hi'
  · simp only [e1, if_false]
    by_cases e2 : i = k
    · simp only [e2, if_true]; exact h.2 j hj hj'
    · simp only [e2, if_false]; exact h.2 k h1 h2

theorem run_swap (P : PackOps V) (data lo vs : List V) (bs) (i j : Nat) (hi : i < vs.length)
    (hj : j < vs.length) :
    runInstr P data (.swap i j) ⟨lo ++ vs, lo.length, bs⟩ =
      .ok ⟨lo ++ (vs.set i vs[j]).set j vs[i], lo.length, bs⟩ () := by
  simp only [runInstr, index_mk, List.getElem?_eq_getElem hi, List.getElem?_eq_getElem hj]
  rw [assign_mk _ _ _ _ _ hi]
  simp only
  rw [assign_mk _ _ _ _ _ (by simpa using hj)]
  rfl

theorem set_swap_swap {α : Type} (l : List α) (i j : Nat) (hi : i < l.length) (hj : j < l.length) :
    (((l.set i l[j]).set j l[i]).set i (((l.set i l[j]).set j l[i])[j]'(by simpa using hj))).set j
      (((l.set i l[j]).set j l[i])[i]'(by simpa using hi)) = l := by
  apply List.ext_getElem (by simp)
  intro k h1 h2
  simp only [List.getElem_set]
  by_cases e1 : j = k
  · subst e1; simp
    by_cases e2 : i = j
    · subst e2; simp
    · simp [Ne.symm e2]
  · by_cases e2 : i = k
    · subst e2; simp [e1]
    · simp [e1, e2]

theorem good_swap {G : Graph N V} {P : PackOps V} {env : N → Option V} {outputs : List N} {st : CSt N V}
    (h : Good G P env outputs st) (i j : Nat) (hi : i < st.sim.length) (hj : j < st.sim.length) :
    Good G P env outputs (simSwap (emit st [.swap i j]) i j st.sim[i] st.sim[j]) := by
  have hs : (simSwap (emit st [.swap i j]) i j st.sim[i] st.sim[j]).sim =
      (st.sim.set i st.sim[j]).set j st.sim[i] := rfl
  refine good_emit h [.swap i j] rfl [] (by simp [simSwap, emit]) ?_ ?_
  · intro ext lo bs vs hvs
    left
    rw [hs] at hvs
    have hl : vs.length = st.sim.length := by have := hvs.1; simpa using this
    have := denRow_swap (i := i) (j := j) (by simpa using hi) (by simpa using hj) (by omega) (by omega) hvs
    rw [set_swap_swap] at this
    refine ⟨_, this, ?_⟩
    rw [runCode_one, run_swap]
  · rintro ⟨vs, hvs⟩
    rw [hs]
    have hl := hvs.1
    exact ⟨_, denRow_swap hi hj (by omega) (by omega) hvs⟩

theorem good_push {G : Graph N V} {P : PackOps V} {env : N → Option V} {outputs : List N} {st : CSt N V}
    (h : Good G P env outputs st) (hI : Inv G st) (rest : List N) (n : N) (hs : st.sim = rest ++ [n])
    (w : Nat) (hw : st.working n = some w) (hlt : w < rest.length) :
    Good G P env outputs (simPop G (emit st [.push w]) n) := by
  have hs' : (simPop G (emit st [.push w]) n).sim = rest := by simp [simPop, emit, hs]
  have hn := hI.work n w hw
  rw [hs, List.getElem?_append_left hlt, List.getElem?_eq_getElem hlt] at hn
  have hn := Option.some.inj hn
  refine good_emit h [.push w] rfl [] (by simp [simPop, emit]) ?_ ?_
  · intro ext lo bs vs hvs
    left
    rw [hs'] at hvs
    have hl : w < vs.length := by rw [hvs.1]; exact hlt
    refine ⟨vs ++ [vs[w]], ?_, ?_⟩
    · rw [hs]
      refine DenRow.append hvs (DenRow.single ?_)
      rw [← hn]; exact hvs.2 w hlt hl
    · rw [runCode_one]
      simp [runInstr, index_mk, List.getElem?_eq_getElem hl, Stk.push]
  · rw [denRow_iff, denRow_iff, hs', hs]
    intro h m hm; exact h m (by simp [hm])

theorem inv_data {G : Graph N V} {st : CSt N V} (hI : Inv G st) (n : N) :
    Inv G (pushData G st n).1 ∧ (pushData G st n).1.data[(pushData G st n).2]? = some (G.value n) ∧
    (pushData G st n).1.sim = st.sim ∧ (pushData G st n).1.code = st.code ∧
    (pushData G st n).1.working = st.working ∧ (pushData G st n).1.unsolved = st.unsolved ∧
    ∃ d, (pushData G st n).1.data = st.data ++ d := by
  unfold pushData
  cases hd : st.dataIdx n with
  | some k => exact ⟨hI, hI.dat n k hd, rfl, rfl, rfl, rfl, [], by simp⟩
  | none =>
    refine ⟨⟨hI.work, hI.cnt, ?_⟩, by simp, rfl, rfl, rfl, rfl, _, rfl⟩
    intro m k hk
    simp only [upd] at hk
    split at hk
    · rename_i hmn; cases hk; subst hmn; simp
    · have := hI.dat m k hk
      have hlt : k < st.data.length := by
        rcases Nat.lt_or_ge k st.data.length with h | h
        · exact h
        · rw [List.getElem?_eq_none h] at this; cases this
      simp only
      rw [List.getElem?_append_left hlt]; exact this

theorem good_const {G : Graph N V} {P : PackOps V} {env : N → Option V} {outputs : List N} {st : CSt N V}
    (h : Good G P env outputs st) (hI : Inv G st) (rest : List N) (n : N) (hs : st.sim = rest ++ [n])
    (hk : G.kind n = .const) :
    Good G P env outputs (simPop G (emit (pushData G st n).1 [.dataSeg (pushData G st n).2]) n) := by
  obtain ⟨-, hv, hsim, hcode, -, -, d, hd⟩ := inv_data hI n
  have hs' : (simPop G (emit (pushData G st n).1 [.dataSeg (pushData G st n).2]) n).sim = rest := by
    simp [simPop, emit, hsim, hs]
  refine good_emit h [.dataSeg (pushData G st n).2] (by simp [simPop, emit, hcode]) d
    (by simp [simPop, emit, hd]) ?_ ?_
  · intro ext lo bs vs hvs
    left
    rw [hs'] at hvs
    refine ⟨vs ++ [G.value n], ?_, ?_⟩
    · rw [hs]; exact DenRow.append hvs (DenRow.single (Den.const hk))
    · rw [runCode_one]
      have hlt : (pushData G st n).2 < (pushData G st n).1.data.length := by
        rcases Nat.lt_or_ge (pushData G st n).2 (pushData G st n).1.data.length with h | h
        · exact h
        · rw [List.getElem?_eq_none h] at hv; cases hv
      have : ((simPop G (emit (pushData G st n).1 [.dataSeg (pushData G st n).2]) n).data ++ ext)[(pushData G st n).2]?
          = some (G.value n) := by
        simp only [simPop, emit]
        rw [List.getElem?_append_left hlt]; exact hv
      simp [runInstr, this, Stk.push]
  · rw [denRow_iff, denRow_iff, hs', hs]
    intro h m hm; exact h m (by simp [hm])

/-- What the compiler assumes of the registered operators: they compute the graph's operator functions,
and no operator node is without inputs (such nodes are folded to constants before, compiler.cpp:386-461). -/
structure OpsOk (G : Graph N V) (ops : OpTable N V) (outputs : List N) : Prop where
  impl : ∀ n f, Needs G outputs n → G.kind n = .oper → ops n = some f →
    Implements f (G.inputs n).length (G.sem n)
  pos : ∀ n, Needs G outputs n → G.kind n = .oper → 0 < (G.inputs n).length

theorem den_inputs {G : Graph N V} {P : PackOps V} {env : N → Option V} {n : N} {v : V}
    (h : Den G P env n v) (hp : G.kind n ≠ .param) (hc : G.kind n ≠ .const) :
    ∃ vs, DenRow G P env (G.inputs n) vs ∧ G.apply P n vs = some v := by
  cases h with
  | param hk => exact absurd hk hp
  | const hk => exact absurd hk hc
  | node hl hi ha => exact ⟨_, ⟨hl, hi⟩, ha⟩

theorem good_op {G : Graph N V} {P : PackOps V} {env : N → Option V} {outputs : List N} {st : CSt N V}
    {ops : OpTable N V}
    (ho : OpsOk G ops outputs)
    (h : Good G P env outputs st) (rest : List N) (n : N) (hs : st.sim = rest ++ [n])
    (hneed : Needs G outputs n)
    (is : List (Instr V)) (hc : convertOp G ops n = some is) :
    Good G P env outputs ((G.inputs n).foldl (simPush G) (simPop G (emit st is) n)) := by
  obtain ⟨e1, e2, e3⟩ := pushes_sim G (simPop G (emit st is) n) (G.inputs n)
  have hs' : ((G.inputs n).foldl (simPush G) (simPop G (emit st is) n)).sim = rest ++ G.inputs n := by
    rw [e1]; simp [simPop, emit, hs]
  have hp : G.kind n ≠ .param := by intro hk; simp [convertOp, hk] at hc
  have hcst : G.kind n ≠ .const := by intro hk; simp [convertOp, hk] at hc
  refine good_emit h is (by rw [e2]; rfl) [] (by rw [e3]; simp [simPop, emit]) ?_ ?_
  · intro ext lo bs vs hvs
    rw [hs'] at hvs
    obtain ⟨va, vb, rfl, ha, hb⟩ := hvs.split
    generalize (((G.inputs n).foldl (simPush G) (simPop G (emit st is) n)).data ++ ext) = data
    -- a value for the node finishes the job
    have succ : ∀ v, G.apply P n vb = some v → DenRow G P env st.sim (va ++ [v]) := by
      intro v hv
      rw [hs]; exact DenRow.append ha (DenRow.single (Den.node hb.1 hb.2 hv))
    have fail : G.apply P n vb = none → ¬ ∃ vs', DenRow G P env st.sim vs' := by
      intro hv hvs'
      obtain ⟨w, hw⟩ := (denRow_iff.mp hvs') n (by simp [hs])
      obtain ⟨vs', hr, hap⟩ := den_inputs hw hp hcst
      rw [hr.det hb] at hap
      rw [hv] at hap; cases hap
    cases hk : G.kind n with
    | param => exact absurd hk hp
    | const => exact absurd hk hcst
    | «variable» => simp [convertOp, hk] at hc
    | field k =>
      simp only [convertOp, hk] at hc
      split at hc
      · rename_i hh
        cases hc
        obtain ⟨h1, h2⟩ := hh
        have hb1 := hb.1
        rw [h1] at hb1
        obtain ⟨t, rfl⟩ := List.length_eq_one_iff.mp hb1
        have hap : G.apply P n [t] = P.field t k := by simp [Graph.apply, hk]
        rw [hap] at succ fail
        rw [runCode_one]
        have hlast : (lo ++ (va ++ [t])).getLast? = some t := by simp [← List.append_assoc]
        have hdrop : (lo ++ (va ++ [t])).dropLast = lo ++ va := by
          rw [← List.append_assoc, List.dropLast_concat]
        simp only [runInstr, hlast, hdrop]
        cases hf : P.field t k with
        | none => right; exact ⟨fail hf, _, rfl⟩
        | some w => left; refine ⟨_, succ w hf, ?_⟩; simp
      · cases hc
    | pack =>
      simp only [convertOp, hk, Option.some.injEq] at hc
      subst hc
      left
      have hap : G.apply P n vb = some (P.pack vb) := by simp [Graph.apply, hk]
      refine ⟨_, succ _ hap, ?_⟩
      rw [runCode_one]
      have hb1 := hb.1
      have q1 : ¬ (va ++ vb).length < (G.inputs n).length := by simp; omega
      have q2 : (G.inputs n).length ≤ (lo ++ (va ++ vb)).length := by simp; omega
      have q3 : (lo ++ (va ++ vb)).length - (G.inputs n).length = (lo ++ va).length := by simp; omega
      simp only [runInstr, size_mk, q1, if_false, Stk.popN, q2, if_true, q3, Stk.push]
      simp [← List.append_assoc, - List.length_append]
    | oper =>
      simp only [convertOp, hk] at hc
      cases hop : ops n with
      | none => simp [hop] at hc
      | some f =>
        simp only [hop, Option.map_some, Option.some.injEq] at hc
        subst hc
        have hpos := ho.pos n hneed hk
        have himp := ho.impl n f hneed hk hop (lo ++ va) vb (lo.length :: bs) hb.1
        have hap : G.apply P n vb = G.sem n vb := by simp [Graph.apply, hk]
        rw [hap] at succ fail
        rw [runCode_one]
        have hrun : runInstr P data (.op f (G.inputs n).length 1) ⟨lo ++ (va ++ vb), lo.length, bs⟩ =
          runOpInstr f vb.length 1 (Stk.mk (lo ++ (va ++ vb)) lo.length bs) := by
          simp only [runInstr, hb.1]
        rw [hrun, runOpInstr_mk _ _ _ _ _ _ (by rw [hb.1]; exact hpos)]
        cases hsem : G.sem n vb with
        | none =>
          rw [hsem] at himp
          obtain ⟨fr', hf⟩ := himp
          right
          refine ⟨fail hsem, va ++ fr', ?_⟩
          rw [hf]
          simp [Out.bind, Out.finallyDo, popBase_cons]
        | some v =>
          rw [hsem] at himp
          obtain ⟨junk, hf⟩ := himp
          left
          refine ⟨_, succ v hsem, ?_⟩
          rw [hf]
          have hsz : ¬ (junk ++ [v]).length < 1 := by simp
          simp only [Out.bind, size_mk, hsz, if_false]
          rw [erase_keep_mk (lo ++ va) (junk ++ [v]) _ 1 (by omega) (by simp)]
          simp [orUb, Out.finallyDo, popBase_cons]
  · rw [denRow_iff, denRow_iff, hs', hs]
    intro h m hm
    rcases List.mem_append.mp hm with hm | hm
    · exact h m (by simp [hm])
    · obtain ⟨w, hw⟩ := h n (by simp)
      obtain ⟨vs', hr, -⟩ := den_inputs hw hp hcst
      exact denRow_iff.mp ⟨_, hr⟩ m hm

end Verif.Compiler
