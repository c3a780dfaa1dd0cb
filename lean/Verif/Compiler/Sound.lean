import Verif.Compiler.Compile
import Verif.Runtime.Safe
/-! Semantic correctness of the main loop (helper lemmas for C01). -/
namespace Verif.Compiler
open Verif.Runtime Verif.Runtime.Stk
variable {N V : Type} [DecidableEq N]

theorem Den.det {G : Graph N V} {P : PackOps V} {env : N → Option V} {n : N} {v v' : V}
    (h : Den G P env n v) (h' : Den G P env n v') : v = v' := by
  induction h generalizing v' with
  | param hk he =>
    cases h' with
    | param hk' he' => rw [he] at he'; exact Option.some.inj he'
    | const hk' => rw [hk] at hk'; cases hk'
    | node hl hi ha => simp [Graph.apply, hk] at ha
  | const hk =>
    cases h' with
    | param hk' he' => rw [hk] at hk'; cases hk'
    | const hk' => rfl
    | node hl hi ha => simp [Graph.apply, hk] at ha
  | @node n vs v hl hi ha ih =>
    cases h' with
    | param hk' he' => simp [Graph.apply, hk'] at ha
    | const hk' => simp [Graph.apply, hk'] at ha
    | @node _ vs' _ hl' hi' ha' =>
      have : vs = vs' := by
        apply List.ext_getElem (by rw [hl, hl'])
        intro i h1 h2
        exact ih i (by omega) h1 (hi' i (by omega) h2)
      subst this
      rw [ha] at ha'; exact Option.some.inj ha'

theorem DenRow.det {G : Graph N V} {P : PackOps V} {env : N → Option V} {ns : List N} {vs vs' : List V}
    (h : DenRow G P env ns vs) (h' : DenRow G P env ns vs') : vs = vs' := by
  apply List.ext_getElem (by rw [h.1, h'.1])
  intro i h1 h2
  exact (h.2 i (by rw [← h.1]; exact h1) h1).det (h'.2 i (by rw [← h.1]; exact h1) h2)

theorem DenRow.append {G : Graph N V} {P : PackOps V} {env : N → Option V} {a b : List N} {va vb : List V}
    (h : DenRow G P env a va) (h' : DenRow G P env b vb) : DenRow G P env (a ++ b) (va ++ vb) := by
  refine ⟨by simp [h.1, h'.1], ?_⟩
  intro i h1 h2
  have hl := h.1
  by_cases hi : i < a.length
  · rw [List.getElem_append_left hi, List.getElem_append_left (by omega)]
    exact h.2 i hi (by omega)
  · rw [List.getElem_append_right (by omega), List.getElem_append_right (by omega)]
    simp only [hl]
    exact h'.2 _ _ _

theorem DenRow.single {G : Graph N V} {P : PackOps V} {env : N → Option V} {n : N} {v : V}
    (h : Den G P env n v) : DenRow G P env [n] [v] := by
  refine ⟨rfl, ?_⟩
  intro i h1 h2
  have : i = 0 := by simp at h1; omega
  subst this; exact h

theorem DenRow.split {G : Graph N V} {P : PackOps V} {env : N → Option V} {a b : List N} {vs : List V}
    (h : DenRow G P env (a ++ b) vs) :
    ∃ va vb, vs = va ++ vb ∧ DenRow G P env a va ∧ DenRow G P env b vb := by
  obtain ⟨hl, hv⟩ := h
  simp at hl
  refine ⟨vs.take a.length, vs.drop a.length, by simp, ⟨by simp; omega, ?_⟩, ⟨by simp; omega, ?_⟩⟩
  · intro i h1 h2
    have := hv i (by simp; omega) (by omega)
    rw [List.getElem_append_left h1] at this
    simpa using this
  · intro i h1 h2
    have := hv (a.length + i) (by simp; omega) (by omega)
    rw [List.getElem_append_right (by omega)] at this
    simpa using this

theorem runCode_append (P : PackOps V) (data : List V) (a b : List (Instr V)) (s : Stk V) :
    runCode P data (a ++ b) s = (runCode P data a s).bind fun s' _ => runCode P data b s' := by
  induction a generalizing s with
  | nil => simp [runCode, Out.bind]
  | cons i is ih =>
    simp only [List.cons_append, runCode]
    cases runInstr P data i s with
    | ok s' u => simp [Out.bind, ih]
    | err s' => simp [Out.bind]
    | ub => simp [Out.bind]

/-- The operator `f` computes the function `sem` of its `nargs` arguments: it pushes the result (leaving
its arguments and temporaries wherever it likes inside its frame) or throws. -/
def Implements (f : Op V) (nargs : Nat) (sem : List V → Option V) : Prop :=
  ∀ (lo args : List V) (bs : List Nat), args.length = nargs →
    match sem args with
    | some v => ∃ junk, f ⟨lo ++ args, lo.length, bs⟩ = .ok ⟨lo ++ (junk ++ [v]), lo.length, bs⟩ 1
    | none => ∃ fr', f ⟨lo ++ args, lo.length, bs⟩ = .err ⟨lo ++ fr', lo.length, bs⟩

/-- bookkeeping invariant of the loop -/
structure Inv (G : Graph N V) (st : CSt N V) : Prop where
  work : ∀ n j, st.working n = some j → st.sim[j]? = some n
  cnt : st.unsolved = st.sim.countP (fun n => decide (G.kind n ≠ .param))
  dat : ∀ n k, st.dataIdx n = some k → st.data[k]? = some (G.value n)

theorem inv_push {G : Graph N V} {st : CSt N V} (h : Inv G st) (n : N) : Inv G (simPush G st n) := by
  obtain ⟨hw, hc, hd⟩ := h
  refine ⟨?_, ?_, hd⟩
  · intro m j hj
    have old : ∀ m j, st.working m = some j → (st.sim ++ [n])[j]? = some m := by
      intro m j hj
      have := hw m j hj
      have hlt : j < st.sim.length := by
        rcases Nat.lt_or_ge j st.sim.length with h | h
        · exact h
        · rw [List.getElem?_eq_none h] at this; cases this
      rw [List.getElem?_append_left hlt]; exact this
    have key : (st.working m = some j) ∨ (m = n ∧ j = st.sim.length) := by
      simp only [simPush] at hj
      cases hwn : st.working n with
      | none =>
        simp only [hwn, upd] at hj
        by_cases hmn : m = n
        · simp only [hmn, if_true, Option.some.injEq] at hj; right; exact ⟨hmn, hj.symm⟩
        · simp only [hmn, if_false] at hj; left; exact hj
      | some w =>
        simp only [hwn] at hj
        by_cases hlt : st.sim.length < w
        · simp only [hlt, if_true, upd] at hj
          by_cases hmn : m = n
          · simp only [hmn, if_true, Option.some.injEq] at hj; right; exact ⟨hmn, hj.symm⟩
          · simp only [hmn, if_false] at hj; left; exact hj
        · simp only [hlt, if_false] at hj; left; exact hj
    rcases key with h | ⟨h1, h2⟩
    · exact old _ _ h
    · subst h1 h2; simp [simPush]
  · simp only [simPush, List.countP_append]
    split
    · rename_i hk; simp [hc, hk]
    · rename_i hk; simp [hc, hk]

theorem inv_pop {G : Graph N V} {st : CSt N V} (h : Inv G st) (n : N) (rest : List N)
    (hs : st.sim = rest ++ [n]) : Inv G (simPop G st n) := by
  obtain ⟨hw, hc, hd⟩ := h
  refine ⟨?_, ?_, hd⟩
  · intro m j hj
    simp only [simPop, hs, List.length_append, List.length_singleton, Nat.add_sub_cancel,
      List.dropLast_concat] at hj ⊢
    have old : ∀ j, st.working m = some j → j ≠ rest.length → rest[j]? = some m := by
      intro j hj hne
      have := hw m j hj
      rw [hs] at this
      rcases Nat.lt_or_ge j rest.length with h | h
      · rw [List.getElem?_append_left h] at this; exact this
      · rw [List.getElem?_eq_none (by simp; omega)] at this; cases this
    have topn : ∀ m, st.working m = some rest.length → m = n := by
      intro m hj
      have := hw m _ hj
      rw [hs] at this
      simp at this; exact this.symm
    split at hj
    · rename_i htop
      simp only [upd] at hj
      split at hj
      · cases hj
      · rename_i hmn
        exact old j hj (fun h => hmn (topn m (h ▸ hj)))
    · rename_i htop
      refine old j hj (fun h => ?_)
      have := topn m (h ▸ hj)
      subst this; exact htop (h ▸ hj)
  · simp only [simPop, hs, List.dropLast_concat]
    rw [hc, hs, List.countP_append]
    split <;> rename_i hk <;> simp [hk]

theorem inv_pushes {G : Graph N V} {st : CSt N V} (h : Inv G st) (ns : List N) :
    Inv G (ns.foldl (simPush G) st) := by
  induction ns generalizing st with
  | nil => exact h
  | cons n ns ih => exact ih (inv_push h n)

theorem pushes_sim (G : Graph N V) (st : CSt N V) (ns : List N) :
    (ns.foldl (simPush G) st).sim = st.sim ++ ns ∧ (ns.foldl (simPush G) st).code = st.code ∧
    (ns.foldl (simPush G) st).data = st.data := by
  induction ns generalizing st with
  | nil => simp
  | cons n ns ih =>
    have := ih (simPush G st n)
    simp only [List.foldl_cons]
    refine ⟨?_, ?_, ?_⟩
    · rw [this.1]; simp [simPush]
    · rw [this.2.1]; rfl
    · rw [this.2.2]; rfl

theorem inv_swap {G : Graph N V} {st : CSt N V} (h : Inv G st) (i j : Nat) (ni nj : N)
    (hi : st.sim[i]? = some ni) (hj : st.sim[j]? = some nj) : Inv G (simSwap st i j ni nj) := by
  obtain ⟨hw, hc, hd⟩ := h
  have hil : i < st.sim.length := by
    rcases Nat.lt_or_ge i st.sim.length with h | h
    · exact h
    · rw [List.getElem?_eq_none h] at hi; cases hi
  have hjl : j < st.sim.length := by
    rcases Nat.lt_or_ge j st.sim.length with h | h
    · exact h
    · rw [List.getElem?_eq_none h] at hj; cases hj
  have eni : st.sim[i] = ni := by rw [List.getElem?_eq_getElem hil] at hi; exact Option.some.inj hi
  have enj : st.sim[j] = nj := by rw [List.getElem?_eq_getElem hjl] at hj; exact Option.some.inj hj
  have hget : ∀ k, ((st.sim.set i nj).set j ni)[k]? =
      if k = j then some ni else if k = i then some nj else st.sim[k]? := by
    intro k
    rw [List.getElem?_set, List.getElem?_set]
    by_cases h1 : j = k
    · subst h1; simp [hjl]
    · simp only [h1, if_false, Ne.symm h1]
      by_cases h2 : i = k
      · subst h2; simp [hil, h1]
      · simp [h2, Ne.symm h2]
  refine ⟨?_, ?_, hd⟩
  · intro m k hk
    simp only [simSwap] at hk ⊢
    rw [hget]
    -- general fact about entries not moved
    have old : ∀ m k, st.working m = some k → k ≠ i → k ≠ j →
        (if k = j then some ni else if k = i then some nj else st.sim[k]?) = some m := by
      intro m k h1 h2 h3; simp [h2, h3, hw m k h1]
    have ati : ∀ m, st.working m = some i → m = ni := by
      intro m h; have := hw m i h; rw [hi] at this; exact (Option.some.inj this).symm
    have atj : ∀ m, st.working m = some j → m = nj := by
      intro m h; have := hw m j h; rw [hj] at this; exact (Option.some.inj this).symm
    generalize hW1 : (if st.working ni = some i then upd st.working ni (some j) else st.working) = w1 at hk
    have w1spec : ∀ m k, w1 m = some k → (m = ni ∧ k = j) ∨ (st.working m = some k ∧ k ≠ i) := by
      intro m k h
      rw [← hW1] at h
      split at h
      · rename_i hc
        simp only [upd] at h
        split at h
        · rename_i hmn; cases h; left; exact ⟨hmn, rfl⟩
        · rename_i hmn
          right; refine ⟨h, fun hki => hmn (ati m (hki ▸ h))⟩
      · rename_i hc
        right; refine ⟨h, fun hki => ?_⟩
        have := ati m (hki ▸ h); subst this; exact hc (hki ▸ h)
    split at hk
    · rename_i hc
      simp only [upd] at hk
      split at hk
      · rename_i hmn; cases hk; subst hmn
        by_cases hij : i = j
        · subst hij
          have : ni = m := by rw [← eni, enj]
          simp [this]
        · simp [hij]
      · rename_i hmn
        rcases w1spec m k hk with ⟨h1, h2⟩ | ⟨h1, h2⟩
        · subst h1 h2; simp
        · refine old m k h1 h2 (fun hkj => hmn (atj m (hkj ▸ h1)))
    · rename_i hc
      rcases w1spec m k hk with ⟨h1, h2⟩ | ⟨h1, h2⟩
      · subst h1 h2; simp
      · by_cases hkj : k = j
        · exfalso
          have := atj m (hkj ▸ h1); subst this; exact hc (hkj ▸ hk)
        · exact old m k h1 h2 hkj
  · simp only [simSwap]
    rw [hc]
    rw [List.countP_set (by simpa using hjl), List.countP_set hil]
    have e : (st.sim.set i nj)[j]'(by simpa using hjl) = nj := by
      rw [List.getElem_set]; split <;> simp [enj]
    rw [e, eni]
    have hle : (if decide (G.kind ni ≠ .param) = true then 1 else 0) ≤
        st.sim.countP (fun n => decide (G.kind n ≠ .param)) := by
      split
      · rename_i h
        exact List.countP_pos_iff.mpr ⟨ni, eni ▸ List.getElem_mem hil, h⟩
      · omega
    omega

end Verif.Compiler
