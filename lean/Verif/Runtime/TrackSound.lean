import Verif.Runtime.TrackLemmas
/-! What the records of a compiled graph are (helper lemmas for C105). -/
namespace Verif.Runtime.Track
open Verif.Runtime Verif.Runtime.Stk Verif.Compiler
variable {N V I : Type} [DecidableEq N] [DecidableEq I]

/-- an operator node (as opposed to field and pack, which are instructions without an operator) -/
def isOper (G : Graph N V) (n : N) : Bool := decide (G.kind n = .oper)

/-- the records describe the nodes, in order -/
def RecsOk (G : Graph N V) (P : PackOps V) (env : N → Option V) (ids : Nat → I) : Nat → List N → List (Rec I V) → Prop
  | _, [], [] => True
  | k, n :: ns, r :: rs => r.id = ids k ∧ DenRow G P env (G.inputs n) r.ins ∧ (∃ v, r.outs = [v] ∧ Den G P env n v) ∧
      RecsOk G P env ids (k + 1) ns rs
  | _, _, _ => False

/-- the code so far, run under the hook on the values of the simulator's nodes, leaves the records of `done` -/
def TSem (G : Graph N V) (P : PackOps V) (env : N → Option V) (ids : Nat → I) (outputs : List N) (st : CSt N V) (done : List N) : Prop :=
  ∀ (ext lo : List V) (bs : List Nat) (vs outs : List V) (log : List (Rec I V)) (k : Nat),
    DenRow G P env st.sim vs → DenRow G P env outputs outs →
    ∃ recs, RecsOk G P env ids k (done.filter (isOper G)) recs ∧
      runCodeH P (st.data ++ ext) ids k st.code (⟨lo ++ vs, lo.length, bs⟩, log) = .ok (⟨lo ++ outs, lo.length, bs⟩, log ++ recs) ()

/-- one instruction as a compilation of its own: outputs are the nodes it leaves -/
theorem good_nil (G : Graph N V) (P : PackOps V) (env : N → Option V) (st : CSt N V) :
    Good G P env st.sim { st with code := [] } := by
  refine ⟨?_, fun h => h⟩
  intro ext lo bs vs hvs
  exact .inl ⟨vs, hvs, rfl⟩

theorem runCodeH_plain (P : PackOps V) (data : List V) (ids : Nat → I) (k : Nat) (i : Instr V) (is : List (Instr V)) (h : HSt I V)
    (hi : ∀ f na nr, i ≠ .op f na nr) :
    runCodeH P data ids k (i :: is) h = (runPlainH P data i h).bind fun h' _ => runCodeH P data ids k is h' := by
  cases i with
  | op f na nr => exact absurd rfl (hi f na nr)
  | _ => rfl

/-- an emitted instruction that is not an operator adds no record -/
theorem tsem_plain {G : Graph N V} {P : PackOps V} {env : N → Option V} {ids : Nat → I} {outputs done done' : List N} {st st' : CSt N V}
    (h : TSem G P env ids outputs st done) (hd : done'.filter (isOper G) = done.filter (isOper G))
    (i : Instr V) (hi : ∀ f na nr, i ≠ .op f na nr) (hcode : st'.code = i :: st.code) (d : List V) (hdata : st'.data = st.data ++ d)
    (hneed : ∀ (outs : List V), DenRow G P env outputs outs → ∃ vs, DenRow G P env st.sim vs)
    (hG : Good G P env st.sim { st' with code := [i] }) : TSem G P env ids outputs st' done' := by
  intro ext lo bs vs outs log k hvs houts
  rw [hd, hcode, runCodeH_plain _ _ _ _ _ _ _ hi, runPlainH_eq]
  rcases hG.run ext lo bs vs hvs with ⟨w, hw, hr⟩ | ⟨hn, -⟩
  · simp only [runCode_one] at hr
    rw [hr, hdata, List.append_assoc]
    exact h (d ++ ext) lo bs w outs log k hw houts
  · exact absurd (hneed outs houts) hn

theorem move_data {G : Graph N V} {ops : OpTable N V} {refs : N → N → Bool} {st st' : CSt N V} (hI : Inv G st)
    (h : Move G ops refs st st') : ∃ d, st'.data = st.data ++ d := by
  cases h with
  | dup rest n w hs hw hlt => exact ⟨[], by simp [simPop, emit]⟩
  | const rest n hs hk hw =>
    obtain ⟨-, -, -, -, -, -, d, hd⟩ := inv_data hI n
    exact ⟨d, by simp [simPop, emit, hd]⟩
  | swapP rest n j hs hk hw hj hf hi => exact ⟨[], by simp [simSwap, emit]⟩
  | swapR rest n j hs hk hw hj hf hi => exact ⟨[], by simp [simSwap, emit]⟩
  | op rest n is hs hc hw hf =>
    obtain ⟨e1, e2, e3⟩ := pushes_sim G (simPop G (emit st is) n) (G.inputs n)
    exact ⟨[], by rw [e3]; simp [simPop, emit]⟩

/-- one step of the compiler keeps the description of the records -/
theorem move_tsem {G : Graph N V} {ops : OpTable N V} {refs : N → N → Bool} {st st' : CSt N V} {outputs : List N} {P : PackOps V}
    {env : N → Option V} {ids : Nat → I} {done pre : List N}
    (ho : OpsOk G ops outputs) (hI : Inv G st) (hR : Reach G outputs st) (hG : Good G P env outputs st)
    (hO : OnceD G ops outputs st done) (hO' : OnceD G ops outputs st' (pre ++ done))
    (hpre : pre = [] ∨ ∃ n, st.sim.getLast? = some n ∧ pre = [n])
    (hT : TSem G P env ids outputs st done) (h : Move G ops refs st st') : TSem G P env ids outputs st' (pre ++ done) := by
  have hneed : ∀ (outs : List V), DenRow G P env outputs outs → ∃ vs, DenRow G P env st.sim vs :=
    fun outs houts => hG.need ⟨outs, houts⟩
  obtain ⟨d, hd⟩ := move_data hI h
  have hI0 : Inv G { st with code := [] } := ⟨hI.work, hI.cnt, hI.dat⟩
  have hG0 := good_nil G P env st
  -- without a computing instruction nothing is added to the history
  have nopre : ∀ i : Instr V, isCompute i = false → st'.code = i :: st.code → pre = [] := by
    intro i hi hc
    rcases hpre with h | ⟨n, hlast, rfl⟩
    · exact h
    · exfalso
      -- the last node of the simulator was not computed here: it is still needed or was replaced
      have hnin := hO'.inn n (by simp)
      cases h with
      | op rest n' is hs hc' hw hf =>
        obtain ⟨e1, e2, e3⟩ := pushes_sim G (simPop G (emit st is) n') (G.inputs n')
        rw [e2] at hc
        have hcc := convert_count hc'
        have hsingle : is = [i] := by
          have : is ++ st.code = [i] ++ st.code := hc
          exact List.append_cancel_right this
        rw [hsingle] at hcc
        have := hcc.1
        simp [hi] at this
      | dup rest n' w hs hw hlt =>
        have hs' : (simPop G (emit st [.push w]) n').sim = rest := by simp [simPop, emit, hs]
        have hne : n = n' := by rw [hs] at hlast; simpa using hlast.symm
        subst hne
        have hmem : n ∈ rest := by
          have hn := hI.work n w hw
          rw [hs, List.getElem?_append_left hlt] at hn
          exact List.mem_of_getElem? hn
        exact hnin.2.2 (by rw [hs']; exact .root hmem)
      | const rest n' hs hk hw =>
        have hne : n = n' := by rw [hs] at hlast; simpa using hlast.symm
        subst hne
        exact hnin.2.1.2 hk
      | swapP rest n' j hs hk hw hj hf hi' =>
        have hne : n = n' := by rw [hs] at hlast; simpa using hlast.symm
        subst hne
        exact hnin.2.1.1 hk
      | swapR rest n' j hs hk hw hj hf hi' =>
        have hne : n = n' := by rw [hs] at hlast; simpa using hlast.symm
        subst hne
        refine hnin.2.2 (.root ?_)
        exact (mem_swap hi' hj).mpr (by simp [hs])
  cases h with
  | dup rest n w hs hw hlt =>
    have hp := nopre (.push w) rfl rfl
    subst hp
    exact tsem_plain hT rfl (.push w) (by intros; simp) rfl d hd hneed (good_push (st := { st with code := [] }) hG0 hI0 rest n hs w hw hlt)
  | const rest n hs hk hw =>
    have hcode := (inv_data hI n).2.2.2.1
    have hp := nopre (.dataSeg (pushData G st n).2) rfl (by simp [simPop, emit, hcode])
    subst hp
    refine tsem_plain hT rfl (.dataSeg (pushData G st n).2) (by intros; simp) (by simp [simPop, emit, hcode]) d hd hneed ?_
    have := good_const (st := { st with code := [] }) hG0 hI0 rest n hs hk
    have e : pushData G { st with code := [] } n = ({ (pushData G st n).1 with code := [] }, (pushData G st n).2) := by
      unfold pushData; cases st.dataIdx n <;> rfl
    rw [e] at this
    exact this
  | swapP rest n j hs hk hw hj hf hi =>
    have hp := nopre (.swap rest.length j) rfl rfl
    subst hp
    exact tsem_plain hT rfl (.swap rest.length j) (by intros; simp) rfl d hd hneed
      (good_swap (st := { st with code := [] }) hG0 _ _ hi hj)
  | swapR rest n j hs hk hw hj hf hi =>
    have hp := nopre (.swap rest.length j) rfl rfl
    subst hp
    exact tsem_plain hT rfl (.swap rest.length j) (by intros; simp) rfl d hd hneed
      (good_swap (st := { st with code := [] }) hG0 _ _ hi hj)
  | op rest n is hs hc hw hf =>
    obtain ⟨e1, e2, e3⟩ := pushes_sim G (simPop G (emit st is) n) (G.inputs n)
    have hs' : ((G.inputs n).foldl (simPush G) (simPop G (emit st is) n)).sim = rest ++ G.inputs n := by
      rw [e1]; simp [simPop, emit, hs]
    have hneedn : Needs G outputs n := hR.sub n (by simp [hs])
    have hpn : pre = [n] := by
      rcases hpre with hh | ⟨m, hm, hh⟩
      · exfalso
        subst hh
        have e := hO'.code
        rw [e2] at e
        obtain ⟨hcc, hcomp⟩ := convert_count hc
        simp only [simPop, emit, List.filter_append, hcc, List.nil_append, hO.code] at e
        have := congrArg List.length e
        simp only [List.length_append] at this
        have hz : is = [] := List.length_eq_zero_iff.mp (by omega)
        subst hz
        unfold convertOp at hc
        split at hc
        · split at hc <;> cases hc
        · cases hc
        · cases hop : ops n <;> simp [hop] at hc
        · cases hc
      · rw [hs] at hm; simp at hm; rw [hh, hm]
    subst hpn
    have hpk : G.kind n ≠ .param := by intro hk; simp [convertOp, hk] at hc
    have hck : G.kind n ≠ .const := by intro hk; simp [convertOp, hk] at hc
    have ho1 : OpsOk G ops st.sim := ⟨fun m f hm => ho.impl m f (hm.mono hR.sub), fun m hm => ho.pos m (hm.mono hR.sub)⟩
    have hgood : ∀ i, is = [i] → Good G P env st.sim
        { ((G.inputs n).foldl (simPush G) (simPop G (emit st is) n)) with code := [i] } := by
      intro i hi
      have := good_op (st := { st with code := [] }) ho1 hG0 rest n hs (.root (by simp [hs])) is hc
      obtain ⟨f1, f2, f3⟩ := pushes_sim G (simPop G (emit { st with code := [] } is) n) (G.inputs n)
      refine ⟨?_, ?_⟩
      · intro ext lo bs vs hvs
        have hx := this.run ext lo bs vs (by rw [f1]; rw [show ({ ((G.inputs n).foldl (simPush G) (simPop G (emit st is) n)) with
          code := [i] } : CSt N V).sim = _ from e1] at hvs; exact hvs)
        rw [f2, f3] at hx
        simp only [simPop, emit, List.append_nil] at hx
        have e3' : ({ ((G.inputs n).foldl (simPush G) (simPop G (emit st is) n)) with code := [i] } : CSt N V).data = st.data := e3
        rw [e3']
        rw [hi] at hx
        exact hx
      · intro hx
        have hy := this.need hx
        rw [f1] at hy
        rw [show ({ ((G.inputs n).foldl (simPush G) (simPop G (emit st is) n)) with code := [i] } : CSt N V).sim = _ from e1]
        exact hy
    have fin : ∀ i, is = [i] → (∀ f na nr, i ≠ .op f na nr) → isOper G n = false →
        TSem G P env ids outputs ((G.inputs n).foldl (simPush G) (simPop G (emit st is) n)) ([n] ++ done) := by
      intro i hi hno hno2
      refine tsem_plain hT ?_ i hno (by rw [e2]; simp [simPop, emit, hi]) d hd hneed (hgood i hi)
      simp [List.filter_cons, hno2]
    cases hk : G.kind n with
    | param => exact absurd hk hpk
    | const => exact absurd hk hck
    | «variable» => simp [convertOp, hk] at hc
    | field kk =>
      have hc' := hc
      simp only [convertOp, hk] at hc'
      split at hc'
      · injection hc' with hc'
        exact fin (.field kk) hc'.symm (by intros; simp) (by simp [isOper, hk])
      · cases hc'
    | pack =>
      have hc' := hc
      simp only [convertOp, hk, Option.some.injEq] at hc'
      exact fin _ hc'.symm (by intros; simp) (by simp [isOper, hk])
    | oper =>
      cases hop : ops n with
      | none => simp [convertOp, hk, hop] at hc
      | some f =>
        have hc' := hc
        simp only [convertOp, hk, hop, Option.map_some, Option.some.injEq] at hc'
        intro ext lo bs vs outs log k hvs houts
        rw [hs'] at hvs
        obtain ⟨va, vb, rfl, ha, hb⟩ := hvs.split
        obtain ⟨w, hw'⟩ := hneed outs houts
        obtain ⟨v, hv⟩ := denRow_iff.mp ⟨w, hw'⟩ n (by simp [hs])
        obtain ⟨vs', hr, hap⟩ := den_inputs hv hpk hck
        rw [hr.det hb] at hap
        have hsem : G.sem n vb = some v := by simpa [Graph.apply, hk] using hap
        have hpos := ho.pos n hneedn hk
        have himp := ho.impl n f hneedn hk hop (lo ++ va) vb (lo.length :: bs) hb.1
        rw [hsem] at himp
        obtain ⟨junk, hf'⟩ := himp
        have hsim : DenRow G P env st.sim (va ++ [v]) := by rw [hs]; exact DenRow.append ha (DenRow.single hv)
        obtain ⟨recs, hrecs, hrun⟩ := hT ext lo bs (va ++ [v]) outs (log ++ [⟨ids k, vb, [v]⟩]) (k + 1) hsim houts
        refine ⟨⟨ids k, vb, [v]⟩ :: recs, ?_, ?_⟩
        · have : ([n] ++ done).filter (isOper G) = n :: done.filter (isOper G) := by simp [List.filter_cons, isOper, hk]
          rw [this]
          exact ⟨rfl, hb, ⟨v, rfl, hv⟩, hrecs⟩
        · have hcode' : ((G.inputs n).foldl (simPush G) (simPop G (emit st is) n)).code = .op f (G.inputs n).length 1 :: st.code := by
            rw [e2]; simp [simPop, emit, ← hc']
          have hdata' : ((G.inputs n).foldl (simPush G) (simPop G (emit st is) n)).data = st.data := by rw [e3]; rfl
          rw [hcode', hdata']
          have hl : vb.length = (G.inputs n).length := hb.1
          have hstep : runOpInstrH (ids k) (quiet f) (G.inputs n).length 1 (⟨lo ++ (va ++ vb), lo.length, bs⟩, log) =
              .ok (⟨lo ++ (va ++ [v]), lo.length, bs⟩, log ++ [⟨ids k, vb, [v]⟩]) () := by
            rw [← hl]
            have hpb := pushBase_neg_mk lo va vb bs (by omega)
            have hsz0 : ¬ (Stk.mk (lo ++ (va ++ vb)) lo.length bs).size < vb.length := by rw [size_mk]; simp
            have hsz : ¬ (junk ++ [v]).length < 1 := by simp
            unfold runOpInstrH
            rw [if_neg hsz0]
            simp only [hpb, beforeRun, quiet, hf', Out.bind, size_mk, hsz, if_false]
            have hek := erase_keep_mk (lo ++ va) (junk ++ [v]) (lo.length :: bs) 1 (by omega) (by simp)
            simp only [Int.ofNat_one, ne_eq, not_true, if_false] at hek ⊢
            rw [hek]
            simp [orUbH, afterRun, frame, Out.finallyDo, popBase_cons]
          simp only [runCodeH, hstep, Out.bind]
          rw [hrun]
          simp

theorem runCodeH_prefix (P : PackOps V) (data : List V) (ids : Nat → I) (k : Nat) (b : List (Instr V)) (log : List (Rec I V)) :
    ∀ (a : List (Instr V)) (s s' : Stk V), (∀ i ∈ a, isCompute i = false) → runCode P data a s = .ok s' () →
      runCodeH P data ids k (a ++ b) (s, log) = runCodeH P data ids k b (s', log) := by
  intro a
  induction a with
  | nil => intro s s' _ h; simp only [runCode] at h; cases h; rfl
  | cons i a ih =>
    intro s s' hno h
    have hi : ∀ f na nr, i ≠ .op f na nr := by
      rintro f na nr rfl
      have := hno (.op f na nr) (by simp)
      simp [isCompute] at this
    rw [List.cons_append, runCodeH_plain _ _ _ _ _ _ _ hi, runPlainH_eq]
    simp only [runCode] at h
    cases hr : runInstr P data i s with
    | ub => rw [hr] at h; cases h
    | err s1 => rw [hr] at h; cases h
    | ok s1 u =>
      rw [hr] at h
      simp only [attach, Out.bind]
      exact ih s1 s' (fun j hj => hno j (by simp [hj])) h

theorem finish_tsem {G : Graph N V} {P : PackOps V} {env : N → Option V} {outputs inputs : List N} {ids : Nat → I} {done : List N}
    {st : CSt N V} (hT : TSem G P env ids outputs st done) (hR : Reach G outputs st)
    (hpar : ∀ n ∈ st.sim, G.kind n = .param) (hnd : inputs.Nodup)
    (hne : inputs = [] ∨ ∃ p, G.kind p = .param ∧ Needs G outputs p)
    {code : List (Instr V)} (hf : finish inputs st = some code)
    (args lo outs : List V) (bs) (hl : args.length = inputs.length)
    (henv : ∀ i (h1 : i < inputs.length) (h2 : i < args.length), env inputs[i] = some args[i])
    (houts : DenRow G P env outputs outs) (log : List (Rec I V)) :
    ∃ recs, RecsOk G P env ids 0 (done.filter (isOper G)) recs ∧
      runCodeH P st.data ids 0 code (⟨lo ++ args, lo.length, bs⟩, log) = .ok (⟨lo ++ outs, lo.length, bs⟩, log ++ recs) () := by
  unfold finish at hf
  split at hf
  · rename_i hall
    have hsub : ∀ n ∈ st.sim, n ∈ inputs := by
      intro n hn
      have := List.all_eq_true.mp hall n hn
      simpa using this
    split at hf
    · rename_i heq
      cases hf
      have := hT [] lo bs args outs log 0 (by rw [heq]; exact denRow_args P env inputs args hl henv (heq ▸ hpar)) houts
      simpa using this
    · rename_i hne'
      cases hf
      have hpos : 0 < st.sim.length := by
        rcases hne with h | ⟨p, hp, hnp⟩
        · subst h
          exfalso; apply hne'
          apply List.eq_nil_iff_forall_not_mem.mpr
          intro n hn; simpa using hsub n hn
        · rcases (hR.par p hp hnp).cases_root with h | ⟨r, hr, h1, -, -⟩
          · exact List.length_pos_of_mem h
          · exact absurd (hpar r hr) h1
      obtain ⟨vs, hvs, hr⟩ := run_arrange (G := G) P st.data lo bs env inputs args hnd hl henv st.sim hsub hpar []
      simp only [List.append_nil] at hr
      obtain ⟨recs, hrecs, hrun⟩ := hT [] lo bs vs outs log 0 hvs houts
      refine ⟨recs, hrecs, ?_⟩
      rw [runCodeH_prefix P st.data ids 0 st.code log _ ⟨lo ++ args, lo.length, bs⟩ ⟨lo ++ vs, lo.length, bs⟩]
      · simpa using hrun
      · intro i hi
        rcases List.mem_append.mp hi with h | h
        · obtain ⟨n, -, rfl⟩ := List.mem_map.mp h; rfl
        · simp at h; subst h; rfl
      · rw [runCode_append, hr]
        simp only [Out.bind]
        rw [runCode_one]
        have hk := erase_keep_mk lo (args ++ vs) bs st.sim.length hpos (by simp [hvs.1])
        simp only [runInstr, hk, orUb]
        have hdrop : (args ++ vs).drop ((args ++ vs).length - st.sim.length) = vs := by
          rw [List.drop_append]; simp [hvs.1]
        rw [hdrop]
  · cases hf

end Verif.Runtime.Track
