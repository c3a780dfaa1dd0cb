import Verif.Runtime.TrackSound
import Verif.Props.Compiler
import Verif.Props.Bench
/-!
# C105: tracked and hooked runs show what the operators computed

Specification: `Den` / `DenRow` (what a node of the graph is worth, `Compiler.Graph`), `Describes` below, and the plain machine without hooks.
-/
namespace Verif.Props.Track
open Verif.Runtime Verif.Runtime.Stk Verif.Runtime.Track Verif.Compiler Verif.Runtime.Bench
variable {N V I : Type}

/-- **Specification.** A record describes a node: its operands are the values of the node's inputs, in order, and its only result is the value
of the node. -/
def Describes (G : Graph N V) (P : PackOps V) (env : N → Option V) (n : N) (r : Rec I V) : Prop :=
  DenRow G P env (G.inputs n) r.ins ∧ ∃ v, r.outs = [v] ∧ Den G P env n v

/-- **C105, no influence.** For every program without filters and every stack, a run under the hook of `track` ends as the run without it:
the same results, the same exception, the same stack. -/
theorem C105_no_influence [DecidableEq I] (P : PackOps V) (adj : Adjust V) (b : Block V) (ids : Nat → I) (args : List V) (s : Stk V)
    (hs : s.Wf) :
    match launchOffline P adj b.prog args s with
    | .ok s' outs => ∃ recs, track P b ids args s = .ok s' (outs, recs)
    | .err s' => track P b ids args s = .err s'
    | .ub => track P b ids args s = .ub := by
  by_cases hl : args.length = b.nargs
  · obtain ⟨lo, bs, h⟩ := launchOfflineH_eq P adj b ids args s hs hl
    obtain ⟨l, hr⟩ := runCodeH_eq P b.data ids b.code 0 ⟨lo ++ args, lo.length, bs⟩
    have h := h l [] (hr [])
    unfold track
    rw [h]
    cases launchOffline P adj b.prog args s with
    | ok s' outs => exact ⟨_, rfl⟩
    | err s' => rfl
    | ub => rfl
  · have h1 : launchOffline P adj b.prog args s = .err (pushAll (s.pushBase s.size) args).clear.popBase := by
      simp only [launchOffline, Block.prog, launchOnline, ne_eq, Ne.symm hl, not_false_eq_true, if_true, Out.bind, Out.finallyDo]
    rw [h1]
    simp only [track, launchOfflineH, launchOnlineH, ne_eq, Ne.symm hl, not_false_eq_true, if_true, Out.bind, Out.finallyDo]

theorem recsOk_spec {G : Graph N V} {P : PackOps V} {env : N → Option V} {ids : Nat → I} : ∀ (k : Nat) (ns : List N) (rs : List (Rec I V)),
    RecsOk G P env ids k ns rs → rs.length = ns.length ∧
      ∀ (i : Nat) (h1 : i < rs.length) (h2 : i < ns.length), rs[i].id = ids (k + i) ∧ Describes G P env ns[i] rs[i]
  | _, [], [], _ => ⟨rfl, fun i h1 => absurd h1 (by simp)⟩
  | k, n :: ns, r :: rs, h => by
    obtain ⟨h1, h2, h3, h4⟩ := h
    obtain ⟨e, ih⟩ := recsOk_spec (k + 1) ns rs h4
    refine ⟨by simp [e], ?_⟩
    intro i hi1 hi2
    cases i with
    | zero => exact ⟨by simpa using h1, h2, h3⟩
    | succ i =>
      have := ih i (by simpa using hi1) (by simpa using hi2)
      rw [show k + 1 + i = k + (i + 1) by omega] at this
      simpa using this
  | _, [], r :: rs, h => h.elim
  | _, n :: ns, [], h => h.elim

/-- what is known of a compiled graph under the hook -/
theorem compiled_records [DecidableEq N] [DecidableEq I] (G : Graph N V) (P : PackOps V) (ops : OpTable N V) (inputs outputs : List N)
    (ho : OpsOk G ops outputs) (hnd : inputs.Nodup) (hne : inputs = [] ∨ ∃ p, G.kind p = .param ∧ Needs G outputs p)
    {fuel : Nat} {st : LSt N} (hw : walk G fuel (walkInit outputs) = some st) {l : List (N × Nat)} (hl : IsSchedule st l)
    (fuel' : Nat) (blk : Block V) (hc : compile G ops (refsOf (buildRefs G l)) inputs outputs fuel' = some (some blk)) (ids : Nat → I) :
    blk.nargs = inputs.length ∧ blk.nresults = outputs.length ∧
    ∃ done : List N, done.Nodup ∧
      blk.code.filter isCompute = done.flatMap (fun n => (convertOp G ops n).getD []) ∧
      (∀ n, n ∈ done ↔ Needs G outputs n ∧ G.kind n ≠ .param ∧ G.kind n ≠ .const) ∧
      (done.Pairwise fun a b => ¬ Needs G [a] b) ∧
      ∀ (env : N → Option V) (args lo outs : List V) (bs : List Nat) (log : List (Rec I V)), args.length = inputs.length →
        (∀ i (h1 : i < inputs.length) (h2 : i < args.length), env inputs[i] = some args[i]) → DenRow G P env outputs outs →
        ∃ recs, RecsOk G P env ids 0 (done.filter (isOper G)) recs ∧
          runCodeH P blk.data ids 0 blk.code (⟨lo ++ args, lo.length, bs⟩, log) =
            .ok (⟨lo ++ outs, lo.length, bs⟩, log ++ recs) () := by
  have hcases := compile_cases (G := G) (ops := ops) (refs := refsOf (buildRefs G l)) (inputs := inputs)
    (outputs := outputs) (fuel := fuel')
  rw [hc] at hcases
  obtain ⟨-, -, hna, hnr, st', hlp, hR, hpar, hf, hd⟩ := hcases
  refine ⟨hna, hnr, ?_⟩
  have hrefs : ∀ m n, Needs G outputs m → DependsOn G m n → refsOf (buildRefs G l) m n = true := by
    intro m n hm hdep
    refine (refs_exact hw hl m n ?_).mpr hdep
    clear hdep
    induction hm with
    | root h => exact .inl h
    | @input a b _ _ _ hi ih =>
      rcases ih with h | ⟨r, hr, hd⟩
      · exact .inr ⟨a, h, .direct hi⟩
      · exact .inr ⟨r, hr, hd.tail (.direct hi)⟩
  have key := loop_reaches (ops := ops) (refs := refsOf (buildRefs G l)) (fuel := fuel') (init_inv G outputs)
    (init_reach G outputs)
    (fun s => ∃ done, OnceD G ops outputs s done ∧ ∀ env, Good G P env outputs s ∧ TSem G P env ids outputs s done)
    ⟨[], init_onceD G ops outputs, fun env => ⟨init_good G P env outputs, by
      obtain ⟨h1, h2, h3⟩ := init_sim G outputs
      intro ext lo bs vs outs log k hvs houts
      rw [h1] at hvs
      refine ⟨[], trivial, ?_⟩
      rw [h2, hvs.det houts]
      simp [runCodeH]⟩⟩
    (fun st st' hI hR hC hm => by
      obtain ⟨done, hO, hE⟩ := hC
      obtain ⟨pre, hO', hpre⟩ := move_onceD hrefs hI hR hO hm
      exact ⟨pre ++ done, hO', fun env => ⟨move_good ho hI hR (hE env).1 hm,
        move_tsem ho hI hR (hE env).1 hO hO' hpre (hE env).2 hm⟩⟩)
  rw [hlp] at key
  obtain ⟨-, -, ⟨done, hO, hE⟩, -⟩ := key
  have hno : ∀ n, Needs G st'.sim n → G.kind n = .param := by
    intro n hn
    rcases hn.cases_root with h | ⟨r, hr, h1, -, -⟩
    · exact hpar n h
    · exact absurd (hpar r hr) h1
  refine ⟨done, hO.nd, ?_, ?_, hO.ord, ?_⟩
  · rw [← hO.code]
    unfold finish at hf
    split at hf
    · split at hf
      · simp only [Option.some.injEq] at hf; rw [← hf]
      · simp only [Option.some.injEq] at hf; rw [← hf]
        rw [List.filter_append, List.filter_append]
        have : (st'.sim.map fun n => Instr.push (V := V) (((inputIndex inputs n).getD 0 : Nat) : Int)).filter
            isCompute = [] := by
          rw [List.filter_eq_nil_iff]
          intro i hi
          simp only [List.mem_map] at hi
          obtain ⟨n, -, rfl⟩ := hi
          simp [isCompute]
        rw [this]
        simp [isCompute]
    · cases hf
  · intro n
    constructor
    · intro h; exact ⟨(hO.inn n h).1, (hO.inn n h).2.1⟩
    · rintro ⟨h1, h2⟩
      rcases hO.cov n h1 h2 with h | h
      · exact h
      · exact absurd (hno n h) h2.1
  · intro env args lo outs bs log hal henv houts
    rw [hd]
    exact finish_tsem (hE env).2 hR hpar hnd hne hf args lo outs bs hal henv houts log

/-- an instruction with an operator -/
def isOpInstr : Instr V → Bool
  | .op .. => true
  | _ => false

theorem filter_conv [DecidableEq N] (G : Graph N V) (ops : OpTable N V) (done : List N) :
    (done.flatMap (fun n => (convertOp G ops n).getD [])).filter isOpInstr =
      (done.filter (isOper G)).flatMap (fun n => (convertOp G ops n).getD []) := by
  induction done with
  | nil => rfl
  | cons n ns ih =>
    have h1 : ((convertOp G ops n).getD []).filter isOpInstr = if isOper G n then (convertOp G ops n).getD [] else [] := by
      unfold convertOp isOper
      cases hk : G.kind n with
      | field k => by_cases h : (G.inputs n).length = 1 ∧ 0 ≤ k <;> simp [h, isOpInstr]
      | oper => cases ho : ops n <;> simp [ho, isOpInstr]
      | _ => simp [isOpInstr]
    simp only [List.flatMap_cons, List.filter_append, ih, h1, List.filter_cons]
    by_cases h : isOper G n <;> simp [h]

theorem filter_op_compute (code : List (Instr V)) : (code.filter isCompute).filter isOpInstr = code.filter isOpInstr := by
  rw [List.filter_filter]
  congr 1
  funext i
  cases i <;> rfl

/-- **C105, test cases.** Compiling a graph gives a program whose operator instructions belong, in order, to a list of exactly the operator
nodes that the outputs need, each once and none before one it needs; and on all arguments and for every stack, whenever the outputs have
values, tracking returns them together with one test case per operator instruction, in order, that names the operator of that instruction and
holds the values of the node's inputs and of the node. (Hypotheses as in C01 and C41.) -/
theorem C105_records [DecidableEq N] [DecidableEq I] (G : Graph N V) (P : PackOps V) (ops : OpTable N V) (inputs outputs : List N)
    (ho : OpsOk G ops outputs) (hnd : inputs.Nodup) (hne : inputs = [] ∨ ∃ p, G.kind p = .param ∧ Needs G outputs p)
    {fuel : Nat} {st : LSt N} (hw : walk G fuel (walkInit outputs) = some st) {l : List (N × Nat)} (hl : IsSchedule st l)
    (fuel' : Nat) (blk : Block V) (hc : compile G ops (refsOf (buildRefs G l)) inputs outputs fuel' = some (some blk)) (ids : Nat → I) :
    ∃ ns : List N, ns.Nodup ∧ (∀ n, n ∈ ns ↔ Needs G outputs n ∧ G.kind n = .oper) ∧ (ns.Pairwise fun a b => ¬ Needs G [a] b) ∧
      blk.code.filter isOpInstr = ns.flatMap (fun n => (convertOp G ops n).getD []) ∧
      ∀ (env : N → Option V) (args outs : List V) (s : Stk V), s.Wf → args.length = inputs.length →
        (∀ i (h1 : i < inputs.length) (h2 : i < args.length), env inputs[i] = some args[i]) → DenRow G P env outputs outs →
        ∃ recs : List (Rec I V), track P blk ids args s = .ok s (outs, recs) ∧ recs.length = ns.length ∧
          ∀ (i : Nat) (h1 : i < recs.length) (h2 : i < ns.length), recs[i].id = ids i ∧ Describes G P env ns[i] recs[i] := by
  obtain ⟨hna, hnr, done, hdn, hcode, hmem, hord, hrun⟩ := compiled_records G P ops inputs outputs ho hnd hne hw hl fuel' blk hc ids
  refine ⟨done.filter (isOper G), hdn.filter _, ?_, hord.filter _, ?_, ?_⟩
  · intro n
    rw [List.mem_filter, hmem]
    constructor
    · rintro ⟨⟨h1, h2⟩, h3⟩; exact ⟨h1, by simpa [isOper] using h3⟩
    · rintro ⟨h1, h2⟩; exact ⟨⟨h1, by simp [h2], by simp [h2]⟩, by simp [isOper, h2]⟩
  · rw [← filter_conv, ← hcode, filter_op_compute]
  · intro env args outs s hs hal henv houts
    obtain ⟨lo, bs, h⟩ := launchOfflineH_eq P some blk ids args s hs (by rw [hna, hal])
    obtain ⟨recs, hrecs, hr⟩ := hrun env args lo outs bs [] hal henv houts
    obtain ⟨l0, hl0⟩ := runCodeH_eq P blk.data ids blk.code 0 ⟨lo ++ args, lo.length, bs⟩
    have e := hl0 []
    rw [hr] at e
    have hl0' : l0 = recs ∧ runCode P blk.data blk.code ⟨lo ++ args, lo.length, bs⟩ = .ok ⟨lo ++ outs, lo.length, bs⟩ () := by
      cases hx : runCode P blk.data blk.code ⟨lo ++ args, lo.length, bs⟩ with
      | ub => rw [hx] at e; cases e
      | err s' => rw [hx] at e; cases e
      | ok s' u =>
        rw [hx] at e
        simp only [attach, List.nil_append, Out.ok.injEq, Prod.mk.injEq] at e
        exact ⟨e.1.2.symm, by rw [← e.1.1]⟩
    have h := h l0 [] (hl0 [])
    rw [hl0'.1] at h
    have hres := C01_compile_correct_partial G P ops inputs outputs ho hnd hne _ fuel' blk hc
    rcases hres.2.2 some args env s hs hal henv with ⟨outs', ho', hlo⟩ | ⟨hno, -⟩
    · rw [ho'.det houts] at hlo
      obtain ⟨q1, q2⟩ := recsOk_spec 0 _ recs hrecs
      refine ⟨recs, ?_, q1, ?_⟩
      · simp [track, h, hlo, attach]
      · intro i h1 h2
        have := q2 i h1 h2
        simpa using this
    · exact absurd ⟨outs, houts⟩ hno

theorem lastReported_of {t : List (String × V)} {x : String} {v : V} (hm : (x, v) ∈ t) (hu : ∀ w, (x, w) ∈ t → w = v) :
    Verif.Props.lastReported t x = some v := by
  unfold Verif.Props.lastReported
  cases hf : t.reverse.find? (fun p => decide (p.1 = x)) with
  | none =>
    have := List.find?_eq_none.mp hf (x, v) (by simpa using hm)
    simp at this
  | some q =>
    have h1 := List.find?_some hf
    have h2 := List.mem_of_find?_eq_some hf
    obtain ⟨a, b⟩ := q
    simp only [decide_eq_true_eq] at h1
    subst h1
    simp [hu b (by simpa using h2)]

/-- **C105, hooked values.** For a compiled graph whose needed operator nodes have different names: after a completed hooked run on any
workbench, reading the name of a needed operator node that was asked for gives the value of that node for the inputs of the run. (`ns` are the
nodes of the program's operator instructions, in order; the operator of an instruction carries the name of its node.) -/
theorem C105_run_hook [DecidableEq N] [DecidableEq I] (G : Graph N V) (P : PackOps V) (adj : Adjust V) (ops : OpTable N V)
    (inputs outputs : List N)
    (ho : OpsOk G ops outputs) (hnd : inputs.Nodup) (hne : inputs = [] ∨ ∃ p, G.kind p = .param ∧ Needs G outputs p)
    {fuel : Nat} {st : LSt N} (hw : walk G fuel (walkInit outputs) = some st) {l : List (N × Nat)} (hl : IsSchedule st l)
    (fuel' : Nat) (blk : Block V) (hc : compile G ops (refsOf (buildRefs G l)) inputs outputs fuel' = some (some blk)) (ids : Nat → I) :
    ∃ ns : List N, (∀ n, n ∈ ns ↔ Needs G outputs n ∧ G.kind n = .oper) ∧
      blk.code.filter isOpInstr = ns.flatMap (fun n => (convertOp G ops n).getD []) ∧
      ∀ (name : N → String) (nm : I → String), (∀ (i : Nat) (h : i < ns.length), nm (ids i) = name ns[i]) →
        (∀ a ∈ ns, ∀ b ∈ ns, name a = name b → a = b) →
        ∀ (d : Desk V) (b b' : Bench V) (env : N → Option V) (names : List String),
          d.prog = blk.prog → d.trace = traceOf P blk ids nm → b.desktop = some d → b.stack.Wf →
          b.inputs.length = inputs.length →
          (∀ i (h1 : i < inputs.length) (h2 : i < b.inputs.length), env inputs[i] = some b.inputs[i]) →
          b.runHook P adj names = .ok b' () →
          ∀ n ∈ ns, name n ∈ names → ∃ v, Den G P env n v ∧ b'.outputName (name n) = some v := by
  obtain ⟨ns, hdn, hmem, -, hcode, hrun⟩ := C105_records G P ops inputs outputs ho hnd hne hw hl fuel' blk hc ids
  refine ⟨ns, hmem, hcode, ?_⟩
  intro name nm hnm huniq d b b' env names hprog htrace hdesk hwf hlen henv hrh n hn hnn
  -- the run completed, so the outputs have values
  have hres := C01_compile_correct_partial G P ops inputs outputs ho hnd hne _ fuel' blk hc
  have houts : ∃ outs, DenRow G P env outputs outs := by
    rcases hres.2.2 adj b.inputs env b.stack hwf hlen henv with ⟨outs, h1, -⟩ | ⟨-, herr⟩
    · exact ⟨outs, h1⟩
    · exfalso
      unfold runHook at hrh
      cases hm : b.saveInputs with
      | none => rw [hm] at hrh; cases hrh
      | some m =>
        rw [hm] at hrh
        simp only [runWith, hdesk, hprog, herr] at hrh
        cases hrh
  obtain ⟨outs, houts⟩ := houts
  obtain ⟨recs, htr, hrl, hdesc⟩ := hrun env b.inputs outs ⟨[], 0, []⟩ (by simp [Wf]) hlen henv houts
  have hlog : d.trace b.inputs = reported nm recs := by
    rw [htrace]
    unfold traceOf
    unfold track at htr
    cases hx : launchOfflineH P blk ids b.inputs (⟨[], 0, []⟩, []) with
    | ok h o => rw [hx] at htr; simp only [Out.ok.injEq, Prod.mk.injEq] at htr; simp [logOf, htr.2.2]
    | err h => rw [hx] at htr; cases htr
    | ub => rw [hx] at htr; cases htr
  obtain ⟨i, hi, hin⟩ := List.getElem_of_mem hn
  obtain ⟨hid, hins, v, hv1, hv2⟩ := hdesc i (by omega) hi
  rw [hin] at hv2
  refine ⟨v, hv2, ?_⟩
  obtain ⟨d', hd', h1, -⟩ := Verif.Props.C36_run_hook P adj names b b' (.inl hrh)
  rw [hdesk] at hd'
  cases hd'
  refine h1 (name n) hnn v ?_
  rw [hlog]
  refine lastReported_of ?_ ?_
  · unfold reported
    rw [List.mem_filterMap]
    refine ⟨recs[i], List.getElem_mem _, ?_⟩
    simp [hv1, hid, hnm i hi, hin]
  · intro w hwm
    unfold reported at hwm
    rw [List.mem_filterMap] at hwm
    obtain ⟨r, hr, he⟩ := hwm
    obtain ⟨j, hj, hjr⟩ := List.getElem_of_mem hr
    have hj2 : j < ns.length := by omega
    obtain ⟨hid2, -, u, hu1, hu2⟩ := hdesc j hj hj2
    rw [← hjr, hu1, hid2, hnm j hj2] at he
    simp only [List.head?_cons, Option.map_some, Option.some.injEq, Prod.mk.injEq] at he
    have := huniq _ (List.getElem_mem hj2) n hn he.1
    rw [this] at hu2
    rw [← he.2]
    exact hu2.det hv2

theorem opCount_filter (A : List (Instr V)) : opCount A = (A.filter isOpInstr).length := by
  induction A with
  | nil => rfl
  | cons i A ih => cases i <;> simp [opCount, isOpInstr, ih, List.filter_cons]

/-- **C105, a run that throws.** When instruction `i` of a program throws, the hooked run has reported exactly the operators before it: one
record for each of the operator instructions `A` in front of it, in their order, the same records a run of `A` alone leaves; the failing
operator reports nothing. -/
theorem C105_trace_failed [DecidableEq I] (P : PackOps V) (b : Block V) (ids : Nat → I) (nm : I → String) (args : List V)
    (A B : List (Instr V)) (i : Instr V) (hcode : b.code = A ++ i :: B) (hl : args.length = b.nargs) (s1 s2 : Stk V)
    (hA : runCode P b.data A ⟨args, 0, [0, 0]⟩ = .ok s1 ()) (hi : runInstr P b.data i s1 = .err s2) :
    ∃ recs, runCodeH P b.data ids 0 A (⟨args, 0, [0, 0]⟩, []) = .ok (s1, recs) () ∧
      recs.map Rec.id = (List.range (A.filter isOpInstr).length).map ids ∧
      traceOf P b ids nm args = reported nm recs := by
  obtain ⟨l0, h0⟩ := runCodeH_eq P b.data ids A 0 ⟨args, 0, [0, 0]⟩
  have h1 := h0 []
  rw [hA] at h1
  simp only [List.nil_append, attach] at h1
  refine ⟨l0, h1, ?_, ?_⟩
  · have := runCodeH_ids P b.data ids A 0 _ _ h1
    simpa [opCount_filter] using this
  · -- the failing instruction
    have h2 : ∃ l1 : List (Rec I V), (∀ r ∈ l1, r.outs = []) ∧
        runCodeH P b.data ids (0 + opCount A) (i :: B) (s1, l0) = .err (s2, l0 ++ l1) := by
      have plain : ∀ k, runCodeH P b.data ids k (i :: B) (s1, l0) =
          ((runPlainH P b.data i (s1, l0)).bind fun h' _ => runCodeH P b.data ids k B h') →
          runCodeH P b.data ids k (i :: B) (s1, l0) = .err (s2, l0 ++ []) := by
        intro k hk
        rw [hk, runPlainH_eq, hi]
        simp [attach, Out.bind]
      cases i with
      | op f na nr =>
        obtain ⟨l1, h3, h4⟩ := runOpInstrH_err (ids (0 + opCount A)) f na nr s1 s2 hi
        exact ⟨l1, h3, by simp only [runCodeH, h4, Out.bind]⟩
      | _ => exact ⟨[], by simp, plain _ rfl⟩
    obtain ⟨l1, hempty, h2⟩ := h2
    have hH : runCodeH P b.data ids 0 b.code (⟨args, 0, [0, 0]⟩, []) = .err (s2, l0 ++ l1) := by
      rw [hcode, runCodeH_append, h1]
      simp only [Out.bind, h2]
    have hP : runCode P b.data b.code ⟨args, 0, [0, 0]⟩ = .err s2 := by
      rw [hcode, runCode_append, hA]
      simp only [Out.bind, runCode, hi]
    have hlau := launchOfflineH_at P (fun v => some v) b ids args ⟨[], 0, []⟩ (by simp [Wf]) hl (l0 ++ l1) []
      (by simp only [List.nil_append, List.length_nil]; rw [hH, hP]; rfl)
    have herr := launchOffline_err_at P (fun v => some v) b args ⟨[], 0, []⟩ (by simp [Wf]) hl s2 (by simpa using hP)
    obtain ⟨s3, herr⟩ := herr
    unfold traceOf
    rw [hlau, herr]
    simp only [attach, logOf, reported, List.nil_append, List.filterMap_append]
    have : l1.filterMap (fun r => r.outs.head?.map fun v => (nm r.id, v)) = [] := by
      rw [List.filterMap_eq_nil_iff]
      intro r hr
      rw [hempty r hr]
      rfl
    rw [this, List.append_nil]

/-- **C105, refused.** An operator that itself runs an instruction of another operator (for instance by launching a program) leaves that
operator's record last; the callback then finds another operator and throws: the tracked run fails, whatever the operator computed. -/
theorem C105_nested [DecidableEq I] (id : I) (f : HOp I V) (na nr : Nat) (h h1 : HSt I V) (r : Int) (q : Rec I V)
    (hsz : na ≤ h.1.size) (hf : f (beforeRun id (h.1.pushBase (-(na : Int)), h.2)) = .ok h1 r)
    (hq : h1.2.getLast? = some q) (hne : q.id ≠ id) :
    ∀ h2, runOpInstrH id f na nr h ≠ .ok h2 () := by
  intro h2 he
  unfold runOpInstrH at he
  rw [if_neg (by omega), hf] at he
  simp only [Out.bind] at he
  by_cases e1 : r = nr
  · by_cases e2 : h1.1.size < nr
    · simp [e1, e2, Out.finallyDo] at he
    · cases e3 : h1.1.erase 0 (-(nr : Int)) with
      | none => simp [e1, e2, e3, orUbH, Out.finallyDo] at he
      | some s2 => simp [e1, e2, e3, orUbH, Out.finallyDo, afterRun, hq, hne] at he
  · simp [e1, Out.finallyDo] at he

theorem readBack_of {files : List (Text × Content V)} {p : Text} {c : Content V} (hm : (p, c) ∈ files)
    (hu : ∀ c', (p, c') ∈ files → c' = c) : readBack files p = some c := by
  unfold readBack
  cases hf : files.reverse.find? (fun f => f.1 = p) with
  | none =>
    have := List.find?_eq_none.mp hf (p, c) (by simpa using hm)
    simp at this
  | some q =>
    have h1 := List.find?_some hf
    have h2 := List.mem_of_find?_eq_some hf
    obtain ⟨a, b⟩ := q
    simp only [decide_eq_true_eq] at h1
    subst h1
    simp [hu b (by simpa using h2)]

theorem mem_dumpFiles (info : I → OpInfo V) (root : Text) (made : Text → Bool) (x : Text × Content V) :
    ∀ (k : Nat) (rs : List (Rec I V)), x ∈ dumpFiles info root made k rs ↔
      ∃ (i : Nat) (h : i < rs.length), made (subdir root (k + i) (info rs[i].id).op) = true ∧ x ∈ caseFiles info root (k + i) rs[i]
  | k, [] => by simp [dumpFiles]
  | k, r :: rs => by
    unfold dumpFiles
    rw [List.mem_append, mem_dumpFiles info root made x (k + 1) rs]
    constructor
    · rintro (h | ⟨i, h, h1, h2⟩)
      · split at h
        · rename_i hm; exact ⟨0, by simp, by simpa using hm, by simpa using h⟩
        · simp at h
      · refine ⟨i + 1, by simpa using h, ?_⟩
        rw [show k + (i + 1) = k + 1 + i by omega]
        exact ⟨by simpa using h1, by simpa using h2⟩
    · rintro ⟨i, h, h1, h2⟩
      cases i with
      | zero => left; rw [if_pos (by simpa using h1)]; simpa using h2
      | succ i =>
        right
        refine ⟨i, by simpa using h, ?_⟩
        rw [show k + (i + 1) = k + 1 + i by omega] at h1 h2
        exact ⟨by simpa using h1, by simpa using h2⟩

theorem dec_inj {a b : Nat} (h : dec a = dec b) : a = b := by
  have h1 := Nat.ofDigitChars_toDigits (b := 10) (n := a) (by omega) (by omega)
  have h2 := Nat.ofDigitChars_toDigits (b := 10) (n := b) (by omega) (by omega)
  unfold dec at h
  rw [h, h2] at h1
  exact h1.symm

/-- digits before a character that is no digit are determined by the whole text -/
theorem digits_split {a b x y : Text} {c : Char} (hc : c.isDigit = false) (ha : ∀ d ∈ a, d.isDigit = true) (hb : ∀ d ∈ b, d.isDigit = true)
    (h : a ++ c :: x = b ++ c :: y) : a = b ∧ x = y := by
  induction a generalizing b with
  | nil =>
    cases b with
    | nil => simpa using h
    | cons d b =>
      simp only [List.nil_append, List.cons_append, List.cons.injEq] at h
      have := hb d (by simp)
      rw [← h.1, hc] at this; cases this
  | cons e a ih =>
    cases b with
    | nil =>
      simp only [List.nil_append, List.cons_append, List.cons.injEq] at h
      have := ha e (by simp)
      rw [h.1, hc] at this; cases this
    | cons d b =>
      simp only [List.cons_append, List.cons.injEq] at h
      obtain ⟨h1, h2⟩ := ih (b := b) (fun z hz => ha z (by simp [hz])) (fun z hz => hb z (by simp [hz])) h.2
      exact ⟨by rw [h.1, h1], h2⟩

theorem dec_digits (n : Nat) : ∀ d ∈ dec n, d.isDigit = true := fun d hd => Nat.isDigit_of_mem_toDigits (by omega) (by omega) hd

theorem subdir_inj {root : Text} {i j : Nat} {o p x y : Text} (h : subdir root i o ++ x = subdir root j p ++ y) : i = j := by
  unfold subdir at h
  simp only [List.append_assoc, List.append_cancel_left_eq] at h
  have : dec i ++ '_' :: (o ++ ("/".toList ++ x)) = dec j ++ '_' :: (p ++ ("/".toList ++ y)) := by simpa using h
  exact dec_inj (digits_split (by decide) (dec_digits i) (dec_digits j) this).1

theorem caseFiles_prefix {info : I → OpInfo V} {root : Text} {i : Nat} {r : Rec I V} {x : Text × Content V} (h : x ∈ caseFiles info root i r) :
    ∃ t, x.1 = subdir root i (info r.id).op ++ t := by
  unfold caseFiles at h
  simp only [List.mem_append, List.mem_singleton, List.mem_map, List.mem_mapIdx] at h
  rcases h with ((h | ⟨p, hp, h⟩) | ⟨j, hj, h⟩) | ⟨j, hj, h⟩ <;> (subst h; exact ⟨_, by simp only [List.append_assoc]; rfl⟩)

theorem nodup_fst {l : List (Text × V)} (h : (l.map (·.1)).Nodup) {a b : Text × V} (ha : a ∈ l) (hb : b ∈ l) (e : a.1 = b.1) : a = b := by
  induction l with
  | nil => cases ha
  | cons q l ih =>
    simp only [List.map_cons, List.nodup_cons, List.mem_map, not_exists, not_and] at h
    simp only [List.mem_cons] at ha hb
    rcases ha with rfl | ha <;> rcases hb with rfl | hb
    · rfl
    · exact absurd e.symm (h.1 b hb)
    · exact absurd e (h.1 a ha)
    · exact ih h.2 ha hb

theorem caseFiles_unique {info : I → OpInfo V} {root : Text} {i : Nat} {r : Rec I V} (hp : ((info r.id).params.map (·.1)).Nodup)
    {p : Text} {c c' : Content V} (h : (p, c) ∈ caseFiles info root i r) (h' : (p, c') ∈ caseFiles info root i r) : c' = c := by
  unfold caseFiles at h h'
  simp only [List.mem_append, List.mem_singleton, List.mem_map, List.mem_mapIdx, Prod.mk.injEq] at h h'
  rcases h with ((⟨h, e⟩ | ⟨q, hq, h, e⟩) | ⟨j, hj, h, e⟩) | ⟨j, hj, h, e⟩ <;>
  rcases h' with ((⟨h', e'⟩ | ⟨q', hq', h', e'⟩) | ⟨j', hj', h', e'⟩) | ⟨j', hj', h', e'⟩ <;>
  (subst e e'; try subst h) <;> simp at h'
  · rfl
  · rw [nodup_fst hp hq' hq h']
  · cases dec_inj h'; rfl
  · cases dec_inj h'; rfl

/-- **C105, files.** For all records of a tracked run, every record whose directory `root/<i>_<op>/` could be made is found in it: the file
`0.<op>.txt` holds the numbers of parameters, inputs and outputs, `1.<name>.t` each parameter, `2.input_<j>.t` the `j`-th input and
`3.output_<j>.t` the `j`-th output; no later record overwrites them, whatever operators and parameters are called. -/
theorem C105_files (info : I → OpInfo V) (root : Text) (made : Text → Bool) (recs : List (Rec I V))
    (hp : ∀ r ∈ recs, ((info r.id).params.map (·.1)).Nodup) (i : Nat) (h : i < recs.length) :
    let r := recs[i]
    let op := (info r.id).op
    let dir := root ++ "/".toList ++ dec i ++ "_".toList ++ op ++ "/".toList
    let read := readBack (dumpFiles info root made 0 recs)
    made dir = true →
      read (dir ++ "0.".toList ++ op ++ ".txt".toList) = some (.counts (info r.id).params.length r.ins.length r.outs.length) ∧
      (∀ (name : Text) (v : V), (name, v) ∈ (info r.id).params → read (dir ++ "1.".toList ++ name ++ ".t".toList) = some (.tensor v)) ∧
      (∀ (j : Nat) (hj : j < r.ins.length), read (dir ++ "2.input_".toList ++ dec j ++ ".t".toList) = some (.tensor r.ins[j])) ∧
      (∀ (j : Nat) (hj : j < r.outs.length), read (dir ++ "3.output_".toList ++ dec j ++ ".t".toList) = some (.tensor r.outs[j])) := by
  intro r op dir read hm
  have key : ∀ (p : Text) (c : Content V), (p, c) ∈ caseFiles info root i r → read p = some c := by
    intro p c hpc
    refine readBack_of ((mem_dumpFiles info root made _ 0 recs).mpr ⟨i, h, ?_, ?_⟩) ?_
    · rw [Nat.zero_add]; exact hm
    · simpa using hpc
    · intro c' hc'
      obtain ⟨k, hk, -, hc'⟩ := (mem_dumpFiles info root made _ 0 recs).mp hc'
      obtain ⟨t, ht⟩ := caseFiles_prefix hpc
      obtain ⟨t', ht'⟩ := caseFiles_prefix hc'
      simp only [Nat.zero_add] at ht ht' hc'
      have : i = k := subdir_inj (ht.symm.trans ht')
      subst this
      exact caseFiles_unique (hp r (List.getElem_mem h)) hpc hc'
  refine ⟨key _ _ ?_, fun name v hv => key _ _ ?_, fun j hj => key _ _ ?_, fun j hj => key _ _ ?_⟩
  · simp [caseFiles, dir, subdir, op]
  · unfold caseFiles
    simp only [List.mem_append, List.mem_map]
    exact .inl (.inl (.inr ⟨(name, v), hv, rfl⟩))
  · unfold caseFiles
    simp only [List.mem_append, List.mem_mapIdx]
    exact .inl (.inr ⟨j, hj, rfl⟩)
  · unfold caseFiles
    simp only [List.mem_append, List.mem_mapIdx]
    exact .inr ⟨j, hj, rfl⟩

/-- an operator that adds its two operands by running an instruction of another operator (number 1) -/
def nestedOp : HOp Nat Nat := fun h => (runOpInstrH 1 (quiet (Verif.Props.liftOp Verif.Props.addSem)) 2 1 h).bind fun h' _ => .ok h' 1

/-- the same operator without a hook -/
def nestedPlain : Op Nat := fun s => (runOpInstr (Verif.Props.liftOp Verif.Props.addSem) 2 1 s).bind fun s' _ => .ok s' 1

/-- "Tracking has no influence" is false for operators that launch programs: the instruction that completes without a hook throws
under the hook of `track`. -/
theorem C105_nested_false :
    runOpInstr nestedPlain 2 1 ⟨[3, 4], 0, []⟩ = .ok ⟨[7], 0, []⟩ () ∧
    runOpInstrH 0 nestedOp 2 1 (⟨[3, 4], 0, []⟩, []) = .err (⟨[7], 0, []⟩, [⟨0, [3, 4], []⟩, ⟨1, [3, 4], [7]⟩]) := by
  decide

/-- non-vacuity of C105: tracking the sample program (`a = x + 5`, `b = a - y`) on `7, 4` returns `[8, 12]` and the two test cases of the
nodes `a` and `b`; with `y > x + 5` it fails like the plain launch -/
example : (match Verif.Props.sampleBlock with
    | some (some b) => (track Verif.Props.natPack b id [7, 4] ⟨[9], 0, []⟩, track Verif.Props.natPack b id [1, 40] ⟨[9], 0, []⟩)
    | _ => (.ub, .ub)) =
    (.ok ⟨[9], 0, []⟩ ([8, 12], [⟨0, [7, 5], [12]⟩, ⟨1, [12, 4], [8]⟩]), .err ⟨[9], 0, []⟩) := by decide

/-- the hypotheses of `C105_records` hold for it: walk, schedule, compilation, operators and outputs with values -/
example : ∃ (fuel : Nat) (st : LSt Nat) (blk : Block Nat), walk (graphOf Verif.Props.sampleArena) fuel (walkInit [4, 3]) = some st ∧
    IsSchedule st [(0, 3), (2, 3), (3, 2), (1, 2), (4, 1)] ∧
    compile (graphOf Verif.Props.sampleArena) (Verif.Props.opsOf Verif.Props.sampleArena)
      (refsOf (buildRefs (graphOf Verif.Props.sampleArena) [(0, 3), (2, 3), (3, 2), (1, 2), (4, 1)])) [0, 1] [4, 3] 50 = some (some blk) :=
  ⟨20, _, _, rfl, ⟨by decide, by decide⟩, rfl⟩

/-- what `run_hook` is told about that run, when the operators are called "a" and "b" -/
example : (match Verif.Props.sampleBlock with
    | some (some b) => traceOf Verif.Props.natPack b id (fun i => if i = 0 then "a" else "b") [7, 4]
    | _ => []) = [("a", 12), ("b", 8)] := by decide

/-- non-vacuity of `C105_trace_failed`: with inputs `1, 40` the second operator of that program throws (`6 - 40`), and the first one is reported -/
example : ∃ (b : Block Nat) (i : Instr Nat) (s1 s2 : Stk Nat), Verif.Props.sampleBlock = some (some b) ∧
    b.code = b.code.take 8 ++ i :: b.code.drop 9 ∧ b.nargs = 2 ∧ ((b.code.take 8).filter isOpInstr).length = 1 ∧
    runCode Verif.Props.natPack b.data (b.code.take 8) ⟨[1, 40], 0, [0, 0]⟩ = .ok s1 () ∧
    runInstr Verif.Props.natPack b.data i s1 = .err s2 ∧
    traceOf Verif.Props.natPack b id (fun i => if i = 0 then "a" else "b") [1, 40] = [("a", 6)] :=
  ⟨_, _, _, _, rfl, rfl, rfl, rfl, rfl, rfl, by decide⟩

/-- the files of that run -/
example : (dumpFiles (V := Nat) (fun i => ⟨if i = 0 then "add".toList else "sub".toList, if i = 0 then [("dim".toList, 3)] else []⟩)
      "d".toList (fun _ => true) 0 [⟨0, [7, 5], [12]⟩, ⟨1, [12, 4], [8]⟩]).map (fun f => (String.ofList f.1, f.2)) =
    [("d/0_add/0.add.txt", .counts 1 2 1), ("d/0_add/1.dim.t", .tensor 3), ("d/0_add/2.input_0.t", .tensor 7),
      ("d/0_add/2.input_1.t", .tensor 5), ("d/0_add/3.output_0.t", .tensor 12),
      ("d/1_sub/0.sub.txt", .counts 0 2 1), ("d/1_sub/2.input_0.t", .tensor 12), ("d/1_sub/2.input_1.t", .tensor 4),
      ("d/1_sub/3.output_0.t", .tensor 8)] := by decide

end Verif.Props.Track
