import Verif.Compiler.Finish
import Verif.Compiler.Terminate
import Verif.Compiler.Once
import Verif.Compiler.ScheduleLemmas
import Verif.Compiler.HeapPasses
import Verif.Runtime.Launch
/-! Launching compiled blocks, and the whole pipeline (helper lemmas for C01, C02, C41). -/
namespace Verif.Compiler
open Verif.Runtime Verif.Runtime.Stk

section launch
variable {V : Type}

/-- The program built from a block (`Program::Compile`, src/runtime/program.cpp:56-91: counts, data segment
and instructions are copied; filters and input casts are set later by the user). -/
def Block.prog (b : Block V) : Prog V :=
  .mk b.nargs b.nresults b.data b.code (fun _ => .nofilter) (fun _ => none)

theorem argLoop_plain (adj : Adjust V) (nargs k i : Nat) (lo args done : List V) (bs)
    (hna : args.length = nargs) (hd : done = args.take i) (hk : k + i = nargs) :
    argLoop adj (fun _ => none) (fun _ => none) nargs k i ⟨lo ++ (args ++ done), lo.length, bs⟩ =
      .ok ⟨lo ++ (args ++ args), lo.length, bs⟩ () := by
  induction k generalizing i done with
  | zero =>
    subst hd
    have : args.take i = args := List.take_of_length_le (by omega)
    simp [argLoop, this]
  | succ k ih =>
    have hdl : done.length = i := by subst hd; simp; omega
    have hidx : (Stk.mk (lo ++ (args ++ done)) lo.length bs).index (-(nargs : Int)) = args[i]? := by
      rw [index_neg_mk _ _ _ _ (by omega) (by simp; omega)]
      have : (args ++ done).length - nargs = i := by simp; omega
      rw [this, List.getElem?_append_left (by omega)]
    have hi : i < args.length := by omega
    rw [List.getElem?_eq_getElem hi] at hidx
    simp only [argLoop, hidx, filterTop, castTop, Out.bind, Stk.push]
    have := ih (i + 1) (done ++ [args[i]]) (by
      subst hd; simp) (by omega)
    simp only [List.append_assoc] at this ⊢
    exact this

theorem mapM_index (lo outs : List V) (bs) :
    ((List.range outs.length).mapM fun (i : Nat) => (Stk.mk (lo ++ outs) lo.length bs).index (i : Int)) =
      some outs := by
  have h : ∀ k ≤ outs.length,
      ((List.range k).mapM fun (i : Nat) => (Stk.mk (lo ++ outs) lo.length bs).index (i : Int)) =
        some (outs.take k) := by
    intro k hk
    induction k with
    | zero => simp
    | succ k ih =>
      rw [List.range_succ, List.mapM_append, ih (by omega)]
      simp only [List.mapM_cons, List.mapM_nil, index_mk]
      rw [List.getElem?_eq_getElem (by omega)]
      simp
  have := h outs.length (Nat.le_refl _)
  simpa using this

/-- launching a block reduces to running its code on the arguments -/
theorem launch_block (P : PackOps V) (adj : Adjust V) (b : Block V) (args : List V) (s : Stk V) (hs : s.Wf)
    (hl : args.length = b.nargs) :
    ∃ lo bs, launchOffline P adj b.prog args s =
      (match runCode P b.data b.code ⟨lo ++ args, lo.length, bs⟩ with
       | .ok s3 _ => if s3.size ≠ b.nresults then
            Out.finallyDo (Out.finallyDo (.err s3) Stk.popBase) (fun st => st.clear.popBase)
          else Out.finallyDo ((Out.finallyDo (.ok s3 s3.size) Stk.popBase).bind fun s1 n =>
            match (List.range n).mapM fun (i : Nat) => s1.index (i : Int) with
            | some outs => .ok s1 outs
            | none => .err s1) (fun st => st.clear.popBase)
       | .err s3 => Out.finallyDo (Out.finallyDo (.err s3) Stk.popBase) (fun st => st.clear.popBase)
       | .ub => .ub) ∧
      (∀ fr, (Stk.mk (lo ++ fr) lo.length bs).popBase.clear.popBase = s) ∧
      (∀ fr, (Stk.mk (lo ++ fr) lo.length bs).popBase = ⟨lo ++ fr, lo.length, bs.tail⟩) := by
  obtain ⟨lo, fr, hlo, e, hfr, hlo2⟩ := eq_mk s hs
  generalize s.bases = bs at e
  subst e
  have hpb : (Stk.mk (lo ++ fr) lo.length bs).pushBase ((Stk.mk (lo ++ fr) lo.length bs).size : Int) =
      ⟨(lo ++ fr) ++ [], (lo ++ fr).length, lo.length :: bs⟩ := by
    rw [size_mk]
    simp [pushBase, Stk.abs]
    omega
  have hpb2 : (Stk.mk ((lo ++ fr) ++ args) (lo ++ fr).length (lo.length :: bs)).pushBase (-(args.length : Int)) =
      ⟨(lo ++ fr) ++ args, (lo ++ fr).length, (lo ++ fr).length :: lo.length :: bs⟩ := by
    rcases Nat.eq_zero_or_pos args.length with h | h
    · have : args = [] := List.length_eq_zero_iff.mp h
      subst this
      simp [pushBase, Stk.abs]; omega
    · have := pushBase_neg_mk (lo ++ fr) [] args (lo.length :: bs) h
      simpa using this
  refine ⟨lo ++ fr, (lo ++ fr).length :: lo.length :: bs, ?_, ?_, ?_⟩
  · simp only [launchOffline, hpb, pushAll_mk, List.nil_append, Block.prog, launchOnline, ← hl, ne_eq, not_true,
      if_false, Prog.isSome]
    rw [if_neg (by rw [size_mk]; omega), hpb2]
    have := argLoop_plain adj args.length args.length 0 (lo ++ fr) args [] ((lo ++ fr).length :: lo.length :: bs)
      rfl (by simp) (by omega)
    simp only [List.append_nil] at this
    simp only [Bool.false_eq_true, if_false]
    rw [this]
    simp only [Out.bind, orUb]
    rw [erase_prefix_mk _ _ _ _ (by simp)]
    simp only [List.drop_left]
    generalize runCode P b.data b.code ⟨lo ++ fr ++ args, (lo ++ fr).length, (lo ++ fr).length :: lo.length :: bs⟩ = o
    cases o with
    | ok s3 u =>
      simp only
      by_cases hsz : s3.size = b.nresults
      · simp only [Out.finallyDo, Out.bind, hsz, not_true, if_false]
        cases (List.range b.nresults).mapM fun (i : Nat) => s3.popBase.index (i : Int) <;> rfl
      · simp [Out.finallyDo, Out.bind, hsz]
    | err s3 => simp [Out.finallyDo]
    | ub => simp [Out.finallyDo]
  · intro fr'
    simp only [popBase]
    rw [clear_mk]
  · intro fr'; simp [popBase]

/-- the code leaves the right number of results: the launch returns them -/
theorem launch_block_result (P : PackOps V) (adj : Adjust V) (b : Block V) (args : List V) (s : Stk V)
    (hs : s.Wf) (hl : args.length = b.nargs) (D : List V → Prop) (hD : ∀ o, D o → o.length = b.nresults)
    (hrun : ∀ (lo : List V) (bs : List Nat),
      (∃ outs, D outs ∧ runCode P b.data b.code ⟨lo ++ args, lo.length, bs⟩ = .ok ⟨lo ++ outs, lo.length, bs⟩ ()) ∨
      ((¬ ∃ outs, D outs) ∧ ∃ fr', runCode P b.data b.code ⟨lo ++ args, lo.length, bs⟩ =
        .err ⟨lo ++ fr', lo.length, bs⟩)) :
    (∃ outs, D outs ∧ launchOffline P adj b.prog args s = .ok s outs) ∨
    ((¬ ∃ outs, D outs) ∧ launchOffline P adj b.prog args s = .err s) := by
  obtain ⟨lo, bs, he, h1, h2⟩ := launch_block P adj b args s hs hl
  rw [he]
  rcases hrun lo bs with ⟨outs, hd, hr⟩ | ⟨hn, fr', hr⟩
  · left
    refine ⟨outs, hd, ?_⟩
    rw [hr]
    simp only [size_mk, hD outs hd, ne_eq, not_true, if_false, Out.finallyDo, Out.bind]
    have hm := mapM_index lo outs bs.tail
    rw [← h2, hD outs hd] at hm
    simp only [hm, h1]
  · right
    refine ⟨hn, ?_⟩
    rw [hr]
    simp only [Out.finallyDo, h1]

end launch

section compile
variable {N V : Type} [DecidableEq N]

/-- every needed node is supported or still reachable from the simulator -/
def Cov (G : Graph N V) (ops : OpTable N V) (outputs : List N) (st : CSt N V) : Prop :=
  ∀ n, Needs G outputs n → Supported G ops n ∨ Needs G st.sim n

theorem move_cov {G : Graph N V} {ops : OpTable N V} {refs : N → N → Bool} {st st' : CSt N V}
    {outputs : List N} (hI : Inv G st) (hC : Cov G ops outputs st) (h : Move G ops refs st st') :
    Cov G ops outputs st' := by
  have sup : ∀ n rest, st.sim = rest ++ [n] → (G.kind n = .const ∨ n ∈ rest ∨ Supported G ops n) →
      (∀ m ∈ rest, Needs G st'.sim m) →
      (G.kind n ≠ .const → n ∉ rest → ∀ m ∈ G.inputs n, Needs G st'.sim m) → Cov G ops outputs st' := by
    intro n rest hs hn hrest hin m hm
    rcases hC m hm with h1 | h1
    · exact .inl h1
    · by_cases hmr : n ∈ rest
      · right
        refine h1.mono ?_
        intro k hk
        rw [hs] at hk
        simp only [List.mem_append, List.mem_singleton] at hk
        rcases hk with hk | rfl
        · exact hrest k hk
        · exact hrest k hmr
      · by_cases hk : G.kind n = .const
        · rcases h1.cases_root with h2 | ⟨r, hr, a1, a2, a3⟩
          · rw [hs] at h2
            simp only [List.mem_append, List.mem_singleton] at h2
            rcases h2 with h2 | rfl
            · exact .inr (hrest m h2)
            · left; simp [Supported, hk]
          · rw [hs] at hr
            simp only [List.mem_append, List.mem_singleton] at hr
            rcases hr with hr | rfl
            · right
              exact a3.mono fun k hk' => Needs.input (hrest r hr) a1 a2 hk'
            · exact absurd hk a2
        · have hsup : Supported G ops n := by
            rcases hn with h | h | h
            · exact absurd h hk
            · exact absurd h hmr
            · exact h
          rcases h1.cases_root with h2 | ⟨r, hr, a1, a2, a3⟩
          · rw [hs] at h2
            simp only [List.mem_append, List.mem_singleton] at h2
            rcases h2 with h2 | rfl
            · exact .inr (hrest m h2)
            · exact .inl hsup
          · rw [hs] at hr
            simp only [List.mem_append, List.mem_singleton] at hr
            rcases hr with hr | rfl
            · right
              exact a3.mono fun k hk' => Needs.input (hrest r hr) a1 a2 hk'
            · right
              exact a3.mono fun k hk' => hin hk hmr k hk'
  cases h with
  | dup rest n w hs hw hlt =>
    have hmem : n ∈ rest := by
      have hn := hI.work n w hw
      rw [hs, List.getElem?_append_left hlt] at hn
      exact List.mem_of_getElem? hn
    exact sup n rest hs (.inr (.inl hmem)) (fun m hm => .root (by simpa [simPop, emit, hs] using hm))
      (fun _ h => absurd hmem h)
  | const rest n hs hk hw =>
    have hd := inv_data hI n
    exact sup n rest hs (.inl hk) (fun m hm => .root (by
      simp only [simPop, emit]; rw [hd.2.2.1, hs]; simpa using hm)) (fun h => absurd hk h)
  | swapP rest n j hs hk hw hj hf hi =>
    intro m hm
    rcases hC m hm with h | h
    · exact .inl h
    · right
      refine h.mono fun k hk => .root ?_
      exact (mem_swap hi hj).mpr hk
  | swapR rest n j hs hk hw hj hf hi =>
    intro m hm
    rcases hC m hm with h | h
    · exact .inl h
    · right
      refine h.mono fun k hk => .root ?_
      exact (mem_swap hi hj).mpr hk
  | op rest n is hs hc hw hf =>
    have hsim : ((G.inputs n).foldl (simPush G) (simPop G (emit st is) n)).sim = rest ++ G.inputs n := by
      rw [(pushes_sim G _ _).1]; simp [simPop, emit, hs]
    refine sup n rest hs (.inr (.inr ?_)) (fun m hm => .root (by rw [hsim]; simp [hm]))
      (fun _ _ m hm => .root (by rw [hsim]; simp [hm]))
    unfold convertOp at hc
    unfold Supported
    split at hc
    · rename_i hk; rw [hk]; simp only
      split at hc
      · assumption
      · cases hc
    · rename_i hk; rw [hk]; trivial
    · rename_i hk; rw [hk]; simp only
      cases ho : ops n with
      | none => rw [ho] at hc; cases hc
      | some f => exact ⟨f, rfl⟩
    · cases hc

/-- everything known about a finished compilation -/
theorem compile_cases {G : Graph N V} {ops : OpTable N V} {refs : N → N → Bool} {inputs outputs : List N}
    {fuel : Nat} :
    match compile G ops refs inputs outputs fuel with
    | none => loop G ops refs fuel (initSt G outputs) = none
    | some none => (∃ n, Needs G outputs n ∧ ¬ Supported G ops n) ∨
        ∃ p, G.kind p = .param ∧ Needs G outputs p ∧ p ∉ inputs
    | some (some blk) => (∀ n, Needs G outputs n → Supported G ops n) ∧
        (∀ p, G.kind p = .param → Needs G outputs p → p ∈ inputs) ∧
        blk.nargs = inputs.length ∧ blk.nresults = outputs.length ∧
        ∃ st, loop G ops refs fuel (initSt G outputs) = some (some st) ∧ Reach G outputs st ∧
          (∀ n ∈ st.sim, G.kind n = .param) ∧
          finish inputs st = some blk.code ∧ blk.data = st.data := by
  have key := loop_reaches (ops := ops) (refs := refs) (fuel := fuel) (init_inv G outputs)
    (init_reach G outputs) (Cov G ops outputs) (by
      intro n hn; right; rw [(init_sim G outputs).1]; exact hn)
    (fun st st' hI _ hC hm => move_cov hI hC hm)
  simp only [compile]
  cases hl : loop G ops refs fuel (initSt G outputs) with
  | none => simp
  | some o =>
    rw [hl] at key
    cases o with
    | none => simp only; exact .inl key
    | some st =>
      simp only at key ⊢
      obtain ⟨hI, hR, hC, hpar⟩ := key
      cases hf : finish inputs st with
      | none =>
        simp only [Option.map_none]
        right
        unfold finish at hf
        split at hf
        · split at hf <;> cases hf
        · rename_i hall
          have : ∃ n ∈ st.sim, n ∉ inputs := by
            apply Classical.byContradiction
            intro h
            apply hall
            rw [List.all_eq_true]
            intro n hn
            simp only [List.contains_iff_mem]
            exact Classical.byContradiction fun h' => h ⟨n, hn, h'⟩
          obtain ⟨n, hn, hni⟩ := this
          exact ⟨n, hpar n hn, hR.sub n hn, hni⟩
      | some code =>
        simp only [Option.map_some]
        have hin : ∀ p, G.kind p = .param → Needs G st.sim p → p ∈ inputs := by
          intro p _ hp
          rcases hp.cases_root with h | ⟨r, hr, h1, -, -⟩
          · unfold finish at hf
            split at hf
            · rename_i hall
              simpa using List.all_eq_true.mp hall p h
            · cases hf
          · exact absurd (hpar r hr) h1
        refine ⟨?_, fun p hp hn => hin p hp (hR.par p hp hn), trivial, trivial, st, rfl, hR, hpar, hf, rfl⟩
        intro n hn
        rcases hC n hn with h | h
        · exact h
        · rcases h.cases_root with h | ⟨r, hr, h1, -, -⟩
          · simp [Supported, hpar n h]
          · exact absurd (hpar r hr) h1

end compile
end Verif.Compiler
