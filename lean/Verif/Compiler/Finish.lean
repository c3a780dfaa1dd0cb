import Verif.Compiler.Correct
/-! The final phase of compile: arranging the inputs (helper lemmas for C01). -/
namespace Verif.Compiler
open Verif.Runtime Verif.Runtime.Stk
variable {N V : Type} [DecidableEq N]

theorem inputIndex_aux (inputs : List N) (acc : (N → Option Nat) × Nat)
    (hnd : inputs.Nodup) (hfresh : ∀ n ∈ inputs, acc.1 n = none) :
    let r := inputs.foldl (fun (acc : (N → Option Nat) × Nat) n =>
      match acc.1 n with
      | some _ => acc
      | none => (upd acc.1 n (some acc.2), acc.2 + 1)) acc
    (∀ n, n ∉ inputs → r.1 n = acc.1 n) ∧
    ∀ i (h : i < inputs.length), r.1 inputs[i] = some (acc.2 + i) := by
  induction inputs generalizing acc with
  | nil => simp
  | cons a as ih =>
    have ha : acc.1 a = none := hfresh a (by simp)
    simp only [List.foldl_cons, ha]
    rw [List.nodup_cons] at hnd
    have := ih (upd acc.1 a (some acc.2), acc.2 + 1) hnd.2 (by
      intro n hn
      have hne : n ≠ a := by rintro rfl; exact hnd.1 hn
      simp [upd, hne, hfresh n (by simp [hn])])
    obtain ⟨h1, h2⟩ := this
    refine ⟨?_, ?_⟩
    · intro n hn
      simp at hn
      rw [h1 n hn.2]; simp [upd, hn.1]
    · intro i hi
      cases i with
      | zero =>
        simp only [List.getElem_cons_zero, Nat.add_zero]
        rw [h1 a hnd.1]; simp [upd]
      | succ i =>
        simp only [List.getElem_cons_succ]
        rw [h2 i (by simpa using hi)]; simp; omega

theorem inputIndex_nodup (inputs : List N) (hnd : inputs.Nodup) (i : Nat) (h : i < inputs.length) :
    inputIndex inputs inputs[i] = some i := by
  have := (inputIndex_aux inputs (fun _ => none, 0) hnd (by simp)).2 i h
  exact this.trans (by simp)

/-- the pushes that arrange the inputs -/
theorem run_arrange {G : Graph N V} (P : PackOps V) (data lo : List V) (bs) (env : N → Option V)
    (inputs : List N) (args : List V) (hnd : inputs.Nodup) (hl : args.length = inputs.length)
    (henv : ∀ i (h1 : i < inputs.length) (h2 : i < args.length), env inputs[i] = some args[i])
    (sim : List N) (hsub : ∀ n ∈ sim, n ∈ inputs) (hpar : ∀ n ∈ sim, G.kind n = .param) (extra : List V) :
    ∃ vs, DenRow G P env sim vs ∧
      runCode P data (sim.map (fun n => Instr.push (((inputIndex inputs n).getD 0 : Nat) : Int)))
        ⟨lo ++ (args ++ extra), lo.length, bs⟩ = .ok ⟨lo ++ (args ++ extra ++ vs), lo.length, bs⟩ () := by
  induction sim generalizing extra with
  | nil => exact ⟨[], ⟨rfl, by simp⟩, by simp [runCode]⟩
  | cons n sim ih =>
    obtain ⟨i, hi, hin⟩ := List.getElem_of_mem (hsub n (by simp))
    have hi' : i < args.length := by omega
    have hidx : inputIndex inputs n = some i := by rw [← hin]; exact inputIndex_nodup _ hnd i hi
    have hden : Den G P env n args[i] := .param (hpar n (by simp)) (by rw [← hin]; exact henv i hi hi')
    obtain ⟨vs, hvs, hr⟩ := ih (fun m hm => hsub m (by simp [hm])) (fun m hm => hpar m (by simp [hm]))
      (extra ++ [args[i]])
    refine ⟨args[i] :: vs, DenRow.append (DenRow.single hden) hvs, ?_⟩
    have hget : (args ++ extra)[i]? = some args[i] := by
      rw [List.getElem?_append_left hi', List.getElem?_eq_getElem hi']
    simp only [List.map_cons, runCode, hidx, Option.getD_some]
    simp only [runInstr, index_mk, hget, Stk.push, Out.bind]
    simp only [List.append_assoc, List.singleton_append] at hr ⊢
    exact hr

theorem denRow_args {G : Graph N V} (P : PackOps V) (env : N → Option V)
    (inputs : List N) (args : List V) (hl : args.length = inputs.length)
    (henv : ∀ i (h1 : i < inputs.length) (h2 : i < args.length), env inputs[i] = some args[i])
    (hpar : ∀ n ∈ inputs, G.kind n = .param) : DenRow G P env inputs args :=
  ⟨hl, fun i h1 h2 => .param (hpar _ (List.getElem_mem h1)) (henv i h1 h2)⟩

theorem finish_good {G : Graph N V} {P : PackOps V} {env : N → Option V} {outputs inputs : List N}
    {st : CSt N V} (hG : Good G P env outputs st) (hR : Reach G outputs st)
    (hpar : ∀ n ∈ st.sim, G.kind n = .param) (hnd : inputs.Nodup)
    (hne : inputs = [] ∨ ∃ p, G.kind p = .param ∧ Needs G outputs p)
    {code : List (Instr V)} (hf : finish inputs st = some code)
    (args lo : List V) (bs) (hl : args.length = inputs.length)
    (henv : ∀ i (h1 : i < inputs.length) (h2 : i < args.length), env inputs[i] = some args[i]) :
    (∃ outs, DenRow G P env outputs outs ∧
      runCode P st.data code ⟨lo ++ args, lo.length, bs⟩ = .ok ⟨lo ++ outs, lo.length, bs⟩ ()) ∨
    ((¬ ∃ outs, DenRow G P env outputs outs) ∧ ∃ fr',
      runCode P st.data code ⟨lo ++ args, lo.length, bs⟩ = .err ⟨lo ++ fr', lo.length, bs⟩) := by
  unfold finish at hf
  split at hf
  · rename_i hall
    have hsub : ∀ n ∈ st.sim, n ∈ inputs := by
      intro n hn
      have := List.all_eq_true.mp hall n hn
      simpa using this
    split at hf
    · rename_i heq
      cases hf
      have := hG.run [] lo bs args (by rw [heq]; exact denRow_args P env inputs args hl henv (heq ▸ hpar))
      simpa using this
    · rename_i hne'
      cases hf
      have hpos : 0 < st.sim.length := by
        rcases hne with h | ⟨p, hp, hnp⟩
        · subst h
          exfalso; apply hne'
          apply List.eq_nil_iff_forall_not_mem.mpr
          intro n hn; simpa using hsub n hn
        · rcases (hR.par p hp hnp).cases_root with h | ⟨r, hr, h1, -, -⟩
          · exact List.length_pos_of_mem h
          · exact absurd (hpar r hr) h1
      obtain ⟨vs, hvs, hr⟩ := run_arrange (G := G) P st.data lo bs env inputs args hnd hl henv st.sim hsub hpar []
      simp only [List.append_nil] at hr
      rw [List.append_assoc, runCode_append, hr]
      simp only [Out.bind]
      rw [runCode_append, runCode_one]
      have hk := erase_keep_mk lo (args ++ vs) bs st.sim.length hpos (by simp [hvs.1])
      simp only [runInstr, hk, orUb, Out.bind]
      have hdrop : (args ++ vs).drop ((args ++ vs).length - st.sim.length) = vs := by
        rw [List.drop_append]; simp [hvs.1]
      rw [hdrop]
      have := hG.run [] lo bs vs hvs
      simpa using this
  · cases hf

end Verif.Compiler
