import Verif.Runtime.Launch
/-!
# Property theorems: the stack machine (C03, C04)
-/
namespace Verif.Props
open Verif.Runtime Verif.Runtime.Stk
variable {V : Type}

/-- **C03, full claim** for one argument/result count: an operator instruction replaces exactly the top
`nargs` entries by the top `nresults` entries the operator left, everything below and the base
bookkeeping are as before; it raises an error when the stack is too small, when the operator throws, when
it reports another number of results or leaves fewer; and then too nothing below its arguments changed. -/
def OperatorFrameClaim (V : Type) (nargs nresults : Nat) : Prop :=
  ∀ (f : Op V), FrameLocal f → (∀ s, s.Wf → f s ≠ .ub) → ∀ (s : Stk V), s.Wf →
    -- too few arguments: error, nothing changed
    (s.size < nargs → runOpInstr f nargs nresults s = .err s) ∧
    -- enough arguments
    (∀ below args, s.cells = below ++ args → args.length = nargs → s.base ≤ below.length →
      let callee : Stk V := ⟨s.cells, below.length, s.base :: s.bases⟩
      (∀ fs junk res, f callee = .ok fs nresults → fs.cells = below ++ (junk ++ res) →
          res.length = nresults →
          runOpInstr f nargs nresults s = .ok ⟨below ++ res, s.base, s.bases⟩ ()) ∧
      (∀ fs r, f callee = .ok fs r → r ≠ nresults ∨ fs.cells.length < below.length + nresults →
          ∃ left, runOpInstr f nargs nresults s = .err ⟨below ++ left, s.base, s.bases⟩) ∧
      (∀ fs, f callee = .err fs →
          ∃ left, runOpInstr f nargs nresults s = .err ⟨below ++ left, s.base, s.bases⟩))

/-- C03 for operators with at least one argument and at least one result. Missing: zero arguments and zero
results, for which the claim is false (next two theorems). -/
theorem C03_operator_frame_partial (nargs nresults : Nat) (hn : 0 < nargs) (hr : 0 < nresults) :
    OperatorFrameClaim V nargs nresults := by
  intro f hf hub s hs
  refine ⟨fun h => by simp [runOpInstr, h], ?_⟩
  intro below args hcells hargs hbase
  obtain ⟨lo, fr, hlo, e, hfr, hlo2⟩ := eq_mk s hs
  have hsp : ∃ rest, below = lo ++ rest ∧ fr = rest ++ args := by
    refine ⟨below.drop s.base, ?_, ?_⟩
    · rw [hlo2, hcells, List.take_append_of_le_length hbase]; simp
    · rw [hfr, frame, hcells, List.drop_append_of_le_length hbase]
  obtain ⟨rest, rfl, rfl⟩ := hsp
  subst hargs
  have hw : (Stk.mk s.cells (lo ++ rest).length (s.base :: s.bases)).Wf := by simp [Wf, hcells]
  have hloc := hf _ hw
  have key : runOpInstr f args.length nresults s =
      Out.finallyDo
        ((f ⟨s.cells, (lo ++ rest).length, s.base :: s.bases⟩).bind fun s1 r =>
          if r ≠ nresults then .err s1
          else if s1.size < nresults then .err s1
          else orUb (s1.erase 0 (-(nresults : Int))))
        Stk.popBase := by
    have := runOpInstr_mk f lo rest args s.bases nresults hn
    rw [← e] at this
    rw [this, hcells, hlo]
  simp only at hloc ⊢
  refine ⟨?_, ?_, ?_⟩
  · intro fs junk res h1 h2 h3
    rw [h1] at hloc
    rw [key, h1]
    obtain ⟨b1, b2, -, -⟩ := hloc
    cases fs with
    | mk c b bs =>
      simp only at b1 b2 h2
      subst b1 b2 h2
      simp only [Out.bind, ne_eq, not_true, if_false, size_mk]
      rw [if_neg (by simp; omega), erase_keep_mk _ _ _ _ hr (by simp; omega)]
      simp only [orUb, Out.finallyDo, popBase]
      rw [← h3]; simp
  · intro fs r h1 h2
    rw [h1] at hloc
    rw [hcells] at hloc
    rw [key, h1]
    obtain ⟨fr1, rfl⟩ := below_ex hloc
    refine ⟨fr1, ?_⟩
    simp only [Out.bind, size_mk]
    by_cases h : r = nresults
    · rcases h2 with h2 | h2
      · exact absurd h h2
      · rw [if_neg (by simp [h]), if_pos (by simp at h2; omega)]
        simp [Out.finallyDo, popBase]
    · rw [if_pos h]; simp [Out.finallyDo, popBase]
  · intro fs h1
    rw [h1] at hloc
    rw [hcells] at hloc
    rw [key, h1]
    obtain ⟨fr1, rfl⟩ := below_ex hloc
    exact ⟨fr1, by simp [Out.bind, Out.finallyDo, popBase]⟩

/-- an operator pushing one constant and returning one result -/
def pushOp (v : V) : Op V := fun s => .ok (s.push v) 1

theorem pushOp_local (v : V) : FrameLocal (pushOp v) := by
  intro s hs
  refine ⟨rfl, rfl, ?_, ?_⟩
  · simp [Stk.push]; exact Nat.le_trans hs (Nat.le_succ _)
  · simp only [Stk.push]; exact List.take_append_of_le_length hs

/-- C03 fails for operators without arguments: `push_base(-0)` is `push_base(0)`, so the callee's frame is
the caller's whole frame and all of the caller's entries are erased afterwards. -/
theorem C03_zero_args_false : ¬ OperatorFrameClaim Nat 0 1 := by
  intro h
  have h1 := (h (pushOp 9) (pushOp_local 9) (by intro s _; simp [pushOp]) ⟨[7, 8], 0, []⟩ (by simp [Wf])).2
    [7, 8] [] rfl rfl (by simp)
  have h2 := h1.1 ⟨[7, 8, 9], 2, [0]⟩ [] [9] rfl rfl rfl
  revert h2; decide

/-- C03 fails for operators without results: `erase(0, -0)` erases nothing, the arguments stay. -/
theorem C03_zero_results_false : ¬ OperatorFrameClaim Nat 1 0 := by
  intro h
  have hl : FrameLocal (fun s : Stk Nat => Out.ok s (0 : Int)) := fun s hs => Below.refl hs
  have h1 := (h (fun s => .ok s 0) hl (by intro s _; simp) ⟨[7], 0, []⟩ (by simp [Wf])).2
    [] [7] rfl rfl (by simp)
  have h2 := h1.1 ⟨[7], 0, [0]⟩ [7] [] rfl rfl rfl
  revert h2; decide

/-- non-vacuity: an operator popping its two arguments' sum, run above a foreign entry -/
example : runOpInstr (fun s : Stk Nat => match s.index 0, s.index 1 with
      | some a, some b => .ok (s.push (a + b)) 1 | _, _ => .err s) 2 1 ⟨[5, 7, 8], 0, []⟩ =
    .ok ⟨[5, 15], 0, []⟩ () := by decide

/-- **C04.** Launching any checked program on any stack leaves exactly the stack that was there before,
whether the run completes or an exception is thrown anywhere (argument count, filter, cast, operator,
field access, result count), and never runs into undefined behaviour. -/
theorem C04_launch_restores_stack (P : PackOps V) (adj : Adjust V) (p : Prog V) (hp : Checked p)
    (args : List V) (s : Stk V) (hs : s.Wf) :
    (∃ outs, launchOffline P adj p args s = .ok s outs) ∨ launchOffline P adj p args s = .err s := by
  obtain ⟨lo, fr, hlo, e, hfr, hlo2⟩ := eq_mk s hs
  generalize s.bases = bs at e
  subst e
  have hpb : (Stk.mk (lo ++ fr) lo.length bs).pushBase ((Stk.mk (lo ++ fr) lo.length bs).size : Int) =
      ⟨(lo ++ fr) ++ [], (lo ++ fr).length, lo.length :: bs⟩ := by
    rw [size_mk]
    simp [pushBase, Stk.abs]
    omega
  simp only [launchOffline, hpb, pushAll_mk]
  have := launchOnline_spec P adj p hp (lo ++ fr) [] args (lo.length :: bs) (fun _ => rfl)
  simp only [List.nil_append] at this ⊢
  rcases this with ⟨res, h, -⟩ | ⟨fr', h⟩
  · rw [h]
    simp only [Out.bind]
    cases (List.range res.length).mapM fun (i : Nat) =>
        (Stk.mk (lo ++ fr ++ res) (lo ++ fr).length (lo.length :: bs)).index (i : Int) with
    | none => right; simp only [Out.finallyDo, clear_mk, popBase]
    | some outs => left; exact ⟨outs, by simp only [Out.finallyDo, clear_mk, popBase]⟩
  · rw [h]; right; simp only [Out.bind, Out.finallyDo, clear_mk, popBase]

/-- non-vacuity: a checked two-input program that swaps, runs an operator and can throw -/
def sampleProg : Prog Nat := .mk 2 1 [10]
  [.push 0, .dataSeg 0, .swap 3 1, .op (pushOp 4) 2 1, .erase 0 (-1)] (fun _ => .nofilter) (fun _ => none)

example : Checked sampleProg := by
  refine ⟨⟨1, by decide⟩, ?_, fun _ => trivial, by intros; contradiction, by intros; contradiction⟩
  intro i hi
  simp [sampleProg] at hi
  rcases hi with rfl | rfl | rfl | rfl | rfl <;> try trivial
  exact ⟨pushOp_local 4, by intro s _; simp [pushOp]⟩

example : launchOffline ⟨fun _ => 0, fun _ _ => none⟩ some sampleProg [1, 2] ⟨[5], 0, []⟩ =
    .ok ⟨[5], 0, []⟩ [4] := by decide
example : launchOffline ⟨fun _ => 0, fun _ _ => none⟩ some sampleProg [1] ⟨[5], 0, []⟩ =
    .err ⟨[5], 0, []⟩ := by decide

end Verif.Props
