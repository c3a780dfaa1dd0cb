import Verif.Runtime.Track
/-! Helper lemmas for C105. -/
namespace Verif.Runtime.Track
open Verif.Runtime Verif.Runtime.Stk Verif.Compiler
variable {V I : Type}

/-- an outcome of the plain machine with records attached -/
def attach {α : Type} (log : List (Rec I V)) : Out (Stk V) α → Out (HSt I V) α
  | .ok s a => .ok (s, log) a
  | .err s => .err (s, log)
  | .ub => .ub

theorem runPlainH_eq (P : PackOps V) (data : List V) (i : Instr V) (s : Stk V) (log : List (Rec I V)) :
    runPlainH P data i (s, log) = attach log (runInstr P data i s) := by
  unfold runPlainH attach; cases runInstr P data i s <;> rfl

/-- an operator instruction under the hook does what it does without, and adds one record (none if it refuses its operands) -/
theorem runOpInstrH_quiet [DecidableEq I] (id : I) (f : Op V) (na nr : Nat) (s : Stk V) :
    ∃ l : List (Rec I V), ∀ log, runOpInstrH id (quiet f) na nr (s, log) = attach (log ++ l) (runOpInstr f na nr s) := by
  unfold runOpInstrH runOpInstr
  by_cases h0 : s.size < na
  · refine ⟨[], fun log => ?_⟩
    simp [h0, attach]
  · simp only [h0, if_false]
    cases hf : f (s.pushBase (-(na : Int))) with
    | ub => exact ⟨[], fun log => by simp [quiet, beforeRun, hf, Out.bind, Out.finallyDo, attach]⟩
    | err s1 => exact ⟨[_], fun log => by simp [quiet, beforeRun, hf, Out.bind, Out.finallyDo, attach]; rfl⟩
    | ok s1 r =>
      by_cases h1 : r = nr
      · by_cases h2 : s1.size < nr
        · exact ⟨[_], fun log => by simp [quiet, beforeRun, hf, Out.bind, Out.finallyDo, attach, h1, h2]; rfl⟩
        · cases he : s1.erase 0 (-(nr : Int)) with
          | none => exact ⟨[], fun log => by
              simp [quiet, beforeRun, hf, Out.bind, Out.finallyDo, attach, h1, h2, he, orUb, orUbH]⟩
          | some s2 =>
            refine ⟨[⟨id, frame (s.pushBase (-(na : Int))), frame s2⟩], fun log => ?_⟩
            simp [quiet, beforeRun, hf, Out.bind, Out.finallyDo, attach, h1, h2, he, orUb, orUbH, afterRun]
      · exact ⟨[_], fun log => by simp [quiet, beforeRun, hf, Out.bind, Out.finallyDo, attach, h1]; rfl⟩

/-- code under the hook does what it does without -/
theorem runCodeH_eq [DecidableEq I] (P : PackOps V) (data : List V) (ids : Nat → I) (code : List (Instr V)) :
    ∀ (k : Nat) (s : Stk V), ∃ l : List (Rec I V), ∀ log,
      runCodeH P data ids k code (s, log) = attach (log ++ l) (runCode P data code s) := by
  induction code with
  | nil => intro k s; exact ⟨[], fun log => by simp [runCodeH, runCode, attach]⟩
  | cons i is ih =>
    intro k s
    have other : (∀ log, runCodeH P data ids k (i :: is) (s, log) =
        (runPlainH P data i (s, log)).bind fun h' _ => runCodeH P data ids k is h') →
        ∃ l : List (Rec I V), ∀ log,
          runCodeH P data ids k (i :: is) (s, log) = attach (log ++ l) (runCode P data (i :: is) s) := by
      intro he
      cases hr : runInstr P data i s with
      | ub => exact ⟨[], fun log => by rw [he, runPlainH_eq]; simp [runCode, hr, attach, Out.bind]⟩
      | err s' => exact ⟨[], fun log => by rw [he, runPlainH_eq]; simp [runCode, hr, attach, Out.bind]⟩
      | ok s' u =>
        obtain ⟨l, hl⟩ := ih k s'
        exact ⟨l, fun log => by rw [he, runPlainH_eq]; simp [runCode, hr, attach, Out.bind, hl]⟩
    cases i with
    | op f na nr =>
      obtain ⟨l0, hl0⟩ := runOpInstrH_quiet (I := I) (ids k) f na nr s
      cases hr : runOpInstr f na nr s with
      | ub => exact ⟨[], fun log => by simp [runCodeH, hl0, runCode, runInstr, hr, attach, Out.bind]⟩
      | err s' => exact ⟨l0, fun log => by simp [runCodeH, hl0, runCode, runInstr, hr, attach, Out.bind]⟩
      | ok s' u =>
        obtain ⟨l, hl⟩ := ih (k + 1) s'
        exact ⟨l0 ++ l, fun log => by simp [runCodeH, hl0, runCode, runInstr, hr, attach, Out.bind, hl]⟩
    | push i => exact other fun log => rfl
    | clone i => exact other fun log => rfl
    | eraseOne i => exact other fun log => rfl
    | ringShiftLeft => exact other fun log => rfl
    | swap i j => exact other fun log => rfl
    | erase b e => exact other fun log => rfl
    | pack n => exact other fun log => rfl
    | field k => exact other fun log => rfl
    | dataSeg k => exact other fun log => rfl

theorem attach_bind {α β : Type} (log : List (Rec I V)) (o : Out (Stk V) α) (g : Stk V → α → Out (Stk V) β)
    (gH : HSt I V → α → Out (HSt I V) β) (h : ∀ s a, gH (s, log) a = attach log (g s a)) :
    (attach log o).bind gH = attach log (o.bind g) := by
  cases o <;> simp [attach, Out.bind, h]

theorem attach_finally {α : Type} (log : List (Rec I V)) (o : Out (Stk V) α) (g : Stk V → Stk V) :
    (attach log o).finallyDo (fun h => (g h.1, h.2)) = attach log (o.finallyDo g) := by
  cases o <;> simp [attach, Out.finallyDo]

/-- a launch under the hook does what it does without; the code starts on the arguments above what was there -/
theorem launchOfflineH_at [DecidableEq I] (P : PackOps V) (adj : Adjust V) (b : Block V) (ids : Nat → I) (args : List V) (s : Stk V)
    (hs : s.Wf) (hl : args.length = b.nargs) (l : List (Rec I V)) (log : List (Rec I V))
    (hrun : runCodeH P b.data ids 0 b.code (⟨s.cells ++ args, s.cells.length, s.cells.length :: s.base :: s.bases⟩, log) =
        attach (log ++ l) (runCode P b.data b.code ⟨s.cells ++ args, s.cells.length, s.cells.length :: s.base :: s.bases⟩)) :
      launchOfflineH P b ids args (s, log) = attach (log ++ l) (launchOffline P adj b.prog args s) := by
  obtain ⟨lo, fr, hlo, e, hfr, hlo2⟩ := eq_mk s hs
  generalize s.bases = bs at e
  subst e
  have hpb : (Stk.mk (lo ++ fr) lo.length bs).pushBase ((Stk.mk (lo ++ fr) lo.length bs).size : Int) =
      ⟨(lo ++ fr) ++ [], (lo ++ fr).length, lo.length :: bs⟩ := by
    rw [size_mk]
    simp [pushBase, Stk.abs]
    omega
  have hpb2 : (Stk.mk ((lo ++ fr) ++ args) (lo ++ fr).length (lo.length :: bs)).pushBase (-(args.length : Int)) =
      ⟨(lo ++ fr) ++ args, (lo ++ fr).length, (lo ++ fr).length :: lo.length :: bs⟩ := by
    rcases Nat.eq_zero_or_pos args.length with h | h
    · have : args = [] := List.length_eq_zero_iff.mp h
      subst this
      simp [pushBase, Stk.abs]; omega
    · have := pushBase_neg_mk (lo ++ fr) [] args (lo.length :: bs) h
      simpa using this
  dsimp only at hrun
  have hal := argLoop_plain adj args.length args.length 0 (lo ++ fr) args [] ((lo ++ fr).length :: lo.length :: bs)
      rfl (by simp) (by omega)
  have hal2 := argLoop_plain (fun v => some v) args.length args.length 0 (lo ++ fr) args [] ((lo ++ fr).length :: lo.length :: bs)
      rfl (by simp) (by omega)
  simp only [List.append_nil] at hal hal2
  simp only [launchOffline, launchOfflineH, hpb, pushAll_mk, List.nil_append, Block.prog, launchOnline, launchOnlineH, ← hl, ne_eq,
    not_true, if_false, Prog.isSome]
  rw [if_neg (by rw [size_mk]; omega), if_neg (by rw [size_mk]; omega), hpb2]
  simp only [Bool.false_eq_true, if_false]
  simp only [argLoopH]
  rw [hal, hal2]
  simp only [Out.bind, orUb, orUbH]
  rw [erase_prefix_mk _ _ _ _ (by simp)]
  simp only [List.drop_left]
  rw [hrun]
  generalize runCode P b.data b.code ⟨lo ++ fr ++ args, (lo ++ fr).length, (lo ++ fr).length :: lo.length :: bs⟩ = o
  cases o with
  | ok s3 u =>
    simp only [attach]
    by_cases hsz : s3.size = b.nresults
    · simp only [Out.finallyDo, hsz, not_true, if_false]
      cases (List.range b.nresults).mapM fun (i : Nat) => s3.popBase.index (i : Int) <;> rfl
    · simp [Out.finallyDo, hsz]
  | err s3 => simp [Out.finallyDo, attach]
  | ub => simp [Out.finallyDo, attach]

/-- a launch whose code throws throws -/
theorem launchOffline_err_at (P : PackOps V) (adj : Adjust V) (b : Block V) (args : List V) (s : Stk V)
    (hs : s.Wf) (hl : args.length = b.nargs) (s2 : Stk V)
    (hrun : runCode P b.data b.code ⟨s.cells ++ args, s.cells.length, s.cells.length :: s.base :: s.bases⟩ = .err s2) :
      ∃ s3, launchOffline P adj b.prog args s = .err s3 := by
  obtain ⟨lo, fr, hlo, e, hfr, hlo2⟩ := eq_mk s hs
  generalize s.bases = bs at e
  subst e
  have hpb : (Stk.mk (lo ++ fr) lo.length bs).pushBase ((Stk.mk (lo ++ fr) lo.length bs).size : Int) =
      ⟨(lo ++ fr) ++ [], (lo ++ fr).length, lo.length :: bs⟩ := by
    rw [size_mk]
    simp [pushBase, Stk.abs]
    omega
  have hpb2 : (Stk.mk ((lo ++ fr) ++ args) (lo ++ fr).length (lo.length :: bs)).pushBase (-(args.length : Int)) =
      ⟨(lo ++ fr) ++ args, (lo ++ fr).length, (lo ++ fr).length :: lo.length :: bs⟩ := by
    rcases Nat.eq_zero_or_pos args.length with h | h
    · have : args = [] := List.length_eq_zero_iff.mp h
      subst this
      simp [pushBase, Stk.abs]; omega
    · have := pushBase_neg_mk (lo ++ fr) [] args (lo.length :: bs) h
      simpa using this
  dsimp only at hrun
  have hal := argLoop_plain adj args.length args.length 0 (lo ++ fr) args [] ((lo ++ fr).length :: lo.length :: bs)
      rfl (by simp) (by omega)
  simp only [List.append_nil] at hal
  simp only [launchOffline, hpb, pushAll_mk, List.nil_append, Block.prog, launchOnline, ← hl, ne_eq, not_true, if_false, Prog.isSome]
  rw [if_neg (by rw [size_mk]; omega), hpb2]
  simp only [Bool.false_eq_true, if_false]
  rw [hal]
  simp only [Out.bind, orUb]
  rw [erase_prefix_mk _ _ _ _ (by simp)]
  simp only [List.drop_left]
  rw [hrun]
  exact ⟨_, rfl⟩

theorem launchOfflineH_eq [DecidableEq I] (P : PackOps V) (adj : Adjust V) (b : Block V) (ids : Nat → I) (args : List V) (s : Stk V)
    (hs : s.Wf) (hl : args.length = b.nargs) : ∃ (lo : List V) (bs : List Nat), ∀ (l : List (Rec I V)) (log : List (Rec I V)),
      runCodeH P b.data ids 0 b.code (⟨lo ++ args, lo.length, bs⟩, log) =
        attach (log ++ l) (runCode P b.data b.code ⟨lo ++ args, lo.length, bs⟩) →
      launchOfflineH P b ids args (s, log) = attach (log ++ l) (launchOffline P adj b.prog args s) :=
  ⟨s.cells, s.cells.length :: s.base :: s.bases, launchOfflineH_at P adj b ids args s hs hl⟩

/-- the operator instructions of a code -/
def opCount : List (Instr V) → Nat
  | [] => 0
  | .op _ _ _ :: is => opCount is + 1
  | _ :: is => opCount is

theorem runCodeH_append [DecidableEq I] (P : PackOps V) (data : List V) (ids : Nat → I) (B : List (Instr V)) :
    ∀ (A : List (Instr V)) (k : Nat) (h : HSt I V),
      runCodeH P data ids k (A ++ B) h = (runCodeH P data ids k A h).bind fun h1 _ => runCodeH P data ids (k + opCount A) B h1 := by
  intro A
  induction A with
  | nil => intro k h; simp [runCodeH, Out.bind, opCount]
  | cons i A ih =>
    intro k h
    cases i with
    | op f na nr =>
      simp only [List.cons_append, runCodeH, opCount]
      cases runOpInstrH (ids k) (quiet f) na nr h with
      | ok h1 u => simp only [Out.bind]; rw [ih]; rw [show k + 1 + opCount A = k + (opCount A + 1) by omega]; rfl
      | err h1 => rfl
      | ub => rfl
    | _ =>
      simp only [List.cons_append, runCodeH, opCount]
      cases runPlainH P data _ h with
      | ok h1 u => simp only [Out.bind]; rw [ih]; rfl
      | err h1 => rfl
      | ub => rfl

/-- an operator instruction that throws leaves a record without results, or none -/
theorem runOpInstrH_err [DecidableEq I] (id : I) (f : Op V) (na nr : Nat) (s s' : Stk V) (he : runOpInstr f na nr s = .err s') :
    ∃ l : List (Rec I V), (∀ r ∈ l, r.outs = []) ∧ ∀ log, runOpInstrH id (quiet f) na nr (s, log) = .err (s', log ++ l) := by
  unfold runOpInstrH
  unfold runOpInstr at he
  by_cases h0 : s.size < na
  · simp only [h0, if_true, Out.err.injEq] at he ⊢
    subst he
    exact ⟨[], by simp, fun log => by simp⟩
  · simp only [h0, if_false] at he ⊢
    refine ⟨[⟨id, frame (s.pushBase (-(na : Int))), []⟩], by simp, fun log => ?_⟩
    cases hf : f (s.pushBase (-(na : Int))) with
    | ub => simp [hf, Out.bind, Out.finallyDo] at he
    | err s1 =>
      simp only [hf, Out.bind, Out.finallyDo, Out.err.injEq] at he
      simp [quiet, beforeRun, hf, Out.bind, Out.finallyDo, he]
    | ok s1 r =>
      simp only [hf, Out.bind] at he
      by_cases h1 : r = nr
      · by_cases h2 : s1.size < nr
        · simp only [h1, ne_eq, not_true, if_false, h2, if_true, Out.finallyDo, Out.err.injEq] at he
          simp [quiet, beforeRun, hf, Out.bind, Out.finallyDo, h1, h2, he]
        · cases h3 : s1.erase 0 (-(nr : Int)) with
          | none => simp [h1, h2, h3, Out.finallyDo, orUb] at he
          | some s2 => simp [h1, h2, h3, Out.finallyDo, orUb] at he
      · simp only [h1, ne_eq, not_false_eq_true, if_true, Out.finallyDo, Out.err.injEq] at he
        simp [quiet, beforeRun, hf, Out.bind, Out.finallyDo, h1, he]

/-- an operator instruction that returns leaves one record of its operator -/
theorem runOpInstrH_ok [DecidableEq I] (id : I) (f : Op V) (na nr : Nat) (s : Stk V) (log : List (Rec I V)) (h' : HSt I V)
    (he : runOpInstrH id (quiet f) na nr (s, log) = .ok h' ()) : ∃ a b, h'.2 = log ++ [⟨id, a, b⟩] := by
  unfold runOpInstrH at he
  by_cases h0 : s.size < na
  · simp [h0] at he
  · simp only [h0, if_false] at he
    cases hf : f (s.pushBase (-(na : Int))) with
    | ub => simp [quiet, beforeRun, hf, Out.bind, Out.finallyDo] at he
    | err s1 => simp [quiet, beforeRun, hf, Out.bind, Out.finallyDo] at he
    | ok s1 r =>
      by_cases h1 : r = nr
      · by_cases h2 : s1.size < nr
        · simp [quiet, beforeRun, hf, Out.bind, Out.finallyDo, h1, h2] at he
        · cases h3 : s1.erase 0 (-(nr : Int)) with
          | none => simp [quiet, beforeRun, hf, Out.bind, Out.finallyDo, h1, h2, h3, orUbH] at he
          | some s2 =>
            simp [quiet, beforeRun, hf, Out.bind, Out.finallyDo, h1, h2, h3, orUbH, afterRun] at he
            rw [← he]
            exact ⟨_, _, rfl⟩
      · simp [quiet, beforeRun, hf, Out.bind, Out.finallyDo, h1] at he

theorem bind_ok_inv {σ α β : Type} {o : Out σ α} {f : σ → α → Out σ β} {s : σ} {b : β} (h : o.bind f = .ok s b) :
    ∃ s1 a, o = .ok s1 a ∧ f s1 a = .ok s b := by
  cases o with
  | ok s1 a => exact ⟨s1, a, rfl, h⟩
  | err s1 => cases h
  | ub => cases h

theorem runPlainH_log {P : PackOps V} {data : List V} {i : Instr V} {h h' : HSt I V} {u : Unit}
    (he : runPlainH P data i h = .ok h' u) : h'.2 = h.2 := by
  unfold runPlainH at he
  cases hr : runInstr P data i h.1 with
  | ok s1 u1 => rw [hr] at he; simp only [Out.ok.injEq] at he; rw [← he.1]
  | err s1 => rw [hr] at he; cases he
  | ub => rw [hr] at he; cases he

theorem runCodeH_ids [DecidableEq I] (P : PackOps V) (data : List V) (ids : Nat → I) :
    ∀ (A : List (Instr V)) (k : Nat) (h h' : HSt I V), runCodeH P data ids k A h = .ok h' () →
      h'.2.map Rec.id = h.2.map Rec.id ++ (List.range (opCount A)).map fun i => ids (k + i) := by
  intro A
  induction A with
  | nil => intro k h h' he; simp only [runCodeH, Out.ok.injEq, and_true] at he; simp [he, opCount]
  | cons i A ih =>
    intro k h h' he
    cases i with
    | op f na nr =>
      simp only [runCodeH] at he
      cases h1 : runOpInstrH (ids k) (quiet f) na nr h with
      | ok h2 u =>
        rw [h1] at he
        obtain ⟨a, b, e⟩ := runOpInstrH_ok (ids k) f na nr h.1 h.2 h2 h1
        rw [ih (k + 1) h2 h' he, e, opCount, List.range_succ_eq_map]
        simp only [List.map_append, List.map_cons, List.map_nil, List.append_assoc, List.singleton_append, Nat.add_zero, List.map_map]
        congr 2
        apply List.map_congr_left
        intro i _
        simp only [Function.comp, Nat.succ_eq_add_one]
        rw [show k + 1 + i = k + (i + 1) by omega]
      | err h2 => rw [h1] at he; cases he
      | ub => rw [h1] at he; cases he
    | _ =>
      revert he
      simp only [runCodeH]
      intro he
      obtain ⟨h1, _, hp, he⟩ := bind_ok_inv he
      rw [ih k h1 h' he, runPlainH_log hp, opCount]
      intro _ _ _ hh
      cases hh

end Verif.Runtime.Track
