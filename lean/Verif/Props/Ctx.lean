import Verif.Utils.Ctx
/-!
# C30: scoped contexts

Specification: lexical scoping. A program is read with the pointers visible at its place; leaving it, normally or by an
exception, has no effect on them.
-/
namespace Verif.Props
open Verif.Utils

variable {κ α : Type} [DecidableEq κ]

/-- what a program reads and whether it ends in an exception, when `e` is visible around it; programs without `set` -/
def lexical (e : κ → Option α) : Cmd κ α → List (Option α) × Bool
  | .skip => ([], false)
  | .seq a b =>
    let (la, ta) := lexical e a
    if ta then (la, true) else (la ++ (lexical e b).1, (lexical e b).2)
  | .scope k c b => lexical (fun k' => if k' = k then c else e k') b
  | .set _ _ => ([], false)
  | .get k => ([e k], false)
  | .ref k => if (e k).isSome then ([e k], false) else ([], true)
  | .throw => ([], true)
  | .tryCatch b h =>
    let (lb, tb) := lexical e b
    if tb then (lb ++ (lexical e h).1, (lexical e h).2) else (lb, false)

/-- no unscoped assignment -/
def NoSet : Cmd κ α → Prop
  | .seq a b | .tryCatch a b => NoSet a ∧ NoSet b
  | .scope _ _ b => NoSet b
  | .set _ _ => False
  | _ => True

/-- reaches by a number of actions -/
inductive Runs : Thr κ α → Thr κ α → Prop
  | refl (s : Thr κ α) : Runs s s
  | step {s t u : Thr κ α} : s.step = some t → Runs t u → Runs s u

theorem Runs.trans {s t u : Thr κ α} (h : Runs s t) (h' : Runs t u) : Runs s u := by
  induction h with
  | refl => exact h'
  | step e _ ih => exact .step e (ih h')

theorem Runs.snoc {s t u : Thr κ α} (h : Runs s t) (h' : t.step = some u) : Runs s u :=
  h.trans (.step h' (.refl u))

/-- actions are deterministic: what has been reached lies on the way to the end -/
theorem Runs.toEnd {s t u : Thr κ α} (h : Runs s t) (hu : Runs s u) (hend : u.step = none) : Runs t u := by
  induction h with
  | refl => exact hu
  | step e _ ih =>
    cases hu with
    | refl => rw [hend] at e; cases e
    | step e' h'' =>
      rw [e] at e'; cases e'
      exact ih h''

theorem Runs.of_end {t u : Thr κ α} (h : Runs t u) (ht : t.step = none) : t = u := by
  cases h with
  | refl => rfl
  | step e _ => rw [ht] at e; cases e

theorem put_put_self (e : Env κ α) (k : κ) (c : Option α) : (Env.put e k c).put k (e k) = e := by
  funext k'
  unfold Env.put
  split
  · next h => rw [h]
  · rfl

theorem runs_cmd (c : Cmd κ α) (hc : NoSet c) : ∀ (e : Env κ α) (K : List (Frame κ α)) (log : List (Option α)),
    Runs ⟨e, false, .cmd c :: K, log⟩ ⟨e, (lexical e c).2, K, log ++ (lexical e c).1⟩ := by
  induction c with
  | skip => intro e K log; simp only [lexical, List.append_nil]; exact .step rfl (.refl _)
  | seq a b iha ihb =>
    intro e K log
    refine .step (t := ⟨e, false, .cmd a :: .cmd b :: K, log⟩) rfl ?_
    refine (iha hc.1 e (.cmd b :: K) log).trans ?_
    simp only [lexical]
    cases hl : lexical e a with
    | mk la ta =>
      simp only
      cases ta with
      | false =>
        simp only [Bool.false_eq_true, if_false]
        rw [← List.append_assoc]
        exact ihb hc.2 e K (log ++ la)
      | true => exact .step rfl (.refl _)
  | scope k c b ih =>
    intro e K log
    refine .step (t := ⟨e.put k c, false, .cmd b :: .unbind k (e k) :: K, log⟩) rfl ?_
    refine (ih hc (e.put k c) (.unbind k (e k) :: K) log).trans ?_
    refine .step (t := ⟨(e.put k c).put k (e k), (lexical (e.put k c) b).2, K, log ++ (lexical (e.put k c) b).1⟩) rfl ?_
    rw [put_put_self]
    exact .refl _
  | set k c => exact absurd hc id
  | get k => intro e K log; exact .step rfl (.refl _)
  | ref k =>
    intro e K log
    cases h : e k with
    | none =>
      refine .step (t := ⟨e, true, K, log⟩) (by simp only [Thr.step, h, Bool.false_eq_true, if_false]) ?_
      simp only [lexical, h, Option.isSome_none, Bool.false_eq_true, if_false, List.append_nil]
      exact .refl _
    | some c =>
      refine .step (t := ⟨e, false, K, log ++ [some c]⟩) (by simp only [Thr.step, h, Bool.false_eq_true, if_false]) ?_
      simp only [lexical, h, Option.isSome_some, if_true]
      exact .refl _
  | throw => intro e K log; simp only [lexical, List.append_nil]; exact .step rfl (.refl _)
  | tryCatch b h ihb ihh =>
    intro e K log
    refine .step (t := ⟨e, false, .cmd b :: .handler h :: K, log⟩) rfl ?_
    refine (ihb hc.1 e (.handler h :: K) log).trans ?_
    simp only [lexical]
    cases hl : lexical e b with
    | mk lb tb =>
      simp only
      cases tb with
      | false => simp only [Bool.false_eq_true, if_false]; exact .step rfl (.refl _)
      | true =>
        simp only [if_true]
        refine .step (t := ⟨e, false, .cmd h :: K, log ++ lb⟩) rfl ?_
        rw [← List.append_assoc]
        exact ihh hc.2 e K (log ++ lb)

theorem threads_runs {ι : Type} [DecidableEq ι] {init s : ι → Thr κ α} (h : Threads init s) (i : ι) :
    Runs (init i) (s i) := by
  induction h with
  | init => exact .refl _
  | @step s j t _ hs ih =>
    simp only
    by_cases hij : i = j
    · subst hij
      rw [if_pos rfl]
      exact ih.snoc hs
    · rw [if_neg hij]; exact ih

/-- **C30** Any number of threads run any programs of nested scopes, interleaved in any way. Whatever the others do, what a
thread has read so far is a prefix of what lexical scoping says; when it has ended, it has read exactly that, ends with an
exception exactly when lexical scoping says so, and its visible contexts are those it began with. -/
theorem C30_scopes {ι : Type} [DecidableEq ι] (e : ι → Env κ α) (prog : ι → Cmd κ α) (hp : ∀ i, NoSet (prog i))
    (s : ι → Thr κ α) (h : Threads (fun i => Thr.start (e i) (prog i)) s) (i : ι) :
    (s i).log <+: (lexical (e i) (prog i)).1 ∧
    ((s i).code = [] → (s i).env = e i ∧ (s i).log = (lexical (e i) (prog i)).1 ∧
      (s i).thrown = (lexical (e i) (prog i)).2) := by
  have hr := threads_runs h i
  have hfin := runs_cmd (prog i) (hp i) (e i) [] []
  simp only [List.nil_append] at hfin
  have hto := hr.toEnd hfin rfl
  constructor
  · -- logs only grow
    have grow : ∀ {t u : Thr κ α}, Runs t u → t.log <+: u.log := by
      intro t u h
      induction h with
      | refl => exact List.prefix_refl _
      | @step s t u e _ ih =>
        refine List.IsPrefix.trans ?_ ih
        unfold Thr.step at e
        split at e
        · cases e
        · cases e; exact List.prefix_refl _
        · cases e; split <;> exact List.prefix_refl _
        · split at e
          · cases e; exact List.prefix_refl _
          · split at e
            all_goals first
              | (cases e; first | exact List.prefix_refl _ | exact List.prefix_append _ _)
              | (split at e <;> cases e <;> first | exact List.prefix_refl _ | exact List.prefix_append _ _)
    exact grow hto
  · intro hc
    have : (s i).step = none := by unfold Thr.step; rw [hc]
    rw [hto.of_end this]
    exact ⟨rfl, rfl, rfl⟩

/-- a scope inside a scope left by an exception, then a read: the outer context is back -/
example : lexical (fun _ => none) (.scope 0 (some 1)
    (.seq (.tryCatch (.scope 0 (some 2) (.seq (.get 0) .throw)) .skip) (.get 0)) : Cmd Nat Nat) =
    ([some 2, some 1], false) := rfl
example : NoSet (.scope 0 (some 1)
    (.seq (.tryCatch (.scope 0 (some 2) (.seq (.get 0) .throw)) .skip) (.get 0)) : Cmd Nat Nat) := by simp [NoSet]

/-- **C30 (scopes around assignments)** Even when the body assigns contexts freely, leaving a scope of kind `k`, normally or
by an exception, brings back the context of kind `k` that was visible before it. -/
theorem C30_scope_restores (k : κ) (c : Option α) (b : Cmd κ α) (e : Env κ α) (s : Thr κ α)
    (h : Runs (Thr.start e (.scope k c b)) s) (hend : s.code = []) : s.env k = e k := by
  -- a destructor at the bottom of the code stays there until it has run
  have key : ∀ {t u : Thr κ α}, Runs t u → (∃ K, t.code = K ++ [.unbind k (e k)]) → u.code = [] → u.env k = e k := by
    intro t u h
    induction h with
    | refl => rintro ⟨K, hK⟩ h0; rw [hK] at h0; simp at h0
    | @step s t u e1 h2 ih =>
      rintro ⟨K, hK⟩ h0
      cases K with
      | nil =>
        simp only [List.nil_append] at hK
        unfold Thr.step at e1
        rw [hK] at e1
        simp only [Option.some.injEq] at e1
        subst e1
        have : ({ s with env := s.env.put k (e k), code := [] } : Thr κ α) = u := h2.of_end rfl
        rw [← this]
        simp [Env.put]
      | cons f K =>
        refine ih ?_ h0
        unfold Thr.step at e1
        rw [hK] at e1
        simp only [List.cons_append] at e1
        cases f with
        | unbind k' pre => simp only [Option.some.injEq] at e1; subst e1; exact ⟨K, rfl⟩
        | handler h =>
          simp only [Option.some.injEq] at e1; subst e1
          split
          · exact ⟨.cmd h :: K, rfl⟩
          · exact ⟨K, rfl⟩
        | cmd c' =>
          simp only at e1
          split at e1
          · simp only [Option.some.injEq] at e1; subst e1; exact ⟨K, rfl⟩
          · cases c' with
            | skip => simp only [Option.some.injEq] at e1; subst e1; exact ⟨K, rfl⟩
            | seq a b => simp only [Option.some.injEq] at e1; subst e1; exact ⟨.cmd a :: .cmd b :: K, rfl⟩
            | scope k' c' b' =>
              simp only [Option.some.injEq] at e1; subst e1; exact ⟨.cmd b' :: .unbind k' (s.env k') :: K, rfl⟩
            | set k' c' => simp only [Option.some.injEq] at e1; subst e1; exact ⟨K, rfl⟩
            | get k' => simp only [Option.some.injEq] at e1; subst e1; exact ⟨K, rfl⟩
            | ref k' =>
              simp only at e1
              split at e1 <;> (simp only [Option.some.injEq] at e1; subst e1; exact ⟨K, rfl⟩)
            | throw => simp only [Option.some.injEq] at e1; subst e1; exact ⟨K, rfl⟩
            | tryCatch b' h' => simp only [Option.some.injEq] at e1; subst e1; exact ⟨.cmd b' :: .handler h' :: K, rfl⟩
  cases h with
  | refl => simp [Thr.start] at hend
  | step e1 h2 =>
    simp only [Thr.step, Thr.start, Bool.false_eq_true, if_false, Option.some.injEq] at e1
    subst e1
    exact key h2 ⟨[.cmd b], rfl⟩ hend

/-- an assignment inside a scope does not survive it, one of another kind does -/
example : ∃ s : Thr Nat Nat, Runs (Thr.start (fun _ => some 5) (.scope 0 (some 1) (.seq (.set 0 (some 2)) (.set 1 (some 3))))) s ∧
    s.code = [] ∧ s.env 0 = some 5 ∧ s.env 1 = some 3 :=
  ⟨_, .step rfl (.step rfl (.step rfl (.step rfl (.step rfl (.refl _))))), rfl, rfl, rfl⟩

/-- two threads: the second one's binding is not seen by the first -/
example : ∃ s : Bool → Thr Nat Nat, Threads (fun i => Thr.start (fun _ => none)
      (if i then .scope 0 (some 1) .skip else .get 0)) s ∧ (s false).log = [none] ∧ (s true).env 0 = some 1 := by
  have h0 : Threads (fun i : Bool => Thr.start (fun _ => none) (if i then .scope 0 (some 1) .skip else .get 0 : Cmd Nat Nat)) _ :=
    .init
  have h1 := h0.step true _ rfl
  have h2 := h1.step false _ rfl
  exact ⟨_, h2, rfl, rfl⟩

end Verif.Props
