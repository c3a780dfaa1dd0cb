import Verif.Runtime.OpParams
/-!
# C34: operator parameters
-/
namespace Verif.Props
open Verif.Runtime Verif.Runtime.Params

variable {α : Type}

/-! ## Specification in terms of the history (newest call first) -/

/-- name reserved for the system -/
def Reserved (p : String) : Prop := ∃ cs, p.toList = '#' :: cs

/-- declared (with the attribute) since the last `clear_fields` -/
def declaredAs : List (Call α) → String → Attr → Prop
  | [], _, _ => False
  | .clearFields :: _, _, _ => False
  | .field p a :: h, q, b => (p = q ∧ a = b) ∨ declaredAs h q b
  | .fieldDefault p a _ :: h, q, b => (p = q ∧ a = b) ∨ declaredAs h q b
  | _ :: h, q, b => declaredAs h q b

def declared (h : List (Call α)) (p : String) : Prop := declaredAs h p .optional ∨ declaredAs h p .required

/-- checking mode: strict unless changed -/
def strictMode : List (Call α) → Prop
  | [] => True
  | .setMode b :: _ => b = true
  | _ :: h => strictMode h

/-- allowed to be set -/
def Settable (h : List (Call α)) (p : String) : Prop := Reserved p ∨ declared h p ∨ ¬ strictMode h

/-- the value of a parameter is what the newest accepted call affecting it left -/
inductive HasValue : List (Call α) → String → α → Prop where
  | set {h p v} : Settable h p → HasValue (.set p v :: h) p v
  | dflt {h p a v} : HasValue (.fieldDefault p a v :: h) p v
  | keepSet {h p q v w} : p ≠ q → HasValue h q w → HasValue (.set p v :: h) q w
  | keepRefused {h p q v w} : ¬ Settable h p → HasValue h q w → HasValue (.set p v :: h) q w
  | keepClear {h p q w} : p ≠ q → HasValue h q w → HasValue (.clear p :: h) q w
  | keepDflt {h p a v q w} : p ≠ q → HasValue h q w → HasValue (.fieldDefault p a v :: h) q w
  | keepOptional {h p q w} : HasValue h q w → HasValue (.field p .optional :: h) q w
  | keepRequired {h p q w} : p ≠ q → HasValue h q w → HasValue (.field p .required :: h) q w
  | keepMode {h b q w} : HasValue h q w → HasValue (.setMode b :: h) q w
  | keepReserved {h q w} : Reserved q → HasValue h q w → HasValue (.clearParams :: h) q w
  | keepFields {h q w} : ¬ declaredAs h q .required → HasValue h q w → HasValue (.clearFields :: h) q w

theorem isRetention_iff (p : String) : isRetention p = true ↔ Reserved p := by
  unfold isRetention Reserved
  cases h : p.toList with
  | nil => simp
  | cons c cs => simp

theorem run_snoc (cs : List (Call α)) (c : Call α) : run (cs ++ [c]) = (run cs).call c := by
  simp [run]

/-- the state after a history is what the history says -/
structure Agrees (h : List (Call α)) (s : Params α) : Prop where
  opt : ∀ p, s.optional p = true ↔ declaredAs h p .optional
  req : ∀ p, s.required p = true ↔ declaredAs h p .required
  strict : s.strict = true ↔ strictMode h
  val : ∀ p v, s.params p = some v ↔ HasValue h p v

theorem Agrees.settable {h : List (Call α)} {s : Params α} (g : Agrees h s) (p : String) :
    (!isRetention p && !s.isInFields p && s.strict) = false ↔ Settable h p := by
  unfold Settable declared
  rw [← isRetention_iff, ← g.opt, ← g.req, ← g.strict]
  unfold isInFields
  cases isRetention p <;> cases s.optional p <;> cases s.required p <;> cases s.strict <;> simp

theorem agrees_new : Agrees ([] : List (Call α)) new where
  opt := by intro p; simp [new, declaredAs]
  req := by intro p; simp [new, declaredAs]
  strict := by simp [new, strictMode]
  val := by
    intro p v
    simp only [new]
    constructor
    · intro h; cases h
    · intro h; cases h

theorem agrees_step {h : List (Call α)} {s : Params α} (g : Agrees h s) (c : Call α) : Agrees (c :: h) (s.call c) := by
  cases c with
  | set p v =>
    by_cases hs : Settable h p
    · have hc : s.call (.set p v) = { s with params := put s.params p (some v) } := by
        simp only [call, call?, Params.set]
        rw [(g.settable p).2 hs]; rfl
      rw [hc]
      refine ⟨g.opt, g.req, g.strict, ?_⟩
      intro q w
      show put s.params p (some v) q = some w ↔ _
      unfold put
      by_cases hq : q = p
      · subst hq
        rw [if_pos rfl]
        constructor
        · intro e; cases e; exact .set hs
        · intro e
          cases e with
          | set _ => rfl
          | keepSet hn _ => exact absurd rfl hn
          | keepRefused hn _ => exact absurd hs hn
      · rw [if_neg hq, g.val]
        constructor
        · intro e; exact .keepSet (fun e => hq e.symm) e
        · intro e
          cases e with
          | set _ => exact absurd rfl hq
          | keepSet _ e => exact e
          | keepRefused hn _ => exact absurd hs hn
    · have hc : s.call (.set p v) = s := by
        simp only [call, call?, Params.set]
        rw [if_pos]
        · rfl
        · cases hb : (!isRetention p && !s.isInFields p && s.strict) with
          | true => rfl
          | false => exact absurd ((g.settable p).1 hb) hs
      rw [hc]
      refine ⟨g.opt, g.req, g.strict, ?_⟩
      intro q w
      rw [g.val]
      constructor
      · intro e; exact .keepRefused hs e
      · intro e
        cases e with
        | set h' => exact absurd h' hs
        | keepSet _ e => exact e
        | keepRefused _ e => exact e
  | clear p =>
    have key : ∀ q, (s.call (.clear p)).params q = if q = p then none else s.params q := by
      intro q
      simp only [call, call?, Params.clear]
      by_cases hn : (s.params p).isNone = true
      · rw [if_pos hn]
        show s.params q = _
        split
        · next e => subst e; simpa using hn
        · rfl
      · rw [if_neg hn]; rfl
    have hrest : (s.call (.clear p)).optional = s.optional ∧ (s.call (.clear p)).required = s.required ∧
        (s.call (.clear p)).strict = s.strict := by
      simp only [call, call?, Params.clear]
      split <;> exact ⟨rfl, rfl, rfl⟩
    refine ⟨fun q => by rw [hrest.1]; exact g.opt q, fun q => by rw [hrest.2.1]; exact g.req q,
      by rw [hrest.2.2]; exact g.strict, ?_⟩
    intro q w
    rw [key]
    by_cases hq : q = p
    · subst hq
      rw [if_pos rfl]
      constructor
      · intro e; cases e
      · intro e
        cases e with
        | keepClear hn _ => exact absurd rfl hn
    · rw [if_neg hq, g.val]
      constructor
      · intro e; exact .keepClear (fun e => hq e.symm) e
      · intro e
        cases e with
        | keepClear _ e => exact e
  | clearParams =>
    refine ⟨g.opt, g.req, g.strict, ?_⟩
    intro q w
    show (if isRetention q then s.params q else none) = some w ↔ _
    by_cases hr : isRetention q = true
    · rw [if_pos hr, g.val]
      constructor
      · intro e; exact .keepReserved ((isRetention_iff q).1 hr) e
      · intro e
        cases e with
        | keepReserved _ e => exact e
    · rw [if_neg hr]
      constructor
      · intro e; cases e
      · intro e
        cases e with
        | keepReserved h' _ => exact absurd ((isRetention_iff q).2 h') hr
  | clearFields =>
    refine ⟨?_, ?_, g.strict, ?_⟩
    · intro q; show false = true ↔ _; simp [declaredAs]
    · intro q; show false = true ↔ _; simp [declaredAs]
    · intro q w
      show (if s.required q then none else s.params q) = some w ↔ _
      by_cases hr : s.required q = true
      · rw [if_pos hr]
        constructor
        · intro e; cases e
        · intro e
          cases e with
          | keepFields h' _ => exact absurd ((g.req q).1 hr) h'
      · rw [if_neg hr, g.val]
        constructor
        · intro e; exact .keepFields (fun e' => hr ((g.req q).2 e')) e
        · intro e
          cases e with
          | keepFields _ e => exact e
  | field p a =>
    cases a with
    | optional =>
      refine ⟨?_, ?_, g.strict, ?_⟩
      · intro q
        show mark s.optional p q = true ↔ _
        simp only [mark, declaredAs]
        by_cases hq : q = p
        · subst hq; simp
        · rw [if_neg hq, g.opt]
          constructor
          · exact Or.inr
          · rintro (⟨e, -⟩ | e)
            · exact absurd e.symm hq
            · exact e
      · intro q
        show s.required q = true ↔ _
        simp only [declaredAs]
        rw [g.req]; simp
      · intro q w
        show s.params q = some w ↔ _
        rw [g.val]
        constructor
        · intro e; exact .keepOptional e
        · intro e
          cases e with
          | keepOptional e => exact e
    | required =>
      refine ⟨?_, ?_, g.strict, ?_⟩
      · intro q
        show s.optional q = true ↔ _
        simp only [declaredAs]
        rw [g.opt]; simp
      · intro q
        show mark s.required p q = true ↔ _
        simp only [mark, declaredAs]
        by_cases hq : q = p
        · subst hq; simp
        · rw [if_neg hq, g.req]
          constructor
          · exact Or.inr
          · rintro (⟨e, -⟩ | e)
            · exact absurd e.symm hq
            · exact e
      · intro q w
        show put s.params p none q = some w ↔ _
        unfold put
        by_cases hq : q = p
        · subst hq
          rw [if_pos rfl]
          constructor
          · intro e; cases e
          · intro e
            cases e with
            | keepRequired hn _ => exact absurd rfl hn
        · rw [if_neg hq, g.val]
          constructor
          · intro e; exact .keepRequired (fun e => hq e.symm) e
          · intro e
            cases e with
            | keepRequired _ e => exact e
  | fieldDefault p a d =>
    have hopt : ∀ q, (s.call (.fieldDefault p a d)).optional q = (if q = p ∧ a = .optional then true else s.optional q) := by
      intro q
      show (s.fieldDefault p a d).optional q = _
      cases a <;> simp [fieldDefault, Params.field, mark]
    have hreq : ∀ q, (s.call (.fieldDefault p a d)).required q = (if q = p ∧ a = .required then true else s.required q) := by
      intro q
      show (s.fieldDefault p a d).required q = _
      cases a <;> simp [fieldDefault, Params.field, mark]
    have hstr : (s.call (.fieldDefault p a d)).strict = s.strict := by
      show (s.fieldDefault p a d).strict = _
      cases a <;> rfl
    have hpar : ∀ q, (s.call (.fieldDefault p a d)).params q = if q = p then some d else s.params q := by
      intro q
      show (s.fieldDefault p a d).params q = _
      cases a <;> simp only [fieldDefault, Params.field, put] <;> split <;> rfl
    refine ⟨?_, ?_, by rw [hstr]; exact g.strict, ?_⟩
    · intro q
      rw [hopt]
      simp only [declaredAs]
      split
      · next h' => simp [h'.1, h'.2]
      · next h' =>
        rw [g.opt]
        constructor
        · exact Or.inr
        · rintro (⟨e, e'⟩ | e)
          · exact absurd ⟨e.symm, e'⟩ h'
          · exact e
    · intro q
      rw [hreq]
      simp only [declaredAs]
      split
      · next h' => simp [h'.1, h'.2]
      · next h' =>
        rw [g.req]
        constructor
        · exact Or.inr
        · rintro (⟨e, e'⟩ | e)
          · exact absurd ⟨e.symm, e'⟩ h'
          · exact e
    · intro q w
      rw [hpar]
      by_cases hq : q = p
      · subst hq
        rw [if_pos rfl]
        constructor
        · intro e; cases e; exact .dflt
        · intro e
          cases e with
          | dflt => rfl
          | keepDflt hn _ => exact absurd rfl hn
      · rw [if_neg hq, g.val]
        constructor
        · intro e; exact .keepDflt (fun e => hq e.symm) e
        · intro e
          cases e with
          | dflt => exact absurd rfl hq
          | keepDflt _ e => exact e
  | setMode b =>
    refine ⟨g.opt, g.req, ?_, ?_⟩
    · show b = true ↔ _; simp [strictMode]
    · intro q w
      show s.params q = some w ↔ _
      rw [g.val]
      constructor
      · intro e; exact .keepMode e
      · intro e
        cases e with
        | keepMode e => exact e

theorem agrees_run (cs : List (Call α)) : Agrees cs.reverse (run cs) := by
  suffices h : ∀ (cs h : List (Call α)) (s : Params α), Agrees h s → Agrees (cs.reverse ++ h) (cs.foldl call s) by
    simpa [run] using h cs [] new agrees_new
  intro cs
  induction cs with
  | nil => intro h s g; simpa using g
  | cons c t ih =>
    intro h s g
    simpa using ih (c :: h) (s.call c) (agrees_step g c)

/-- **C34 (only declared fields)** After any history a parameter can be set exactly if its name is reserved, or declared since
the fields were last cleared, or checking is off; then it reads back as set; otherwise the call raises and nothing changes. -/
theorem C34_set (cs : List (Call α)) (p : String) (v : α) :
    (Settable cs.reverse p → ∃ s, (run cs).set p v = some s ∧ s.get p = some v ∧ (∀ q, q ≠ p → s.get q = (run cs).get q)) ∧
    (¬ Settable cs.reverse p → (run cs).set p v = none ∧ run (cs ++ [.set p v]) = run cs) := by
  have g := agrees_run cs
  constructor
  · intro h
    refine ⟨{ (run cs) with params := put (run cs).params p (some v) }, ?_, ?_, ?_⟩
    · unfold Params.set; rw [(g.settable p).2 h]; rfl
    · simp [Params.get, put]
    · intro q hq; simp [Params.get, put, hq]
  · intro h
    have hb : (!isRetention p && !(run cs).isInFields p && (run cs).strict) = true := by
      cases hb : (!isRetention p && !(run cs).isInFields p && (run cs).strict) with
      | true => rfl
      | false => exact absurd ((g.settable p).1 hb) h
    have hn : (run cs).set p v = none := by unfold Params.set; rw [hb]; rfl
    refine ⟨hn, ?_⟩
    rw [run_snoc]
    simp only [call, call?, hn]; rfl

/-- **C34 (initialisation)** Initialising succeeds exactly if checking is off or every field declared required (since the fields
were last cleared) has a value and that value is not an empty tensor. -/
theorem C34_init (emp : α → Bool) (cs : List (Call α)) :
    (run cs).initOk emp ↔ (strictMode cs.reverse → ∀ p, declaredAs cs.reverse p .required → ∃ v, HasValue cs.reverse p v ∧ emp v = false) := by
  have g := agrees_run cs
  unfold initOk checkParams
  rw [g.strict]
  constructor
  · intro h hs p hp
    obtain ⟨v, h1, h2⟩ := h hs p ((g.req p).2 hp)
    exact ⟨v, (g.val p v).1 h1, h2⟩
  · intro h hs p hp
    obtain ⟨v, h1, h2⟩ := h hs p ((g.req p).1 hp)
    exact ⟨v, (g.val p v).2 h1, h2⟩

/-- **C34 (values)** Reading a parameter gives the value the newest call that affects it left, or raises if there is none. -/
theorem C34_get (cs : List (Call α)) (p : String) (v : α) : (run cs).get p = some v ↔ HasValue cs.reverse p v :=
  (agrees_run cs).val p v

example : (run [.field "dim" .required, .field "pad" .optional, .set "dim" 3, .set "#op" 1, .set "dmi" 4] : Params Nat).get "dim" = some 3 := by
  decide
example : ((run [.field "dim" .required] : Params Nat).set "dmi" 4).isNone = true := by decide

example : (run [.field "dim" .required, .set "dim" 3] : Params Nat).initOk (· == 0) ∧
    ¬ (run [.field "dim" .required] : Params Nat).initOk (· == 0) := by
  constructor
  · intro _ p hp
    by_cases h : p = "dim"
    · subst h; exact ⟨3, by decide, by decide⟩
    · simp [run, call, call?, Params.field, Params.set, mark, isInFields, new, h] at hp
  · intro h
    obtain ⟨v, hv, -⟩ := h rfl "dim" (by decide)
    have : (run [.field "dim" .required] : Params Nat).params "dim" = none := by decide
    rw [this] at hv; cases hv

/-- **C34 (clearing)** Clearing all parameters keeps the reserved ones and removes every other. -/
theorem C34_clear_params_partial (cs : List (Call α)) (p : String) :
    (Reserved p → (run (cs ++ [.clearParams])).get p = (run cs).get p) ∧
    (¬ Reserved p → (run (cs ++ [.clearParams])).get p = none) := by
  rw [run_snoc]
  show (_ → (if isRetention p then (run cs).params p else none) = _) ∧ _
  constructor
  · intro h; rw [if_pos ((isRetention_iff p).2 h)]; rfl
  · intro h
    show (if isRetention p then (run cs).params p else none) = none
    rw [if_neg (fun e => h ((isRetention_iff p).1 e))]

/-- **C34, negation** Clearing does not restore defaults: whatever happened before and whatever the default, a parameter
declared with a default has no value after clearing. -/
theorem C34_defaults_false (cs cs' : List (Call α)) (p : String) (hp : ¬ Reserved p) (a : Attr) (d : α) :
    (run (cs ++ [.fieldDefault p a d] ++ cs' ++ [.clearParams])).get p = none :=
  (C34_clear_params_partial (cs ++ [.fieldDefault p a d] ++ cs') p).2 hp

example : (run [.fieldDefault "alpha" .optional 7] : Params Nat).get "alpha" = some 7 ∧
    (run [.fieldDefault "alpha" .optional 7, .clearParams] : Params Nat).get "alpha" = none := by decide

end Verif.Props
