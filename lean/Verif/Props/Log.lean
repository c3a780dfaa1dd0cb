import Verif.Api.Log
/-!
# C83: failed checks
-/
namespace Verif.Props
open Verif.Api

theorem sayAll_none (global : LogLevel) (parts : List String) (b : String) (out : List String) :
    parts.foldl (LogStream.say global) ⟨.none, b, out⟩ = ⟨.none, b, out⟩ := by
  induction parts with
  | nil => rfl
  | cons p ps ih => exact ih

theorem sayAll_heard {global l : LogLevel} (h0 : l ≠ .none) (h : global.code ≤ l.code) (parts : List String) (b : String) (out : List String) :
    parts.foldl (LogStream.say global) ⟨l, b, out⟩ = ⟨l, b ++ String.join parts, out⟩ := by
  induction parts generalizing b with
  | nil => simp
  | cons p ps ih =>
    rw [List.foldl_cons]
    have : LogStream.say global ⟨l, b, out⟩ p = ⟨l, b ++ p, out⟩ := by
      unfold LogStream.say
      rw [if_neg h0, if_pos h]
    rw [this, ih, String.join_cons, String.append_assoc]

theorem sayAll_unheard {global l : LogLevel} (h : l.code < global.code) (parts : List String) (b : String) (out : List String) :
    parts.foldl (LogStream.say global) ⟨l, b, out⟩ = ⟨l, b, out⟩ := by
  induction parts with
  | nil => rfl
  | cons p ps ih =>
    rw [List.foldl_cons]
    have : LogStream.say global ⟨l, b, out⟩ p = ⟨l, b, out⟩ := by
      unfold LogStream.say
      split
      · rfl
      · rw [if_neg (by simp only; omega)]
    rw [this, ih]

theorem statement_heard {global l : LogLevel} (h0 : l ≠ .none) (h : global.code ≤ l.code) (place : String) (parts : List String)
    (m : Option Manip) (out : List String) :
    logStatement global l place parts m out =
      (match m with
      | none => Ending.goesOn (out ++ [l.text ++ ": " ++ ("[" ++ place ++ "]: " ++ String.join parts) ++ "\n"])
      | some .eject => .throws ("[" ++ place ++ "]: " ++ String.join parts) (out ++ [l.text ++ ": " ++ ("[" ++ place ++ "]: " ++ String.join parts) ++ "\n"])
      | some .fatal => .exits (out ++ [l.text ++ ": " ++ ("[" ++ place ++ "]: " ++ String.join parts) ++ "\n"])) := by
  unfold logStatement
  rw [sayAll_heard (l := l) h0 h, sayAll_heard (l := l) h0 h]
  have e : "" ++ String.join ["[", place, "]: "] ++ String.join parts = "[" ++ place ++ "]: " ++ String.join parts := by
    simp only [String.join_cons, String.join_nil, String.append_assoc, String.append_empty, String.empty_append]
  rw [e]
  generalize "[" ++ place ++ "]: " ++ String.join parts = t
  have hf : (LogStream.flush global ⟨l, t, out⟩).out = out ++ [l.text ++ ": " ++ t ++ "\n"] := by
    unfold LogStream.flush
    simp only [if_neg h0]
    rw [if_pos h]
  unfold LogStream.finish
  rw [hf]
  simp only [if_neg h0, ge_iff_le, if_pos h]
  rcases m with _ | _ | _ <;> rfl

theorem statement_unheard {global l : LogLevel} (h0 : l ≠ .none) (h : l.code < global.code) (place : String) (parts : List String)
    (m : Option Manip) (out : List String) : logStatement global l place parts m out = .goesOn out := by
  unfold logStatement
  rw [sayAll_unheard (l := l) h, sayAll_unheard (l := l) h]
  have hf : (LogStream.flush global ⟨l, "", out⟩).out = out := by
    unfold LogStream.flush
    simp only [if_neg h0]
    rw [if_neg (by omega)]
  unfold LogStream.finish
  rw [hf]
  have hn : ¬ l.code ≥ global.code := by omega
  simp only [if_neg h0, if_neg hn]
  rcases m with _ | _ | _ <;> rfl

/-- C83: a check that holds goes on and writes nothing, whatever the log level -/
theorem C83_holds (global : LogLevel) (place cond : String) (parts : List String) (m : Option Manip) (out : List String) :
    tsCheck global place cond true parts m out = .goesOn out ∧ tsAutoAssert global place cond true out = .goesOn out := by
  unfold tsCheck tsAutoAssert logStatement
  simp only [if_true, sayAll_none]
  constructor
  · cases m <;> rfl
  · rfl

example : tsCheck .fatal "a.cpp:1" "x > 0" true ["more"] (some .eject) [] = .goesOn [] := (C83_holds _ _ _ _ _ _).1

/-- C83: at every log level up to ERROR a check that fails throws; the exception carries the place, the condition and the message, and
the log gets the same, in one line -/
theorem C83_fails_partial {global : LogLevel} (h : global.code ≤ 4) (place cond : String) (parts : List String) (out : List String) :
    let text := "[" ++ place ++ "]: " ++ "Check failed: (" ++ cond ++ "). " ++ String.join parts
    tsCheck global place cond false parts (some .eject) out = .throws text (out ++ ["[ERROR]: " ++ text ++ "\n"]) := by
  intro text
  unfold tsCheck
  rw [if_neg (by decide), statement_heard (by decide) h]
  have e : "[" ++ place ++ "]: " ++ String.join ("Check failed: (" :: cond :: "). " :: parts) = text := by
    simp only [text, String.join_cons, String.append_assoc]
  rw [e]
  simp [LogLevel.text, String.append_assoc]

example : tsCheck .info "a.cpp:1" "x > 0" false ["x is ", "-1"] (some .eject) [] =
    .throws "[a.cpp:1]: Check failed: (x > 0). x is -1" ["[ERROR]: [a.cpp:1]: Check failed: (x > 0). x is -1\n"] := by decide

/-- C83 disproved: above the level ERROR the same check does nothing: the program goes on with the condition violated -/
theorem C83_level_false (place cond : String) (parts : List String) (m : Option Manip) (out : List String) :
    tsCheck .fatal place cond false parts m out = .goesOn out := by
  unfold tsCheck
  rw [if_neg (by decide), statement_unheard (by decide) (by decide)]

/-- C83 disproved: without `eject` (base_matmul.cpp:67, base_lstm.cpp:161 and others) a failed check is only logged, at any level -/
theorem C83_no_eject_false (global : LogLevel) (place cond : String) (parts : List String) (out : List String) :
    ∃ more, tsCheck global place cond false parts none out = .goesOn (out ++ more) := by
  unfold tsCheck
  rw [if_neg (by decide)]
  by_cases h : global.code ≤ 4
  · rw [statement_heard (by decide) h]
    exact ⟨_, rfl⟩
  · rw [statement_unheard (by decide) (by show 4 < _; omega)]
    exact ⟨[], by simp⟩

/-- C83 disproved: a failed `TS_AUTO_ASSERT` is no exception at any level: it ends the process -/
theorem C83_assert_false (global : LogLevel) (place cond : String) (out : List String) :
    ∃ more, tsAutoAssert global place cond false out = .exits (out ++ more) := by
  have h : global.code ≤ 5 := by cases global <;> decide
  unfold tsAutoAssert
  rw [if_neg (by decide), statement_heard (by decide) h]
  exact ⟨_, rfl⟩

/-- C83: the level decides between two behaviours only, and what is checked decides nothing else: exactly the levels up to ERROR refuse -/
theorem C83_refuses_iff (global : LogLevel) (place cond : String) (holds : Bool) (parts : List String) (out : List String) :
    (∃ t o, tsCheck global place cond holds parts (some .eject) out = .throws t o) ↔ holds = false ∧ global.code ≤ 4 := by
  constructor
  · rintro ⟨t, o, h⟩
    cases holds with
    | true => rw [(C83_holds global place cond parts _ out).1] at h; cases h
    | false =>
      refine ⟨rfl, ?_⟩
      by_cases hc : global.code ≤ 4
      · exact hc
      · have hg : global = .fatal := by cases global <;> first | rfl | (exfalso; revert hc; decide)
        rw [hg, C83_level_false] at h
        cases h
  · rintro ⟨rfl, h⟩
    exact ⟨_, _, C83_fails_partial h place cond parts out⟩

end Verif.Props
