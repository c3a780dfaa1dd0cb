/-!
# Checks and the log

Models `include/utils/log.h`, `include/utils/assert.h` and `src/utils/log.cpp`: what a check does when its condition fails. The
text written to the stream is kept; the additional Android log is not.
-/
namespace Verif.Api

/-- `LogLevel`, log.h:36-43 -/
inductive LogLevel where
  | none | debug | status | info | error | fatal
  deriving DecidableEq, Repr

/-- the number of a level, log.h:36-43 -/
def LogLevel.code : LogLevel → Nat
  | .none => 0
  | .debug => 1
  | .status => 2
  | .info => 3
  | .error => 4
  | .fatal => 5

/-- `LogString`, log.h:59-76 -/
def LogLevel.text : LogLevel → String
  | .none => ""
  | .debug => "[DEBUG]"
  | .status => "[STATUS]"
  | .info => "[INFO]"
  | .error => "[ERROR]"
  | .fatal => "[FATAL]"

/-- a `LogStream`, log.h:82-154, and what has been written to the stream `m_log` -/
structure LogStream where
  level : LogLevel
  buffer : String
  out : List String

/-- how a statement ends -/
inductive Ending where
  | goesOn (out : List String)
  | throws (message : String) (out : List String)
  | exits (out : List String)
  deriving DecidableEq

/-- `operator()(message)` and `operator<<(message)`, log.h:102-114; `global` is `GlobalLogLevel()` -/
def LogStream.say (global : LogLevel) (s : LogStream) (m : String) : LogStream :=
  if s.level = .none then s
  else if s.level.code ≥ global.code then { s with buffer := s.buffer ++ m } else s

/-- `flush`, log.h:126-147 -/
def LogStream.flush (global : LogLevel) (s : LogStream) : LogStream :=
  if s.level = .none then s
  else if s.level.code ≥ global.code then ⟨.none, "", s.out ++ [s.level.text ++ ": " ++ s.buffer ++ "\n"]⟩
  else ⟨.none, "", s.out⟩

/-- the manipulators `eject` and `fatal`, log.h:156-166 -/
inductive Manip where
  | eject | fatal
  deriving DecidableEq

/-- `operator<<(method)` as the last operation of a statement, log.h:118-124 and 156-166, then the destructor (94-96): the
manipulator runs only if the level of the message reaches the global one -/
def LogStream.finish (global : LogLevel) (s : LogStream) : Option Manip → Ending
  | none => .goesOn (s.flush global).out
  | some m =>
    if s.level = .none then .goesOn (s.flush global).out
    else if s.level.code ≥ global.code then
      match m with
      | .eject => .throws s.buffer (s.flush global).out
      | .fatal => .exits (s.flush global).out
    else .goesOn (s.flush global).out

/-- a whole statement `TS_LOG(level)(…) << … << manip`, log.h:179 -/
def logStatement (global level : LogLevel) (place : String) (parts : List String) (m : Option Manip) (out : List String) : Ending :=
  (parts.foldl (LogStream.say global) (["[", place, "]: "].foldl (LogStream.say global) ⟨level, "", out⟩)).finish global m

/-- `TS_CHECK(condition) << parts << manip`, assert.h:45. The text of the condition is `cond`. `TS_AUTO_CHECK(condition)`, assert.h:57, is the
case of no parts and `eject`, but for the blank that ends the text. -/
def tsCheck (global : LogLevel) (place cond : String) (holds : Bool) (parts : List String) (m : Option Manip) (out : List String) : Ending :=
  logStatement global (if holds then .none else .error) place ("Check failed: (" :: cond :: "). " :: parts) m out

/-- `TS_AUTO_ASSERT(condition)`, assert.h:56 -/
def tsAutoAssert (global : LogLevel) (place cond : String) (holds : Bool) (out : List String) : Ending :=
  logStatement global (if holds then .none else .fatal) place ["Assertion failed: (", cond, ")."] (some .fatal) out

/-- `TS_LOG_ERROR << parts << eject`, log.h:186 -/
def tsLogError (global : LogLevel) (place : String) (parts : List String) (m : Option Manip) (out : List String) : Ending :=
  logStatement global .error place parts m out

end Verif.Api
