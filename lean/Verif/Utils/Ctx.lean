import Verif.Core.Res
/-!
# Scoped contexts: include/utils/ctxmgr_lite.h, include/utils/ctxmgr_lite_support.h

There is one thread-local pointer per context type (`__thread_local_lite_context<T>::m_ctx`); kinds `κ` number the types,
`α` is the type of contexts, `none` the null pointer. Threads run programs built from scopes, reads, throws and handlers;
a step of the machine is one elementary action of one thread.
-/
namespace Verif.Utils

variable {κ α : Type} [DecidableEq κ]

/-- the thread-local pointers of one thread, ctxmgr_lite_support.h:63-69 -/
abbrev Env (κ α : Type) := κ → Option α

/-- `__thread_local_lite_context<T>::set`, ctxmgr_lite_support.h:79-82 -/
def Env.put (e : Env κ α) (k : κ) (c : Option α) : Env κ α := fun k' => if k' = k then c else e k'

/-- what a thread does -/
inductive Cmd (κ α : Type) where
  | skip
  | seq (a b : Cmd κ α)
  /-- `{ ctx::bind<T> b(c); body }`, ctxmgr_lite.h:36-59 -/
  | scope (k : κ) (c : Option α) (body : Cmd κ α)
  /-- `ctx::set<T>(c)` / `setup_context()`, ctxmgr_lite.h:61-69, 91-98 -/
  | set (k : κ) (c : Option α)
  /-- `ctx::get<T>()`, `ctx::ptr<T>()`: the pointer, ctxmgr_lite.h:71-79 -/
  | get (k : κ)
  /-- `ctx::ref<T>()`: throws when the pointer is null, ctxmgr_lite.h:81-84, ctxmgr_lite_support.h:84-88 -/
  | ref (k : κ)
  /-- any other exception -/
  | throw
  /-- `try { body } catch (…) { handler }` -/
  | tryCatch (body handler : Cmd κ α)

/-- what is left to do: commands, destructors of `bind` objects with their saved pointer, handlers -/
inductive Frame (κ α : Type) where
  | cmd (c : Cmd κ α)
  /-- `~bind()`: `of<T>::set(m_pre_ctx)`, ctxmgr_lite.h:50-52 -/
  | unbind (k : κ) (pre : Option α)
  | handler (c : Cmd κ α)

/-- a thread: pointers, whether an exception is in flight, what is left, what it has read so far -/
structure Thr (κ α : Type) where
  env : Env κ α
  thrown : Bool
  code : List (Frame κ α)
  log : List (Option α)

/-- one action of a thread; `none` when it has ended. While an exception is in flight, commands are skipped and destructors
run (stack unwinding), up to a handler. -/
def Thr.step (s : Thr κ α) : Option (Thr κ α) :=
  match s.code with
  | [] => none
  | .unbind k pre :: K => some { s with env := s.env.put k pre, code := K }
  | .handler h :: K => some (if s.thrown then { s with thrown := false, code := .cmd h :: K } else { s with code := K })
  | .cmd c :: K =>
    if s.thrown then some { s with code := K }
    else
      match c with
      | .skip => some { s with code := K }
      | .seq a b => some { s with code := .cmd a :: .cmd b :: K }
      | .scope k c b => some { s with env := s.env.put k c, code := .cmd b :: .unbind k (s.env k) :: K }
      | .set k c => some { s with env := s.env.put k c, code := K }
      | .get k => some { s with log := s.log ++ [s.env k], code := K }
      | .ref k =>
        match s.env k with
        | none => some { s with thrown := true, code := K }
        | some c => some { s with log := s.log ++ [some c], code := K }
      | .throw => some { s with thrown := true, code := K }
      | .tryCatch b h => some { s with code := .cmd b :: .handler h :: K }

/-- a thread about to run `c` -/
def Thr.start (e : Env κ α) (c : Cmd κ α) : Thr κ α := ⟨e, false, [.cmd c], []⟩

/-- any number of threads, interleaved arbitrarily; a step of thread `i` touches only its own thread-local storage -/
inductive Threads {ι : Type} [DecidableEq ι] (init : ι → Thr κ α) : (ι → Thr κ α) → Prop
  | init : Threads init init
  | step {s : ι → Thr κ α} (i : ι) (t : Thr κ α) : Threads init s → (s i).step = some t →
      Threads init (fun j => if j = i then t else s j)

end Verif.Utils
