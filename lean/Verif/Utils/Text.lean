import Mathlib.Data.Rat.Floor
import Mathlib.Algebra.Order.Round
/-!
# Splitting and joining texts, directories for dumps, sizes of memory: src/utils/box.cpp, src/board/dump.cpp

Texts are lists of characters. The file system knows directories and files by their path from the root or from the working directory; `.`, `..` and links are
not modelled (`.` and `..` would be names like others), nor are other processes.
-/
namespace Verif.Utils.Text

variable {α : Type} [DecidableEq α]

/-- `FindDecollator`, box.cpp:134-141, in the text from the offset on: the place, counted from the offset -/
def findDecollator (sep : List α) : List α → Option Nat
  | [] => none
  | c :: s => if c ∈ sep then some 0 else (findDecollator sep s).map (· + 1)

theorem findDecollator_lt (sep : List α) : ∀ (s : List α) (r : Nat), findDecollator sep s = some r → r < s.length
  | [], r, h => by simp [findDecollator] at h
  | c :: s, r, h => by
    rw [findDecollator] at h
    split at h
    · simp at h; subst h; simp
    · cases e : findDecollator sep s with
      | none => simp [e] at h
      | some q =>
        have := findDecollator_lt sep s q e
        simp [e] at h; subst h; simp; exact this

/-- `Split`, box.cpp:143-155; `s` is the text from `left` on -/
def split (sep s : List α) : List (List α) :=
  match h : findDecollator sep s with
  | none => [s]
  | some r => s.take r :: split sep (s.drop (r + 1))
termination_by s.length
decreasing_by
  have := findDecollator_lt sep s r h
  simp; omega

/-- `Join`, box.cpp:157-164 -/
def join : List (List α) → List α → List α
  | [], _ => []
  | [p], _ => p
  | p :: q :: r, sep => p ++ sep ++ join (q :: r) sep

/-! ## directories -/

/-- what a path names -/
inductive Kind where
  | dir
  | file
  deriving DecidableEq, Repr

/-- a path: from the root or not, and its names -/
structure Path where
  root : Bool
  names : List (List Char)
  deriving DecidableEq, Repr

/-- how the system reads a path: names between slashes, empty ones not counted -/
def resolve (s : List Char) : Path := ⟨decide (s.head? = some '/'), (split ['/'] s).filter fun n => decide (n ≠ [])⟩

/-- the file system: what there is, and where the process may make directories -/
structure Fs where
  at' : Path → Option Kind
  allowed : Path → Bool

/-- the directory that a path lies in -/
def Path.parent (p : Path) : Path := ⟨p.root, p.names.dropLast⟩

/-- the system call `mkdir`: `true` if it made the directory -/
def sysMkdir (fs : Fs) (p : Path) : Fs × Bool :=
  if fs.at' p = none ∧ p.names ≠ [] ∧ fs.at' p.parent = some .dir ∧ fs.allowed p = true then
    (⟨fun q => if q = p then some .dir else fs.at' q, fs.allowed⟩, true)
  else (fs, false)

/-- `mkdir_core`, dump.cpp:52-61: `access(dir, 0)` asks whether there is anything of that name -/
def mkdirCore (fs : Fs) (dir : List Char) : Fs × Bool :=
  if fs.at' (resolve dir) = none then sysMkdir fs (resolve dir) else (fs, true)

/-- the loop of `mkdir`, dump.cpp:65-69: `todo` are the parts from `i - 1` on, `done'` those before -/
def mkdirLoop : List (List Char) → List (List Char) → Fs → Fs × Bool
  | _, [], fs => (fs, true)
  | done', p :: todo, fs =>
    if p = [] then mkdirLoop (done' ++ [p]) todo fs
    else
      let r := mkdirCore fs (join (done' ++ [p]) ['/'])
      if r.2 then mkdirLoop (done' ++ [p]) todo r.1 else (r.1, false)

/-- `mkdir`, dump.cpp:63-71 (`FileSeparator()` is a slash, dump.cpp:43-49) -/
def mkdir (fs : Fs) (dir : List Char) : Fs × Bool := mkdirLoop [] (split ['\\', '/'] dir) fs

/-! ## sizes of memory -/

/-- the units, box.cpp:167 -/
def units : List String := ["B", "KB", "MB", "GB", "TB"]

/-- the loop of `memory_size_string`, box.cpp:171-174: `left` units follow. Exact: division by 1024 loses nothing. -/
def scale : Nat → ℚ → Nat → ℚ × Nat
  | 0, x, k => (x, k)
  | left + 1, x, k => if x ≥ 1024 then scale left (x / 1024) (k + 1) else (x, k)

/-- `std::round` of a number that is not negative: halves go up -/
def roundHalfUp (x : ℚ) : ℤ := ⌊x + 1 / 2⌋

/-- `memory_size_string`, box.cpp:166-184, for exact `double` arithmetic: whole number, digit behind the point if it is not zero, unit -/
def memorySize (n : Nat) : ℤ × Option ℤ × Nat :=
  let r := scale 4 (n : ℚ) 0
  let t := roundHalfUp (r.1 * 10)
  if t % 10 = 0 then (t / 10, none, r.2) else (t / 10, some (t % 10), r.2)

end Verif.Utils.Text
