import Verif.Module.Io
/-!
# C96: streams give back what was written, and every loader sees the file from its beginning
-/
namespace Verif.Props
open Verif.Core Verif.Module.Io

namespace Io

/-! ## The specification: a queue of bytes -/

/-- what a user does with a `StringStream` -/
inductive Call where
  | write (b : List UInt8)
  | read (n : Nat)
  | setStr (b : List UInt8)
  | clear

/-- what it answers -/
inductive Reply where
  | wrote (n : Nat)
  | got (b : List UInt8)
  | done
  deriving DecidableEq

/-- the calls on the stream -/
def runCalls (s : StrStream) : List Call → List Reply × StrStream
  | [] => ([], s)
  | .write b :: cs => let r := s.write b; let t := runCalls r.2 cs; (.wrote r.1 :: t.1, t.2)
  | .read n :: cs => let r := s.read n; let t := runCalls r.2 cs; (.got r.1 :: t.1, t.2)
  | .setStr b :: cs => let t := runCalls (s.setStr b) cs; (.done :: t.1, t.2)
  | .clear :: cs => let t := runCalls s.clear cs; (.done :: t.1, t.2)

/-- a queue: written bytes are appended, read bytes are taken from the front, `str(b)` and `clear()` replace the contents -/
def queueCalls (q : List UInt8) : List Call → List Reply
  | [] => []
  | .write b :: cs => .wrote b.length :: queueCalls (q ++ b) cs
  | .read n :: cs => .got (q.take n) :: queueCalls (q.drop n) cs
  | .setStr b :: cs => .done :: queueCalls b cs
  | .clear :: cs => .done :: queueCalls [] cs

/-- no call reads more than there is, and nothing is written after `str(b)` until the next `clear()` (`w`: may be written) -/
def Tame (w : Bool) (q : List UInt8) : List Call → Prop
  | [] => True
  | .write b :: cs => w = true ∧ Tame w (q ++ b) cs
  | .read n :: cs => n ≤ q.length ∧ Tame w (q.drop n) cs
  | .setStr b :: cs => Tame (b.isEmpty) b cs
  | .clear :: cs => Tame true [] cs

/-- the stream stands for the queue -/
structure Stands (s : StrStream) (w : Bool) (q : List UInt8) : Prop where
  good : s.ios.good = true
  bad : s.ios.bad = false
  inside : s.get ≤ s.data.length
  rest : s.data.drop s.get = q
  atEnd : w = true → s.put = s.data.length

theorem stands_run (cs : List Call) : ∀ (s : StrStream) (w : Bool) (q : List UInt8), Stands s w q → Tame w q cs →
    (runCalls s cs).1 = queueCalls q cs := by
  induction cs with
  | nil => intros; rfl
  | cons c cs ih =>
    intro s w q h ht
    cases c with
    | write b =>
      obtain ⟨hw, ht⟩ := ht
      have hp := h.atEnd hw
      have e : s.write b = (b.length, { s with data := s.data ++ b, put := s.put + b.length }) := by
        simp [StrStream.write, h.good, h.bad, hp]
      simp only [runCalls, e, queueCalls]
      have hs : Stands { s with data := s.data ++ b, put := s.put + b.length } w (q ++ b) := by
        refine ⟨h.good, h.bad, ?_, ?_, fun _ => ?_⟩
        · show s.get ≤ (s.data ++ b).length
          have := h.inside
          simp only [List.length_append]; omega
        · show (s.data ++ b).drop s.get = q ++ b
          rw [List.drop_append_of_le_length h.inside, h.rest]
        · show s.put + b.length = (s.data ++ b).length
          simp [hp]
      rw [ih _ w (q ++ b) hs ht]
    | read n =>
      obtain ⟨hn, ht⟩ := ht
      have hl : q.length = s.data.length - s.get := by rw [← h.rest]; simp
      have e : s.read n = (q.take n, { s with get := s.get + n }) := by
        simp [StrStream.read, h.good, h.rest, Nat.min_eq_left hn]
      simp only [runCalls, e, queueCalls]
      have hs : Stands { s with get := s.get + n } w (q.drop n) := by
        refine ⟨h.good, h.bad, ?_, ?_, h.atEnd⟩
        · have := h.inside; show s.get + n ≤ s.data.length; omega
        · show s.data.drop (s.get + n) = q.drop n
          rw [← h.rest, List.drop_drop]
      rw [ih _ w (q.drop n) hs ht]
    | setStr b =>
      simp only [runCalls, queueCalls]
      have hs : Stands (s.setStr b) b.isEmpty b := by
        refine ⟨h.good, h.bad, Nat.zero_le _, rfl, fun hb => ?_⟩
        have hb' : b = [] := List.isEmpty_iff.mp hb
        rw [hb']; rfl
      rw [ih _ b.isEmpty b hs ht]
    | clear =>
      simp only [runCalls, queueCalls]
      have hs : Stands s.clear true [] := ⟨h.good, h.bad, Nat.zero_le _, rfl, fun _ => rfl⟩
      rw [ih _ true [] hs ht]

end Io
open Io

/-- C96 (partial: without reads beyond what was written, and without writing behind a given string): a new string stream answers every sequence
of calls as a queue of bytes does -/
theorem C96_string_queue_partial (cs : List Call) (h : Tame true [] cs) : (runCalls StrStream.empty cs).1 = queueCalls [] cs :=
  stands_run cs StrStream.empty true [] ⟨rfl, rfl, Nat.le_refl _, rfl, fun _ => rfl⟩ h

example : Tame true [] [.write [1, 2, 3], .read 2, .write [4], .read 2, .setStr [7, 8], .read 1, .clear, .write [9], .read 1] := by
  simp [Tame]
example : queueCalls [] [.write [1, 2, 3], .read 2, .write [4], .read 2] = [.wrote 3, .got [1, 2], .wrote 1, .got [3, 4]] := by decide +kernel

/-- the stream will not do anything any more -/
def Io.Stuck (s : StrStream) : Prop := s.ios.fail = true ∧ s.ios.bad = false

/-- what a stuck stream answers: nothing is ever read, and every write is reported as complete -/
def Io.stuckReplies : List Call → List Reply
  | [] => []
  | .write b :: cs => .wrote b.length :: Io.stuckReplies cs
  | .read _ :: cs => .got [] :: Io.stuckReplies cs
  | .setStr _ :: cs => .done :: Io.stuckReplies cs
  | .clear :: cs => .done :: Io.stuckReplies cs

theorem Io.stuck_run (cs : List Call) : ∀ s : StrStream, Stuck s → (runCalls s cs).1 = stuckReplies cs ∧ Stuck (runCalls s cs).2 ∧
    ((∀ c ∈ cs, ∀ b, c ≠ .setStr b ∧ c ≠ .clear) → (runCalls s cs).2.str = s.str) := by
  induction cs with
  | nil => intro s h; exact ⟨rfl, h, fun _ => rfl⟩
  | cons c cs ih =>
    intro s h
    have hg : s.ios.good = false := by simp [Ios.good, h.1]
    cases c with
    | write b =>
      have e : s.write b = (b.length, s) := by simp [StrStream.write, hg, h.2]
      simp only [runCalls, e, stuckReplies]
      obtain ⟨h1, h2, h3⟩ := ih s h
      exact ⟨by rw [h1], h2, fun hc => h3 fun c' hc' => hc c' (List.mem_cons_of_mem _ hc')⟩
    | read n =>
      have e : s.read n = ([], { s with ios := { s.ios with fail := true } }) := by simp [StrStream.read, hg]
      simp only [runCalls, e, stuckReplies]
      obtain ⟨h1, h2, h3⟩ := ih { s with ios := { s.ios with fail := true } } ⟨rfl, h.2⟩
      exact ⟨by rw [h1], h2, fun hc => (h3 fun c' hc' => hc c' (List.mem_cons_of_mem _ hc')).trans rfl⟩
    | setStr b =>
      simp only [runCalls, stuckReplies]
      obtain ⟨h1, h2, _⟩ := ih (s.setStr b) h
      exact ⟨by rw [h1], h2, fun hc => absurd rfl (hc _ (List.mem_cons_self ..) b).1⟩
    | clear =>
      simp only [runCalls, stuckReplies]
      obtain ⟨h1, h2, _⟩ := ih s.clear h
      exact ⟨by rw [h1], h2, fun hc => absurd rfl (hc _ (List.mem_cons_self ..) []).2⟩

/-- C96 fails for every stream that was once asked for more than it had: afterwards it reads nothing, whatever is written, set or cleared, keeps
nothing of what is written, and reports every write as complete -/
theorem C96_string_short_read_false (b : List UInt8) (n : Nat) (h : b.length < n) (cs : List Call) :
    (runCalls (StrStream.of b) (.read n :: cs)).1 = .got b :: stuckReplies cs ∧
    ((∀ c ∈ cs, ∀ b, c ≠ .setStr b ∧ c ≠ .clear) → (runCalls (StrStream.of b) (.read n :: cs)).2.str = b) := by
  have e : (StrStream.of b).read n = (b, ⟨b, b.length, 0, ⟨true, true, false⟩⟩) := by
    have hg : (StrStream.of b).ios.good = true := rfl
    have ht : b.take n = b := List.take_of_length_le (Nat.le_of_lt h)
    simp only [StrStream.read, hg, if_true]
    simp [StrStream.of, ht, h, Ios.clean]
  simp only [runCalls, e]
  obtain ⟨h1, _, h3⟩ := stuck_run cs ⟨b, b.length, 0, ⟨true, true, false⟩⟩ ⟨rfl, rfl⟩
  exact ⟨by rw [h1], h3⟩

/-- with a message: the second message is lost although its write was reported as complete -/
example : (runCalls (StrStream.of [1, 2]) [.read 3, .clear, .write [5, 6], .read 2]).1 = [.got [1, 2], .done, .wrote 2, .got []] := by decide +kernel

/-- C96 (partial): a new `StringStreamWriter` holds the concatenation of what was written -/
theorem C96_writer_partial (bs : List (List UInt8)) :
    (bs.foldl (fun s b => (s.write b).2) StrStream.empty).str = bs.flatten ∧
    ∀ b : List UInt8, ((bs.foldl (fun s b => (s.write b).2) StrStream.empty).write b).1 = b.length := by
  have key : ∀ (bs : List (List UInt8)) (d : List UInt8),
      bs.foldl (fun s b => (s.write b).2) (⟨d, 0, d.length, .clean⟩ : StrStream) = ⟨d ++ bs.flatten, 0, (d ++ bs.flatten).length, .clean⟩ := by
    intro bs
    induction bs with
    | nil => simp
    | cons b bs ih =>
      intro d
      have e : ((⟨d, 0, d.length, .clean⟩ : StrStream).write b).2 = ⟨d ++ b, 0, (d ++ b).length, .clean⟩ := by
        have hg : Ios.clean.good = true := rfl
        simp [StrStream.write, hg]
      rw [List.foldl_cons, e, ih]
      simp
  have h := key bs []
  have h0 : StrStream.empty = (⟨[], 0, ([] : List UInt8).length, .clean⟩ : StrStream) := rfl
  rw [h0, h]
  refine ⟨by simp [StrStream.str], fun b => ?_⟩
  have hg : Ios.clean.good = true := rfl
  simp [StrStream.write, hg, Ios.clean, Ios.good]

example : ([[1, 2], [], [3]].foldl (fun s b => (StrStream.write s b).2) StrStream.empty).str = [1, 2, 3] := by decide +kernel

/-- C96 fails for every string given to begin with: the first write goes over its beginning (not behind its end) -/
theorem C96_prefilled_false (b w : List UInt8) : ((StrStream.of b).write w).2.str = w ++ b.drop w.length ∧
    (b ≠ [] → w ≠ [] → ((StrStream.of b).write w).2.str ≠ b ++ w) := by
  have hg : (StrStream.of b).ios.good = true := rfl
  have e : ((StrStream.of b).write w).2.str = w ++ b.drop w.length := by
    simp only [StrStream.write, hg, if_true]
    simp [StrStream.of, StrStream.str]
  refine ⟨e, fun hb hw hc => ?_⟩
  rw [e] at hc
  have hl := congrArg List.length hc
  simp only [List.length_append, List.length_drop] at hl
  have h1 : 0 < b.length := List.length_pos_iff.mpr hb
  have h2 : 0 < w.length := List.length_pos_iff.mpr hw
  omega

/-- C96 fails: `str(buffer)` of a writer changes nothing, for every writer and every string -/
theorem C96_writer_str_false (s : StrStream) (b : List UInt8) (h : s.str ≠ b) : (s.writerSetStr b).str = s.str ∧ (s.writerSetStr b).str ≠ b :=
  ⟨rfl, h⟩

example : StrStream.empty.str ≠ [1] := by decide +kernel

/-! ## Files -/

namespace Io

/-- the reads of given sizes -/
def fileReads (s : FileIn) : List Nat → List (List UInt8) × FileIn
  | [] => ([], s)
  | n :: ns => let r := s.read n; let t := fileReads r.2 ns; (r.1 :: t.1, t.2)

/-- the specification: consecutive pieces of the bytes -/
def pieces (b : List UInt8) : List Nat → List (List UInt8)
  | [] => []
  | n :: ns => b.take n :: pieces (b.drop n) ns

/-- the stream is at the beginning of these bytes: good with these bytes to come, or at the end -/
def Has (s : FileIn) (b : List UInt8) : Prop :=
  (s.ios.good = true ∧ s.pos ≤ (s.file.getD []).length ∧ (s.file.getD []).drop s.pos = b) ∨ (s.ios.good = false ∧ b = [])

theorem has_read (s : FileIn) (b : List UInt8) (n : Nat) (h : Has s b) : (s.read n).1 = b.take n ∧ Has (s.read n).2 (b.drop n) := by
  rcases h with ⟨hg, hp, hr⟩ | ⟨hg, hb⟩
  · have hl : b.length = (s.file.getD []).length - s.pos := by rw [← hr]; simp
    by_cases hn : n ≤ b.length
    · have e : s.read n = (b.take n, { s with pos := s.pos + n }) := by simp [FileIn.read, hg, hr, Nat.min_eq_left hn]
      rw [e]
      refine ⟨rfl, Or.inl ⟨hg, ?_, ?_⟩⟩
      · show s.pos + n ≤ (s.file.getD []).length; omega
      · show (s.file.getD []).drop (s.pos + n) = b.drop n
        rw [← hr, List.drop_drop]
    · have ht : b.take n = b := List.take_of_length_le (by omega)
      have e : s.read n = (b, { s with pos := s.pos + b.length, ios := { s.ios with eof := true, fail := true } }) := by
        simp [FileIn.read, hg, hr, ht, show b.length < n by omega]
      rw [e, ht]
      refine ⟨rfl, Or.inr ⟨by simp [Ios.good], List.drop_of_length_le (by omega)⟩⟩
  · subst hb
    have e : s.read n = ([], { s with ios := { s.ios with fail := true } }) := by simp [FileIn.read, hg]
    rw [e]
    exact ⟨by simp, Or.inr ⟨by simp [Ios.good], by simp⟩⟩

theorem has_reads (ns : List Nat) : ∀ (s : FileIn) (b : List UInt8), Has s b → (fileReads s ns).1 = pieces b ns := by
  induction ns with
  | nil => intros; rfl
  | cons n ns ih =>
    intro s b h
    obtain ⟨h1, h2⟩ := has_read s b n h
    simp only [fileReads, pieces]
    rw [h1, ih _ _ h2]

/-- a loader on bytes: the specification of what it should see -/
def onBytes {M : Type} : Loader M → List UInt8 → Answer M
  | .done a, _ => a
  | .read n k, b => onBytes (k (b.take n)) (b.drop n)

/-- a loader asks for more than there is -/
def Overreads {M : Type} : Loader M → List UInt8 → Prop
  | .done _, _ => False
  | .read n k, b => b.length < n ∨ Overreads (k (b.take n)) (b.drop n)

theorem has_run {M : Type} (l : Loader M) : ∀ (s : FileIn) (b : List UInt8), Has s b → (l.run s).1 = onBytes l b := by
  induction l with
  | done a => intros; rfl
  | read n k ih =>
    intro s b h
    obtain ⟨h1, h2⟩ := has_read s b n h
    simp only [Loader.run, onBytes]
    rw [ih _ _ _ h2, h1]

theorem read_file (s : FileIn) (n : Nat) : (s.read n).2.file = s.file := by
  unfold FileIn.read; dsimp only; split
  · split <;> rfl
  · rfl

theorem run_file {M : Type} (l : Loader M) : ∀ s : FileIn, (l.run s).2.file = s.file := by
  induction l with
  | done a => intros; rfl
  | read n k ih => intro s; simp only [Loader.run]; rw [ih, read_file]

theorem run_good {M : Type} (l : Loader M) : ∀ (s : FileIn) (b : List UInt8), s.ios = .clean → s.pos ≤ (s.file.getD []).length →
    (s.file.getD []).drop s.pos = b → ¬ Overreads l b → (l.run s).2.ios = .clean := by
  induction l with
  | done a => intro s b h _ _ _; exact h
  | read n k ih =>
    intro s b h hp hr ho
    simp only [Overreads, not_or, Nat.not_lt] at ho
    have hl : b.length = (s.file.getD []).length - s.pos := by rw [← hr]; simp
    have hg : s.ios.good = true := by rw [h]; rfl
    have e : s.read n = (b.take n, { s with pos := s.pos + n }) := by simp [FileIn.read, hg, hr, Nat.min_eq_left ho.1]
    simp only [Loader.run, e]
    refine ih (b.take n) _ (b.drop n) h ?_ ?_ ho.2
    · show s.pos + n ≤ (s.file.getD []).length; omega
    · show (s.file.getD []).drop (s.pos + n) = b.drop n
      rw [← hr, List.drop_drop]

theorem run_stuck {M : Type} (l : Loader M) : ∀ s : FileIn, s.ios.fail = true →
    (l.run s).1 = onBytes l [] ∧ (l.run s).2.ios.fail = true := by
  induction l with
  | done a => intro s h; exact ⟨rfl, h⟩
  | read n k ih =>
    intro s h
    have e : s.read n = ([], { s with ios := { s.ios with fail := true } }) := by simp [FileIn.read, Ios.good, h]
    simp only [Loader.run, e, onBytes, List.take_nil, List.drop_nil]
    exact ih [] { s with ios := { s.ios with fail := true } } rfl

theorem run_overread {M : Type} (l : Loader M) : ∀ (s : FileIn) (b : List UInt8), s.ios.good = true → s.pos ≤ (s.file.getD []).length →
    (s.file.getD []).drop s.pos = b → Overreads l b → (l.run s).2.ios.fail = true := by
  induction l with
  | done a => intro s b _ _ _ h; exact absurd h id
  | read n k ih =>
    intro s b hg hp hr ho
    have hl : b.length = (s.file.getD []).length - s.pos := by rw [← hr]; simp
    by_cases hn : b.length < n
    · have ht : b.take n = b := List.take_of_length_le (by omega)
      have e : s.read n = (b, { s with pos := s.pos + b.length, ios := { s.ios with eof := true, fail := true } }) := by
        simp [FileIn.read, hg, hr, ht, hn]
      simp only [Loader.run, e]
      exact (run_stuck _ _ rfl).2
    · have hn' : n ≤ b.length := Nat.le_of_not_lt hn
      have e : s.read n = (b.take n, { s with pos := s.pos + n }) := by simp [FileIn.read, hg, hr, Nat.min_eq_left hn']
      simp only [Loader.run, e]
      rcases ho with ho | ho
      · exact absurd ho hn
      refine ih (b.take n) _ (b.drop n) hg ?_ ?_ ho
      · show s.pos + n ≤ (s.file.getD []).length; omega
      · show (s.file.getD []).drop (s.pos + n) = b.drop n
        rw [← hr, List.drop_drop]

theorem new_some (fs : Files) (path b : List UInt8) (h : fs path = some b) : FileIn.new fs path = ⟨some b, 0, .clean⟩ := by
  simp [FileIn.new, FileIn.openPath, FileIn.closed, h]

end Io

/-- C96: a reader of a file that can be opened gives consecutive pieces of it, for every sequence of sizes -/
theorem C96_file_pieces (fs : Files) (path b : List UInt8) (h : fs path = some b) (ns : List Nat) :
    (FileIn.new fs path).isOpen = true ∧ (fileReads (FileIn.new fs path) ns).1 = pieces b ns := by
  rw [new_some fs path b h]
  exact ⟨rfl, has_reads ns _ b (Or.inl ⟨rfl, Nat.zero_le _, rfl⟩)⟩

example : pieces [1, 2, 3, 4, 5] [2, 0, 2, 7, 1] = [[1, 2], [], [3, 4], [5], []] := by decide +kernel

/-- C96: a reader that is closed, whatever happened to it before (the end reached, failed calls), can be opened on another file and gives its pieces -/
theorem C96_file_reopen (fs : Files) (s : FileIn) (path b : List UInt8) (hc : s.isOpen = false) (h : fs path = some b) (ns : List Nat) :
    (fileReads (s.openPath fs path) ns).1 = pieces b ns := by
  have hf : s.file = none := by simpa [FileIn.isOpen] using hc
  have e : s.openPath fs path = ⟨some b, 0, .clean⟩ := by simp [FileIn.openPath, hf, h]
  rw [e]
  exact has_reads ns _ b (Or.inl ⟨rfl, Nat.zero_le _, rfl⟩)

example : (⟨none, 3, ⟨true, true, false⟩⟩ : FileIn).isOpen = false := rfl

/-- C96 fails: opening a reader that is still open loses the open file too: from then on it reads nothing, although it says it is open -/
theorem C96_open_twice_false (fs : Files) (s : FileIn) (path : List UInt8) (ho : s.isOpen = true) (ns : List Nat) :
    (s.openPath fs path).isOpen = true ∧ (fileReads (s.openPath fs path) ns).1 = ns.map fun _ => [] := by
  have e : s.openPath fs path = { s with ios := { s.ios with fail := true } } := by
    unfold FileIn.openPath
    split
    · next h _ => simp [FileIn.isOpen, h] at ho
    · rfl
  rw [e]
  refine ⟨ho, ?_⟩
  rw [has_reads ns _ [] (Or.inr ⟨by simp [Ios.good], rfl⟩)]
  clear ho e
  induction ns with
  | nil => rfl
  | cons n ns ih => simp [pieces] at ih ⊢; exact ih

example : (FileIn.new (fun _ => some [1, 2, 3]) [65]).isOpen = true := by decide +kernel

/-- C96 (partial: unless more was asked for than there was): after `rewind()` the file is read from its beginning again -/
theorem C96_rewind_partial (b : List UInt8) (before after : List Nat) (h : before.sum ≤ b.length) :
    (fileReads (fileReads ⟨some b, 0, .clean⟩ before).2.rewind after).1 = pieces b after := by
  have key : ∀ (ns : List Nat) (p : Nat), p + ns.sum ≤ b.length →
      (fileReads ⟨some b, p, .clean⟩ ns).2 = ⟨some b, p + ns.sum, .clean⟩ := by
    intro ns
    induction ns with
    | nil => intro p _; rfl
    | cons n ns ih =>
      intro p hp
      simp only [List.sum_cons] at hp
      have hg : Ios.clean.good = true := rfl
      have e : (⟨some b, p, .clean⟩ : FileIn).read n = ((b.drop p).take n, ⟨some b, p + n, .clean⟩) := by
        have hn : n ≤ b.length - p := by omega
        simp [FileIn.read, hg, Nat.min_eq_left hn]
      simp only [fileReads, e]
      rw [ih (p + n) (by omega)]
      simp [Nat.add_assoc]
  rw [key before 0 (by omega)]
  exact has_reads after _ b (Or.inl ⟨rfl, Nat.zero_le _, rfl⟩)

example : ([2, 1] : List Nat).sum ≤ ([7, 8, 9] : List UInt8).length := by decide

/-- C96 fails for every file that was once read beyond its end: `rewind()` has no effect, nothing can be read any more -/
theorem C96_rewind_false (b : List UInt8) (n : Nat) (h : b.length < n) (after : List Nat) :
    (fileReads ((⟨some b, 0, .clean⟩ : FileIn).read n).2.rewind after).1 = after.map fun _ => [] := by
  have ht : b.take n = b := List.take_of_length_le (Nat.le_of_lt h)
  have hg : Ios.clean.good = true := rfl
  have e : (⟨some b, 0, .clean⟩ : FileIn).read n = (b, ⟨some b, b.length, ⟨true, true, false⟩⟩) := by
    simp [FileIn.read, hg, ht, h]; rfl
  rw [e]
  have e2 : (⟨some b, b.length, ⟨true, true, false⟩⟩ : FileIn).rewind = ⟨some b, b.length, ⟨false, true, false⟩⟩ := by simp [FileIn.rewind]
  simp only [e2]
  rw [has_reads after _ [] (Or.inr ⟨rfl, rfl⟩)]
  induction after with
  | nil => rfl
  | cons n ns ih => simp [pieces] at ih ⊢; exact ih

/-! ## Loading with the registered loaders -/

/-- the first loader that does not say that the format is another one, each of them given the whole file -/
def Io.firstMatch {M : Type} (b : List UInt8) : List (Loader M) → Res M
  | [] => .err
  | l :: ls => match onBytes l b with
    | .module m => .ok m
    | .mismatch => Io.firstMatch b ls
    | .error => .err
    | .undefined => .ub

/-- C96 (partial: if no loader that says that the format is another one had asked for more than there is): the result is that of the first loader,
in the order of the names, that recognises the file, and every loader is given the file from its first byte -/
theorem C96_loaders_partial {M : Type} (fs : Files) (path b : List UInt8) (h : fs path = some b) (ls : List (Loader M))
    (ho : ∀ l ∈ ls, onBytes l b = .mismatch → ¬ Overreads l b) : loadV2File fs path ls = firstMatch b ls := by
  unfold loadV2File
  rw [new_some fs path b h]
  induction ls with
  | nil => rfl
  | cons l ls ih =>
    have hh : Has ⟨some b, 0, .clean⟩ b := Or.inl ⟨rfl, Nat.zero_le _, rfl⟩
    have hr := has_run l ⟨some b, 0, .clean⟩ b hh
    have hf := run_file l ⟨some b, 0, .clean⟩
    simp only [loadV2, firstMatch]
    rcases hl : l.run ⟨some b, 0, .clean⟩ with ⟨a, s⟩
    rw [hl] at hr hf
    simp only at hr hf
    rw [← hr]
    cases a with
    | module m => rfl
    | error => rfl
    | undefined => rfl
    | mismatch =>
      have hg := run_good l ⟨some b, 0, .clean⟩ b rfl (Nat.zero_le _) rfl (ho l (List.mem_cons_self ..) hr.symm)
      rw [hl] at hg
      have e : s.rewind = ⟨some b, 0, .clean⟩ := by
        obtain ⟨f, p, i⟩ := s
        simp only at hf hg
        subst hf hg
        rfl
      simp only [e]
      exact ih fun l' hl' => ho l' (List.mem_cons_of_mem _ hl')

/-- a loader of another format after the loader of the library, on a file of 130 bytes that starts with a letter -/
example : ∀ l ∈ [openLoader (M := Nat) (.done (.module 0)), .read 1 fun _ => .done (.module 7)],
    onBytes l (65 :: List.replicate 129 0) = .mismatch → ¬ Overreads l (65 :: List.replicate 129 0) := by
  intro l hl _
  simp only [List.mem_cons, List.not_mem_nil, or_false] at hl
  rcases hl with rfl | rfl
  · simp [openLoader, Overreads]
    split <;> exact id
  · simp [Overreads]

/-- C96 fails: after a loader that asked for more than there is, all following loaders are given an empty file -/
theorem C96_loaders_false {M : Type} (fs : Files) (path b : List UInt8) (h : fs path = some b) (l : Loader M) (ls : List (Loader M))
    (hm : onBytes l b = .mismatch) (ho : Overreads l b) : loadV2File fs path (l :: ls) = firstMatch [] ls := by
  unfold loadV2File
  rw [new_some fs path b h]
  have hr := has_run l ⟨some b, 0, .clean⟩ b (Or.inl ⟨rfl, Nat.zero_le _, rfl⟩)
  have hs := run_overread l ⟨some b, 0, .clean⟩ b rfl (Nat.zero_le _) rfl ho
  have key : ∀ (ls : List (Loader M)) (s : FileIn), s.ios.fail = true → loadV2 ls s.rewind = firstMatch [] ls := by
    intro ls
    induction ls with
    | nil => intros; rfl
    | cons l ls ih =>
      intro s hs
      have hrw : s.rewind.ios.fail = true := by simp [FileIn.rewind, hs]
      obtain ⟨h1, h2⟩ := run_stuck l s.rewind hrw
      simp only [loadV2, firstMatch]
      rcases hl : l.run s.rewind with ⟨a, s'⟩
      rw [hl] at h1 h2
      simp only at h1 h2
      rw [← h1]
      cases a with
      | module m => rfl
      | error => rfl
      | undefined => rfl
      | mismatch => exact ih s' h2
  simp only [loadV2]
  rcases hl : l.run ⟨some b, 0, .clean⟩ with ⟨a, s⟩
  rw [hl] at hr hs
  simp only at hr hs
  rw [hm] at hr
  subst hr
  exact key ls s hs

/-- the loader of the library does so on every file of fewer than 128 bytes without its code: a loader with a later name never sees such a file -/
theorem C96_small_file_false {M : Type} (fs : Files) (path b : List UInt8) (h : fs path = some b) (hb : b.length < 128)
    (hc : codeOf ((b.drop 4).take 4) ≠ 0x19910929) (rest : Loader M) (ls : List (Loader M)) :
    loadV2File fs path (openLoader rest :: ls) = firstMatch [] ls := by
  refine C96_loaders_false fs path b h _ ls ?_ ?_
  · simp only [openLoader, onBytes, if_neg hc]
  · simp only [openLoader, Overreads, if_neg hc, List.length_drop]
    omega

/-- a small file of the format "X", and the loader of this format -/
example : loadV2File (fun _ => some [88, 1]) [] [openLoader (.done (.module 0)), .read 1 fun g => .done (if g = [88] then .module 7 else .mismatch)] = Res.err ∧
    loadV2File (fun _ => some [88, 1]) [] [.read 1 fun g => .done (if g = [88] then .module 7 else .mismatch), openLoader (.done (.module 0))] = Res.ok 7 := by
  decide +kernel

/-- C96: a path that cannot be opened is refused by every set of loaders that refuse an empty file -/
theorem C96_missing_file {M : Type} (fs : Files) (path : List UInt8) (h : fs path = none) (ls : List (Loader M)) (hl : ∀ l ∈ ls, onBytes l [] = .mismatch ∨ onBytes l [] = .error) :
    loadV2File fs path ls = .err := by
  unfold loadV2File
  have e : FileIn.new fs path = ⟨none, 0, ⟨false, true, false⟩⟩ := by simp [FileIn.new, FileIn.openPath, FileIn.closed, h, Ios.clean]
  rw [e]
  have key : ∀ (ls : List (Loader M)) (s : FileIn), (∀ l ∈ ls, onBytes l [] = .mismatch ∨ onBytes l [] = .error) → s.ios.fail = true → loadV2 ls s = .err := by
    intro ls
    induction ls with
    | nil => intros; rfl
    | cons l ls ih =>
      intro s hl hs
      obtain ⟨h1, h2⟩ := run_stuck l s hs
      have hl1 := hl l (List.mem_cons_self ..)
      simp only [loadV2]
      rcases hr : l.run s with ⟨a, s'⟩
      rw [hr] at h1 h2
      simp only at h1 h2
      rw [← h1] at hl1
      cases a with
      | module m => rcases hl1 with hx | hx <;> cases hx
      | undefined => rcases hl1 with hx | hx <;> cases hx
      | error => rfl
      | mismatch => exact ih s'.rewind (fun l' h' => hl l' (List.mem_cons_of_mem _ h')) (by simp [FileIn.rewind, h2])
  exact key ls _ hl rfl

example : onBytes (openLoader (M := Nat) (.done (.module 0))) [] = .mismatch := by decide +kernel

/-- C96: loaders are tried in the order of their names, one per name, the one registered last: for every history of registrations -/
theorem C96_loader_names {M : Type} (rs : List (List Nat × Loader M)) :
    let m := rs.foldl (fun m r => registerLoader m r.1 r.2) []
    m.Pairwise (fun a b => a.1 < b.1) ∧ ∀ name l, (name, l) ∈ m ↔ (rs.reverse.find? (fun r => r.1 == name)) = some (name, l) := by
  have mem : ∀ (m : List (List Nat × Loader M)) (name : List Nat) (l : Loader M) (x : List Nat × Loader M), m.Pairwise (fun a b => a.1 < b.1) →
      (x ∈ registerLoader m name l ↔ x = (name, l) ∨ (x ∈ m ∧ x.1 ≠ name)) := by
    intro m name l x
    induction m with
    | nil => simp [registerLoader]
    | cons e m ih =>
      intro hp
      obtain ⟨hp1, hp2⟩ := List.pairwise_cons.mp hp
      unfold registerLoader
      split
      · next he =>
        constructor
        · intro hx
          rcases List.mem_cons.mp hx with hx | hx
          · exact Or.inl hx
          · exact Or.inr ⟨List.mem_cons_of_mem _ hx, fun hc => List.lt_irrefl _ (by have := hp1 x hx; rwa [hc, he] at this)⟩
        · rintro (hx | ⟨hx, hn⟩)
          · exact hx ▸ List.mem_cons_self ..
          · rcases List.mem_cons.mp hx with hx | hx
            · exact absurd (hx ▸ he) hn
            · exact List.mem_cons_of_mem _ hx
      · next he =>
        split
        · next hlt =>
          constructor
          · intro hx
            rcases List.mem_cons.mp hx with hx | hx
            · exact Or.inl hx
            · refine Or.inr ⟨hx, fun hc => ?_⟩
              rcases List.mem_cons.mp hx with hx | hx
              · exact he (hx ▸ hc)
              · have := hp1 x hx
                rw [hc] at this
                exact List.lt_irrefl _ (List.lt_trans this hlt)
          · rintro (hx | ⟨hx, hn⟩)
            · exact hx ▸ List.mem_cons_self ..
            · exact List.mem_cons_of_mem _ hx
        · rw [List.mem_cons, ih hp2, List.mem_cons]
          constructor
          · rintro (hx | hx | ⟨hx, hn⟩)
            · exact Or.inr ⟨Or.inl hx, fun hc => he (hx ▸ hc)⟩
            · exact Or.inl hx
            · exact Or.inr ⟨Or.inr hx, hn⟩
          · rintro (hx | ⟨hx | hx, hn⟩)
            · exact Or.inr (Or.inl hx)
            · exact Or.inl hx
            · exact Or.inr (Or.inr ⟨hx, hn⟩)
  have sorted : ∀ (m : List (List Nat × Loader M)) (name : List Nat) (l : Loader M), m.Pairwise (fun a b => a.1 < b.1) →
      (registerLoader m name l).Pairwise (fun a b => a.1 < b.1) := by
    intro m name l
    induction m with
    | nil => intro _; simp [registerLoader]
    | cons e m ih =>
      intro hp
      obtain ⟨hp1, hp2⟩ := List.pairwise_cons.mp hp
      unfold registerLoader
      split
      · next he => exact List.pairwise_cons.mpr ⟨fun x hx => he ▸ hp1 x hx, hp2⟩
      · next he =>
        split
        · next hlt =>
          refine List.pairwise_cons.mpr ⟨fun x hx => ?_, hp⟩
          rcases List.mem_cons.mp hx with hx | hx
          · exact hx ▸ hlt
          · exact List.lt_trans hlt (hp1 x hx)
        · next hlt =>
          refine List.pairwise_cons.mpr ⟨fun x hx => ?_, ih hp2⟩
          rcases (mem m name l x hp2).mp hx with hx | ⟨hx, _⟩
          · rw [hx]
            have hle : e.1 ≤ name := List.not_lt.mp hlt
            exact Classical.byContradiction fun hc => he (List.le_antisymm hle (List.not_lt.mp hc))
          · exact hp1 x hx
  have all : ∀ (rs : List (List Nat × Loader M)), let m := rs.foldr (fun r m => registerLoader m r.1 r.2) []
      m.Pairwise (fun a b => a.1 < b.1) ∧ ∀ name l, (name, l) ∈ m ↔ (rs.find? (fun r => r.1 == name)) = some (name, l) := by
    intro rs
    induction rs with
    | nil => simp
    | cons r rs ih =>
      obtain ⟨h1, h2⟩ := ih
      refine ⟨sorted _ _ _ h1, fun name l => ?_⟩
      rw [List.foldr_cons, mem _ _ _ _ h1, h2, List.find?_cons]
      by_cases hr : r.1 = name
      · subst hr
        simp
        constructor
        · intro h; rw [h]
        · intro h; rw [h]
      · have hb : (r.1 == name) = false := by simpa using hr
        simp only [hb]
        constructor
        · rintro (h | ⟨h, _⟩)
          · exact absurd (congrArg Prod.fst h).symm hr
          · exact h
        · intro h; exact Or.inr ⟨h, fun h' => hr h'.symm⟩
  have h := all rs.reverse
  rw [List.foldr_reverse] at h
  exact h

/-! ## Writing files -/

/-- C96: a path that cannot be written is refused; otherwise, on a disk with room for everything, the file holds exactly what was written -/
theorem C96_save_partial (room : Nat) (chunks : List (List UInt8)) (h : chunks.flatten.length ≤ room) :
    saveFile true room chunks = .ok (some chunks.flatten) ∧ saveFile false room chunks = .err := by
  refine ⟨?_, rfl⟩
  have key : ∀ (cs : List (List UInt8)) (f : List UInt8) (r : Nat), cs.flatten.length ≤ r →
      (writeAll ⟨some f, r, .clean⟩ cs).file = some (f ++ cs.flatten) := by
    intro cs
    induction cs with
    | nil => intro f r _; simp [writeAll]
    | cons c cs ih =>
      intro f r hr
      simp only [List.flatten_cons, List.length_append] at hr
      have hg : Ios.clean.good = true := rfl
      have e : ((⟨some f, r, .clean⟩ : FileOut).write c).2 = ⟨some (f ++ c), r - c.length, .clean⟩ := by
        simp [FileOut.write, hg, show c.length ≤ r by omega]
      rw [writeAll, e, ih _ _ (by omega)]
      simp
  have := key chunks [] room h
  simpa [saveFile, FileOut.new, FileOut.isOpen] using this

example : ([[1, 2], [3]] : List (List UInt8)).flatten.length ≤ 8 := by decide

/-- C96 fails: on a disk that is too small, saving returns normally and leaves the beginning of the file only; for every size of the disk -/
theorem C96_save_false (room : Nat) (chunks : List (List UInt8)) : saveFile true room chunks = .ok (some (chunks.flatten.take room)) := by
  have stuck : ∀ (cs : List (List UInt8)) (s : FileOut), s.ios.bad = true → (writeAll s cs).file = s.file := by
    intro cs
    induction cs with
    | nil => intros; rfl
    | cons c cs ih =>
      intro s hs
      have hg : s.ios.good = false := by simp [Ios.good, hs]
      have e : (s.write c).2 = s := by simp [FileOut.write, hg]
      rw [writeAll, e, ih s hs]
  have key : ∀ (cs : List (List UInt8)) (f : List UInt8) (r : Nat),
      (writeAll ⟨some f, r, .clean⟩ cs).file = some (f ++ cs.flatten.take r) := by
    intro cs
    induction cs with
    | nil => intro f r; simp [writeAll]
    | cons c cs ih =>
      intro f r
      have hg : Ios.clean.good = true := rfl
      by_cases hc : c.length ≤ r
      · have e : ((⟨some f, r, .clean⟩ : FileOut).write c).2 = ⟨some (f ++ c), r - c.length, .clean⟩ := by
          simp [FileOut.write, hg, hc]
        rw [writeAll, e, ih, List.flatten_cons, List.take_append, List.take_of_length_le hc]
        simp
      · have e : ((⟨some f, r, .clean⟩ : FileOut).write c).2 = ⟨some (f ++ c.take r), 0, ⟨false, false, true⟩⟩ := by
          simp [FileOut.write, hg, hc]; exact ⟨rfl, rfl⟩
        rw [writeAll, e, stuck _ _ rfl, List.flatten_cons, List.take_append_of_le_length (by omega)]
  have := key chunks [] room
  simpa [saveFile, FileOut.new, FileOut.isOpen] using this

/-- three bytes on a disk for two -/
example : saveFile true 2 [[1], [2, 3]] = .ok (some [1, 2]) := by decide +kernel

/-- C96 fails: a writer on a path that cannot be written reports every write as complete -/
theorem C96_unwritable_false (room : Nat) (bs : List (List UInt8)) (b : List UInt8) :
    (FileOut.new false room).isOpen = false ∧ ((writeAll (FileOut.new false room) bs).write b).1 = b.length ∧
    (writeAll (FileOut.new false room) bs).file = none := by
  have e : ∀ bs, writeAll (⟨none, room, ⟨false, true, false⟩⟩ : FileOut) bs = ⟨none, room, ⟨false, true, false⟩⟩ := by
    intro bs
    induction bs with
    | nil => rfl
    | cons b bs ih =>
      have e1 : ((⟨none, room, ⟨false, true, false⟩⟩ : FileOut).write b).2 = ⟨none, room, ⟨false, true, false⟩⟩ := by simp [FileOut.write, Ios.good]
      rw [writeAll, e1, ih]
  have e0 : FileOut.new false room = ⟨none, room, ⟨false, true, false⟩⟩ := rfl
  rw [e0, e]
  exact ⟨rfl, by simp [FileOut.write, Ios.good], rfl⟩

/-- C96 fails: a `FileStream` cannot be opened on any path; everything written to it is lost and reported as complete, nothing is read -/
theorem C96_file_stream_false (fs : Files) (path : List UInt8) (room : Nat) (b : List UInt8) (n : Nat) :
    (FileStream.new fs path room).isOpen = false ∧ ((FileStream.new fs path room).write b).1 = b.length ∧
    (FileStream.read (FileStream.new fs path room) n).1 = [] := by
  exact ⟨rfl, by simp [FileStream.new, FileOut.write, Ios.good], rfl⟩

end Verif.Props
