import Verif.Runtime.Profiler
import Mathlib.Data.Nat.Digits.Lemmas
import Mathlib.Data.List.Basic
import Mathlib.Data.List.Induction
import Mathlib.Data.Rat.Defs
import Mathlib.Algebra.Field.Rat
import Mathlib.Tactic.FieldSimp
/-!
# C95: profiling records every run once, under the operator's own label

Specification: `labelOf`, `firsts`.
-/
namespace Verif.Props
open Verif.Core Verif.Runtime.Profiler

namespace S95

/-- the names in the order of their first use -/
def firsts (l : List (List Nat)) : List (List Nat) := l.foldl (fun acc k => if k ∈ acc then acc else acc ++ [k]) []

/-- operator and name as they are shown -/
def shown (op name : List Nat) : List Nat := op ++ (bytes ":" ++ name)

/-- `op(0007):conv2d:layer1` -/
def labelOf (serial : Nat) (key : List Nat) : List Nat := bytes "op(" ++ (padded 4 serial ++ (bytes "):" ++ key))

/-- text that can be printed as it is: no percent sign, no zero byte -/
def Plain (s : List Nat) : Prop := 37 ∉ s ∧ 0 ∉ s

instance (s : List Nat) : Decidable (Plain s) := by unfold Plain; infer_instance

theorem firsts_snoc (l : List (List Nat)) (k : List Nat) : firsts (l ++ [k]) = if k ∈ firsts l then firsts l else firsts l ++ [k] := by
  unfold firsts
  rw [List.foldl_append]
  rfl

theorem mem_firsts {l : List (List Nat)} {k : List Nat} : k ∈ firsts l ↔ k ∈ l := by
  induction l using List.reverseRecOn with
  | nil => simp [firsts]
  | append_singleton l a ih =>
    rw [firsts_snoc]
    split
    · rename_i h
      constructor
      · intro hk; simp [ih.1 hk]
      · intro hk
        rcases List.mem_append.1 hk with h' | h'
        · exact ih.2 h'
        · rw [List.mem_singleton.1 h']; exact h
    · simp [ih]

theorem length_firsts (l : List (List Nat)) : (firsts l).length ≤ l.length := by
  induction l using List.reverseRecOn with
  | nil => simp [firsts]
  | append_singleton l a ih =>
    rw [firsts_snoc]
    split
    · simp; omega
    · simp; omega

theorem idxOf_firsts_snoc {l : List (List Nat)} {k a : List Nat} (h : k ∈ l) : (firsts (l ++ [a])).idxOf k = (firsts l).idxOf k := by
  rw [firsts_snoc]
  split
  · rfl
  · exact List.idxOf_append_of_mem (mem_firsts.2 h)

theorem format_plain (n : Nat) (used : Bool) : ∀ s, 37 ∉ s → format n used s = .ok s
  | [], _ => by cases used <;> rfl
  | c :: s, h => by
    have hc : c ≠ 37 := fun e => h (by simp [e])
    have hs : 37 ∉ s := fun e => h (by simp [e])
    have : format n used (c :: s) = (format n used s).bind (fun o => .ok (c :: o)) := by
      cases used <;> (rw [format] <;> first | rfl | (intros; simp_all; done))
    rw [this, format_plain n used s hs]
    rfl

theorem decimal_length {n : Nat} (h : n < 2 ^ 31 + 1) : (decimal n).length ≤ 10 := by
  simp only [decimal, List.length_map, List.length_reverse]
  rw [Nat.digits_length_le_iff (by norm_num)]
  have : (2 : Nat) ^ 31 + 1 < 10 ^ 10 := by norm_num
  omega

theorem cstr_eq {s : List Nat} (h : 0 ∉ s) : cstr s = s := by
  unfold cstr
  induction s with
  | nil => rfl
  | cons a s ih =>
    have ha : a ≠ 0 := fun e => h (by simp [e])
    rw [List.takeWhile_cons_of_pos (by simpa using ha), ih (fun e => h (by simp [e]))]

theorem prefix_eq : bytes "op(%04d):" = [111, 112, 40, 37, 48, 52, 100, 41, 58] := rfl

theorem opFormat_zero {op name : List Nat} (h1 : Plain op) (h2 : Plain name) : 0 ∉ opFormat op name := by
  unfold opFormat
  rw [prefix_eq]
  have : bytes ":" = [58] := rfl
  simp [this, h1.2, h2.2]

theorem label_ok {op name : List Nat} (h1 : Plain op) (h2 : Plain name) (n : Nat) (hn : n < 2 ^ 31 + 1) :
    snprintf ((opFormat op name).length * 2 + 1) n (opFormat op name) = .ok (labelOf n (shown op name)) := by
  unfold snprintf
  rw [cstr_eq (opFormat_zero h1 h2)]
  have hs : 37 ∉ bytes "):" ++ shown op name := by
    have e1 : bytes "):" = [41, 58] := rfl
    have e2 : bytes ":" = [58] := rfl
    simp [shown, e1, e2, h1.1, h2.1]
  have hf : format n false (opFormat op name) = .ok (labelOf n (shown op name)) := by
    have e : opFormat op name = 111 :: 112 :: 40 :: 37 :: 48 :: 52 :: 100 :: (bytes "):" ++ shown op name) := by
      unfold opFormat shown; rw [prefix_eq]; rfl
    rw [e]
    have e3 : format n false (111 :: 112 :: 40 :: 37 :: 48 :: 52 :: 100 :: (bytes "):" ++ shown op name)) =
        ((((format n true (bytes "):" ++ shown op name)).bind fun o => .ok (padded 4 n ++ o)).bind fun o => .ok (40 :: o)).bind
          fun o => .ok (112 :: o)).bind fun o => .ok (111 :: o) := rfl
    rw [e3, format_plain n true _ hs]
    rfl
  rw [hf, Res.bind_ok, List.take_of_length_le]
  have := decimal_length hn
  have e1 : (bytes "op(").length = 3 := rfl
  have e2 : (bytes "):").length = 2 := rfl
  have e4 : (bytes ":").length = 1 := rfl
  have e5 : (bytes "op(%04d):").length = 9 := rfl
  simp only [labelOf, shown, opFormat, padded, List.length_append, List.length_replicate, e1, e2, e4, e5]
  omega

theorem takeWhile_label (n : Nat) (k : List Nat) : ((padded 4 n ++ (bytes "):" ++ k)).takeWhile (· != 41)) = padded 4 n := by
  rw [List.takeWhile_append_of_pos]
  · have : (bytes "):" ++ k) = 41 :: 58 :: k := rfl
    rw [this]
    simp
  · intro x hx
    unfold padded decimal at hx
    rcases List.mem_append.1 hx with h | h
    · rw [(List.mem_replicate.1 h).2]; decide
    · obtain ⟨d, _, rfl⟩ := List.mem_map.1 h
      simp only [bne_iff_ne]
      omega

/-- a label tells what it stands for -/
theorem labelOf_inj {n n' : Nat} {k k' : List Nat} (h : labelOf n k = labelOf n' k') : k = k' := by
  unfold labelOf at h
  have h1 := List.append_cancel_left h
  have h2 : padded 4 n = padded 4 n' := by rw [← takeWhile_label n k, h1, takeWhile_label]
  rw [h2] at h1
  exact List.append_cancel_left (List.append_cancel_left h1)

variable {R : Type}

theorem query_append : ∀ (b : Board R) (name name' : List Nat) (x : R),
    Board.query (b.append name x) name' = if name = name' then Board.query b name' ++ [x] else Board.query b name'
  | [], name, name', x => by
    by_cases h : name = name'
    · subst h; simp [Board.append, Board.query]
    · simp [Board.append, Board.query, h]
  | e :: b, name, name', x => by
    have ih := query_append b name name' x
    unfold Board.append
    by_cases he : e.1 = name
    · rw [if_pos he]
      by_cases h : name = name'
      · subst h
        simp [Board.query, he]
      · rw [if_neg h]
        have h' : (e.1 == name') = false := by simp [he, h]
        simp only [Board.query, List.find?_cons, h']
    · rw [if_neg he]
      by_cases h' : e.1 = name'
      · have : name ≠ name' := fun x => he (h'.trans x.symm)
        rw [if_neg this]
        simp [Board.query, h']
      · have hb : (e.1 == name') = false := by simp [h']
        simp only [Board.query, List.find?_cons, hb] at ih ⊢
        exact ih

/-- the numbers of the names -/
def numbered (l : List (List Nat)) : Serials := (l.zipIdx).map (fun e => (e.1, e.2 + 1))

theorem find_numbered (l : List (List Nat)) (k : List Nat) :
    (numbered l).find? (fun e => e.1 == k) = if k ∈ l then some (k, l.idxOf k + 1) else none := by
  unfold numbered
  have : ∀ (l : List (List Nat)) (j : Nat), ((l.zipIdx j).map (fun e => (e.1, e.2 + 1))).find? (fun e => e.1 == k) =
      if k ∈ l then some (k, j + l.idxOf k + 1) else none := by
    intro l
    induction l with
    | nil => intro j; simp
    | cons a l ih =>
      intro j
      rw [List.zipIdx_cons, List.map_cons]
      by_cases h : a = k
      · subst h; simp
      · rw [List.find?_cons_of_neg (by simpa using h), ih]
        have h' : k ≠ a := fun e => h e.symm
        simp only [List.mem_cons, h', false_or]
        by_cases hk : k ∈ l
        · rw [if_pos hk, if_pos hk, List.idxOf_cons_ne _ h]
          congr 2
          omega
        · rw [if_neg hk, if_neg hk]
  have := this l 0
  rw [Nat.zero_add] at this
  exact this

theorem serialOf_numbered (l : List (List Nat)) (k : List Nat) :
    serialOf (numbered (firsts l)) k = (numbered (firsts (l ++ [k])), (firsts (l ++ [k])).idxOf k + 1) := by
  unfold serialOf
  rw [find_numbered, firsts_snoc]
  by_cases h : k ∈ firsts l
  · simp [h]
  · rw [if_neg h, if_neg h]
    simp only
    rw [List.idxOf_append_of_notMem h]
    simp [numbered, List.zipIdx_append]

theorem runAll_append : ∀ (a b : List (List Nat × List Nat × R)) (p : Prof R), runAll p (a ++ b) = (runAll p a).bind fun q => runAll q b
  | [], b, p => rfl
  | (op, name, t) :: a, b, p => by
    rw [List.cons_append]
    simp only [runAll]
    cases h : runOp p op name t with
    | ok q =>
      show runAll q (a ++ b) = (runAll q a).bind _
      exact runAll_append a b q
    | err => rfl
    | ub => rfl

/-- the times of the runs that are shown as `k` -/
def timesOf (runs : List (List Nat × List Nat × R)) (k : List Nat) : List R :=
  (runs.filter (fun r => shown r.1 r.2.1 == k)).map (fun r => r.2.2)

/-- the formats of the runs -/
def formats (runs : List (List Nat × List Nat × R)) : List (List Nat) := runs.map (fun r => opFormat r.1 r.2.1)

theorem opFormat_shown {op name op' name' : List Nat} : opFormat op name = opFormat op' name' ↔ shown op name = shown op' name' := by
  unfold opFormat shown
  exact ⟨fun h => List.append_cancel_left h, fun h => by rw [h]⟩

theorem run_inv (runs : List (List Nat × List Nat × R)) (hp : ∀ r ∈ runs, Plain r.1 ∧ Plain r.2.1) (hl : runs.length < 2 ^ 31) :
    ∃ p, runAll ⟨[], []⟩ runs = .ok p ∧ p.serials = numbered (firsts (formats runs)) ∧
      ∀ label, Board.query p.board label =
        (runs.filter (fun r => labelOf ((firsts (formats runs)).idxOf (opFormat r.1 r.2.1) + 1) (shown r.1 r.2.1) == label)).map (fun r => r.2.2) := by
  induction runs using List.reverseRecOn with
  | nil => exact ⟨⟨[], []⟩, rfl, rfl, fun _ => rfl⟩
  | append_singleton runs r ih =>
    obtain ⟨p, h1, h2, h3⟩ := ih (fun r hr => hp r (by simp [hr])) (by simp at hl; omega)
    obtain ⟨op, name, t⟩ := r
    obtain ⟨q1, q2⟩ := hp (op, name, t) (by simp)
    have hf : formats (runs ++ [(op, name, t)]) = formats runs ++ [opFormat op name] := by simp [formats]
    have hnum : (firsts (formats runs ++ [opFormat op name])).idxOf (opFormat op name) + 1 < 2 ^ 31 + 1 := by
      have m : opFormat op name ∈ firsts (formats runs ++ [opFormat op name]) := mem_firsts.2 (by simp)
      have a1 := List.idxOf_lt_length_of_mem m
      have a2 := length_firsts (formats runs ++ [opFormat op name])
      have a3 : (formats runs ++ [opFormat op name]).length = runs.length + 1 := by simp [formats]
      rw [List.length_append, List.length_singleton] at hl
      omega
    have hr : runOp p op name t = .ok ⟨p.board.append (labelOf ((firsts (formats runs ++ [opFormat op name])).idxOf (opFormat op name) + 1) (shown op name)) t,
        numbered (firsts (formats runs ++ [opFormat op name]))⟩ := by
      unfold runOp serialTimer
      rw [h2, serialOf_numbered]
      simp only
      rw [label_ok q1 q2 _ hnum]
      rfl
    refine ⟨⟨p.board.append (labelOf ((firsts (formats runs ++ [opFormat op name])).idxOf (opFormat op name) + 1) (shown op name)) t,
        numbered (firsts (formats runs ++ [opFormat op name]))⟩, ?_, ?_, ?_⟩
    · rw [runAll_append, h1]
      show runAll p [(op, name, t)] = _
      simp only [runAll, hr]
      rfl
    · rw [hf]
    · intro label
      simp only
      rw [query_append, h3, hf, List.filter_append, List.map_append]
      have e : ∀ r ∈ runs, labelOf ((firsts (formats runs ++ [opFormat op name])).idxOf (opFormat r.1 r.2.1) + 1) (shown r.1 r.2.1) =
          labelOf ((firsts (formats runs)).idxOf (opFormat r.1 r.2.1) + 1) (shown r.1 r.2.1) := by
        intro r hr
        rw [idxOf_firsts_snoc]
        exact List.mem_map.2 ⟨r, hr, rfl⟩
      have e' : runs.filter (fun r => labelOf ((firsts (formats runs ++ [opFormat op name])).idxOf (opFormat r.1 r.2.1) + 1) (shown r.1 r.2.1) == label) =
          runs.filter (fun r => labelOf ((firsts (formats runs)).idxOf (opFormat r.1 r.2.1) + 1) (shown r.1 r.2.1) == label) :=
        List.filter_congr (fun r hr => by rw [e r hr])
      rw [e']
      by_cases hlab : labelOf ((firsts (formats runs ++ [opFormat op name])).idxOf (opFormat op name) + 1) (shown op name) = label
      · rw [if_pos hlab]
        simp [hlab]
      · rw [if_neg hlab]
        simp [hlab]

end S95
open S95
variable {R : Type}

/-- **C95 (records)**: for every sequence of runs of operators whose texts have no percent sign, nothing is undefined, and the board has under
the label of each operator exactly the times of its runs, in order; the label contains the number of the operator in the order of first use,
`op` and `name`, and nothing is recorded under any other label. -/
theorem C95_records (runs : List (List Nat × List Nat × R)) (hp : ∀ r ∈ runs, Plain r.1 ∧ Plain r.2.1) (hl : runs.length < 2 ^ 31) :
    ∃ p, runAll ⟨[], []⟩ runs = .ok p ∧
      (∀ r ∈ runs, Board.query p.board (labelOf ((firsts (runs.map (fun r => shown r.1 r.2.1))).idxOf (shown r.1 r.2.1) + 1) (shown r.1 r.2.1)) =
        timesOf runs (shown r.1 r.2.1)) ∧
      ∀ label, Board.query p.board label ≠ [] →
        ∃ r ∈ runs, label = labelOf ((firsts (runs.map (fun r => shown r.1 r.2.1))).idxOf (shown r.1 r.2.1) + 1) (shown r.1 r.2.1) := by
  obtain ⟨p, h1, _, h3⟩ := run_inv runs hp hl
  -- numbering the formats is numbering what is shown
  have key : ∀ (l : List (List Nat)) (k : List Nat),
      (firsts (l.map (fun x => bytes "op(%04d):" ++ x))).idxOf (bytes "op(%04d):" ++ k) = (firsts l).idxOf k := by
    intro l k
    have inj : Function.Injective (fun x : List Nat => bytes "op(%04d):" ++ x) := fun a b h => List.append_cancel_left h
    have hm : firsts (l.map (fun x => bytes "op(%04d):" ++ x)) = (firsts l).map (fun x => bytes "op(%04d):" ++ x) := by
      induction l using List.reverseRecOn with
      | nil => rfl
      | append_singleton l a ih =>
        rw [List.map_append, List.map_singleton, firsts_snoc, firsts_snoc, ih]
        have : (bytes "op(%04d):" ++ a) ∈ (firsts l).map (fun x => bytes "op(%04d):" ++ x) ↔ a ∈ firsts l := by
          constructor
          · intro h
            obtain ⟨b, hb, e⟩ := List.mem_map.1 h
            rw [← inj e]; exact hb
          · intro h; exact List.mem_map.2 ⟨a, h, rfl⟩
        by_cases ha : a ∈ firsts l
        · rw [if_pos (this.2 ha), if_pos ha]
        · rw [if_neg (fun h => ha (this.1 h)), if_neg ha]; simp
    rw [hm]
    generalize firsts l = m
    induction m with
    | nil => rfl
    | cons a m ih =>
      rw [List.map_cons]
      by_cases h : a = k
      · subst h; simp
      · rw [List.idxOf_cons_ne _ (fun e => h (inj e)), List.idxOf_cons_ne _ h, ih]
  have hidx : ∀ r : List Nat × List Nat × R, (firsts (formats runs)).idxOf (opFormat r.1 r.2.1) =
      (firsts (runs.map (fun r => shown r.1 r.2.1))).idxOf (shown r.1 r.2.1) := by
    intro r
    have e : formats runs = (runs.map (fun r => shown r.1 r.2.1)).map (fun x => bytes "op(%04d):" ++ x) := by
      simp [formats, opFormat, shown]
    rw [e]
    exact key _ _
  refine ⟨p, h1, ?_, ?_⟩
  · intro r hr
    rw [h3]
    unfold timesOf
    congr 1
    apply List.filter_congr
    intro r' hr'
    rw [hidx r', Bool.eq_iff_iff, beq_iff_eq, beq_iff_eq]
    constructor
    · intro h; exact labelOf_inj h
    · intro h; rw [h]
  · intro label hne
    rw [h3] at hne
    have : (runs.filter (fun r => labelOf ((firsts (formats runs)).idxOf (opFormat r.1 r.2.1) + 1) (shown r.1 r.2.1) == label)) ≠ [] := by
      intro h; rw [h] at hne; exact hne rfl
    obtain ⟨r, hr⟩ := List.exists_mem_of_ne_nil _ this
    rw [List.mem_filter] at hr
    refine ⟨r, hr.1, ?_⟩
    rw [← hidx r]
    exact (beq_iff_eq.1 hr.2).symm

example : ∀ r ∈ [(bytes "conv2d", bytes "a", (3 : ℚ)), (bytes "relu", bytes "b", 1), (bytes "conv2d", bytes "a", 5)], Plain r.1 ∧ Plain r.2.1 := by
  decide
example : labelOf 2 (shown (bytes "relu") (bytes "b")) = bytes "op(0002):relu:b" := by
  simp [labelOf, padded, decimal, shown, bytes]

/-- different operators have different labels, whatever their numbers -/
theorem C95_labels_differ (n n' : Nat) (k k' : List Nat) (h : k ≠ k') : labelOf n k ≠ labelOf n' k' := fun e => h (labelOf_inj e)

/-- **C95 (names with a percent sign), refuted**: if a name has a `%` that is not followed by another one, the label is printed with a format
that asks for arguments that do not exist: undefined, for every such name and every profiler -/
theorem C95_percent_false (p : Prof R) (op a b : List Nat) (c : Nat) (t : R) (h1 : Plain op) (h2 : Plain a) (h3 : c ≠ 37) (h4 : c ≠ 0) :
    runOp p op (a ++ 37 :: c :: b) t = .ub := by
  have h0 : cstr (opFormat op (a ++ 37 :: c :: b)) = 111 :: 112 :: 40 :: 37 :: 48 :: 52 :: 100 :: ((bytes "):" ++ (op ++ (bytes ":" ++ a))) ++ 37 :: c :: cstr b) := by
    have e : opFormat op (a ++ 37 :: c :: b) = (bytes "op(%04d):" ++ (op ++ (bytes ":" ++ a))) ++ 37 :: c :: b := by simp [opFormat]
    have hz : ∀ x ∈ bytes "op(%04d):" ++ (op ++ (bytes ":" ++ a)), (x != 0) = true := by
      have e1 : bytes ":" = [58] := rfl
      intro x hx
      rw [bne_iff_ne]
      rintro rfl
      rw [prefix_eq, e1] at hx
      simp [h1.2, h2.2] at hx
    rw [e]
    unfold cstr
    rw [List.takeWhile_append_of_pos hz, List.takeWhile_cons_of_pos (by decide), List.takeWhile_cons_of_pos (by simpa using h4)]
    rfl
  have hs : 37 ∉ bytes "):" ++ (op ++ (bytes ":" ++ a)) := by
    have e1 : bytes "):" = [41, 58] := rfl
    have e2 : bytes ":" = [58] := rfl
    simp [e1, e2, h1.1, h2.1]
  have hu : ∀ (n : Nat) (s : List Nat), 37 ∉ s → format n true (s ++ 37 :: c :: cstr b) = .ub := by
    intro n s
    induction s with
    | nil =>
      intro _
      show format n true (37 :: c :: cstr b) = .ub
      rw [format] <;> (intros; simp_all; done)
    | cons x s ih =>
      intro hs
      have hx : x ≠ 37 := fun e => hs (by simp [e])
      have := ih (fun e => hs (by simp [e]))
      have e : format n true (x :: s ++ 37 :: c :: cstr b) = (format n true (s ++ 37 :: c :: cstr b)).bind (fun o => .ok (x :: o)) := by
        rw [List.cons_append, format] <;> first | rfl | (intros; simp_all; done)
      rw [e, this]
      rfl
  have hf : ∀ n, format n false (111 :: 112 :: 40 :: 37 :: 48 :: 52 :: 100 :: ((bytes "):" ++ (op ++ (bytes ":" ++ a))) ++ 37 :: c :: cstr b)) = .ub := by
    intro n
    have e3 : format n false (111 :: 112 :: 40 :: 37 :: 48 :: 52 :: 100 :: ((bytes "):" ++ (op ++ (bytes ":" ++ a))) ++ 37 :: c :: cstr b)) =
        ((((format n true ((bytes "):" ++ (op ++ (bytes ":" ++ a))) ++ 37 :: c :: cstr b)).bind fun o => .ok (padded 4 n ++ o)).bind
          fun o => .ok (40 :: o)).bind fun o => .ok (112 :: o)).bind fun o => .ok (111 :: o) := rfl
    rw [e3, hu n _ hs]
    rfl
  unfold runOp serialTimer snprintf
  rw [h0]
  obtain ⟨m, n⟩ := serialOf p.serials (opFormat op (a ++ 37 :: c :: b))
  simp only [hf]
  rfl

example : Plain (bytes "relu") ∧ Plain (bytes "drop50") ∧ bytes "drop50%s" = bytes "drop50" ++ 37 :: 115 :: [] := by decide

/-- **C95 (average)**: the average of recorded times is their sum divided by their number (exact arithmetic) -/
theorem C95_average (l : List ℚ) (h : l ≠ []) : avg l * (l.length : ℚ) = l.sum := by
  have hs : ∀ (l : List ℚ) (a : ℚ), l.foldl (· + ·) a = a + l.sum := by
    intro l
    induction l with
    | nil => intro a; simp
    | cons x l ih => intro a; rw [List.foldl_cons, ih, List.sum_cons, add_assoc]
  have hl : (l.length : ℚ) ≠ 0 := by
    have := List.length_pos_iff.2 h
    exact_mod_cast (by omega : l.length ≠ 0)
  unfold avg sum
  rw [if_neg (by simpa using h), hs, zero_add]
  field_simp

example : avg [(3 : ℚ), 5] = 4 := by norm_num [avg, sum]

/-- **C95 (clearing), refuted**: clearing a label leaves all that was recorded under it, on every board -/
theorem C95_clear_false (b : Board R) (name name' : List Nat) : Board.query (b.clear name) name' = Board.query b name' := rfl

example : Board.query (Board.clear [(bytes "a", [(1 : ℚ), 2])] (bytes "a")) (bytes "a") ≠ [] := by decide

/-- **C95 (one label), refuted after `clean`**: the numbers start again but the board is kept, so the times of one operator are found under
two labels -/
theorem C95_clean_false : ∃ (p q : Prof ℚ), runAll ⟨[], []⟩ [(bytes "add", bytes "a", 1), (bytes "add", bytes "b", 2)] = .ok p ∧
    runAll p.clean [(bytes "add", bytes "b", 3)] = .ok q ∧
    Board.query q.board (bytes "op(0002):add:b") = [2] ∧ Board.query q.board (bytes "op(0001):add:b") = [3] := by
  have e1 : padded 4 1 = [48, 48, 48, 49] := by simp [padded, decimal]
  have e2 : padded 4 2 = [48, 48, 48, 50] := by simp [padded, decimal]
  have hp : ∀ r ∈ [(bytes "add", bytes "a", (1 : ℚ)), (bytes "add", bytes "b", 2)], Plain r.1 ∧ Plain r.2.1 := by decide
  obtain ⟨p, h1, _, h3⟩ := run_inv _ hp (by decide)
  have l1 := label_ok (op := bytes "add") (name := bytes "b") (by decide) (by decide) 1 (by decide)
  have l2 : labelOf 1 (shown (bytes "add") (bytes "b")) = bytes "op(0001):add:b" := by simp [labelOf, e1, shown, bytes]
  have i1 : (firsts (formats [(bytes "add", bytes "a", (1 : ℚ)), (bytes "add", bytes "b", 2)])).idxOf (opFormat (bytes "add") (bytes "a")) = 0 := by
    decide +kernel
  have i2 : (firsts (formats [(bytes "add", bytes "a", (1 : ℚ)), (bytes "add", bytes "b", 2)])).idxOf (opFormat (bytes "add") (bytes "b")) = 1 := by
    decide +kernel
  have l3 : labelOf 1 (shown (bytes "add") (bytes "a")) = bytes "op(0001):add:a" := by simp [labelOf, e1, shown, bytes]
  have l4 : labelOf 2 (shown (bytes "add") (bytes "b")) = bytes "op(0002):add:b" := by simp [labelOf, e2, shown, bytes]
  refine ⟨p, ⟨p.board.append (bytes "op(0001):add:b") 3, [(opFormat (bytes "add") (bytes "b"), 1)]⟩, h1, ?_, ?_, ?_⟩
  · simp only [runAll, runOp, serialTimer, Prof.clean, serialOf, List.find?_nil, List.length_nil, Nat.zero_add, List.nil_append]
    rw [l1, l2]
    rfl
  · simp only
    rw [query_append, if_neg (by decide), h3]
    simp only [List.filter_cons, List.filter_nil, i1, i2, Nat.zero_add, Nat.reduceAdd, l3, l4]
    rw [if_neg (by decide), if_pos (by decide)]
    rfl
  · simp only
    rw [query_append, if_pos rfl, h3]
    simp only [List.filter_cons, List.filter_nil, i1, i2, Nat.zero_add, Nat.reduceAdd, l3, l4]
    rw [if_neg (by decide), if_neg (by decide)]
    rfl

namespace S95
variable {A : Type}

/-- the actions that objects still hold -/
def held (m : Laters A) : List A := m.flatMap (fun e => e.2.toList)

/-- the actions that a program made -/
def made : List (LOp A) → List A
  | [] => []
  | .make _ a :: l => a.toList ++ made l
  | _ :: l => made l

/-- objects have different numbers -/
def Fine (m : Laters A) : Prop := (m.map Prod.fst).Nodup

theorem get_mem {m : Laters A} {i : Nat} {v : Option A} (h : m.get i = some v) : (i, v) ∈ m := by
  unfold Laters.get at h
  rw [Option.map_eq_some_iff] at h
  obtain ⟨e, h1, h2⟩ := h
  have h3 := List.find?_some h1
  have h4 := List.mem_of_find?_eq_some h1
  simp only [beq_iff_eq] at h3
  obtain ⟨k, w⟩ := e
  simp only at h3 h2
  rw [← h3, ← h2]; exact h4

theorem get_none {m : Laters A} {i : Nat} (h : m.get i = none) : i ∉ m.map Prod.fst := by
  unfold Laters.get at h
  rw [Option.map_eq_none_iff, List.find?_eq_none] at h
  intro hm
  obtain ⟨e, h1, h2⟩ := List.mem_map.1 hm
  exact h e h1 (by simp [h2])

theorem set_of_not_mem {m : Laters A} {i : Nat} {v : Option A} (h : i ∉ m.map Prod.fst) : m.set i v = m := by
  unfold Laters.set
  conv => rhs; rw [← List.map_id m]
  apply List.map_congr_left
  intro e he
  rw [if_neg]
  · rfl
  · rintro rfl
    exact h (List.mem_map.2 ⟨e, he, rfl⟩)

/-- taking one object out -/
theorem split_at : ∀ {m : Laters A} {i : Nat} {v : Option A}, Fine m → m.get i = some v →
    ∃ l r, m = l ++ (i, v) :: r ∧ i ∉ l.map Prod.fst ∧ i ∉ r.map Prod.fst := by
  intro m i v hf h
  obtain ⟨l, r, e⟩ := List.append_of_mem (get_mem h)
  refine ⟨l, r, e, ?_, ?_⟩
  · intro hm
    unfold Fine at hf
    rw [e, List.map_append, List.nodup_append] at hf
    exact hf.2.2 i hm i (by simp) rfl
  · intro hm
    unfold Fine at hf
    rw [e, List.map_append, List.nodup_append, List.map_cons, List.nodup_cons] at hf
    exact hf.2.1.1 hm

theorem set_split {l r : Laters A} {i : Nat} {v w : Option A} (h1 : i ∉ l.map Prod.fst) (h2 : i ∉ r.map Prod.fst) :
    Laters.set (l ++ (i, v) :: r) i w = l ++ (i, w) :: r := by
  have e1 := set_of_not_mem (v := w) h1
  have e2 := set_of_not_mem (v := w) h2
  unfold Laters.set at *
  rw [List.map_append, List.map_cons, e1, e2]
  simp

theorem fine_set {m : Laters A} (h : Fine m) (i : Nat) (v : Option A) : Fine (m.set i v) := by
  unfold Fine Laters.set at *
  rw [List.map_map]
  have : (Prod.fst ∘ fun e : Nat × Option A => if e.1 = i then (i, v) else e) = Prod.fst := by
    funext e
    simp only [Function.comp]
    split
    · rename_i h; exact h.symm
    · rfl
  rw [this]
  exact h

theorem held_set {m : Laters A} (hf : Fine m) {i : Nat} {v : Option A} (h : m.get i = some v) (w : Option A) :
    (held (m.set i w) ++ v.toList).Perm (held m ++ w.toList) := by
  obtain ⟨l, r, e, h1, h2⟩ := split_at hf h
  rw [e, set_split h1 h2]
  simp only [held, List.flatMap_append, List.flatMap_cons]
  have key : ∀ (a b c d : List A), (a ++ (b ++ c) ++ d).Perm (a ++ (d ++ c) ++ b) := by
    intro a b c d
    simp only [List.append_assoc]
    refine List.Perm.append_left a ?_
    refine (List.perm_append_comm).trans ?_
    refine ((List.perm_append_comm (l₁ := c) (l₂ := d)).append_right b).trans ?_
    simp only [List.append_assoc]
    exact List.Perm.refl _
  exact key _ _ _ _

theorem get_set {m : Laters A} {i j : Nat} {v w : Option A} (h : m.get j = some v) : ∃ u, (m.set i w).get j = some u ∧ (u = v ∨ (i = j ∧ u = w)) := by
  unfold Laters.get Laters.set at *
  rw [Option.map_eq_some_iff] at h
  obtain ⟨e, h1, h2⟩ := h
  have : ((m.map fun e => if e.1 = i then (i, w) else e).find? (fun e => e.1 == j)) = some (if e.1 = i then (i, w) else e) := by
    rw [List.find?_map]
    have : (fun e : Nat × Option A => e.1 == j) ∘ (fun e => if e.1 = i then (i, w) else e) = fun e => e.1 == j := by
      funext e
      simp only [Function.comp]
      split
      · rename_i h; simp [h]
      · rfl
    rw [this, h1]
    rfl
  rw [this]
  have h3 := List.find?_some h1
  simp only [beq_iff_eq] at h3
  by_cases hi : e.1 = i
  · exact ⟨w, by simp [hi], .inr ⟨hi.symm.trans h3, rfl⟩⟩
  · exact ⟨v, by simp [hi, h2], .inl rfl⟩

theorem lstep_perm {m m1 : Laters A} {o : LOp A} {a : List A} (hf : Fine m) (h : lstep m o = some (m1, a)) :
    Fine m1 ∧ (a ++ held m1).Perm (made [o] ++ held m) := by
  cases o with
  | make i v =>
    simp only [lstep] at h
    split at h
    · cases h
    · rename_i hn
      simp only [Option.some.injEq, Prod.mk.injEq] at h
      obtain ⟨rfl, rfl⟩ := h
      have hn' := get_none (by simpa using hn : m.get i = none)
      refine ⟨?_, ?_⟩
      · unfold Fine; rw [List.map_cons, List.nodup_cons]; exact ⟨hn', hf⟩
      · simp [made, held]
  | moveNew i j =>
    simp only [lstep] at h
    split at h
    · cases h
    · rename_i hn
      split at h
      · cases h
      · rename_i v hv
        simp only [Option.some.injEq, Prod.mk.injEq] at h
        obtain ⟨rfl, rfl⟩ := h
        have hn' := get_none (by simpa using hn : m.get i = none)
        refine ⟨?_, ?_⟩
        · have := fine_set hf j none
          unfold Fine at *
          rw [List.map_cons, List.nodup_cons]
          refine ⟨?_, this⟩
          intro hm
          apply hn'
          obtain ⟨e, he, e2⟩ := List.mem_map.1 hm
          unfold Laters.set at he
          obtain ⟨e', he', rfl⟩ := List.mem_map.1 he
          split at e2
          · rename_i hh
            exact List.mem_map.2 ⟨e', he', hh.trans e2⟩
          · exact List.mem_map.2 ⟨e', he', e2⟩
        · have := held_set hf hv none
          simp only [Option.toList_none, List.append_nil] at this
          simp only [made, List.nil_append]
          show (v.toList ++ held (m.set j none)).Perm (held m)
          exact List.perm_append_comm.trans this
  | moveAssign i j =>
    simp only [lstep] at h
    split at h
    · rename_i u v hu hv
      simp only [Option.some.injEq, Prod.mk.injEq] at h
      obtain ⟨rfl, rfl⟩ := h
      refine ⟨fine_set (fine_set hf i v) j u, ?_⟩
      simp only [made, List.nil_append]
      obtain ⟨x, hx, hx'⟩ := get_set (i := i) (w := v) hv
      have hxv : x = v := by rcases hx' with h | ⟨_, h⟩ <;> exact h
      rw [hxv] at hx
      have p1 := held_set hf hu v
      have p2 := held_set (fine_set hf i v) hx u
      -- held m2 ++ v ~ held m1 ++ u ~ held m ++ v
      exact (List.perm_append_right_iff v.toList).1 (p2.trans p1)
    · cases h
  | destroy i =>
    simp only [lstep] at h
    split at h
    · cases h
    · rename_i v hv
      simp only [Option.some.injEq, Prod.mk.injEq] at h
      obtain ⟨rfl, rfl⟩ := h
      refine ⟨?_, ?_⟩
      · exact hf.sublist ((List.filter_sublist).map _)
      · obtain ⟨l, r, e, h1, h2⟩ := split_at hf hv
        have fl : ∀ (l : Laters A), i ∉ l.map Prod.fst → l.filter (fun e => e.1 != i) = l := by
          intro l hl
          rw [List.filter_eq_self]
          intro x hx
          simp only [bne_iff_ne]
          intro hxi
          exact hl (List.mem_map.2 ⟨x, hx, hxi⟩)
        rw [e, List.filter_append, List.filter_cons_of_neg (by simp), fl l h1, fl r h2]
        simp only [made, List.nil_append, held, List.flatMap_append, List.flatMap_cons]
        rw [← List.append_assoc, ← List.append_assoc]
        exact List.Perm.append_right _ List.perm_append_comm

end S95

/-- **C95 (timers)**: whatever a program does with timers (making, moving into new ones, moving onto others, destroying), every action that was
made is run exactly once or still held by one living timer; so when no timer lives, every action was run exactly once -/
theorem C95_once {A : Type} (l : List (LOp A)) (m : Laters A) (a : List A) (h : lrun [] l = some (m, a)) :
    (a ++ held m).Perm (made l) ∧ (m = [] → a.Perm (made l)) := by
  have key : ∀ (l : List (LOp A)) (m0 m : Laters A) (a : List A), Fine m0 → lrun m0 l = some (m, a) → (a ++ held m).Perm (made l ++ held m0) := by
    intro l
    induction l with
    | nil =>
      intro m0 m a _ h
      simp only [lrun, Option.some.injEq, Prod.mk.injEq] at h
      obtain ⟨rfl, rfl⟩ := h
      exact List.Perm.refl _
    | cons o l ih =>
      intro m0 m a hf h
      simp only [lrun, Option.bind_eq_bind, Option.bind_eq_some_iff] at h
      obtain ⟨⟨m1, a1⟩, h1, ⟨⟨m2, a2⟩, h2, h3⟩⟩ := h
      simp only [Option.some.injEq, Prod.mk.injEq] at h3
      obtain ⟨rfl, rfl⟩ := h3
      obtain ⟨f1, p1⟩ := lstep_perm hf h1
      have p2 := ih m1 m2 a2 f1 h2
      have e : made (o :: l) = made [o] ++ made l := by cases o <;> simp [made]
      rw [e, List.append_assoc, List.append_assoc]
      refine (List.Perm.append_left a1 p2).trans ?_
      have : (a1 ++ (made l ++ held m1)).Perm (made l ++ (a1 ++ held m1)) := by
        rw [← List.append_assoc, ← List.append_assoc]
        exact List.Perm.append_right _ List.perm_append_comm
      refine this.trans ((List.Perm.append_left _ p1).trans ?_)
      rw [← List.append_assoc, ← List.append_assoc]
      exact List.Perm.append_right _ List.perm_append_comm
  have := key l [] m a (by simp [Fine]) h
  simp only [held, List.flatMap_nil, List.append_nil] at this
  refine ⟨this, ?_⟩
  rintro rfl
  simpa [held] using this

example : lrun ([] : Laters Nat) [.make 0 (some 7), .make 1 (some 8), .moveAssign 0 1, .moveNew 2 0, .destroy 0, .destroy 1, .destroy 2] =
    some ([], [7, 8]) := by decide

/-- the number that a text of decimal digits stands for -/
def number (s : List Nat) : Nat := s.foldl (fun a d => 10 * a + (d - 48)) 0

theorem number_digits (l : List Nat) : number ((l.reverse).map (48 + ·)) = Nat.ofDigits 10 l := by
  unfold number
  rw [List.foldl_map, List.foldl_reverse]
  induction l with
  | nil => rfl
  | cons d l ih => rw [List.foldr_cons, ih, Nat.ofDigits_cons]; simp; omega

/-- **C95 (the number in a label)**: a label shows the number in decimal with at least four digits; text with `%%` shows one `%`; and a text never takes more
than the buffer has room for, the terminating zero included -/
theorem C95_label_text (n : Nat) : number (padded 4 n) = n ∧ 4 ≤ (padded 4 n).length ∧ (∀ d ∈ padded 4 n, 48 ≤ d ∧ d ≤ 57) ∧
    (∀ (used : Bool) (s : List Nat), 37 ∉ s → format n used (37 :: 37 :: s) = .ok (37 :: s)) ∧
    (∀ (size : Nat) (s : List Nat), 37 ∉ s → 0 ∉ s → snprintf size n s = .ok (s.take (size - 1))) := by
  refine ⟨?_, ?_, ?_, ?_, ?_⟩
  · unfold padded number
    rw [List.foldl_append]
    have h0 : ∀ k, List.foldl (fun a d => 10 * a + (d - 48)) 0 (List.replicate k 48) = 0 := by
      intro k; induction k with
      | zero => rfl
      | succ k ih => rw [List.replicate_succ, List.foldl_cons]; exact ih
    rw [h0]
    have := number_digits (Nat.digits 10 n)
    rw [Nat.ofDigits_digits] at this
    exact this
  · unfold padded; simp; omega
  · intro d hd
    unfold padded decimal at hd
    simp only [List.mem_append, List.mem_replicate, List.mem_map, List.mem_reverse] at hd
    rcases hd with ⟨-, rfl⟩ | ⟨x, hx, rfl⟩
    · omega
    · have := Nat.digits_lt_base (by norm_num) hx
      omega
  · intro used s hs
    have : format n used (37 :: 37 :: s) = (format n used s).bind (fun o => .ok (37 :: o)) := by
      cases used <;> rw [format] <;> rfl
    rw [this, format_plain n used s hs]
    rfl
  · intro size s h1 h2
    unfold snprintf
    rw [cstr_eq h2, format_plain n false s h1, Res.bind_ok]

example : number (padded 4 20) = 20 ∧ padded 4 20 = bytes "0020" := ⟨(C95_label_text 20).1, by simp [padded, decimal, bytes]⟩

end Verif.Props
