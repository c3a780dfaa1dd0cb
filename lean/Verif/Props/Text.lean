import Verif.Utils.Text
import Mathlib.Tactic.Linarith
import Mathlib.Tactic.NormNum
import Mathlib.Tactic.Positivity
import Mathlib.Tactic.FieldSimp
import Mathlib.Tactic.Ring
/-!
# C104: directories for dumps, and texts
-/
namespace Verif.Props.Text
open Verif.Utils.Text

variable {α : Type} [DecidableEq α]

/-! ## splitting and joining -/

/-- **Specification**: the text `s` is the parts, in order, with one separator between any two -/
inductive Weave (sep : List α) : List (List α) → List α → Prop
  | last (p : List α) : Weave sep [p] p
  | cons (p : List α) (c : α) (ps : List (List α)) (s : List α) : c ∈ sep → Weave sep ps s → Weave sep (p :: ps) (p ++ c :: s)

theorem find_none (sep : List α) : ∀ (s : List α), findDecollator sep s = none ↔ ∀ c ∈ s, c ∉ sep
  | [] => by simp [findDecollator]
  | c :: s => by
    rw [findDecollator]
    by_cases h : c ∈ sep
    · simp [h]
    · simp [h, find_none sep s]

theorem find_some (sep : List α) : ∀ (s : List α) (r : Nat), findDecollator sep s = some r →
    ∃ c, c ∈ sep ∧ s = s.take r ++ c :: s.drop (r + 1) ∧ ∀ d ∈ s.take r, d ∉ sep
  | [], r, h => by simp [findDecollator] at h
  | a :: s, r, h => by
    rw [findDecollator] at h
    by_cases ha : a ∈ sep
    · rw [if_pos ha] at h
      simp only [Option.some.injEq] at h
      subst h
      exact ⟨a, ha, by simp, by simp⟩
    · rw [if_neg ha] at h
      cases e : findDecollator sep s with
      | none => simp [e] at h
      | some q =>
        simp only [e, Option.map_some, Option.some.injEq] at h
        subst h
        obtain ⟨c, hc, h1, h2⟩ := find_some sep s q e
        refine ⟨c, hc, ?_, ?_⟩
        · simp only [List.take_succ_cons, List.drop_succ_cons, List.cons_append, List.cons.injEq, true_and]; exact h1
        · intro d hd
          rw [List.take_succ_cons, List.mem_cons] at hd
          rcases hd with rfl | hd
          · exact ha
          · exact h2 d hd

theorem find_append (sep : List α) (c : α) (hc : c ∈ sep) : ∀ (p s : List α), (∀ d ∈ p, d ∉ sep) → findDecollator sep (p ++ c :: s) = some p.length
  | [], s, _ => by simp [findDecollator, hc]
  | a :: p, s, h => by
    rw [List.cons_append, findDecollator, if_neg (h a (by simp)), find_append sep c hc p s (fun d hd => h d (by simp [hd]))]
    simp

theorem split_none {sep s : List α} (h : findDecollator sep s = none) : split sep s = [s] := by
  rw [split]; split
  · rfl
  · rename_i r hr; rw [h] at hr; cases hr

theorem split_some {sep s : List α} {r : Nat} (h : findDecollator sep s = some r) : split sep s = s.take r :: split sep (s.drop (r + 1)) := by
  rw [split]; split
  · rename_i hr; rw [h] at hr; cases hr
  · rename_i q hq; rw [h] at hq; cases hq; rfl

theorem split_spec (sep : List α) : ∀ (n : Nat) (s : List α), s.length ≤ n → Weave sep (split sep s) s ∧ ∀ p ∈ split sep s, ∀ c ∈ p, c ∉ sep := by
  intro n
  induction n with
  | zero =>
    intro s hs
    have : s = [] := List.length_eq_zero_iff.1 (by omega)
    subst this
    rw [split_none (by rfl)]
    exact ⟨.last _, by simp⟩
  | succ n ih =>
    intro s hs
    cases h : findDecollator sep s with
    | none =>
      rw [split_none h]
      exact ⟨.last _, by simpa using (find_none sep s).1 h⟩
    | some r =>
      obtain ⟨c, hc, h1, h2⟩ := find_some sep s r h
      have hlt := findDecollator_lt sep s r h
      obtain ⟨w, hw⟩ := ih (s.drop (r + 1)) (by simp; omega)
      rw [split_some h]
      refine ⟨?_, ?_⟩
      · have := Weave.cons (sep := sep) (s.take r) c _ _ hc w
        rwa [← h1] at this
      · intro p hp
        rcases List.mem_cons.1 hp with rfl | hp
        · exact h2
        · exact hw p hp

theorem split_unique (sep : List α) {parts : List (List α)} {s : List α} (hw : Weave sep parts s) (hp : ∀ p ∈ parts, ∀ c ∈ p, c ∉ sep) :
    split sep s = parts := by
  induction hw with
  | last p => exact split_none ((find_none sep p).2 (hp p (by simp)))
  | cons p c ps s hc hw ih =>
    have h := find_append sep c hc p s (hp p (by simp))
    rw [split_some h, List.take_left]
    have e : (p ++ c :: s).drop (p.length + 1) = s := by
      rw [← List.drop_drop, List.drop_left]; rfl
    rw [e, ih (fun q hq => hp q (by simp [hq]))]

/-- **C104**: `Split` gives the one list of parts without separators that makes the text with separators in between. -/
theorem C104_split (sep s : List α) (parts : List (List α)) :
    split sep s = parts ↔ Weave sep parts s ∧ ∀ p ∈ parts, ∀ c ∈ p, c ∉ sep :=
  ⟨fun h => h ▸ split_spec sep s.length s (Nat.le_refl _), fun h => split_unique sep h.1 h.2⟩
example : split ['\\', '/'] "a\\/b/".toList = ["a".toList, [], "b".toList, []] := by
  rw [C104_split]
  refine ⟨?_, by decide⟩
  exact .cons ['a'] '\\' _ _ (by decide) (.cons [] '/' _ _ (by decide) (.cons ['b'] '/' _ _ (by decide) (.last [])))

theorem join_weave (c : α) : ∀ (parts : List (List α)), parts ≠ [] → Weave [c] parts (join parts [c])
  | [], h => absurd rfl h
  | [p], _ => .last p
  | p :: q :: r, _ => by
    have := Weave.cons (sep := [c]) p c _ _ (by simp) (join_weave c (q :: r) (by simp))
    rw [join, List.append_assoc]; exact this

theorem weave_join (c : α) {parts : List (List α)} {s : List α} (h : Weave [c] parts s) : join parts [c] = s := by
  induction h with
  | last p => rfl
  | cons p d ps s hd hw ih =>
    simp only [List.mem_singleton] at hd
    subst hd
    cases hw with
    | last q => simp [join]
    | cons q e qs t he hw =>
      rw [join, List.append_assoc, ih]; rfl

/-- **C104**: splitting undoes joining, if no part contains the separator. -/
theorem C104_join (c : α) (parts : List (List α)) (h0 : parts ≠ []) (h : ∀ p ∈ parts, c ∉ p) : split [c] (join parts [c]) = parts :=
  split_unique [c] (join_weave c parts h0) (fun p hp d hd e => h p hp (by simp only [List.mem_singleton] at e; exact e ▸ hd))
example : split ['/'] (join [[], "a".toList, "b".toList] ['/']) = [[], "a".toList, "b".toList] := C104_join '/' _ (by simp) (by decide)

/-- **C104**: joining undoes splitting at one character. -/
theorem C104_split_join (c : α) (s : List α) : join (split [c] s) [c] = s := weave_join c (split_spec [c] s.length s (Nat.le_refl _)).1

/-! ## directories -/

/-- the names in a list of parts -/
def namesOf (l : List (List Char)) : List (List Char) := l.filter fun n => decide (n ≠ [])

/-- **Specification**: the first `k` directories on the way to `dir`, slashes and backslashes counting as separators -/
def ancestor (dir : List Char) (k : Nat) : Path :=
  ⟨decide (dir.head? = some '/' ∨ dir.head? = some '\\'), (namesOf (split ['\\', '/'] dir)).take k⟩

theorem resolve_join (done' : List (List Char)) (p : List Char) (hp : p ≠ []) (hs : ∀ q ∈ done' ++ [p], '/' ∉ q) :
    resolve (join (done' ++ [p]) ['/']) = ⟨decide ((done' ++ [p]).head? = some []), namesOf (done' ++ [p])⟩ := by
  unfold resolve namesOf
  rw [C104_join '/' (done' ++ [p]) (by simp) hs]
  congr 1
  cases done' with
  | nil =>
    cases p with
    | nil => exact absurd rfl hp
    | cons c p =>
      have : c ≠ '/' := fun e => hs (c :: p) (by simp) (by simp [e])
      simp [join, this]
  | cons q qs =>
    have e : join (q :: qs ++ [p]) ['/'] = q ++ ['/'] ++ join (qs ++ [p]) ['/'] := by
      cases qs with
      | nil => simp [join]
      | cons => simp [join]
    rw [e]
    cases q with
    | nil => simp
    | cons c q =>
      have : c ≠ '/' := fun e => hs (c :: q) (by simp) (by simp [e])
      simp [this]

/-- what `mkdir_core` does at one path -/
theorem core_keeps (fs : Fs) (dir : List Char) : (mkdirCore fs dir).1.allowed = fs.allowed ∧
    (∀ q k, fs.at' q = some k → (mkdirCore fs dir).1.at' q = some k) ∧
    (∀ q, (mkdirCore fs dir).1.at' q ≠ fs.at' q → (mkdirCore fs dir).1.at' q = some .dir ∧ q = resolve dir) ∧
    ((mkdirCore fs dir).2 = true → (mkdirCore fs dir).1.at' (resolve dir) ≠ none) := by
  unfold mkdirCore sysMkdir
  split
  · rename_i h
    split
    · rename_i h2
      refine ⟨rfl, ?_, ?_, ?_⟩
      · intro q k hq
        by_cases e : q = resolve dir
        · subst e; rw [h] at hq; cases hq
        · simp [e, hq]
      · intro q hq
        by_cases e : q = resolve dir
        · subst e; exact ⟨by simp, rfl⟩
        · simp [e] at hq
      · intro _; simp
    · exact ⟨rfl, fun q k hq => hq, fun q hq => absurd rfl hq, by simp⟩
  · rename_i h
    exact ⟨rfl, fun q k hq => hq, fun q hq => absurd rfl hq, fun _ => h⟩

/-- the loop: what it keeps, what it makes, and when it succeeds -/
theorem loop_spec (b : Bool) : ∀ (todo done' : List (List Char)) (fs : Fs), (∀ q ∈ done' ++ todo, '/' ∉ q) →
    (decide ((done' ++ todo).head? = some []) = b) →
    let r := mkdirLoop done' todo fs
    r.1.allowed = fs.allowed ∧ (∀ q k, fs.at' q = some k → r.1.at' q = some k) ∧
    (∀ q, r.1.at' q ≠ fs.at' q → r.1.at' q = some .dir ∧ ∃ j, q = ⟨b, namesOf done' ++ (namesOf todo).take j⟩) ∧
    (r.2 = true → fs.at' ⟨b, namesOf done'⟩ ≠ none → ∀ j, r.1.at' ⟨b, namesOf done' ++ (namesOf todo).take j⟩ ≠ none) ∧
    (fs.at' ⟨b, namesOf done'⟩ = some .dir → (∀ j, fs.at' ⟨b, namesOf done' ++ (namesOf todo).take j⟩ ≠ some .file) →
      (∀ j, fs.at' ⟨b, namesOf done' ++ (namesOf todo).take j⟩ = none → fs.allowed ⟨b, namesOf done' ++ (namesOf todo).take j⟩ = true) → r.2 = true) := by
  intro todo
  induction todo with
  | nil =>
    intro done' fs _ _
    refine ⟨rfl, fun q k h => h, fun q h => absurd rfl h, ?_, fun _ _ _ => rfl⟩
    intro _ h j
    simpa [namesOf, mkdirLoop] using h
  | cons p todo ih =>
    intro done' fs hs hb
    have hs' : ∀ q ∈ (done' ++ [p]) ++ todo, '/' ∉ q := by simpa using hs
    have hb' : decide (((done' ++ [p]) ++ todo).head? = some []) = b := by simpa using hb
    by_cases hp : p = []
    · have e : mkdirLoop done' (p :: todo) fs = mkdirLoop (done' ++ [p]) todo fs := by rw [mkdirLoop, if_pos hp]
      have n1 : namesOf (done' ++ [p]) = namesOf done' := by simp [namesOf, hp]
      have n2 : namesOf (p :: todo) = namesOf todo := by simp [namesOf, hp]
      have := ih (done' ++ [p]) fs hs' hb'
      rw [n1] at this
      rw [e, n2]
      exact this
    · have n1 : namesOf (done' ++ [p]) = namesOf done' ++ [p] := by simp [namesOf, hp]
      have n2 : namesOf (p :: todo) = p :: namesOf todo := by simp [namesOf, hp]
      have hres : resolve (join (done' ++ [p]) ['/']) = ⟨b, namesOf done' ++ [p]⟩ := by
        rw [resolve_join done' p hp (fun q hq => hs' q (by simp only [List.mem_append] at hq ⊢; exact .inl hq)), n1]
        congr 1
        rw [← hb]
        congr 1
        cases done' <;> simp
      obtain ⟨c1, c2, c3, c4⟩ := core_keeps fs (join (done' ++ [p]) ['/'])
      rw [hres] at c3 c4
      have take1 : ∀ j, namesOf done' ++ (namesOf (p :: todo)).take (j + 1) = namesOf (done' ++ [p]) ++ (namesOf todo).take j := by
        intro j; rw [n1, n2]; simp
      rw [mkdirLoop, if_neg hp]
      simp only
      generalize hr : mkdirCore fs (join (done' ++ [p]) ['/']) = r at *
      by_cases ht : r.2 = true
      · rw [if_pos ht]
        obtain ⟨d1, d2, d3, d4, d5⟩ := ih (done' ++ [p]) r.1 hs' hb'
        refine ⟨by rw [d1, c1], fun q k hq => d2 q k (c2 q k hq), ?_, ?_, ?_⟩
        · intro q hq
          by_cases hq1 : (mkdirLoop (done' ++ [p]) todo r.1).1.at' q = r.1.at' q
          · rw [hq1] at hq ⊢
            obtain ⟨e1, e2⟩ := c3 q hq
            refine ⟨e1, 1, ?_⟩
            rw [e2, take1 0, n1]; simp
          · obtain ⟨e1, j, e2⟩ := d3 q hq1
            exact ⟨e1, j + 1, by rw [e2, take1]⟩
        · intro h2 hbase j
          have hmid : r.1.at' ⟨b, namesOf (done' ++ [p])⟩ ≠ none := by rw [n1]; exact c4 ht
          cases j with
          | zero =>
            obtain ⟨k, hk⟩ := Option.ne_none_iff_exists'.1 hbase
            simp only [List.take_zero, List.append_nil]
            rw [d2 _ k (c2 _ k hk)]; simp
          | succ j => rw [take1]; exact d4 h2 hmid j
        · intro hbase hfile hallow
          have hany : ∀ j, r.1.at' ⟨b, namesOf (done' ++ [p]) ++ (namesOf todo).take j⟩ = fs.at' ⟨b, namesOf (done' ++ [p]) ++ (namesOf todo).take j⟩ ∨
              r.1.at' ⟨b, namesOf (done' ++ [p]) ++ (namesOf todo).take j⟩ = some .dir := by
            intro j
            by_cases h : r.1.at' ⟨b, namesOf (done' ++ [p]) ++ (namesOf todo).take j⟩ = fs.at' ⟨b, namesOf (done' ++ [p]) ++ (namesOf todo).take j⟩
            · exact .inl h
            · exact .inr (c3 _ h).1
          apply d5
          · have h := c4 ht
            rw [← n1] at h
            have := hany 0
            simp only [List.take_zero, List.append_nil] at this
            rcases this with h' | h'
            · have hf := hfile 1
              rw [take1 0] at hf
              simp only [List.take_zero, List.append_nil] at hf
              rw [h'] at h ⊢
              cases hk : fs.at' ⟨b, namesOf (done' ++ [p])⟩ with
              | none => exact absurd hk h
              | some k => cases k with
                | dir => rfl
                | file => exact absurd hk hf
            · exact h'
          · intro j
            have hf := hfile (j + 1)
            rw [take1] at hf
            rcases hany j with h | h
            · rw [h]; exact hf
            · rw [h]; simp
          · intro j hj
            have ha := hallow (j + 1)
            rw [take1] at ha
            rcases hany j with h | h
            · rw [h] at hj; rw [c1]; exact ha hj
            · rw [h] at hj; cases hj
      · rw [if_neg ht]
        refine ⟨c1, c2, ?_, fun h => absurd h (by simp), ?_⟩
        · intro q hq
          obtain ⟨e1, e2⟩ := c3 q hq
          refine ⟨e1, 1, ?_⟩
          rw [e2, take1 0, n1]; simp
        · intro hbase hfile hallow
          exfalso
          apply ht
          rw [← hr, mkdirCore, hres]
          split
          · rename_i hnone
            have ha := hallow 1
            rw [take1 0, n1] at ha
            simp only [List.take_zero, List.append_nil] at ha
            rw [sysMkdir, if_pos ⟨hnone, by simp, by simpa [Path.parent] using hbase, ha hnone⟩]
          · rfl

theorem split_head (dir : List Char) (h : namesOf (split ['\\', '/'] dir) ≠ []) :
    decide ((split ['\\', '/'] dir).head? = some []) = decide (dir.head? = some '/' ∨ dir.head? = some '\\') := by
  obtain ⟨w, hp⟩ := split_spec ['\\', '/'] dir.length dir (Nat.le_refl _)
  generalize split ['\\', '/'] dir = parts at *
  cases w with
  | last p =>
    cases dir with
    | nil => exact absurd rfl h
    | cons c p =>
      have := hp (c :: p) (by simp) c (by simp)
      simp at this
      simp [this]
  | cons p c ps s hc w =>
    cases p with
    | nil =>
      simp at hc
      rcases hc with rfl | rfl <;> simp
    | cons d p =>
      have := hp _ (List.mem_cons_self) d (by simp)
      simp at this
      simp [this]

/-- everything about `mkdir` at once -/
theorem mkdir_spec (fs : Fs) (dir : List Char) :
    let r := mkdir fs dir
    (∀ q k, fs.at' q = some k → r.1.at' q = some k) ∧
    (∀ q, r.1.at' q ≠ fs.at' q → r.1.at' q = some .dir ∧ ∃ j, q = ancestor dir j) ∧
    (r.2 = true → fs.at' (ancestor dir 0) ≠ none → ∀ j, r.1.at' (ancestor dir j) ≠ none) ∧
    (fs.at' (ancestor dir 0) = some .dir → (∀ j, fs.at' (ancestor dir j) ≠ some .file) →
      (∀ j, fs.at' (ancestor dir j) = none → fs.allowed (ancestor dir j) = true) → r.2 = true) := by
  have hs : ∀ q ∈ split ['\\', '/'] dir, '/' ∉ q := fun q hq hc =>
    (split_spec ['\\', '/'] dir.length dir (Nat.le_refl _)).2 q hq '/' hc (by decide)
  by_cases h : namesOf (split ['\\', '/'] dir) = []
  · -- nothing to make
    have hloop : ∀ (todo done' : List (List Char)) (fs : Fs), namesOf todo = [] → mkdirLoop done' todo fs = (fs, true) := by
      intro todo
      induction todo with
      | nil => intro done' fs _; rfl
      | cons p todo ih =>
        intro done' fs hn
        by_cases hp : p = []
        · rw [mkdirLoop, if_pos hp]; exact ih _ _ (by simpa [namesOf, hp] using hn)
        · simp [namesOf, hp] at hn
    have e : mkdir fs dir = (fs, true) := hloop _ _ _ h
    have ha : ∀ j, ancestor dir j = ancestor dir 0 := by intro j; unfold ancestor; rw [h]; simp
    simp only [e]
    exact ⟨fun q k h => h, fun q h => absurd rfl h, fun _ h0 j => by rw [ha]; exact h0, fun _ _ _ => trivial⟩
  · obtain ⟨_, h2, h3, h4, h5⟩ := loop_spec _ (split ['\\', '/'] dir) [] fs (by simpa using hs) rfl
    have e : ∀ j, (⟨decide (([] ++ split ['\\', '/'] dir).head? = some []), namesOf [] ++ (namesOf (split ['\\', '/'] dir)).take j⟩ : Path) =
        ancestor dir j := by
      intro j; unfold ancestor; rw [List.nil_append, split_head dir h]; simp [namesOf]
    have e0 : (⟨decide (([] ++ split ['\\', '/'] dir).head? = some []), namesOf []⟩ : Path) = ancestor dir 0 := by
      rw [← e 0]; simp
    simp only [e, e0] at h3 h4 h5
    exact ⟨h2, h3, h4, h5⟩

/-- **C104**: making a directory changes nothing that was there; new are only directories on the way to it. -/
theorem C104_mkdir_keeps (fs : Fs) (dir : List Char) :
    (∀ q k, fs.at' q = some k → (mkdir fs dir).1.at' q = some k) ∧
    (∀ q, (mkdir fs dir).1.at' q ≠ fs.at' q → (mkdir fs dir).1.at' q = some .dir ∧ ∃ j, q = ancestor dir j) :=
  ⟨(mkdir_spec fs dir).1, (mkdir_spec fs dir).2.1⟩

/-- **C104**: if no file is in the way, success means that all directories on the way exist; and it succeeds if the missing ones may be made.
(`hbase`: the root and the working directory exist.) -/
theorem C104_mkdir_partial (fs : Fs) (dir : List Char) (hbase : fs.at' (ancestor dir 0) = some .dir)
    (hfile : ∀ j, fs.at' (ancestor dir j) ≠ some .file) :
    ((mkdir fs dir).2 = true → ∀ j, (mkdir fs dir).1.at' (ancestor dir j) = some .dir) ∧
    ((∀ j, fs.at' (ancestor dir j) = none → fs.allowed (ancestor dir j) = true) → (mkdir fs dir).2 = true) := by
  obtain ⟨h1, h2, h3, h4⟩ := mkdir_spec fs dir
  refine ⟨fun ht j => ?_, h4 hbase hfile⟩
  by_cases h : (mkdir fs dir).1.at' (ancestor dir j) = fs.at' (ancestor dir j)
  · have hn := h3 ht (by rw [hbase]; simp) j
    rw [h] at hn ⊢
    cases hk : fs.at' (ancestor dir j) with
    | none => exact absurd hk hn
    | some k => cases k with
      | dir => rfl
      | file => exact absurd hk (hfile j)
  · exact (h2 _ h).1

/-- a file system with nothing but the root and the working directory -/
def bare : Fs := ⟨fun p => if p.names = [] then some .dir else none, fun _ => true⟩
example : (mkdir bare "/tmp//x/0_conv/".toList).2 = true ∧
    (mkdir bare "/tmp//x/0_conv/".toList).1.at' ⟨true, ["tmp".toList, "x".toList, "0_conv".toList]⟩ = some .dir := by
  have hs : split ['\\', '/'] "/tmp//x/0_conv/".toList = [[], "tmp".toList, [], "x".toList, "0_conv".toList, []] := by
    rw [C104_split]
    refine ⟨?_, by decide⟩
    exact .cons [] '/' _ _ (by decide) (.cons "tmp".toList '/' _ _ (by decide) (.cons [] '/' _ _ (by decide)
      (.cons "x".toList '/' _ _ (by decide) (.cons "0_conv".toList '/' _ _ (by decide) (.last [])))))
  have ha : ancestor "/tmp//x/0_conv/".toList 3 = ⟨true, ["tmp".toList, "x".toList, "0_conv".toList]⟩ := by
    unfold ancestor; rw [hs]; decide
  have hf : ∀ q, bare.at' q ≠ some .file := by intro q; unfold bare; simp only; split <;> simp
  obtain ⟨h1, h2⟩ := C104_mkdir_partial bare "/tmp//x/0_conv/".toList (by simp [bare, ancestor]) (fun j => hf _)
  have ht := h2 (fun _ _ => rfl)
  exact ⟨ht, ha ▸ h1 ht 3⟩

/-- **C104 fails if a file has the name of the directory: `mkdir` reports success.** -/
theorem C104_file_false (fs : Fs) (name : List Char) (h0 : name ≠ []) (hn : ∀ c ∈ name, c ≠ '/' ∧ c ≠ '\\')
    (hfile : fs.at' ⟨false, [name]⟩ = some .file) :
    (mkdir fs name).2 = true ∧ (mkdir fs name).1.at' ⟨false, [name]⟩ = some .file := by
  refine ⟨?_, (mkdir_spec fs name).1 _ _ hfile⟩
  have hs : split ['\\', '/'] name = [name] := split_none ((find_none _ _).2 (fun c hc => by have := hn c hc; simp; tauto))
  have hr : resolve (join ([] ++ [name]) ['/']) = ⟨false, [name]⟩ := by
    rw [resolve_join [] name h0 (by intro q hq hc; simp at hq; subst hq; exact (hn '/' hc).1 rfl)]
    simp [namesOf, h0]
  unfold mkdir
  rw [hs, mkdirLoop, if_neg h0]
  simp only [mkdirCore, hr, hfile]
  rfl
example : (mkdir ⟨fun p => if p.names = [] then some .dir else some .file, fun _ => true⟩ "log".toList).2 = true :=
  (C104_file_false _ "log".toList (by decide) (by decide) (by decide)).1

/-- **C104 fails for a path with a backslash**: the directories are made as if it were a slash, but the system reads the path otherwise, so the directory that
files are then written into does not exist. -/
theorem C104_backslash_false : (mkdir bare "a\\b".toList).2 = true ∧ (mkdir bare "a\\b".toList).1.at' (resolve "a\\b".toList) = none := by
  have hs : split ['\\', '/'] "a\\b".toList = [['a'], ['b']] := by
    rw [C104_split]
    exact ⟨.cons ['a'] '\\' _ _ (by decide) (.last ['b']), by decide⟩
  have hr : resolve "a\\b".toList = ⟨false, ["a\\b".toList]⟩ := by
    unfold resolve
    rw [split_none (by decide)]; decide
  have hf : ∀ q, bare.at' q ≠ some .file := by intro q; unfold bare; simp only; split <;> simp
  refine ⟨(C104_mkdir_partial bare _ (by simp [bare, ancestor]) (fun j => hf _)).2 (fun _ _ => rfl), ?_⟩
  rw [hr]
  by_cases h : (mkdir bare "a\\b".toList).1.at' ⟨false, ["a\\b".toList]⟩ = bare.at' ⟨false, ["a\\b".toList]⟩
  · rw [h]; decide
  · obtain ⟨_, j, hj⟩ := (C104_mkdir_keeps bare _).2 _ h
    exfalso
    unfold ancestor at hj
    rw [hs] at hj
    have hl : (["a\\b".toList] : List (List Char)) = (namesOf [['a'], ['b']]).take j := (Path.mk.inj hj).2
    have hn : namesOf [['a'], ['b']] = [['a'], ['b']] := by decide
    rw [hn] at hl
    match j, hl with
    | 0, hl => simp at hl
    | j + 1, hl => simp at hl

/-! ## sizes of memory -/

theorem scale_spec : ∀ (left : Nat) (x : ℚ) (k : Nat), 0 ≤ x →
    (scale left x k).1 * 1024 ^ ((scale left x k).2 - k) = x ∧ k ≤ (scale left x k).2 ∧ (scale left x k).2 ≤ k + left ∧ 0 ≤ (scale left x k).1 ∧
      ((scale left x k).2 < k + left → (scale left x k).1 < 1024) ∧ (k < (scale left x k).2 → 1 ≤ (scale left x k).1)
  | 0, x, k, h => by simp [scale, h]
  | left + 1, x, k, h => by
    rw [scale]
    split
    · rename_i hx
      obtain ⟨h1, h2, h3, h4, h5, h6⟩ := scale_spec left (x / 1024) (k + 1) (by positivity)
      refine ⟨?_, by omega, by omega, h4, fun hlt => h5 (by omega), fun _ => ?_⟩
      · obtain ⟨d, hd⟩ := Nat.exists_eq_add_of_le h2
        rw [hd] at h1 ⊢
        have e1 : k + 1 + d - (k + 1) = d := by omega
        have e2 : k + 1 + d - k = d + 1 := by omega
        rw [e1] at h1
        rw [e2, pow_succ, ← mul_assoc, h1]; ring
      · rcases Nat.lt_or_ge (k + 1) (scale left (x / 1024) (k + 1)).2 with hlt | hge
        · exact h6 hlt
        · have he : (scale left (x / 1024) (k + 1)).2 = k + 1 := by omega
          rw [he] at h1
          simp at h1
          rw [h1]
          rw [le_div_iff₀ (by norm_num)]; linarith
    · rename_i hx
      refine ⟨by simp, by simp, by simp, h, fun _ => by simpa using hx, fun hlt => absurd hlt (by simp)⟩

/-- the figure that is shown -/
def figure (r : ℤ × Option ℤ × Nat) : ℚ := r.1 + (r.2.1.getD 0 : ℤ) / 10

/-- **C104**: the figure shown, in the unit shown, is the size up to a twentieth of the unit; the unit is the greatest that the size reaches (TB at most); the
digit behind the point is shown unless it is zero. For exact arithmetic. -/
theorem C104_size_partial (n : Nat) :
    |figure (memorySize n) * 1024 ^ (memorySize n).2.2 - n| ≤ 1024 ^ (memorySize n).2.2 / 20 ∧ (memorySize n).2.2 ≤ 4 ∧
      ((memorySize n).2.2 < 4 → n < 1024 ^ ((memorySize n).2.2 + 1)) ∧ (0 < (memorySize n).2.2 → 1024 ^ (memorySize n).2.2 ≤ n) ∧
      (∀ d, (memorySize n).2.1 = some d → 1 ≤ d ∧ d ≤ 9) ∧ 0 ≤ (memorySize n).1 := by
  obtain ⟨h1, _, h3, h4, h5, h6⟩ := scale_spec 4 (n : ℚ) 0 (by positivity)
  have hk : (memorySize n).2.2 = (scale 4 (n : ℚ) 0).2 := by unfold memorySize; simp only; split <;> rfl
  have hfig : figure (memorySize n) = (roundHalfUp ((scale 4 (n : ℚ) 0).1 * 10) : ℚ) / 10 := by
    have hd := Int.emod_add_mul_ediv (roundHalfUp ((scale 4 (n : ℚ) 0).1 * 10)) 10
    have hq : ((roundHalfUp ((scale 4 (n : ℚ) 0).1 * 10) : ℤ) : ℚ) =
        ((roundHalfUp ((scale 4 (n : ℚ) 0).1 * 10) % 10 : ℤ) : ℚ) + 10 * ((roundHalfUp ((scale 4 (n : ℚ) 0).1 * 10) / 10 : ℤ) : ℚ) := by
      exact_mod_cast hd.symm
    unfold memorySize figure
    simp only
    split
    · rename_i h0
      simp only [Option.getD_none]
      rw [hq, h0]; push_cast; ring
    · simp only [Option.getD_some]
      rw [hq]; push_cast; ring
  rw [hk, hfig]
  generalize hs : (scale 4 (n : ℚ) 0) = sc at *
  have hn : (n : ℚ) = sc.1 * 1024 ^ sc.2 := by simpa using h1.symm
  have hp : (0 : ℚ) < 1024 ^ sc.2 := by positivity
  have hr1 := Int.floor_le (sc.1 * 10 + 1 / 2)
  have hr2 := Int.lt_floor_add_one (sc.1 * 10 + 1 / 2)
  refine ⟨?_, by omega, ?_, ?_, ?_, ?_⟩
  · rw [hn, ← sub_mul, abs_mul, abs_of_pos hp]
    have : |(roundHalfUp (sc.1 * 10) : ℚ) / 10 - sc.1| ≤ 1 / 20 := by
      unfold roundHalfUp
      rw [abs_le]; constructor <;> linarith
    calc _ ≤ 1 / 20 * 1024 ^ sc.2 := mul_le_mul_of_nonneg_right this hp.le
      _ = _ := by ring
  · intro hlt
    have : (n : ℚ) < 1024 ^ (sc.2 + 1) := by
      rw [hn, pow_succ, mul_comm]
      exact mul_lt_mul_of_pos_left (h5 (by omega)) hp
    exact_mod_cast this
  · intro hlt
    have : (1024 : ℚ) ^ sc.2 ≤ n := by
      rw [hn]
      have := mul_le_mul_of_nonneg_right (h6 hlt) hp.le
      linarith
    exact_mod_cast this
  · intro d hd
    unfold memorySize at hd
    simp only [hs] at hd
    split at hd
    · cases hd
    · simp only [Option.some.injEq] at hd
      omega
  · have h0 : 0 ≤ roundHalfUp (sc.1 * 10) := by
      unfold roundHalfUp
      apply Int.floor_nonneg.2; linarith
    unfold memorySize
    simp only [hs]
    split <;> exact Int.ediv_nonneg h0 (by norm_num)

theorem memorySize_of (n : Nat) (x : ℚ) (k : Nat) (t : ℤ) (h : scale 4 (n : ℚ) 0 = (x, k)) (h1 : (t : ℚ) ≤ x * 10 + 1 / 2) (h2 : x * 10 + 1 / 2 < t + 1) :
    memorySize n = if t % 10 = 0 then (t / 10, none, k) else (t / 10, some (t % 10), k) := by
  unfold memorySize
  rw [h]
  have : roundHalfUp (x * 10) = t := Int.floor_eq_iff.2 ⟨h1, h2⟩
  simp only [this]

/-- 1.5 KB -/
example : memorySize 1536 = (1, some 5, 1) := by
  rw [memorySize_of 1536 (3 / 2) 1 15 (by norm_num [scale]) (by norm_num) (by norm_num)]; rfl

/-- **C104: the unit is chosen before the rounding, so one byte less than 1 MB is shown as 1024KB.** -/
theorem C104_size_false : memorySize (1024 ^ 2 - 1) = (1024, none, 1) := by
  rw [memorySize_of _ (1048575 / 1024) 1 10240 (by norm_num [scale]) (by norm_num) (by norm_num)]; rfl

end Verif.Props.Text
