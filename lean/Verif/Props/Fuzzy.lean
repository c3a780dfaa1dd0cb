import Verif.Utils.Fuzzy
/-!
# C101: suggestions for misspelt names

Specification: the edits that turn one text into the other are insertions and deletions of one character (`Edits s t e`: `e` of them suffice;
a replacement is a deletion and an insertion, as box.cpp counts it).
-/
namespace Verif.Props.Fuzzy
open Verif.Utils.Fuzzy

variable {α : Type} [DecidableEq α]

/-- `e` insertions and deletions turn the first text into the second -/
inductive Edits : List α → List α → Nat → Prop
  | done : Edits [] [] 0
  | keep (a : α) {s t : List α} {e : Nat} : Edits s t e → Edits (a :: s) (a :: t) e
  | insert (a : α) {s t : List α} {e : Nat} : Edits s t e → Edits s (a :: t) (e + 1)
  | delete (a : α) {s t : List α} {e : Nat} : Edits s t e → Edits (a :: s) t (e + 1)

omit [DecidableEq α] in
theorem Edits.append {s t : List α} {e : Nat} (h : Edits s t e) {s' t' : List α} {e' : Nat} (h' : Edits s' t' e') :
    Edits (s ++ s') (t ++ t') (e + e') := by
  induction h with
  | done => simpa using h'
  | keep a _ ih => exact Edits.keep a ih
  | insert a _ ih => rw [Nat.add_right_comm]; exact Edits.insert a ih
  | delete a _ ih => rw [Nat.add_right_comm]; exact Edits.delete a ih

omit [DecidableEq α] in
theorem Edits.reverse {s t : List α} {e : Nat} (h : Edits s t e) : Edits s.reverse t.reverse e := by
  induction h with
  | done => exact Edits.done
  | keep a _ ih => simpa using ih.append (Edits.keep a Edits.done)
  | insert a _ ih => simpa using ih.append (Edits.insert a Edits.done)
  | delete a _ ih => simpa using ih.append (Edits.delete a Edits.done)

omit [DecidableEq α] in
theorem Edits.length {s t : List α} {e : Nat} (h : Edits s t e) : s.length ≤ t.length + e ∧ t.length ≤ s.length + e := by
  induction h with
  | done => simp
  | keep a _ ih => simp only [List.length_cons]; omega
  | insert a _ ih => simp only [List.length_cons]; omega
  | delete a _ ih => simp only [List.length_cons]; omega

/-! ## Lemmas about the distance -/

theorem cell_comm (x y : α) (u l d : Nat) : cell x y u l d = cell y x l u d := by
  unfold cell
  by_cases h : x = y
  · subst h; simp only [if_true]; omega
  · rw [if_neg h, if_neg (fun e => h e.symm)]; omega

theorem back_comm : ∀ (s t : List α), s ≠ [] → t ≠ [] → back s t = back t s
  | [], _, h, _ => absurd rfl h
  | _ :: _, [], _, h => absurd rfl h
  | [a], [b], _, _ => by
    rw [back, back]
    by_cases h : a = b
    · rw [if_pos h, if_pos h.symm]
    · rw [if_neg h, if_neg (fun e => h e.symm)]
  | [a], x :: b :: t, _, _ => by rw [back.eq_4, back.eq_5, back_comm [a] (b :: t) (by simp) (by simp)]
  | x :: a :: s, [b], _, _ => by rw [back.eq_4, back.eq_5, back_comm (a :: s) [b] (by simp) (by simp)]
  | x :: a :: s, y :: b :: t, _, _ => by
    rw [back.eq_6, back.eq_6, cell_comm, back_comm (a :: s) (y :: b :: t) (by simp) (by simp),
      back_comm (x :: a :: s) (b :: t) (by simp) (by simp), back_comm (a :: s) (b :: t) (by simp) (by simp)]
termination_by s t => s.length + t.length

/-- a cell is at most one more than its neighbours -/
theorem back_left (x : α) (s t : List α) (hs : s ≠ []) (ht : t ≠ []) : back (x :: s) t ≤ back s t + 1 := by
  match s, t, hs, ht with
  | a :: s, [b], _, _ => rw [back.eq_5]; exact Nat.le_refl _
  | a :: s, y :: b :: t, _, _ => rw [back.eq_6]; unfold cell; split <;> omega

theorem back_right (y : α) (s t : List α) (hs : s ≠ []) (ht : t ≠ []) : back s (y :: t) ≤ back s t + 1 := by
  rw [back_comm s _ hs (by simp), back_comm s t hs ht]; exact back_left y t s ht hs

theorem back_same (x : α) (s t : List α) (hs : s ≠ []) (ht : t ≠ []) : back (x :: s) (x :: t) ≤ back s t := by
  match s, t, hs, ht with
  | a :: s, b :: t, _, _ => rw [back.eq_6]; unfold cell; rw [if_pos rfl]; omega

/-- what the first characters cost -/
def pen (a b : α) : Nat := if a = b then 0 else 2

theorem pen_comm (a b : α) : pen a b = pen b a := by unfold pen; by_cases h : a = b <;> simp [h, eq_comm (a := b)]

/-- one character against a text -/
theorem back_one (a : α) : ∀ (t : List α) (h : t ≠ []), back [a] t + 1 = pen a (t.getLast h) + t.length
  | [b], _ => by rw [back]; rfl
  | y :: b :: t, _ => by
    rw [back.eq_4, back_one a (b :: t) (by simp), List.getLast_cons (List.cons_ne_nil _ _)]
    simp only [List.length_cons]; omega

theorem back_le (s t : List α) (e : Nat) (h : Edits s t e) : ∀ (hs : s ≠ []) (ht : t ≠ []),
    back s t ≤ e + pen (s.getLast hs) (t.getLast ht) := by
  induction h with
  | done => intro hs; exact absurd rfl hs
  | @keep a s t e h ih =>
    intro _ _
    by_cases hs : s = []
    · subst hs
      have hl := h.length
      have := back_one a (a :: t) (by simp)
      rw [List.getLast_singleton]
      simp only [List.length_cons, List.length_nil] at this hl
      omega
    · by_cases ht : t = []
      · subst ht
        have hl := h.length
        have := back_one a (a :: s) (by simp)
        rw [back_comm _ _ (by simp) (by simp)]
        rw [List.getLast_singleton, pen_comm]
        simp only [List.length_cons, List.length_nil] at this hl
        omega
      · have := back_same a s t hs ht
        rw [List.getLast_cons hs, List.getLast_cons ht]
        have := ih hs ht
        omega
  | @insert a s t e h ih =>
    intro hs _
    by_cases ht : t = []
    · subst ht
      have hl := h.length
      have := back_one a s hs
      rw [back_comm _ _ hs (by simp)]
      rw [List.getLast_singleton, pen_comm]
      simp only [List.length_nil] at hl
      omega
    · have := back_right a s t hs ht
      have := ih hs ht
      rw [List.getLast_cons ht]; omega
  | @delete a s t e h ih =>
    intro _ ht
    by_cases hs : s = []
    · subst hs
      have hl := h.length
      have := back_one a t ht
      rw [List.getLast_singleton]
      simp only [List.length_nil] at hl
      omega
    · have := back_left a s t hs ht
      have := ih hs ht
      rw [List.getLast_cons hs]; omega

/-- a text with runs of one character shortened to one, for texts read from the end -/
def shorten : List α → List α
  | [] => []
  | [a] => [a]
  | a :: b :: s => if a = b then shorten (b :: s) else a :: shorten (b :: s)

omit [DecidableEq α] in
theorem edits_all : ∀ s : List α, Edits s [] s.length
  | [] => Edits.done
  | a :: s => Edits.delete a (edits_all s)

omit [DecidableEq α] in
theorem edits_none : ∀ t : List α, Edits [] t t.length
  | [] => Edits.done
  | a :: t => Edits.insert a (edits_none t)

omit [DecidableEq α] in
theorem edits_self : ∀ s : List α, Edits s s 0
  | [] => Edits.done
  | a :: s => Edits.keep a (edits_self s)

theorem dist_le (s t : List α) (e : Nat) (h : Edits s t e) : editDistance s t ≤ e + 2 ∧ (s.head? = t.head? → editDistance s t ≤ e) := by
  match s, t with
  | [], t => have := h.length; simp only [editDistance, List.length_nil] at this ⊢; omega
  | a :: s, [] => have := h.length; simp only [editDistance, List.length_nil] at this ⊢; omega
  | a :: s, b :: t =>
    rw [editDistance_eq]
    have hb := back_le _ _ _ h.reverse (by simp) (by simp)
    have e1 : (a :: s).reverse.getLast (by simp) = a := by simp
    have e2 : (b :: t).reverse.getLast (by simp) = b := by simp
    rw [e1, e2] at hb
    unfold pen at hb
    constructor
    · split at hb <;> omega
    · intro he
      have : a = b := by simpa using he
      rw [if_pos this] at hb; omega

theorem dist_range (s t : List α) : editDistance s t ≤ s.length + t.length := by
  match s, t with
  | [], t => simp [editDistance]
  | a :: s, [] => simp [editDistance]
  | a :: s, b :: t =>
    by_cases hab : a = b
    · subst hab
      have h : Edits (a :: s) (a :: t) (s.length + t.length) := Edits.keep a (by simpa using (edits_all s).append (edits_none t))
      have := (dist_le _ _ _ h).2 rfl
      simp only [List.length_cons]; omega
    · have key : ∀ (s t : List α), s ≠ [] → t ≠ [] → back s t ≤ s.length + t.length := by
        intro s
        induction s with
        | nil => intro t h; exact absurd rfl h
        | cons x s ih =>
          intro t _ ht
          by_cases hs : s = []
          · subst hs
            have := back_one x t ht
            unfold pen at this
            simp only [List.length_cons, List.length_nil] at this ⊢
            split at this <;> omega
          · have := back_left x s t hs ht
            have := ih t hs ht
            simp only [List.length_cons]; omega
      rw [editDistance_eq]
      have := key (a :: s).reverse (b :: t).reverse (by simp) (by simp)
      simpa using this

/-! ## C101 -/

theorem closest_spec (name : List α) : ∀ (names : List (List α)) (dist : Nat) (best : List α),
    (closest name dist best names = best ∧ ∀ n ∈ names, dist ≤ editDistance name n) ∨
    (closest name dist best names ∈ names ∧ editDistance name (closest name dist best names) < dist ∧
      ∀ n ∈ names, editDistance name (closest name dist best names) ≤ editDistance name n)
  | [], _, _ => Or.inl ⟨rfl, by simp⟩
  | t :: rest, dist, best => by
    rw [closest]
    by_cases h : editDistance name t < dist
    · rw [if_pos h]
      right
      rcases closest_spec name rest (editDistance name t) t with ⟨h1, h2⟩ | ⟨h1, h2, h3⟩
      · rw [h1]
        refine ⟨List.mem_cons_self, h, fun n hn => ?_⟩
        rcases List.mem_cons.1 hn with rfl | hn
        · exact Nat.le_refl _
        · exact h2 n hn
      · refine ⟨List.mem_cons_of_mem _ h1, by omega, fun n hn => ?_⟩
        rcases List.mem_cons.1 hn with rfl | hn
        · omega
        · exact h3 n hn
    · rw [if_neg h]
      rcases closest_spec name rest dist best with ⟨h1, h2⟩ | ⟨h1, h2, h3⟩
      · refine Or.inl ⟨h1, fun n hn => ?_⟩
        rcases List.mem_cons.1 hn with rfl | hn
        · omega
        · exact h2 n hn
      · refine Or.inr ⟨List.mem_cons_of_mem _ h1, h2, fun n hn => ?_⟩
        rcases List.mem_cons.1 hn with rfl | hn
        · omega
        · exact h3 n hn

/-- **C101** The name suggested is one of the names there are, and none of them has a smaller computed distance, in whatever order the hash
map lists them. Without names nothing is suggested. -/
theorem C101_suggestion (names : List (List α)) (name : List α) (hl : ∀ n ∈ names, name.length + n.length < 2 ^ 31 - 1) :
    (names = [] ∧ fuzzyName names name = []) ∨
    (fuzzyName names name ∈ names ∧ ∀ n ∈ names, editDistance name (fuzzyName names name) ≤ editDistance name n) := by
  unfold fuzzyName
  match names with
  | [] => exact Or.inl ⟨rfl, rfl⟩
  | n :: rest =>
    right
    show closest name (2 ^ 31 - 1) [] (n :: rest) ∈ n :: rest ∧ _
    rcases closest_spec name (n :: rest) (2 ^ 31 - 1) [] with ⟨_, h2⟩ | ⟨h1, _, h3⟩
    · have := h2 n List.mem_cons_self
      have := hl n List.mem_cons_self
      have := dist_range name n
      omega
    · exact ⟨h1, h3⟩

example : fuzzyName ["data".toList, "image".toList] "imag".toList = "image".toList := by decide +kernel

/-- **C101** Both texts weigh the same, a text is at distance 0 of itself, and the distance is at most the sum of the lengths, so that no
`int` overflows for texts that fit into memory. -/
theorem C101_range (s t : List α) : editDistance s t = editDistance t s ∧ editDistance s s = 0 ∧ editDistance s t ≤ s.length + t.length := by
  refine ⟨?_, Nat.le_zero.1 ((dist_le s s 0 (edits_self s)).2 rfl), dist_range s t⟩
  match s, t with
  | [], [] => rfl
  | [], b :: t => rfl
  | a :: s, [] => rfl
  | a :: s, b :: t => rw [editDistance_eq, editDistance_eq, back_comm _ _ (by simp) (by simp)]

example : editDistance "kitten".toList "sitting".toList = 5 := by decide +kernel

/-- **C101, part** The computed distance exceeds the number of insertions and deletions needed by at most 2, and not at all if the texts
begin with the same character. Missing: that it is that number; see the three theorems below. -/
theorem C101_distance_partial (s t : List α) (e : Nat) (h : Edits s t e) :
    editDistance s t ≤ e + 2 ∧ (s.head? = t.head? → editDistance s t ≤ e) := dist_le s t e h

example : Edits "conv".toList "conv1".toList 1 :=
  .keep _ (.keep _ (.keep _ (.keep _ (.insert _ .done))))

/-- The distance is too large by two already for a character put in front. -/
theorem C101_front_false : ¬ ∀ (s t : List Char) (e : Nat), Edits s t e → editDistance s t ≤ e := by
  intro h
  have := h "b".toList "ab".toList 1 (.insert _ (.keep _ .done))
  revert this; decide +kernel

/-- reading from the end: appending the last character again costs nothing -/
theorem back_repeat (a b : α) (s : List α) : ∀ (k : Nat), back (a :: b :: s) (List.replicate k a ++ a :: b :: s) = 0
  | 0 => by
    have h := (dist_le (a :: b :: s).reverse (a :: b :: s).reverse 0 (edits_self _)).2 rfl
    obtain ⟨x, u, hx⟩ : ∃ x u, (a :: b :: s).reverse = x :: u := by
      cases h : (a :: b :: s).reverse with
      | nil => simp at h
      | cons x u => exact ⟨x, u, rfl⟩
    rw [hx, editDistance_eq, ← hx, List.reverse_reverse] at h
    simpa using h
  | k + 1 => by
    have ih := back_repeat a b s k
    rw [List.replicate_succ, List.cons_append]
    obtain ⟨y, v, hv⟩ : ∃ y v, List.replicate k a ++ a :: b :: s = y :: v := by
      cases h : List.replicate k a ++ a :: b :: s with
      | nil => simp at h
      | cons y v => exact ⟨y, v, rfl⟩
    rw [hv] at ih ⊢
    rw [back.eq_6, ih]; unfold cell; rw [if_pos rfl]; omega

/-- Distance 0 does not mean the same text, as box.h:18-24 says: every text of two characters or more is at distance 0 of itself with its last
character repeated any number of times. -/
theorem C101_zero_false (s : List α) (a b : α) (k : Nat) : editDistance (s ++ [a, b]) (s ++ [a, b] ++ List.replicate k b) = 0 := by
  obtain ⟨x, u, hx⟩ : ∃ x u, s ++ [a, b] = x :: u := by
    cases s with
    | nil => exact ⟨_, _, rfl⟩
    | cons x u => exact ⟨_, _, rfl⟩
  have h := back_repeat b a s.reverse k
  rw [hx, List.cons_append, editDistance_eq, ← List.cons_append, ← hx]
  simpa [List.reverse_append] using h

/-- … so the suggestion can be further away than another name by any number of edits: for "conv" it is "convvv…" although "conv1" is there. -/
theorem C101_closest_false (k : Nat) (hk : 0 < k) (hk' : k < 2 ^ 30) :
    let far := "conv".toList ++ List.replicate k 'v'
    (∀ names, names = [far, "conv1".toList] ∨ names = ["conv1".toList, far] → fuzzyName names "conv".toList = far) ∧
    (∃ e, e = 1 ∧ Edits "conv".toList "conv1".toList e) ∧ (∀ e, Edits "conv".toList far e → k ≤ e) := by
  intro far
  have h0 : editDistance "conv".toList far = 0 := C101_zero_false "co".toList 'n' 'v' k
  have h1 : editDistance "conv".toList "conv1".toList = 1 := by decide +kernel
  refine ⟨?_, ⟨1, rfl, .keep _ (.keep _ (.keep _ (.keep _ (.insert _ .done))))⟩, fun e he => ?_⟩
  · rintro names (rfl | rfl)
    · simp only [fuzzyName, closest, h0, h1]; rfl
    · simp only [fuzzyName, closest, h0, h1]; rfl
  · have := he.length
    simp only [far, List.length_append, List.length_replicate] at this
    omega

/-- what distance 0 does mean: the texts agree when runs of a character are shortened to one -/
theorem back_zero : ∀ (s t : List α), s ≠ [] → t ≠ [] → back s t = 0 → s.head? = t.head? ∧ shorten s = shorten t
  | [], _, h, _, _ => absurd rfl h
  | _ :: _, [], _, h, _ => absurd rfl h
  | [a], [b], _, _, h => by
    rw [back] at h
    have : a = b := Decidable.byContradiction fun hn => by rw [if_neg hn] at h; omega
    subst this; exact ⟨rfl, rfl⟩
  | [a], x :: b :: t, _, _, h => by rw [back.eq_4] at h; omega
  | x :: a :: s, [b], _, _, h => by rw [back.eq_5] at h; omega
  | x :: a :: s, y :: b :: t, _, _, h => by
    rw [back.eq_6] at h
    unfold cell at h
    by_cases hxy : x = y
    · subst hxy
      rw [if_pos rfl] at h
      refine ⟨rfl, ?_⟩
      have : back (a :: s) (x :: b :: t) = 0 ∨ back (x :: a :: s) (b :: t) = 0 ∨ back (a :: s) (b :: t) = 0 := by omega
      rcases this with h | h | h
      · obtain ⟨h1, h2⟩ := back_zero _ _ (by simp) (by simp) h
        have h1 : a = x := by simpa using h1
        rw [← h2]; rw [shorten, if_pos h1.symm]
      · obtain ⟨h1, h2⟩ := back_zero _ _ (by simp) (by simp) h
        have h1 : x = b := by simpa using h1
        rw [h2]; rw [shorten.eq_3 x b t, if_pos h1]
      · obtain ⟨h1, h2⟩ := back_zero _ _ (by simp) (by simp) h
        have h1 : a = b := by simpa using h1
        rw [shorten.eq_3, shorten.eq_3, h2, h1]
    · rw [if_neg hxy] at h; omega
termination_by s t => s.length + t.length

/-- **C101, part** Two texts at distance 0 differ in the lengths of runs of one character only. -/
theorem C101_zero_partial (s t : List α) (h : editDistance s t = 0) : shorten s.reverse = shorten t.reverse := by
  match s, t with
  | [], [] => rfl
  | [], b :: t => simp [editDistance] at h
  | a :: s, [] => simp [editDistance] at h
  | a :: s, b :: t =>
    rw [editDistance_eq] at h
    exact (back_zero _ _ (by simp) (by simp) h).2

example : editDistance "abb".toList "aabbb".toList = 1 ∧ editDistance "abb".toList "abbbb".toList = 0 ∧ shorten "bbba".toList = "ba".toList := by
  decide +kernel

/-- `fuzzy_field_name` suggests nothing when an operator has no optional (or no required) fields, whatever the other fields are. -/
theorem C101_fields_false (fields : List (List α)) (name : List α) :
    fuzzyFieldName fields [] name = [] ∧ fuzzyFieldName [] fields name = [] := by
  constructor
  · simp [fuzzyFieldName]
  · rfl

end Verif.Props.Fuzzy
