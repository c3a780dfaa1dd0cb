import Verif.Compiler.ArgParse
import Mathlib.Data.List.Perm.Subperm
/-!
# C35: compile options
-/
namespace Verif.Props
open Verif.Compiler Verif.Compiler.Arg

/-! ## Specification -/

/-- the words of a command line: maximal runs of characters that are not blank, tab or line end -/
inductive CommandLine : Str → List Str → Prop where
  | nil : CommandLine [] []
  | blank {c s ws} : isSep c = true → CommandLine s ws → CommandLine (c :: s) ws
  | word {w s ws} : w ≠ [] → (∀ c ∈ w, isSep c = false) → (∀ c ∈ s.head?, isSep c = true) → CommandLine s ws →
      CommandLine (w ++ s) (w :: ws)

/-- a declared switch: spellings that turn it on (the first is its name), spellings that turn it off, default -/
structure Switch where
  name : Str
  more : List Str
  off : List Str
  dflt : Bool

def Switch.on (s : Switch) : List Str := s.name :: s.more
def Switch.spellings (s : Switch) : List Str := s.on ++ s.off

/-- what the last mention among the words says -/
def lastMention (s : Switch) : List Str → Bool
  | [] => s.dflt
  | w :: older => if w ∈ s.on then true else if w ∈ s.off then false else lastMention s older

/-- no spelling is shared, and none looks like a device alias -/
structure Clean (sw : List Switch) : Prop where
  apart : sw.Pairwise (fun s t => ∀ a ∈ s.spellings, a ∉ t.spellings)
  onoff : ∀ s ∈ sw, ∀ a ∈ s.on, a ∉ s.off
  plain : ∀ s ∈ sw, ∀ a ∈ s.spellings, a ≠ [] ∧ deviceMap? a = none

/-- a parser with these switches -/
def withSwitches (sw : List Switch) : Parser := sw.foldl (fun p s => p.add s.name s.more s.off s.dflt) .new

/-! ## Words -/

theorem splitLoop_noSep (w : Str) (hw : ∀ c ∈ w, isSep c = false) (cur s : Str) :
    splitLoop cur (w ++ s) = splitLoop (cur ++ w) s := by
  induction w generalizing cur with
  | nil => simp
  | cons c w ih =>
    simp only [List.cons_append, splitLoop]
    rw [if_neg (by rw [hw c (by simp)]; simp), ih (fun d hd => hw d (by simp [hd]))]
    simp

theorem split_words {s : Str} {ws : List Str} (h : CommandLine s ws) : (split s).filter (fun w => !w.isEmpty) = ws := by
  unfold split
  induction h with
  | nil => rfl
  | @blank c s ws hc _ ih =>
    rw [splitLoop, if_pos hc]
    simpa using ih
  | @word w s ws hne hw hs _ ih =>
    rw [splitLoop_noSep w hw, List.nil_append]
    have hwe : (!w.isEmpty) = true := by cases w <;> simp_all
    cases s with
    | nil =>
      simp only [splitLoop] at ih ⊢
      rw [List.filter_cons_of_pos (by exact hwe)]
      simp at ih
      subst ih
      rfl
    | cons c s =>
      have hc : isSep c = true := hs c (by simp)
      rw [splitLoop, if_pos hc] at ih ⊢
      rw [List.filter_cons_of_pos (by exact hwe)]
      rw [List.filter_cons_of_neg (by simp)] at ih
      rw [ih]

/-- every string is a command line -/
theorem commandLine_exists (s : Str) : ∃ ws, CommandLine s ws := by
  suffices h : ∀ n (s : Str), s.length ≤ n → ∃ ws, CommandLine s ws from h _ s (Nat.le_refl _)
  intro n
  induction n with
  | zero => intro s hs; cases s with
    | nil => exact ⟨[], .nil⟩
    | cons => simp at hs
  | succ n ih =>
    intro s hs
    cases s with
    | nil => exact ⟨[], .nil⟩
    | cons c t =>
      by_cases hc : isSep c = true
      · obtain ⟨ws, h⟩ := ih t (by simpa using hs)
        exact ⟨ws, .blank hc h⟩
      · have hsplit : c :: t = (c :: t).takeWhile (fun x => !isSep x) ++ (c :: t).dropWhile (fun x => !isSep x) :=
          List.takeWhile_append_dropWhile.symm
        have hlen : ((c :: t).dropWhile (fun x => !isSep x)).length ≤ n := by
          rw [List.dropWhile_cons_of_pos (by simp [hc])]
          have := (List.dropWhile_sublist (l := t) (fun x => !isSep x)).length_le
          simp at hs; omega
        obtain ⟨ws, h⟩ := ih _ hlen
        refine ⟨(c :: t).takeWhile (fun x => !isSep x) :: ws, ?_⟩
        rw [hsplit]
        have e1 : ((c :: t).takeWhile (fun x => !isSep x) ++ (c :: t).dropWhile (fun x => !isSep x)).takeWhile (fun x => !isSep x) =
          (c :: t).takeWhile (fun x => !isSep x) := by rw [← hsplit]
        rw [e1]
        refine .word ?_ ?_ ?_ h
        · rw [List.takeWhile_cons_of_pos (by simp [hc])]; simp
        · intro d hd
          have : ∀ (l : Str), ∀ x ∈ l.takeWhile (fun x => !isSep x), isSep x = false := by
            intro l
            induction l with
            | nil => simp
            | cons a l ih =>
              intro x hx
              rw [List.takeWhile_cons] at hx
              split at hx
              · next ha =>
                rcases List.mem_cons.1 hx with rfl | hx
                · simpa using ha
                · exact ih x hx
              · simp at hx
          exact this _ d hd
        · intro d hd
          have := List.head?_dropWhile_not (fun x => !isSep x) (c :: t)
          rw [Option.mem_def] at hd
          rw [hd] at this
          simpa using this

theorem foldl_param_filter (l : List Str) (p : Parser) :
    l.foldl Parser.param p = (l.filter (fun w => !w.isEmpty)).foldl Parser.param p := by
  induction l generalizing p with
  | nil => rfl
  | cons w l ih =>
    cases w with
    | nil => simpa [Parser.param] using ih p
    | cons c w => simp only [List.foldl_cons, List.filter_cons, List.isEmpty_cons, Bool.not_false, if_true]; exact ih _

theorem parse_words {s : Str} {ws : List Str} (h : CommandLine s ws) (p : Parser) : p.parse s = ws.foldl Parser.param p := by
  unfold Parser.parse; rw [foldl_param_filter, split_words h]

/-! ## Switches -/

theorem look_assign {β : Type} (m : List (Str × β)) (k x : Str) (v : β) :
    look (assign m k v) x = if x = k then some v else look m x := by
  unfold look assign
  rw [List.lookup_cons]
  by_cases h : x = k
  · subst h; simp
  · have : (x == k) = false := by simpa using h
    rw [this]; simp [h]

theorem look_insertNew {β : Type} (m : List (Str × β)) (k x : Str) (v : β) :
    look (insertNew m k v) x = if (look m x).isSome then look m x else if x = k then some v else none := by
  unfold insertNew
  split
  · next h =>
    split
    · rfl
    · next h' =>
      rw [if_neg (by rintro rfl; exact h' h)]
      simpa using h'
  · next h =>
    have := look_assign m k x v
    unfold assign at this
    rw [this]
    by_cases hx : x = k
    · subst hx; simp [h]
    · simp only [hx, if_false]
      split
      · rfl
      · next h' => simpa using h'

theorem look_insertAll {β : Type} (l : List Str) (m : List (Str × β)) (x : Str) (v : β) :
    look (l.foldl (fun m k => insertNew m k v) m) x = if (look m x).isSome then look m x else if x ∈ l then some v else none := by
  induction l generalizing m with
  | nil =>
    simp only [List.foldl_nil, List.not_mem_nil, if_false]
    split
    · rfl
    · next h => simpa using h
  | cons k l ih =>
    rw [List.foldl_cons, ih, look_insertNew]
    by_cases h : (look m x).isSome
    · simp [h]
    · simp only [h, if_false]
      by_cases hx : x = k
      · subst hx; simp
      · simp [hx]

/-- what the tables of a parser with clean switches answer -/
structure Knows (sw : List Switch) (p : Parser) : Prop where
  on : ∀ s ∈ sw, ∀ a ∈ s.on, look p.trueNames a = some s.name
  off : ∀ s ∈ sw, ∀ a ∈ s.off, look p.trueNames a = none ∧ look p.falseNames a = some s.name
  other : ∀ a, (∀ s ∈ sw, a ∉ s.spellings) → look p.trueNames a = none ∧ look p.falseNames a = none

theorem mem_spellings {s : Switch} {a : Str} : a ∈ s.spellings ↔ a ∈ s.on ∨ a ∈ s.off := by
  simp [Switch.spellings]

theorem knows_add {sw : List Switch} {p : Parser} (k : Knows sw p) (t : Switch) (hap : ∀ s ∈ sw, ∀ a ∈ s.spellings, a ∉ t.spellings)
    (hof : ∀ a ∈ t.on, a ∉ t.off) : Knows (sw ++ [t]) (p.add t.name t.more t.off t.dflt) := by
  have ht : ∀ x, look (p.add t.name t.more t.off t.dflt).trueNames x =
      if (look p.trueNames x).isSome then look p.trueNames x else if x ∈ t.on then some t.name else none := fun x =>
    look_insertAll (t.name :: t.more) p.trueNames x t.name
  have hf : ∀ x, look (p.add t.name t.more t.off t.dflt).falseNames x =
      if (look p.falseNames x).isSome then look p.falseNames x else if x ∈ t.off then some t.name else none := fun x =>
    look_insertAll t.off p.falseNames x t.name
  have hnew : ∀ a ∈ t.spellings, look p.trueNames a = none ∧ look p.falseNames a = none := fun a ha =>
    k.other a (fun s hs hm => hap s hs a hm ha)
  refine ⟨?_, ?_, ?_⟩
  · intro s hs a ha
    rw [ht]
    rcases List.mem_append.1 hs with hs | hs
    · rw [k.on s hs a ha]; rfl
    · simp only [List.mem_singleton] at hs; subst hs
      rw [(hnew a (mem_spellings.2 (.inl ha))).1]; simp [ha]
  · intro s hs a ha
    rw [ht, hf]
    rcases List.mem_append.1 hs with hs | hs
    · obtain ⟨h1, h2⟩ := k.off s hs a ha
      rw [h1, h2]
      have : a ∉ t.on := fun h => hap s hs a (mem_spellings.2 (.inr ha)) (mem_spellings.2 (.inl h))
      simp [this]
    · simp only [List.mem_singleton] at hs; subst hs
      obtain ⟨h1, h2⟩ := hnew a (mem_spellings.2 (.inr ha))
      rw [h1, h2]
      have : a ∉ s.on := fun h => hof a h ha
      simp [ha, this]
  · intro a ha
    rw [ht, hf]
    obtain ⟨h1, h2⟩ := k.other a (fun s hs => ha s (by simp [hs]))
    have h3 := ha t (by simp)
    rw [mem_spellings] at h3
    rw [h1, h2]
    have h4 : a ∉ t.on := fun h => h3 (.inl h)
    have h5 : a ∉ t.off := fun h => h3 (.inr h)
    simp [h4, h5]

theorem knows_with {sw : List Switch} (hc : Clean sw) : Knows sw (withSwitches sw) ∧
    (∀ s ∈ sw, look (withSwitches sw).values s.name = if s.dflt then some true else none) := by
  unfold withSwitches
  suffices h : ∀ (l pre : List Switch) (p : Parser), Clean (pre ++ l) → Knows pre p →
      (∀ s ∈ pre, look p.values s.name = if s.dflt then some true else none) →
      (∀ x, (∀ s ∈ pre, x ≠ s.name) → look p.values x = none) →
      Knows (pre ++ l) (l.foldl (fun p s => p.add s.name s.more s.off s.dflt) p) ∧
      (∀ s ∈ pre ++ l, look (l.foldl (fun p s => p.add s.name s.more s.off s.dflt) p).values s.name = if s.dflt then some true else none) by
    refine h sw [] .new hc ⟨?_, ?_, ?_⟩ ?_ ?_
    · intro s hs; simp at hs
    · intro s hs; simp at hs
    · intro a _; exact ⟨rfl, rfl⟩
    · intro s hs; simp at hs
    · intro x _; rfl
  intro l
  induction l with
  | nil => intro pre p _ k hv _; simpa using ⟨k, hv⟩
  | cons t l ih =>
    intro pre p hc k hv hn
    have hap : ∀ s ∈ pre, ∀ a ∈ s.spellings, a ∉ t.spellings := by
      intro s hs
      have := hc.apart
      rw [List.pairwise_append] at this
      exact this.2.2 s hs t (by simp)
    have htn : ∀ s ∈ pre, t.name ≠ s.name := by
      intro s hs e
      refine hap s hs s.name (mem_spellings.2 (.inl (by simp [Switch.on]))) ?_
      rw [← e]; exact mem_spellings.2 (.inl (by simp [Switch.on]))
    have := ih (pre ++ [t]) (p.add t.name t.more t.off t.dflt) (by simpa using hc)
      (knows_add k t hap (hc.onoff t (by simp))) ?_ ?_
    · simpa using this
    · intro s hs
      simp only [Parser.add]
      rcases List.mem_append.1 hs with hs | hs
      · have hne := htn s hs
        split
        · rw [look_insertNew, hv s hs]
          have hne' : ¬ s.name = t.name := fun e => hne e.symm
          cases hd : s.dflt <;> simp [hne']
        · exact hv s hs
      · simp only [List.mem_singleton] at hs; subst hs
        have h0 := hn s.name htn
        split
        · next hd => rw [look_insertNew, h0]; simp
        · next hd => rw [h0]
    · intro x hx
      simp only [Parser.add]
      have h0 := hn x (fun s hs => hx s (by simp [hs]))
      have h1 := hx t (by simp)
      split
      · rw [look_insertNew, h0]; simp [h1]
      · exact h0

theorem knows_values {sw : List Switch} {p : Parser} (k : Knows sw p) (vs : List (Str × Bool)) (ds : List (Str × Str)) :
    Knows sw { p with values := vs, devices := ds } := ⟨k.on, k.off, k.other⟩

theorem apart_of {sw : List Switch} (h : sw.Pairwise (fun s t => ∀ a ∈ s.spellings, a ∉ t.spellings)) {u v : Switch}
    (hu : u ∈ sw) (hv : v ∈ sw) (huv : u ≠ v) (a : Str) (ha : a ∈ u.spellings) : a ∉ v.spellings := by
  induction sw with
  | nil => simp at hu
  | cons t sw ih =>
    rw [List.pairwise_cons] at h
    rcases List.mem_cons.1 hu with rfl | hu'
    · rcases List.mem_cons.1 hv with rfl | hv'
      · exact absurd rfl huv
      · exact h.1 v hv' a ha
    · rcases List.mem_cons.1 hv with rfl | hv'
      · intro hb; exact h.1 u hu' a hb ha
      · exact ih h.2 hu' hv'

/-- one word -/
theorem param_step {sw : List Switch} (hc : Clean sw) {p : Parser} (k : Knows sw p) (w : Str) (hw : w ≠ []) :
    Knows sw (p.param w) ∧ ∀ s ∈ sw, look (p.param w).values s.name =
      if w ∈ s.on then some true else if w ∈ s.off then some false else look p.values s.name := by
  unfold Parser.param
  rw [if_neg hw]
  cases hd : deviceMap? w with
  | some xy =>
    refine ⟨⟨k.on, k.off, k.other⟩, ?_⟩
    intro s hs
    have h1 : w ∉ s.spellings := fun h => by
      have := (hc.plain s hs w h).2
      rw [hd] at this; cases this
    rw [mem_spellings] at h1
    rw [if_neg (fun h => h1 (.inl h)), if_neg (fun h => h1 (.inr h))]
  | none =>
    have hdis : ∀ s ∈ sw, ∀ t ∈ sw, ∀ a, a ∈ s.spellings → a ∈ t.spellings → s = t := by
      intro s hs t ht a ha hb
      apply Classical.byContradiction
      intro hst
      exact apart_of hc.apart hs ht hst a ha hb
    have hsame : ∀ s ∈ sw, ∀ t ∈ sw, s.name = t.name → s = t := by
      intro s hs t ht e
      exact hdis s hs t ht s.name (mem_spellings.2 (.inl (by simp [Switch.on])))
        (by rw [e]; exact mem_spellings.2 (.inl (by simp [Switch.on])))
    show Knows sw (p.set w) ∧ ∀ s ∈ sw, look (p.set w).values s.name = _
    by_cases hon : ∃ t ∈ sw, w ∈ t.on
    · obtain ⟨t, ht, hw⟩ := hon
      have e := k.on t ht w hw
      have hset : p.set w = { p with values := assign p.values t.name true } := by
        unfold Parser.set; rw [e]
      rw [hset]
      refine ⟨⟨k.on, k.off, k.other⟩, ?_⟩
      intro s hs
      simp only [look_assign]
      by_cases hst : s = t
      · subst hst; simp [hw]
      · rw [if_neg (fun e => hst (hsame s hs t ht e))]
        rw [if_neg (fun h => hst (hdis s hs t ht w (mem_spellings.2 (.inl h)) (mem_spellings.2 (.inl hw)))),
          if_neg (fun h => hst (hdis s hs t ht w (mem_spellings.2 (.inr h)) (mem_spellings.2 (.inl hw))))]
    · by_cases hoff : ∃ t ∈ sw, w ∈ t.off
      · obtain ⟨t, ht, hw⟩ := hoff
        obtain ⟨e1, e2⟩ := k.off t ht w hw
        have hset : p.set w = { p with values := assign p.values t.name false } := by
          unfold Parser.set; rw [e1, e2]
        rw [hset]
        refine ⟨⟨k.on, k.off, k.other⟩, ?_⟩
        intro s hs
        simp only [look_assign]
        by_cases hst : s = t
        · subst hst
          rw [if_pos rfl, if_neg (fun h => hon ⟨s, hs, h⟩), if_pos hw]
        · rw [if_neg (fun e => hst (hsame s hs t ht e)), if_neg (fun h => hon ⟨s, hs, h⟩),
            if_neg (fun h => hst (hdis s hs t ht w (mem_spellings.2 (.inr h)) (mem_spellings.2 (.inr hw))))]
      · obtain ⟨e1, e2⟩ := k.other w (fun s hs h => by
          rcases mem_spellings.1 h with h | h
          · exact hon ⟨s, hs, h⟩
          · exact hoff ⟨s, hs, h⟩)
        have hset : p.set w = p := by unfold Parser.set; rw [e1, e2]
        rw [hset]
        refine ⟨k, ?_⟩
        intro s hs
        rw [if_neg (fun h => hon ⟨s, hs, h⟩), if_neg (fun h => hoff ⟨s, hs, h⟩)]

theorem words_nonempty {s : Str} {ws : List Str} (h : CommandLine s ws) : ∀ w ∈ ws, w ≠ [] := by
  induction h with
  | nil => simp
  | blank _ _ ih => exact ih
  | word hne _ _ _ ih => intro w hw; rcases List.mem_cons.1 hw with rfl | hw; exacts [hne, ih w hw]

/-- **C35 (switches)** For switches that share no spelling, after parsing any command line each switch is what its last mention
says, and its default if it is not mentioned; all other words are ignored. -/
theorem C35_last_mention (sw : List Switch) (hc : Clean sw) (args : Str) (words : List Str) (hw : CommandLine args words) :
    ∀ s ∈ sw, ((withSwitches sw).parse args).get s.name = lastMention s words.reverse := by
  rw [parse_words hw]
  have key : ∀ (ws : List Str) (older : List Str) (p : Parser), (∀ w ∈ ws, w ≠ []) → Knows sw p →
      (∀ s ∈ sw, (look p.values s.name).getD false = lastMention s older) →
      ∀ s ∈ sw, (look (ws.foldl Parser.param p).values s.name).getD false = lastMention s (ws.reverse ++ older) := by
    intro ws
    induction ws with
    | nil => intro older p _ _ h; simpa using h
    | cons w ws ih =>
      intro older p hne k h s hs
      obtain ⟨k', hv⟩ := param_step hc k w (hne w (by simp))
      have := ih (w :: older) (p.param w) (fun x hx => hne x (by simp [hx])) k' ?_ s hs
      · simpa using this
      · intro t ht
        rw [hv t ht, lastMention]
        split
        · rfl
        · split
          · rfl
          · exact h t ht
  obtain ⟨k, hv⟩ := knows_with hc
  intro s hs
  have := key words [] (withSwitches sw) (words_nonempty hw) k ?_ s hs
  · rw [List.append_nil] at this; exact this
  · intro t ht
    rw [hv t ht]
    cases hd : t.dflt <;> simp [lastMention, hd]

/-- the switches of the translator, translater.cpp:107-109 -/
def exampleSwitches : List Switch :=
  [⟨"--float16".toList, ["-fp16".toList], ["--no-float16".toList, "-no-fp16".toList], false⟩,
   ⟨"--pack".toList, [], ["--no-pack".toList], true⟩]
example : Clean exampleSwitches := ⟨by decide, by decide, by decide⟩
example : ((withSwitches exampleSwitches).parse "-fp16 --no-pack --no-float16  --pack".toList).get "--float16".toList = false ∧
    ((withSwitches exampleSwitches).parse "-fp16 --no-pack --no-float16  --pack".toList).get "--pack".toList = true := by decide

/-! ## Device aliases -/

/-- **C35 (what an alias looks like)** A word defines an alias exactly if it is `-v:a:b` or `-V:a:b` with no colon inside `a` or
`b`, and then it maps `a` to `b`. -/
theorem C35_alias_syntax (w a b : Str) :
    deviceMap? w = some (a, b) ↔ ∃ v, (v = 'v' ∨ v = 'V') ∧ w = '-' :: v :: ':' :: (a ++ ':' :: b) ∧ ':' ∉ a ∧ ':' ∉ b := by
  have hno : ∀ l : Str, l.any (· == ':') = false ↔ ':' ∉ l := by
    intro l
    rw [List.any_eq_false]
    constructor
    · intro h hm; exact h _ hm (by simp)
    · intro h x hx he
      have : x = ':' := by simpa using he
      subst this; exact h hx
  have htw : ∀ l : Str, ':' ∉ l.takeWhile (· != ':') := by
    intro l
    induction l with
    | nil => simp
    | cons x l ih =>
      rw [List.takeWhile_cons]
      split
      · rename_i hx
        intro hm
        rcases List.mem_cons.1 hm with e | e
        · subst e; simp at hx
        · exact ih e
      · simp
  constructor
  · intro h
    match w, h with
    | [], h => cases h
    | [_], h => cases h
    | [_, _], h => cases h
    | d :: v :: c :: rest, h =>
      simp only [deviceMap?] at h
      split at h
      · rename_i hc
        obtain ⟨rfl, hv, rfl⟩ := hc
        split at h
        · rename_i x b' hdrop
          split at h
          · cases h
          · rename_i hb
            simp only [Option.some.injEq, Prod.mk.injEq] at h
            obtain ⟨rfl, rfl⟩ := h
            have hx : x = ':' := by
              have := List.head?_dropWhile_not (p := (· != ':')) (l := rest)
              rw [hdrop] at this
              simpa using this
            subst hx
            refine ⟨v, hv, ?_, htw _, (hno _).1 (by rw [Bool.not_eq_true] at hb; exact hb)⟩
            rw [← hdrop, List.takeWhile_append_dropWhile]
        · cases h
      · cases h
  · rintro ⟨v, hv, rfl, ha, hb⟩
    have hall : ∀ x ∈ a, (x != ':') = true := by
      intro x hx
      simp only [bne_iff_ne, ne_eq]
      rintro rfl
      exact ha hx
    simp only [deviceMap?]
    rw [if_pos ⟨trivial, hv, trivial⟩]
    rw [List.takeWhile_append_of_pos hall, List.dropWhile_append_of_pos hall]
    have h2 := (hno b).2 hb
    simp [h2]

example : deviceMap? "-v:gpu:0:cpu".toList = none ∧ deviceMap? "-V:gpu:cpu".toList = some ("gpu".toList, "cpu".toList) := by decide

/-- the alias of a name: what the last word `-v:name:other` says, else what was there before -/
def lastAlias (before : Str → Option Str) : List Str → Str → Option Str
  | [], n => before n
  | w :: older, n =>
    match deviceMap? w with
    | some (x, y) => if n = stand1 x then some (stand1 y) else lastAlias before older n
    | none => lastAlias before older n

/-- **C35 (aliases on the command line)** After parsing, the alias of a name is the last one given on the command line, else the
one known before; other words do not touch the aliases. -/
theorem C35_last_alias (p : Parser) (args : Str) (words : List Str) (hw : CommandLine args words) (n : Str) :
    look (p.parse args).devices n = lastAlias (look p.devices) words.reverse n := by
  rw [parse_words hw]
  have key : ∀ (ws older : List Str) (q : Parser), (∀ w ∈ ws, w ≠ []) →
      (∀ n, look q.devices n = lastAlias (look p.devices) older n) →
      ∀ n, look (ws.foldl Parser.param q).devices n = lastAlias (look p.devices) (ws.reverse ++ older) n := by
    intro ws
    induction ws with
    | nil => intro older q _ h; simpa using h
    | cons w ws ih =>
      intro older q hne h n
      have hdev : ∀ n, look (q.param w).devices n = lastAlias (look p.devices) (w :: older) n := by
        intro n
        unfold Parser.param
        rw [if_neg (hne w (by simp)), lastAlias]
        cases hd : deviceMap? w with
        | some xy =>
          obtain ⟨x, y⟩ := xy
          simp only [look_assign, h]
        | none =>
          simp only
          have : (q.set w).devices = q.devices := by
            unfold Parser.set
            split
            · rfl
            · split <;> rfl
          rw [this, h]
      have := ih (w :: older) (q.param w) (fun x hx => hne x (by simp [hx])) hdev n
      simpa using this
  have := key words [] p (words_nonempty hw) (fun _ => rfl) n
  rw [List.append_nil] at this
  exact this

example : lastAlias (look (Parser.new).devices) ["-v:gpu:cpu".toList, "--pack".toList] "gpu".toList = some "cpu".toList := by decide

/-- following `k` aliases -/
def follow (p : Parser) : Nat → Str → Option Str
  | 0, d => some d
  | k + 1, d => (look p.devices d).bind (follow p k)

theorem follow_add (p : Parser) (j k : Nat) (d : Str) : follow p (j + k) d = (follow p j d).bind (follow p k) := by
  induction j generalizing d with
  | zero => simp [follow]
  | succ j ih =>
    rw [Nat.succ_add]
    simp only [follow]
    cases look p.devices d with
    | none => rfl
    | some e => simp [ih]

theorem mapLoop_follow (p : Parser) (fuel : Nat) (d r : Str) :
    p.mapLoop fuel d = some r ↔ ∃ k e, k < fuel ∧ follow p k d = some e ∧ look p.devices e = none ∧ r = stand2 e := by
  induction fuel generalizing d with
  | zero => simp [Parser.mapLoop]
  | succ n ih =>
    rw [Parser.mapLoop]
    cases h : look p.devices d with
    | some e =>
      simp only
      rw [ih]
      constructor
      · rintro ⟨k, x, hk, hf, hx, hr⟩
        exact ⟨k + 1, x, by omega, by simp [follow, h, hf], hx, hr⟩
      · rintro ⟨k, x, hk, hf, hx, hr⟩
        cases k with
        | zero => simp only [follow, Option.some.injEq] at hf; subst hf; rw [h] at hx; cases hx
        | succ k => exact ⟨k, x, by omega, by simpa [follow, h] using hf, hx, hr⟩
    | none =>
      simp only
      constructor
      · intro e; cases e; exact ⟨0, d, by omega, rfl, h, rfl⟩
      · rintro ⟨k, x, hk, hf, hx, hr⟩
        cases k with
        | zero => simp only [follow, Option.some.injEq] at hf; subst hf; rw [hr]
        | succ k => simp [follow, h] at hf

/-- **C35 (device names)** The lookup ends with `r` exactly if following aliases from the (trimmed, lower-case) device name
reaches a name without alias, and `r` is that name without surrounding dashes; the answer is unique. -/
theorem C35_map_device (p : Parser) (device r : Str) :
    (p.MapDevice device r ↔ ∃ k e, follow p k (stand1 device) = some e ∧ look p.devices e = none ∧ r = stand2 e) ∧
    (∀ r', p.MapDevice device r → p.MapDevice device r' → r = r') := by
  have h1 : ∀ r, p.MapDevice device r ↔ ∃ k e, follow p k (stand1 device) = some e ∧ look p.devices e = none ∧ r = stand2 e := by
    intro r
    unfold Parser.MapDevice
    constructor
    · rintro ⟨f, hf⟩
      obtain ⟨k, e, -, h1, h2, h3⟩ := (mapLoop_follow p f _ r).1 hf
      exact ⟨k, e, h1, h2, h3⟩
    · rintro ⟨k, e, h1, h2, h3⟩
      exact ⟨k + 1, (mapLoop_follow p _ _ r).2 ⟨k, e, by omega, h1, h2, h3⟩⟩
  refine ⟨h1 r, ?_⟩
  intro r' hr hr'
  obtain ⟨k, e, a1, a2, a3⟩ := (h1 r).1 hr
  obtain ⟨k', e', b1, b2, b3⟩ := (h1 r').1 hr'
  have hend : ∀ (x : Str) (j : Nat), look p.devices x = none → follow p j x = (if j = 0 then some x else none) := by
    intro x j hx
    cases j with
    | zero => rfl
    | succ j => simp [follow, hx]
  have : e = e' := by
    rcases Nat.le_total k k' with hk | hk
    · obtain ⟨j, rfl⟩ := Nat.exists_eq_add_of_le hk
      rw [follow_add, a1, Option.bind_some, hend e j a2] at b1
      split at b1
      · cases b1; rfl
      · cases b1
    · obtain ⟨j, rfl⟩ := Nat.exists_eq_add_of_le hk
      rw [follow_add, b1, Option.bind_some, hend e' j b2] at a1
      split at a1
      · cases a1; rfl
      · cases a1
  rw [a3, b3, this]

/-- **C35 (termination)** If no name reached from the device leads back to itself, the lookup ends. -/
theorem C35_map_device_terminates_partial (p : Parser) (device : Str)
    (hacyc : ∀ j e, follow p j (stand1 device) = some e → ∀ k, 0 < k → follow p k e ≠ some e) : ∃ r, p.MapDevice device r := by
  by_contra hno
  -- then every number of aliases can be followed
  have hall : ∀ k, ∃ e, follow p k (stand1 device) = some e := by
    intro k
    induction k with
    | zero => exact ⟨_, rfl⟩
    | succ k ih =>
      obtain ⟨e, he⟩ := ih
      cases hl : look p.devices e with
      | some f => exact ⟨f, by rw [follow_add, he]; simp [follow, hl]⟩
      | none => exact absurd ⟨stand2 e, (C35_map_device p device _).1.2 ⟨k, e, he, hl, rfl⟩⟩ hno
  let f : Nat → Str := fun k => (follow p k (stand1 device)).getD []
  have hf : ∀ k, follow p k (stand1 device) = some (f k) := by
    intro k; obtain ⟨e, he⟩ := hall k; simp [f, he]
  have hkey : ∀ k, f k ∈ p.devices.map Prod.fst := by
    intro k
    have h1 := hf (k + 1)
    rw [follow_add, hf k, Option.bind_some] at h1
    simp only [follow] at h1
    cases hl : look p.devices (f k) with
    | none => rw [hl] at h1; cases h1
    | some e =>
      unfold look at hl
      have : ∀ (l : List (Str × Str)) (a e : Str), l.lookup a = some e → a ∈ l.map Prod.fst := by
        intro l a e
        induction l with
        | nil => intro h; simp at h
        | cons x l ih =>
          intro h
          rw [List.lookup_cons] at h
          by_cases hx : a = x.1
          · simp [hx]
          · have : (a == x.1) = false := by simpa using hx
            rw [this] at h
            simp only [List.map_cons, List.mem_cons]
            exact .inr (ih h)
      exact this _ _ _ hl
  have hinj : ∀ i j, i < j → f i ≠ f j := by
    intro i j hij e
    have h1 := hf j
    obtain ⟨k, rfl⟩ := Nat.exists_eq_add_of_lt hij
    rw [show i + k + 1 = i + (k + 1) by omega] at h1 e
    rw [follow_add, hf i, Option.bind_some] at h1
    exact hacyc i (f i) (hf i) (k + 1) (by omega) (by rw [h1, ← e])
  have hnd : ((List.range (p.devices.length + 1)).map f).Nodup := by
    rw [List.Nodup, List.pairwise_map]
    exact List.pairwise_lt_range.imp (fun h => hinj _ _ h)
  have hsub : (List.range (p.devices.length + 1)).map f ⊆ p.devices.map Prod.fst := by
    intro x hx
    obtain ⟨k, -, rfl⟩ := List.mem_map.1 hx
    exact hkey k
  have := (List.subperm_of_subset hnd hsub).length_le
  simp at this
  omega

/-- cuda is the gpu, an alias on the command line is followed through it -/
example : (((Parser.new).parse "-v:nv:CUDA".toList).mapLoop 9 "nv".toList) = some "gpu".toList := by decide

/-- **C35, negation** Aliases that lead back to a name already passed (e.g. `-v:cpu:cpu`, or `-v:gpu:cuda` with the built-in
alias of cuda) are accepted, and then the lookup never ends. -/
theorem C35_map_device_cycle_false :
    (∀ (p : Parser) (device : Str) j e k, follow p j (stand1 device) = some e → 0 < k → follow p k e = some e → ∀ r, ¬ p.MapDevice device r) ∧
    (∀ r, ¬ ((Parser.new).parse "-v:gpu:cuda".toList).MapDevice "cuda".toList r) := by
  have h1 : ∀ (p : Parser) (device : Str) j e k, follow p j (stand1 device) = some e → 0 < k → follow p k e = some e →
      ∀ r, ¬ p.MapDevice device r := by
    intro p device j e k hj hk hc r hr
    obtain ⟨n, x, a1, a2, -⟩ := (C35_map_device p device r).1.1 hr
    have hrep : ∀ m, follow p (m * k) e = some e := by
      intro m
      induction m with
      | zero => simp [follow]
      | succ m ih => rw [Nat.succ_mul, follow_add, ih, Option.bind_some, hc]
    -- a number of steps beyond n still succeeds
    have hbig : follow p (j + (n + 1) * k) (stand1 device) = some e := by rw [follow_add, hj, Option.bind_some, hrep]
    have hle : n + 1 ≤ j + (n + 1) * k := by
      have : n + 1 ≤ (n + 1) * k := Nat.le_mul_of_pos_right _ hk
      omega
    obtain ⟨q, hq⟩ := Nat.exists_eq_add_of_le hle
    rw [hq, show n + 1 + q = n + (1 + q) by omega, follow_add, a1, Option.bind_some, Nat.add_comm 1 q, follow, a2] at hbig
    cases hbig
  refine ⟨h1, ?_⟩
  intro r
  exact h1 _ _ 0 "cuda".toList 2 (by decide) (by decide) (by decide) r

end Verif.Props
