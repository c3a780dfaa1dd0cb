import Verif.Api.Switch
import Verif.Props.Plugin
/-!
# C94: a library for the processor

Specification: `needs f` are the features that the code of an operator uses, `builtFor` says by its name for which features a library
was built.
-/
namespace Verif.Props
open Verif.Core Verif.Api Verif.Api.Switching

namespace S94
variable {F : Type}

/-- which features a library may use, by its file name -/
def builtFor (path : List Char) : List Feature :=
  if "libtennis_haswell.so".toList <:+ path then [.avx, .fma]
  else if "libtennis_sandy_bridge.so".toList <:+ path then [.avx]
  else if "libtennis_pentium.so".toList <:+ path then [.sse, .sse2]
  else [.avx, .fma, .sse, .sse2]

/-- the processor has all that `f` needs -/
def Supported (cpu : Feature → Bool) (needs : F → List Feature) (f : F) : Prop := ∀ x ∈ needs f, cpu x = true

/-- no key twice: what a `std::map` is -/
def Keys (m : Registry F) : Prop := (m.map Prod.fst).Nodup

/-- the plugins of a program run on its processor -/
def Plugins (cpu : Feature → Bool) (needs : F → List Feature) (l : List (Step F)) : Prop :=
  ∀ s ∈ l, match s with
    | .register _ _ f => Supported cpu needs f
    | .bench => True

theorem hasAll_iff {cpu : Feature → Bool} {l : List Feature} : hasAll cpu l = true ↔ ∀ x ∈ l, cpu x = true := by
  induction l with
  | nil => simp [hasAll]
  | cons a l ih =>
    unfold hasAll
    by_cases h : cpu a = true
    · simp [h, ih]
    · simp [h]

theorem keys_register {m : Registry F} (h : Keys m) (d n : List Nat) (f : F) : Keys (m.register d n f) := by
  unfold Keys Registry.register at *
  rw [List.map_cons, List.nodup_cons]
  refine ⟨?_, ?_⟩
  · simp
  · exact h.sublist ((List.filter_sublist).map _)

theorem mem_register {m : Registry F} {d n : List Nat} {f : F} {e} (h : e ∈ m.register d n f) : e = ((d, n), f) ∨ e ∈ m := by
  unfold Registry.register at h
  rcases List.mem_cons.1 h with h | h
  · exact .inl h
  · exact .inr (List.mem_filter.1 h).1

theorem mem_foldl {e} : ∀ (l acc : Registry F), e ∈ l.foldl (fun r e => r.register e.1.1 e.1.2 e.2) acc → e ∈ l ∨ e ∈ acc
  | [], _, h => .inr h
  | a :: l, acc, h => by
    rcases mem_foldl l _ h with h | h
    · exact .inl (by simp [h])
    · rcases mem_register h with rfl | h
      · exact .inl (by simp)
      · exact .inr h

theorem mem_flush {m : Registry F} {e} (h : e ∈ m.flush) : e ∈ m := by
  rcases mem_foldl m [] h with h | h
  · exact h
  · simp at h

theorem query_foldl (d n : List Nat) : ∀ (l acc : Registry F), Keys l →
    (l.foldl (fun r e => r.register e.1.1 e.1.2 e.2) acc).query d n = (Registry.query l d n).or (acc.query d n)
  | [], acc, _ => by simp [Registry.query]
  | a :: l, acc, h => by
    unfold Keys at h
    rw [List.map_cons, List.nodup_cons] at h
    obtain ⟨⟨a1, a2⟩, f⟩ := a
    rw [List.foldl_cons, query_foldl d n l _ h.2, query_register]
    by_cases he : (a1, a2) = (d, n)
    · have hn : Registry.query l d n = none := by
        unfold Registry.query
        rw [Option.map_eq_none_iff, List.find?_eq_none]
        intro x hx hq
        exact h.1 (List.mem_map.2 ⟨x, hx, by simp only [beq_iff_eq] at hq; rw [hq, he]⟩)
      rw [if_pos he, hn]
      simp [Registry.query, he]
    · rw [if_neg he]
      congr 1
      simp only [Registry.query]
      rw [List.find?_cons_of_neg (by simpa using he)]

theorem query_flush {m : Registry F} (h : Keys m) (d n : List Nat) : m.flush.query d n = m.query d n := by
  unfold Registry.flush
  rw [query_foldl d n m [] h]
  simp [Registry.query]

theorem query_mem {m : Registry F} {d n : List Nat} {f : F} (h : m.query d n = some f) : ((d, n), f) ∈ m := by
  unfold Registry.query at h
  rw [Option.map_eq_some_iff] at h
  obtain ⟨e, h1, h2⟩ := h
  have h3 := List.find?_some h1
  simp only [beq_iff_eq] at h3
  have h4 := List.mem_of_find?_eq_some h1
  obtain ⟨k, g⟩ := e
  simp only at h3 h2
  rw [← h3, ← h2]
  exact h4

/-- loaded -/
def On (w : World F) : Prop := ∃ s, w.switcher = some s ∧ s.loaded = true

/-- a switcher that is loaded has a library and the old registry, one that is not has no old registry -/
def Sane (w : World F) : Prop := ∀ s, w.switcher = some s →
  (s.loaded = true → s.handle.isSome = true ∧ s.pre.isSome = true) ∧ (s.loaded = false → s.pre = none)

theorem bench_on (m : Machine F) (built : List Feature) (w : World F) (h : On w) : (openBench m built w).2 = w := by
  obtain ⟨s, h1, h2⟩ := h
  obtain ⟨reg, sw⟩ := w
  simp only at h1
  subst h1
  unfold openBench
  split
  · rfl
  · simp only [autoSwitch, Option.getD_some, Switcher.autoSwitch, h2, if_true]
    split <;> rfl

/-- what a first attempt does -/
theorem bench_off (m : Machine F) (built : List Feature) (w : World F) (h : ¬On w) (hs : Sane w) (hb : hasAll m.cpu built = false) :
    (((choose m.cpu).bind (load m) = none ∧ (openBench m built w).1 = .err ∧ (openBench m built w).2.reg = w.reg ∧
        ∃ s : Switcher F, (openBench m built w).2.switcher = some s ∧ s.loaded = false ∧ s.pre = none) ∨
      ∃ l, (choose m.cpu).bind (load m) = some l ∧ (openBench m built w).2 =
        ⟨if l.getMap then l.map.flush else w.reg, some ⟨some l, some w.reg, true⟩⟩ ∧
        (openBench m built w).1 = if l.getMap then (if l.initContext then .ok ⟨true, l.context⟩ else .ub) else .ub) := by
  have hl : (w.switcher.getD ⟨none, none, false⟩).loaded = false := by
    by_contra hc
    apply h
    cases he : w.switcher with
    | none => rw [he] at hc; simp at hc
    | some s => rw [he] at hc; exact ⟨s, he, by simpa using hc⟩
  have hp : (w.switcher.getD ⟨none, none, false⟩).pre = none := by
    cases he : w.switcher with
    | none => rfl
    | some s =>
      rw [he] at hl
      exact (hs s he).2 hl
  unfold openBench autoSwitch
  rw [hb]
  generalize w.switcher.getD ⟨none, none, false⟩ = s at hl hp
  unfold Switcher.autoSwitch
  rw [hl]
  cases hc : choose m.cpu with
  | none => left; exact ⟨rfl, rfl, rfl, s, rfl, hl, hp⟩
  | some name =>
    simp only [Option.bind_some]
    cases hld : load m name with
    | none => left; exact ⟨rfl, rfl, rfl, _, rfl, rfl, hp⟩
    | some l =>
      right
      refine ⟨l, rfl, ?_⟩
      cases hg : l.getMap
      · simp [hg]
      · cases hi : l.initContext <;> simp [hg, hi, initContext]

theorem on_bench (m : Machine F) (built : List Feature) (w : World F) (h : On w) : On (openBench m built w).2 := by
  rw [bench_on m built w h]; exact h

theorem sane_bench (m : Machine F) (built : List Feature) (w : World F) (hs : Sane w) : Sane (openBench m built w).2 := by
  by_cases hon : On w
  · rw [bench_on m built w hon]; exact hs
  · cases hb : hasAll m.cpu built with
    | true => unfold openBench; rw [hb]; exact hs
    | false =>
      rcases bench_off m built w hon hs hb with ⟨_, _, _, s, h1, h2, h3⟩ | ⟨l, _, h2, _⟩
      · intro s' h'
        rw [h1] at h'
        obtain rfl := Option.some.inj h'
        exact ⟨fun h => by simp [h2] at h, fun _ => h3⟩
      · intro s' h'
        rw [h2] at h'
        obtain rfl := Option.some.inj h'
        exact ⟨fun _ => ⟨rfl, rfl⟩, fun h => by simp at h⟩

theorem sane_steps (m : Machine F) (built : List Feature) (l : List (Step F)) : ∀ w : World F, Sane w → Sane (steps m built w l) := by
  induction l with
  | nil => intro w h; exact h
  | cons a l ih =>
    intro w h
    refine ih _ ?_
    cases a with
    | register d n f => exact h
    | bench => exact sane_bench m built w h

theorem on_steps (m : Machine F) (built : List Feature) (l : List (Step F)) : ∀ w : World F, On w →
    On (steps m built w l) ∧ (steps m built w l).switcher = w.switcher := by
  induction l with
  | nil => intro w h; exact ⟨h, rfl⟩
  | cons a l ih =>
    intro w h
    cases a with
    | register d n f => exact ih _ h
    | bench =>
      have := ih (openBench m built w).2 (on_bench m built w h)
      rw [bench_on m built w h] at this
      show On (steps m built (openBench m built w).2 l) ∧ (steps m built (openBench m built w).2 l).switcher = _
      rw [bench_on m built w h]
      exact this

theorem keys_steps (m : Machine F) (built : List Feature) (hm : ∀ p l, m.dlopen p = some l → Keys l.map) (l : List (Step F)) :
    ∀ w : World F, Keys w.reg → Sane w → Keys (steps m built w l).reg := by
  induction l with
  | nil => intro w h _; exact h
  | cons a l ih =>
    intro w h hs
    cases a with
    | register d n f => exact ih ⟨w.reg.register d n f, w.switcher⟩ (keys_register h d n f) hs
    | bench =>
      refine ih (openBench m built w).2 ?_ (sane_bench m built w hs)
      by_cases hon : On w
      · rw [bench_on m built w hon]; exact h
      · cases hb : hasAll m.cpu built with
        | true => unfold openBench; rw [hb]; exact h
        | false =>
          rcases bench_off m built w hon hs hb with ⟨_, _, h1, _⟩ | ⟨l, _, h2, _⟩
          · rw [h1]; exact h
          · rw [h2]
            simp only
            split
            · unfold Registry.flush
              have : ∀ (l acc : Registry F), Keys acc → Keys (l.foldl (fun r e => r.register e.1.1 e.1.2 e.2) acc) := by
                intro l
                induction l with
                | nil => intro acc h; exact h
                | cons a l ih => intro acc h; exact ih _ (keys_register h _ _ _)
              exact this _ _ (by simp [Keys])
            · exact h

theorem load_some {m : Machine F} {name : List Char} {l : Lib F} (h : load m name = some l) :
    ∃ p, m.dlopen p = some l ∧ name <:+ p := by
  unfold load at h
  split at h
  · rename_i l' h'
    obtain rfl := Option.some.inj h
    exact ⟨_, h', ⟨m.dir ++ ['/'], by simp⟩⟩
  · exact ⟨name, h, List.suffix_rfl⟩

theorem choose_spec {cpu : Feature → Bool} {name p : List Char} (h : choose cpu = some name) (hp : name <:+ p) : ∀ x ∈ builtFor p, cpu x = true := by
  have key : ∀ a b : List Char, a <:+ p → b <:+ p → a.length < b.length → a.getLast? = b.getLast? → a <:+ b := fun a b ha hb hl _ =>
    List.suffix_of_suffix_length_le ha hb (by omega)
  unfold choose at h
  split at h
  · rename_i h1
    obtain rfl := Option.some.inj h
    rw [hasAll_iff] at h1
    unfold builtFor
    rw [if_pos (by exact hp)]
    exact h1
  · split at h
    · rename_i h1
      obtain rfl := Option.some.inj h
      rw [hasAll_iff] at h1
      unfold builtFor
      rw [if_neg, if_pos (by exact hp)]
      · exact h1
      · intro hq
        have : haswell <:+ sandyBridge := List.suffix_of_suffix_length_le hq hp (by decide)
        exact absurd this (by decide)
    · split at h
      · rename_i h1
        obtain rfl := Option.some.inj h
        rw [hasAll_iff] at h1
        unfold builtFor
        rw [if_neg, if_neg, if_pos (by exact hp)]
        · exact h1
        · intro hq
          have : pentium <:+ sandyBridge := List.suffix_of_suffix_length_le hp hq (by decide)
          exact absurd this (by decide)
        · intro hq
          have : pentium <:+ haswell := List.suffix_of_suffix_length_le hp hq (by decide)
          exact absurd this (by decide)
      · simp at h

/-- every operator runs on the processor -/
def AllGood (cpu : Feature → Bool) (needs : F → List Feature) (w : World F) : Prop := ∀ e ∈ w.reg, Supported cpu needs e.2

theorem good_on (m : Machine F) (built : List Feature) (needs : F → List Feature) (l : List (Step F)) : ∀ w : World F,
    (hasAll m.cpu built = true ∨ On w) → AllGood m.cpu needs w → Plugins m.cpu needs l → AllGood m.cpu needs (steps m built w l) := by
  induction l with
  | nil => intro w _ h _; exact h
  | cons a l ih =>
    intro w hc h hp
    have hp' : Plugins m.cpu needs l := fun s hs => hp s (by simp [hs])
    cases a with
    | register d n f =>
      refine ih ⟨w.reg.register d n f, w.switcher⟩ hc ?_ hp'
      intro e he
      rcases mem_register he with rfl | he
      · exact hp (.register d n f) (by simp)
      · exact h e he
    | bench =>
      have e : (openBench m built w).2 = w := by
        rcases hc with hc | hc
        · unfold openBench; rw [hc]; rfl
        · exact bench_on m built w hc
      show AllGood m.cpu needs (steps m built (openBench m built w).2 l)
      rw [e]
      exact ih w hc h hp'

/-- until the library is loaded or while it is: if loaded, all is good -/
theorem good_steps (m : Machine F) (built : List Feature) (needs : F → List Feature)
    (hlib : ∀ p l, m.dlopen p = some l → l.getMap = true ∧ ∀ e ∈ l.map, ∀ x ∈ needs e.2, x ∈ builtFor p) (l : List (Step F)) : ∀ w : World F,
    Sane w → (On w ∨ hasAll m.cpu built = true → AllGood m.cpu needs w) → Plugins m.cpu needs l →
    (On (steps m built w l) ∨ hasAll m.cpu built = true → AllGood m.cpu needs (steps m built w l)) := by
  induction l with
  | nil => intro w _ h _; exact h
  | cons a l ih =>
    intro w hs h hp
    have hp' : Plugins m.cpu needs l := fun s hs => hp s (by simp [hs])
    cases a with
    | register d n f =>
      refine ih ⟨w.reg.register d n f, w.switcher⟩ hs ?_ hp'
      intro ho e he
      rcases mem_register he with rfl | he
      · exact hp (.register d n f) (by simp)
      · exact h ho e he
    | bench =>
      refine ih (openBench m built w).2 (sane_bench m built w hs) ?_ hp'
      by_cases hon : On w
      · rw [bench_on m built w hon]; exact h
      · cases hb : hasAll m.cpu built with
        | true =>
          have e : (openBench m built w).2 = w := by unfold openBench; rw [hb]; rfl
          rw [e]
          intro _
          exact h (.inr hb)
        | false =>
          rcases bench_off m built w hon hs hb with ⟨_, _, _, s, h1, h2, h3⟩ | ⟨lb, h1, h2, _⟩
          · rintro (⟨s', h4, h5⟩ | h4)
            · rw [h1] at h4
              obtain rfl := Option.some.inj h4
              simp [h2] at h5
            · simp at h4
          · intro _ e he
            rw [h2] at he
            rw [Option.bind_eq_some_iff] at h1
            obtain ⟨name, h5, h6⟩ := h1
            obtain ⟨p, h7, h8⟩ := load_some h6
            obtain ⟨h9, h10⟩ := hlib p lb h7
            simp only [h9, if_true] at he
            intro x hx
            exact choose_spec h5 h8 x (h10 e (mem_flush he) x hx)

end S94
open S94
variable {F : Type}

/-- **C94 (supported instructions)**: when the operators of every library need at most what its name says and those of the main library
at most what it was built for, then after any history of plugin registrations and attempts to make workbenches, from the first
workbench that was made on, and after everything that the program does later, every operator that can be found runs on the processor. -/
theorem C94_supported (m : Machine F) (built : List Feature) (needs : F → List Feature) (start : Registry F)
    (hstart : ∀ e ∈ start, ∀ x ∈ needs e.2, x ∈ built)
    (hlib : ∀ p l, m.dlopen p = some l → l.getMap = true ∧ ∀ e ∈ l.map, ∀ x ∈ needs e.2, x ∈ builtFor p)
    (before after : List (Step F)) (hb : Plugins m.cpu needs before) (ha : Plugins m.cpu needs after) (c : Control) (w : World F)
    (hc : openBench m built (steps m built ⟨start, none⟩ before) = (.ok c, w)) (d n : List Nat) (f : F)
    (hf : (steps m built w after).reg.query d n = some f) : Supported m.cpu needs f := by
  have sane0 : Sane (⟨start, none⟩ : World F) := fun s h => by simp at h
  have hs := sane_steps m built before _ sane0
  have hg := good_steps m built needs hlib before _ sane0 (by
    rintro (⟨s, h1, _⟩ | h) e he x hx
    · simp at h1
    · exact hasAll_iff.1 h x (hstart e he x hx)) hb
  have hw : (openBench m built (steps m built ⟨start, none⟩ before)).2 = w := by rw [hc]
  have hgood := good_steps m built needs hlib [.bench] _ hs hg (by intro s h; simp at h; subst h; trivial)
  change On (openBench m built (steps m built ⟨start, none⟩ before)).2 ∨ _ →
    AllGood m.cpu needs (openBench m built (steps m built ⟨start, none⟩ before)).2 at hgood
  rw [hw] at hgood
  have hon : On w ∨ hasAll m.cpu built = true := by
    cases hbl : hasAll m.cpu built with
    | true => exact .inr rfl
    | false =>
      left
      by_cases hon : On (steps m built ⟨start, none⟩ before)
      · rw [bench_on m built _ hon] at hw; rw [← hw]; exact hon
      · rcases bench_off m built _ hon hs hbl with ⟨_, h1, _⟩ | ⟨l, _, h2, _⟩
        · rw [hc] at h1; cases h1
        · rw [hw] at h2
          rw [h2]
          exact ⟨_, rfl, rfl⟩
  exact good_on m built needs after w hon.symm (hgood hon) ha _ (query_mem hf)

/-- **C94 (which library)**: the first successful switch replaces the registry by that of the library: the one for AVX and FMA if the
processor has both, else the one for AVX, else the one for SSE and SSE2. Every lookup answers as this library would. -/
theorem C94_registry (m : Machine F) (built : List Feature) (start : Registry F) (before : List (Step F)) (c : Control) (w : World F)
    (hn : ∀ p l, m.dlopen p = some l → Keys l.map) (hb : ∃ x ∈ built, m.cpu x = false)
    (hoff : (steps m built ⟨start, none⟩ before).switcher = none)
    (hc : openBench m built (steps m built ⟨start, none⟩ before) = (.ok c, w)) :
    ∃ (name : List Char) (l : Lib F), (m.dlopen (m.dir ++ '/' :: name) = some l ∨ m.dlopen (m.dir ++ '/' :: name) = none ∧ m.dlopen name = some l) ∧
      (m.cpu .avx = true → m.cpu .fma = true → name = "libtennis_haswell.so".toList) ∧
      (m.cpu .avx = true → m.cpu .fma = false → name = "libtennis_sandy_bridge.so".toList) ∧
      (m.cpu .avx = false → name = "libtennis_pentium.so".toList ∧ m.cpu .sse = true ∧ m.cpu .sse2 = true) ∧
      ∀ d n, w.reg.query d n = l.map.query d n := by
  have hbl : hasAll m.cpu built = false := by
    cases h : hasAll m.cpu built with
    | false => rfl
    | true =>
      obtain ⟨x, h1, h2⟩ := hb
      rw [hasAll_iff.1 h x h1] at h2
      cases h2
  have hs := sane_steps m built before (⟨start, none⟩ : World F) (fun s h => by simp at h)
  have hon : ¬On (steps m built ⟨start, none⟩ before) := by rintro ⟨s, h, _⟩; rw [hoff] at h; cases h
  rcases bench_off m built _ hon hs hbl with ⟨_, h1, _⟩ | ⟨l, h1, h2, h3⟩
  · rw [hc] at h1; cases h1
  · rw [hc] at h2 h3
    simp only at h2 h3
    cases hg : l.getMap with
    | false => rw [hg] at h3; cases h3
    | true =>
      rw [hg, if_pos rfl] at h2
      rw [Option.bind_eq_some_iff] at h1
      obtain ⟨name, h5, h6⟩ := h1
      obtain ⟨p, h7, _⟩ := load_some h6
      refine ⟨name, l, ?_, ?_, ?_, ?_, ?_⟩
      · unfold load at h6
        split at h6
        · rename_i h8; rw [h8]; exact .inl h6
        · rename_i h8; exact .inr ⟨h8, h6⟩
      · intro e1 e2
        simp only [choose, hasAll, e1, e2, if_true] at h5
        exact (Option.some.inj h5).symm
      · intro e1 e2
        simp [choose, hasAll, e1, e2] at h5
        exact h5.symm
      · intro e1
        simp [choose, hasAll, e1] at h5
        exact ⟨h5.2.symm, h5.1⟩
      · intro d n
        rw [h2]
        exact query_flush (hn p l h7) d n

/-- **C94 (once)**: after a switch, making further workbenches changes nothing, and each succeeds or fails as its own context does -/
theorem C94_once (m : Machine F) (built : List Feature) (start : Registry F) (before after : List (Step F)) (c : Control) (w : World F)
    (hb : ∃ x ∈ built, m.cpu x = false)
    (hc : openBench m built (steps m built ⟨start, none⟩ before) = (.ok c, w)) :
    ∃ c', openBench m built (steps m built w after) = (.ok c', steps m built w after) := by
  have hbl : hasAll m.cpu built = false := by
    cases h : hasAll m.cpu built with
    | false => rfl
    | true =>
      obtain ⟨x, h1, h2⟩ := hb
      rw [hasAll_iff.1 h x h1] at h2
      cases h2
  have hs := sane_steps m built before (⟨start, none⟩ : World F) (fun s h => by simp at h)
  have hw : (openBench m built (steps m built ⟨start, none⟩ before)).2 = w := by rw [hc]
  have h1 : (openBench m built (steps m built ⟨start, none⟩ before)).1 = .ok c := by rw [hc]
  have key : ∃ s l, w.switcher = some s ∧ s.loaded = true ∧ s.handle = some l ∧ l.initContext = true := by
    by_cases hon : On (steps m built ⟨start, none⟩ before)
    · have := bench_on m built _ hon
      obtain ⟨s, h2, h3⟩ := hon
      have h4 := ((hs s h2).1 h3).1
      obtain ⟨l, h5⟩ := Option.isSome_iff_exists.1 h4
      rw [hw] at this
      refine ⟨s, l, by rw [this]; exact h2, h3, h5, ?_⟩
      unfold openBench at h1
      rw [hbl, if_neg (by simp)] at h1
      unfold autoSwitch at h1
      rw [h2] at h1
      simp only [Option.getD_some, Switcher.autoSwitch, h3, if_true, initContext, h5] at h1
      cases hi : l.initContext with
      | true => rfl
      | false => rw [hi] at h1; simp at h1
    · rcases bench_off m built _ hon hs hbl with ⟨_, h2, _⟩ | ⟨l, _, h2, h3⟩
      · rw [hc] at h2; cases h2
      · rw [hw] at h2
        rw [h1] at h3
        refine ⟨_, l, by rw [h2], rfl, rfl, ?_⟩
        cases hi : l.initContext with
        | true => rfl
        | false => rw [hi] at h3; cases hg : l.getMap <;> rw [hg] at h3 <;> simp at h3
  obtain ⟨s, l, k1, k2, k3, k4⟩ := key
  obtain ⟨o1, o2⟩ := on_steps m built after w ⟨s, k1, k2⟩
  refine ⟨⟨true, l.context⟩, Prod.ext ?_ (bench_on m built _ o1)⟩
  unfold openBench
  rw [hbl, if_neg (by simp)]
  unfold autoSwitch
  rw [o2, k1]
  simp only [Option.getD_some, Switcher.autoSwitch, k2, if_true, initContext, k3, k4]

/-- **C94 (the end)**: when the process ends after a switch, the registry is again what it was just before the switch, whatever was
registered since -/
theorem C94_exit (m : Machine F) (built : List Feature) (start : Registry F) (before after : List (Step F)) (c : Control) (w : World F)
    (hk : Keys start) (hb : ∃ x ∈ built, m.cpu x = false) (hoff : (steps m built ⟨start, none⟩ before).switcher = none)
    (hn : ∀ p l, m.dlopen p = some l → Keys l.map)
    (hc : openBench m built (steps m built ⟨start, none⟩ before) = (.ok c, w)) :
    ∃ r, exitProcess (steps m built w after) = .ok r ∧ ∀ d n, r.query d n = (steps m built ⟨start, none⟩ before).reg.query d n := by
  have hbl : hasAll m.cpu built = false := by
    cases h : hasAll m.cpu built with
    | false => rfl
    | true =>
      obtain ⟨x, h1, h2⟩ := hb
      rw [hasAll_iff.1 h x h1] at h2
      cases h2
  have sane0 : Sane (⟨start, none⟩ : World F) := fun s h => by simp at h
  have hs := sane_steps m built before _ sane0
  have hon : ¬On (steps m built ⟨start, none⟩ before) := by rintro ⟨s, h, _⟩; rw [hoff] at h; cases h
  rcases bench_off m built _ hon hs hbl with ⟨_, h1, _⟩ | ⟨l, h1, h2, h3⟩
  · rw [hc] at h1; cases h1
  · rw [hc] at h2
    simp only at h2
    have hw : w.switcher = some ⟨some l, some (steps m built ⟨start, none⟩ before).reg, true⟩ := by rw [h2]
    obtain ⟨_, o2⟩ := on_steps m built after w ⟨_, hw, rfl⟩
    refine ⟨_, by unfold exitProcess; rw [o2, hw], ?_⟩
    intro d n
    exact query_flush (keys_steps m built hn before _ hk sane0) d n

/-- **C94 (the end), refuted after a failure**: when no fitting library can be loaded, every attempt to make a workbench throws; a program
that catches this and goes on reads a null pointer when it ends, for every such machine and history -/
theorem C94_exit_failed_false (m : Machine F) (built : List Feature) (start : Registry F) (before after : List (Step F))
    (hb : ∃ x ∈ built, m.cpu x = false) (hl : ∀ p, m.dlopen p = none) :
    (openBench m built (steps m built ⟨start, none⟩ before)).1 = .err ∧
      exitProcess (steps m built ⟨start, none⟩ (before ++ .bench :: after)) = .ub := by
  have hbl : hasAll m.cpu built = false := by
    cases h : hasAll m.cpu built with
    | false => rfl
    | true =>
      obtain ⟨x, h1, h2⟩ := hb
      rw [hasAll_iff.1 h x h1] at h2
      cases h2
  have hnone : (choose m.cpu).bind (load m) = none := by
    cases choose m.cpu with
    | none => rfl
    | some name => simp [load, hl]
  have never : ∀ (l : List (Step F)) (w : World F), Sane w → ¬On w → ¬On (steps m built w l) ∧ (w.switcher.isSome = true →
      (steps m built w l).switcher.isSome = true) := by
    intro l
    induction l with
    | nil => intro w _ h; exact ⟨h, id⟩
    | cons a l ih =>
      intro w hs h
      cases a with
      | register d n f => exact ih ⟨w.reg.register d n f, w.switcher⟩ hs h
      | bench =>
        rcases bench_off m built w h hs hbl with ⟨_, _, _, s, h1, h2, h3⟩ | ⟨lb, h1, _⟩
        · have h4 : ¬On (openBench m built w).2 := by
            rintro ⟨s', h5, h6⟩
            rw [h1] at h5
            obtain rfl := Option.some.inj h5
            rw [h2] at h6
            cases h6
          have := ih (openBench m built w).2 (sane_bench m built w hs) h4
          exact ⟨this.1, fun _ => this.2 (by rw [h1]; rfl)⟩
        · rw [hnone] at h1; cases h1
  have sane0 : Sane (⟨start, none⟩ : World F) := fun s h => by simp at h
  have hs := sane_steps m built before _ sane0
  have hon := (never before _ sane0 (by rintro ⟨s, h, _⟩; cases h)).1
  rcases bench_off m built _ hon hs hbl with ⟨_, h0, _, s, h1, h2, h3⟩ | ⟨lb, h1, _⟩
  · refine ⟨h0, ?_⟩
    have hs1 := sane_bench m built _ hs
    have h4 : ¬On (openBench m built (steps m built ⟨start, none⟩ before)).2 := by
      rintro ⟨s', h5, h6⟩
      rw [h1] at h5
      obtain rfl := Option.some.inj h5
      rw [h2] at h6
      cases h6
    have e : steps m built ⟨start, none⟩ (before ++ .bench :: after) =
        steps m built (openBench m built (steps m built ⟨start, none⟩ before)).2 after := by
      simp [steps, List.foldl_append, step]
    obtain ⟨n1, n2⟩ := never after _ hs1 h4
    have n3 := sane_steps m built after _ hs1
    obtain ⟨s2, n4⟩ := Option.isSome_iff_exists.1 (n2 (by rw [h1]; rfl))
    rw [e]
    unfold exitProcess
    rw [n4]
    have : s2.loaded = false := by
      cases h : s2.loaded with
      | false => rfl
      | true => exact absurd ⟨s2, n4, h⟩ n1
    simp only [(n3 s2 n4).2 this]
  · rw [hnone] at h1; cases h1

/-- **C94 (plugins), refuted**: an operator registered before the switch that the library does not have cannot be found afterwards -/
theorem C94_plugin_lost_false (m : Machine F) (built : List Feature) (start : Registry F) (before : List (Step F)) (c : Control) (w : World F)
    (hn : ∀ p l, m.dlopen p = some l → Keys l.map) (hb : ∃ x ∈ built, m.cpu x = false)
    (hoff : (steps m built ⟨start, none⟩ before).switcher = none) (d n : List Nat)
    (hno : ∀ p l, m.dlopen p = some l → l.map.query d n = none)
    (hc : openBench m built (steps m built ⟨start, none⟩ before) = (.ok c, w)) : w.reg.query d n = none := by
  obtain ⟨name, l, h1, _, _, _, h2⟩ := C94_registry m built start before c w hn hb hoff hc
  rw [h2]
  rcases h1 with h | ⟨_, h⟩
  · exact hno _ _ h
  · exact hno _ _ h

/-- **C94 (fallback), refuted**: on a processor with AVX and FMA no workbench can be made when the library for both is missing, even if those
for AVX and for SSE are there -/
theorem C94_fallback_false (m : Machine F) (built : List Feature) (w : World F) (h1 : m.cpu .avx = true) (h2 : m.cpu .fma = true)
    (hb : ∃ x ∈ built, m.cpu x = false) (hs : w.switcher = none)
    (h3 : m.dlopen (m.dir ++ '/' :: "libtennis_haswell.so".toList) = none) (h4 : m.dlopen "libtennis_haswell.so".toList = none) :
    (openBench m built w).1 = .err := by
  have hbl : hasAll m.cpu built = false := by
    cases h : hasAll m.cpu built with
    | false => rfl
    | true =>
      obtain ⟨x, h1, h2⟩ := hb
      rw [hasAll_iff.1 h x h1] at h2
      cases h2
  rcases bench_off m built w (by rintro ⟨s, h, _⟩; rw [hs] at h; cases h) (fun s h => by rw [hs] at h; cases h) hbl with ⟨_, h, _⟩ | ⟨l, h, _⟩
  · exact h
  · simp only [choose, hasAll, h1, h2, if_true, Option.bind_some, load] at h
    rw [show haswell = "libtennis_haswell.so".toList from rfl, h3] at h
    simp only [h4] at h
    cases h

/-- **C94 (contexts), refuted**: if the library cannot make a context for the device, the workbench is made without complaint, and every
run of it throws -/
theorem C94_context_false (m : Machine F) (built : List Feature) (w : World F) (l : Lib F) (hb : ∃ x ∈ built, m.cpu x = false)
    (hs : w.switcher = none) (hl : (choose m.cpu).bind (load m) = some l) (hg : l.getMap = true) (hi : l.initContext = true) (hx : l.context = false) :
    (openBench m built w).1 = .ok ⟨true, false⟩ ∧ ∀ after, bindContext (steps m built (openBench m built w).2 after) ⟨true, false⟩ = .err := by
  have hbl : hasAll m.cpu built = false := by
    cases h : hasAll m.cpu built with
    | false => rfl
    | true =>
      obtain ⟨x, h1, h2⟩ := hb
      rw [hasAll_iff.1 h x h1] at h2
      cases h2
  rcases bench_off m built w (by rintro ⟨s, h, _⟩; rw [hs] at h; cases h) (fun s h => by rw [hs] at h; cases h) hbl with ⟨h, _⟩ | ⟨l', h, _, h3⟩
  · rw [hl] at h; cases h
  · rw [hl] at h
    obtain rfl := Option.some.inj h
    refine ⟨by rw [h3, hg, hi, hx]; rfl, fun _ => rfl⟩

/-- **C94 (runs)**: a workbench made with a context can be run as long as the process lives -/
theorem C94_bind (m : Machine F) (built : List Feature) (start : Registry F) (before after : List (Step F)) (w : World F)
    (hb : ∃ x ∈ built, m.cpu x = false) (hbind : ∀ p l, m.dlopen p = some l → l.bindContext = true)
    (hoff : (steps m built ⟨start, none⟩ before).switcher = none)
    (hc : openBench m built (steps m built ⟨start, none⟩ before) = (.ok ⟨true, true⟩, w)) :
    bindContext (steps m built w after) ⟨true, true⟩ = .ok () := by
  have hbl : hasAll m.cpu built = false := by
    cases h : hasAll m.cpu built with
    | false => rfl
    | true =>
      obtain ⟨x, h1, h2⟩ := hb
      rw [hasAll_iff.1 h x h1] at h2
      cases h2
  have hs := sane_steps m built before (⟨start, none⟩ : World F) (fun s h => by simp at h)
  have hon : ¬On (steps m built ⟨start, none⟩ before) := by rintro ⟨s, h, _⟩; rw [hoff] at h; cases h
  rcases bench_off m built _ hon hs hbl with ⟨_, h1, _⟩ | ⟨l, h1, h2, h3⟩
  · rw [hc] at h1; cases h1
  · rw [hc] at h2
    simp only at h2
    have hw : w.switcher = some ⟨some l, some (steps m built ⟨start, none⟩ before).reg, true⟩ := by rw [h2]
    obtain ⟨_, o2⟩ := on_steps m built after w ⟨_, hw, rfl⟩
    rw [Option.bind_eq_some_iff] at h1
    obtain ⟨name, _, h6⟩ := h1
    obtain ⟨p, h7, _⟩ := load_some h6
    unfold bindContext
    rw [o2, hw]
    simp [hbind p l h7]

/-- **C94 (detection)**: the processor counts as having AVX only if the system saves the wide registers, and as having FMA only if it has AVX -/
theorem C94_detect (c : Cpuid) : (c.has .avx = true ↔ c.ecx.testBit 27 = true ∧ c.xcr0.testBit 1 = true ∧ c.xcr0.testBit 2 = true ∧ c.ecx.testBit 28 = true) ∧
    (c.has .fma = true ↔ c.has .avx = true ∧ c.ecx.testBit 12 = true) ∧ (c.has .sse = true ↔ c.edx.testBit 25 = true) ∧
    (c.has .sse2 = true ↔ c.edx.testBit 26 = true) := by
  refine ⟨?_, by simp [Cpuid.has], Iff.rfl, Iff.rfl⟩
  have key : (c.xcr0 &&& 6) = 6 ↔ c.xcr0.testBit 1 = true ∧ c.xcr0.testBit 2 = true := by
    constructor
    · intro h
      have h1 : (c.xcr0 &&& 6).testBit 1 = true := by rw [h]; rfl
      have h2 : (c.xcr0 &&& 6).testBit 2 = true := by rw [h]; rfl
      rw [Nat.testBit_and] at h1 h2
      exact ⟨(Bool.and_eq_true_iff.1 h1).1, (Bool.and_eq_true_iff.1 h2).1⟩
    · rintro ⟨h1, h2⟩
      apply Nat.eq_of_testBit_eq
      intro i
      rw [Nat.testBit_and]
      rcases i with _ | _ | _ | i
      · simp [Nat.testBit]
      · rw [h1]; rfl
      · rw [h2]; rfl
      · have : Nat.testBit 6 (i + 3) = false := by
          apply Nat.testBit_lt_two_pow
          calc 6 < 2 ^ 3 := by decide
            _ ≤ 2 ^ (i + 3) := Nat.pow_le_pow_right (by decide) (by omega)
        rw [this, Bool.and_false]
  simp only [Cpuid.has, Cpuid.haveAvx, Bool.and_eq_true, beq_iff_eq, key]
  tauto

namespace S94
/-- a processor with AVX but not FMA, all three libraries there -/
def cpu1 : Feature → Bool
  | .fma => false
  | _ => true
def lib1 (f : Nat) : Lib Nat := ⟨[((cpuType, [1]), f)], true, true, true, true, true, true⟩
def mach1 : Machine Nat where
  cpu := cpu1
  dir := "/opt".toList
  dlopen := fun p => if p = "/opt/libtennis_sandy_bridge.so".toList then some (lib1 2) else if p = "libtennis_pentium.so".toList then some (lib1 1) else none
def needs1 : Nat → List Feature
  | 3 => [.avx, .fma]
  | 2 => [.avx]
  | 1 => [.sse, .sse2]
  | _ => []
end S94

example : (openBench mach1 [.fma, .avx] (steps mach1 [.fma, .avx] ⟨[((cpuType, [1]), 3)], none⟩ [.register cpuType [9] 7])).1 = .ok ⟨true, true⟩ ∧
    (steps mach1 [.fma, .avx] ⟨[((cpuType, [1]), 3)], none⟩ [.register cpuType [9] 7]).switcher = none ∧
    ((openBench mach1 [.fma, .avx] (steps mach1 [.fma, .avx] ⟨[((cpuType, [1]), 3)], none⟩ [.register cpuType [9] 7])).2.reg.query cpuType [1] = some 2) ∧
    ((openBench mach1 [.fma, .avx] (steps mach1 [.fma, .avx] ⟨[((cpuType, [1]), 3)], none⟩ [.register cpuType [9] 7])).2.reg.query cpuType [9] = none) := by
  decide +kernel
example : Plugins mach1.cpu needs1 [.register cpuType [9] 7, .bench] := by
  intro s h
  simp at h
  rcases h with rfl | rfl <;> simp [Supported, needs1]
example : ∀ p l, mach1.dlopen p = some l → l.getMap = true ∧ Keys l.map ∧ ∀ e ∈ l.map, ∀ x ∈ needs1 e.2, x ∈ builtFor p := by
  intro p l h
  simp only [mach1] at h
  split at h
  · rename_i hp
    obtain rfl := Option.some.inj h
    subst hp
    refine ⟨rfl, by simp [Keys, lib1], ?_⟩
    intro e he x hx
    simp [lib1] at he
    subst he
    simp [needs1] at hx
    subst hx
    decide +kernel
  · split at h
    · rename_i hp
      obtain rfl := Option.some.inj h
      subst hp
      refine ⟨rfl, by simp [Keys, lib1], ?_⟩
      intro e he x hx
      simp [lib1] at he
      subst he
      simp [needs1] at hx
      rcases hx with rfl | rfl <;> decide +kernel
    · cases h
/-- a machine without libraries -/
example : (∃ x ∈ [Feature.avx, .fma], cpu1 x = false) ∧ (∀ p, (⟨cpu1, [], fun _ => none⟩ : Machine Nat).dlopen p = none) := ⟨⟨.fma, by simp, rfl⟩, fun _ => rfl⟩

/-- **C74 (flush)**: after `flush` every lookup answers as the given map, whatever was registered before; after `Clear` nothing is found -/
theorem C74_flush (m old : Registry F) (h : (m.map Prod.fst).Nodup) (d n : List Nat) :
    m.flush.query d n = (m.find? (fun e => e.1 == (d, n))).map Prod.snd ∧ old.clear.query d n = none :=
  ⟨query_flush h d n, rfl⟩

example : (Registry.flush [((cpuType, [1]), 5), ((cpuType, [2]), 6)] : Registry Nat).query cpuType [2] = some 6 := by decide

end Verif.Props
