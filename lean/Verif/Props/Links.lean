import Verif.Module.Links
/-!
# Property theorems: links between nodes (C38)
-/
namespace Verif.Props
open Verif.Module.Links

/-- between live nodes, `b` is listed as an input of `a` exactly as often as `a` is listed as an output of `b` -/
def Symmetric (g : G) : Prop :=
  ∀ a b, g.alive a = true → g.alive b = true → (g.inp a).count (some b) = (g.out b).count a

/-- nodes not yet made are not mentioned anywhere -/
structure FreshIds (g : G) : Prop where
  dead : ∀ a, g.next ≤ a → g.alive a = false
  inp : ∀ a b, some b ∈ g.inp a → b < g.next
  out : ∀ a b, b ∈ g.out a → b < g.next

theorem upd_self {β : Type} (f : Nat → β) (k : Nat) (v : β) : upd f k v k = v := by simp [upd]
theorem upd_ne {β : Type} (f : Nat → β) {k x : Nat} (v : β) (h : x ≠ k) : upd f k v x = f x := by simp [upd, h]

theorem unlink_spec (n : Nat) : ∀ (l : List (Option Nat)) (g g' : G), unlink g n l = some g' →
    g'.next = g.next ∧ g'.alive = g.alive ∧ g'.inp = g.inp ∧
    (∀ b, g'.out b = if some b ∈ l ∧ g.alive b = true then (g.out b).filter (· ≠ n) else g.out b) := by
  intro l
  induction l with
  | nil =>
    intro g g' h
    simp only [unlink, Option.some.injEq] at h
    subst h; simp
  | cons x l ih =>
    intro g g' h
    cases x with
    | none =>
      obtain ⟨a1, a2, a3, a4⟩ := ih g g' h
      exact ⟨a1, a2, a3, fun b => by rw [a4]; simp⟩
    | some c =>
      simp only [unlink] at h
      by_cases hc : g.alive c = true
      · rw [if_pos hc] at h
        split at h
        · obtain ⟨a1, a2, a3, a4⟩ := ih _ g' h
          refine ⟨a1, a2, a3, ?_⟩
          intro b
          rw [a4]
          simp only []
          by_cases e : b = c
          · subst e
            rw [upd_self]
            simp only [List.mem_cons, hc, and_true, true_or, if_true, List.filter_filter, Bool.and_self]
            split <;> rfl
          · rw [upd_ne _ _ e]
            simp [e]
        · simp at h
      · rw [if_neg hc] at h
        obtain ⟨a1, a2, a3, a4⟩ := ih g g' h
        refine ⟨a1, a2, a3, ?_⟩
        intro b
        rw [a4]
        by_cases e : b = c
        · subst e; simp [hc]
        · simp [e]

/-- the unlinking loop returns if no output of a live input has expired -/
theorem unlink_total (n : Nat) : ∀ (l : List (Option Nat)) (g : G),
    (∀ b, some b ∈ l → g.alive b = true → ∀ x ∈ g.out b, g.alive x = true) → ∃ g', unlink g n l = some g' := by
  intro l
  induction l with
  | nil => intro g _; exact ⟨g, rfl⟩
  | cons x l ih =>
    intro g h
    cases x with
    | none => exact ih g (fun b hb => h b (by simp [hb]))
    | some c =>
      simp only [unlink]
      by_cases hc : g.alive c = true
      · rw [if_pos hc, if_pos (by rw [List.all_eq_true]; exact h c (by simp) hc)]
        apply ih
        intro b hb hab x hx
        by_cases e : b = c
        · subst e
          simp only [upd_self] at hx
          exact h b (by simp) hab x (List.mem_filter.1 hx).1
        · simp only [upd_ne _ _ e] at hx
          exact h b (by simp [hb]) hab x hx
      · rw [if_neg hc]
        exact ih g (fun b hb => h b (by simp [hb]))

/-- what the linking loop leaves -/
theorem linkNew_spec (n : Nat) : ∀ (l done : List (Option Nat)) (g : G), ∃ (g' : G) (fin : List (Option Nat)),
    (linkNew g n done l = .ok g' ∧ fin = l ∨ linkNew g n done l = .err g' ∧ ∃ k, ∃ pre, pre <+: l ∧ fin = pre ++ List.replicate k none) ∧
    g'.next = g.next ∧ g'.alive = g.alive ∧ (∀ x, x ≠ n → g'.inp x = g.inp x) ∧ g'.inp n = done ++ fin ∧
    (∀ b x, (g'.out b).count x = (g.out b).count x + if x = n then fin.count (some b) else 0) ∧
    (∀ b x, x ∈ g'.out b → x ∈ g.out b ∨ x = n) := by
  intro l
  induction l with
  | nil =>
    intro done g
    exact ⟨_, [], Or.inl ⟨rfl, rfl⟩, rfl, rfl, fun x hx => upd_ne _ _ hx, by simp [upd_self], by simp, fun b x hx => Or.inl hx⟩
  | cons x l ih =>
    intro done g
    have fail : ∃ (g' : G) (fin : List (Option Nat)),
        (R.err { g with inp := upd g.inp n (done ++ List.replicate (l.length + 1) none) } = .ok g' ∧ fin = x :: l ∨
          R.err { g with inp := upd g.inp n (done ++ List.replicate (l.length + 1) none) } = .err g' ∧
            ∃ k, ∃ pre, pre <+: x :: l ∧ fin = pre ++ List.replicate k none) ∧
        g'.next = g.next ∧ g'.alive = g.alive ∧ (∀ x, x ≠ n → g'.inp x = g.inp x) ∧ g'.inp n = done ++ fin ∧
        (∀ b x, (g'.out b).count x = (g.out b).count x + if x = n then fin.count (some b) else 0) ∧
        (∀ b x, x ∈ g'.out b → x ∈ g.out b ∨ x = n) := by
      refine ⟨_, List.replicate (l.length + 1) none, Or.inr ⟨rfl, l.length + 1, [], List.nil_prefix, by simp⟩, rfl, rfl,
        fun x hx => upd_ne _ _ hx, by simp [upd_self], ?_, fun b x hx => Or.inl hx⟩
      intro b x
      have : (List.replicate (l.length + 1) (none : Option Nat)).count (some b) = 0 := by
        rw [List.count_eq_zero]; intro h; simp [List.mem_replicate] at h
      rw [this]; simp
    simp only [linkNew]
    cases x with
    | none => exact fail
    | some c =>
      simp only []
      by_cases hc : g.alive c = true
      · rw [if_pos hc]
        obtain ⟨g', fin, h1, h2, h3, h4, h5, h6, h7⟩ := ih (done ++ [some c]) { g with out := upd g.out c (g.out c ++ [n]) }
        refine ⟨g', some c :: fin, ?_, h2, h3, h4, by rw [h5]; simp, ?_, ?_⟩
        · rcases h1 with ⟨h, rfl⟩ | ⟨h, k, pre, hp, rfl⟩
          · exact Or.inl ⟨h, rfl⟩
          · exact Or.inr ⟨h, k, some c :: pre, by simpa using hp, rfl⟩
        · intro b x
          rw [h6 b x]
          simp only []
          by_cases e : b = c
          · subst e
            rw [upd_self]
            by_cases ex : x = n
            · subst ex; simp; omega
            · simp [ex, List.count_append, Ne.symm ex]
          · rw [upd_ne _ _ e]
            by_cases ex : x = n
            · subst ex; simp [Ne.symm e]
            · simp [ex]
        · intro b x hx
          rcases h7 b x hx with h | h
          · simp only [] at h
            by_cases e : b = c
            · subst e; rw [upd_self] at h; simpa using h
            · rw [upd_ne _ _ e] at h; exact Or.inl h
          · exact Or.inr h
      · rw [if_neg hc]; exact fail

/-- facts preserved by a call that returned or threw -/
def Good (g : G) : Prop := Symmetric g ∧ FreshIds g

theorem link_spec {g : G} (hg : Good g) (n : Nat) (ins : List (Option Nat)) (hi : ∀ b, some b ∈ ins → b < g.next) :
    (∀ g', link g n ins = .ok g' ∨ link g n ins = .err g' → Good g') ∧
    (∀ g', link g n ins = .ok g' → g'.inp n = ins ∧ ∀ x, x ≠ n → g'.inp x = g.inp x) := by
  unfold link
  by_cases hn : g.alive n = true
  rotate_left
  · rw [if_neg hn]
    refine ⟨?_, by simp⟩
    intro g' h; simp at h; subst h; exact hg
  rw [if_pos hn]
  have hnn : n < g.next := by
    rcases Nat.lt_or_ge n g.next with h | h
    · exact h
    · rw [hg.2.dead n h] at hn; simp at hn
  cases hu : unlink g n (g.inp n) with
  | none => simp
  | some g1 =>
    simp only []
    obtain ⟨u1, u2, u3, u4⟩ := unlink_spec n _ g g1 hu
    obtain ⟨g2, fin, h1, h2, h3, h4, h5, h6, h7⟩ := linkNew_spec n ins [] { g1 with inp := upd g1.inp n [] }
    simp only [List.nil_append] at h2 h3 h4 h5 h6 h7
    have hfin : ∀ b, some b ∈ fin → some b ∈ ins := by
      intro b hb
      rcases h1 with ⟨-, rfl⟩ | ⟨-, k, pre, hp, rfl⟩
      · exact hb
      · rcases List.mem_append.1 hb with h | h
        · exact hp.subset h
        · simp [List.mem_replicate] at h
    have cnt0 : ∀ b, g.alive b = true → (g1.out b).count n = 0 := by
      intro b hb
      rw [u4]
      by_cases hm : some b ∈ g.inp n
      · rw [if_pos ⟨hm, hb⟩, List.count_eq_zero]; simp
      · rw [if_neg (by simp [hm])]
        have := hg.1 n b hn hb
        rw [← this, List.count_eq_zero]; exact hm
    have cntO : ∀ b x, x ≠ n → (g1.out b).count x = (g.out b).count x := by
      intro b x hx
      rw [u4]
      split
      · rw [List.count_filter (by simpa using hx)]
      · rfl
    have good2 : Good g2 := by
      refine ⟨?_, ?_⟩
      · intro a b ha hb
        rw [h3, u2] at ha hb
        rw [h6 b a]
        by_cases e : a = n
        · subst e; rw [h5, cnt0 b hb]; simp
        · rw [if_neg e, h4 a e, upd_ne _ _ e, u3, cntO b a e]
          exact hg.1 a b ha hb
      · refine ⟨?_, ?_, ?_⟩
        · intro a ha; rw [h3, u2]; exact hg.2.dead a (by rw [h2, u1] at ha; exact ha)
        · intro a b hb
          rw [h2, u1]
          by_cases e : a = n
          · subst e; rw [h5] at hb; exact hi b (hfin b hb)
          · rw [h4 a e, upd_ne _ _ e, u3] at hb; exact hg.2.inp a b hb
        · intro a b hb
          rw [h2, u1]
          rcases h7 a b hb with h | h
          · rw [u4] at h
            split at h
            · exact hg.2.out a b (List.mem_filter.1 h).1
            · exact hg.2.out a b h
          · rw [h]; exact hnn
    constructor
    · intro g' h
      rcases h1 with ⟨h', -⟩ | ⟨h', -⟩ <;> rw [h'] at h <;> simp at h <;> subst h <;> exact good2
    · intro g' h
      rcases h1 with ⟨h', rfl⟩ | ⟨h', -⟩
      · rw [h'] at h; simp at h; subst h
        exact ⟨by simpa using h5, fun x hx => by rw [h4 x hx, upd_ne _ _ hx, u3]⟩
      · rw [h'] at h; simp at h

/-- an entry pointing to `a` now points to `b` -/
def redirect (a b : Nat) (x : Option Nat) : Option Nat := if x = some a then some b else x

theorem replaceFirst_spec {a b : Nat} (hab : a ≠ b) (l : List (Option Nat)) :
    (replaceFirst a b l).map (redirect a b) = l.map (redirect a b) ∧
    (some a ∈ l → (replaceFirst a b l).count (some a) + 1 = l.count (some a) ∧
      (replaceFirst a b l).count (some b) = l.count (some b) + 1) ∧
    (∀ x, x ≠ some a → x ≠ some b → (replaceFirst a b l).count x = l.count x) ∧
    (∀ x, x ∈ replaceFirst a b l → x ∈ l ∨ x = some b) := by
  induction l with
  | nil => simp [replaceFirst]
  | cons x l ih =>
    obtain ⟨i1, i2, i3, i4⟩ := ih
    simp only [replaceFirst]
    by_cases e : x = some a
    · subst e
      rw [if_pos rfl]
      refine ⟨by simp [redirect, Ne.symm hab], ?_, ?_, ?_⟩
      · intro _
        simp [Ne.symm hab, hab]
      · intro x h1 h2
        simp [Ne.symm h1, Ne.symm h2]
      · intro x hx
        rcases List.mem_cons.1 hx with h | h
        · exact Or.inr h
        · exact Or.inl (by simp [h])
    · rw [if_neg e]
      refine ⟨by simp [i1], ?_, ?_, ?_⟩
      · intro h
        have h' : some a ∈ l := by simpa [Ne.symm e] using h
        obtain ⟨j1, j2⟩ := i2 h'
        simp only [List.count_cons, beq_iff_eq, e, if_false]
        split <;> omega
      · intro y h1 h2
        simp only [List.count_cons, i3 y h1 h2]
      · intro y hy
        rcases List.mem_cons.1 hy with h | h
        · exact Or.inl (by simp [h])
        · rcases i4 y h with h | h
          · exact Or.inl (by simp [h])
          · exact Or.inr h

theorem replaceLoop_spec {a b : Nat} (hab : a ≠ b) (g0 : G) : ∀ (l : List Nat) (g g' : G),
    (∀ x, g.alive x = true → (g.inp x).count (some a) = l.count x) →
    (∀ x, g.alive x = true → (g.inp x).count (some b) = (g.out b).count x) →
    (∀ x, (g.inp x).map (redirect a b) = (g0.inp x).map (redirect a b)) →
    (∀ x y, y ≠ some a → y ≠ some b → (g.inp x).count y = (g0.inp x).count y) →
    g.alive = g0.alive → g.next = g0.next → (∀ x, x ≠ b → g.out x = g0.out x) →
    (∀ x ∈ g.out b, x < g0.next) → (∀ x y, some y ∈ g.inp x → y < g0.next) → (∀ x ∈ l, x < g0.next) → b < g0.next →
    replaceLoop a b l g = some g' →
    (∀ x, g'.alive x = true → (g'.inp x).count (some a) = 0) ∧
    (∀ x, g'.alive x = true → (g'.inp x).count (some b) = (g'.out b).count x) ∧
    (∀ x, (g'.inp x).map (redirect a b) = (g0.inp x).map (redirect a b)) ∧
    (∀ x y, y ≠ some a → y ≠ some b → (g'.inp x).count y = (g0.inp x).count y) ∧
    g'.alive = g0.alive ∧ g'.next = g0.next ∧ (∀ x, x ≠ b → g'.out x = g0.out x) ∧
    (∀ x ∈ g'.out b, x < g0.next) ∧ (∀ x y, some y ∈ g'.inp x → y < g0.next) := by
  intro l
  induction l with
  | nil =>
    intro g g' h1 h2 h3 h4 h5 h6 h7 h8 h9 _ _ h
    simp only [replaceLoop, Option.some.injEq] at h
    subst h
    exact ⟨fun x hx => by simpa using h1 x hx, h2, h3, h4, h5, h6, h7, h8, h9⟩
  | cons o l ih =>
    intro g g' h1 h2 h3 h4 h5 h6 h7 h8 h9 hl hb h
    simp only [replaceLoop] at h
    by_cases ho : g.alive o = true
    rotate_left
    · rw [if_neg ho] at h; simp at h
    rw [if_pos ho] at h
    obtain ⟨r1, r2, r3, r4⟩ := replaceFirst_spec hab (g.inp o)
    have hmem : some a ∈ g.inp o := by
      rw [← List.count_pos_iff, h1 o ho]; simp
    obtain ⟨r2a, r2b⟩ := r2 hmem
    refine ih { g with inp := upd g.inp o (replaceFirst a b (g.inp o)), out := upd g.out b (g.out b ++ [o]) } g' ?_ ?_ ?_ ?_ h5 h6 ?_ ?_ ?_ (fun x hx => hl x (by simp [hx])) hb h
    · intro x hx
      simp only []
      have := h1 x hx
      by_cases e : x = o
      · subst e; rw [upd_self]; simp at this; omega
      · rw [upd_ne _ _ e, this]; simp [Ne.symm e]
    · intro x hx
      have := h2 x hx
      simp only [upd_self, List.count_append]
      by_cases e : x = o
      · subst e; rw [upd_self, r2b, this]; simp
      · rw [upd_ne _ _ e, this]; simp [Ne.symm e]
    · intro x
      by_cases e : x = o
      · subst e; simp only [upd_self, r1]; exact h3 x
      · simp only [upd_ne _ _ e]; exact h3 x
    · intro x y hy1 hy2
      by_cases e : x = o
      · subst e; simp only [upd_self, r3 y hy1 hy2]; exact h4 x y hy1 hy2
      · simp only [upd_ne _ _ e]; exact h4 x y hy1 hy2
    · intro x hx; simp only [upd_ne _ _ hx]; exact h7 x hx
    · intro x hx
      simp only [upd_self, List.mem_append, List.mem_singleton] at hx
      rcases hx with h | rfl
      · exact h8 x h
      · exact hl x (by simp)
    · intro x y hy
      by_cases e : x = o
      · subst e
        simp only [upd_self] at hy
        rcases r4 _ hy with h | h
        · exact h9 x y h
        · simp at h; rw [h]; exact hb
      · simp only [upd_ne _ _ e] at hy; exact h9 x y hy

theorem replace_spec {g : G} (hg : Good g) (a b : Nat) :
    (∀ g', replaceOutput g a b = .ok g' ∨ replaceOutput g a b = .err g' → Good g') ∧
    (∀ g', replaceOutput g a b = .ok g' → ∀ x, g.alive x = true → g'.inp x = (g.inp x).map (redirect a b)) := by
  unfold replaceOutput
  by_cases hab' : (g.alive a && g.alive b) = true
  rotate_left
  · rw [if_neg hab']
    refine ⟨?_, by simp⟩
    intro g' h; simp at h; subst h; exact hg
  rw [if_pos hab']
  simp only [Bool.and_eq_true] at hab'
  obtain ⟨ha, hb⟩ := hab'
  by_cases e : a = b
  · subst e
    by_cases ho : g.out a = []
    · rw [if_neg (by simp [ho]), ho]
      simp only [replaceLoop]
      have e2 : ({ g with out := upd g.out a [] } : G) = g := by
        have : upd g.out a [] = g.out := by
          funext x
          by_cases h : x = a
          · subst h; rw [upd_self, ho]
          · rw [upd_ne _ _ h]
        rw [this]
      rw [e2]
      refine ⟨?_, ?_⟩
      · intro g' h; simp at h; subst h; exact hg
      · intro g' h; simp at h; subst h
        intro x _
        have : (fun y => redirect a a y) = id := by funext y; simp [redirect]; intro h; exact h.symm
        rw [show redirect a a = id from this]; simp
    · rw [if_pos ⟨rfl, ho⟩]; simp
  · rw [if_neg (by simp [e])]
    have hbn : b < g.next := by
      rcases Nat.lt_or_ge b g.next with h | h
      · exact h
      · rw [hg.2.dead b h] at hb; simp at hb
    cases hr : replaceLoop a b (g.out a) g with
    | none => simp
    | some g1 =>
      obtain ⟨s1, s2, s3, s4, s5, s6, s7, s8, s9⟩ := replaceLoop_spec e g (g.out a) g g1
        (fun x hx => hg.1 x a hx ha) (fun x hx => hg.1 x b hx hb) (fun _ => rfl) (fun _ _ _ _ => rfl) rfl rfl (fun _ _ => rfl)
        (hg.2.out b) hg.2.inp (hg.2.out a) hbn hr
      constructor
      · intro g' h
        simp at h; subst h
        refine ⟨?_, ?_⟩
        · intro x y hx hy
          simp only [] at hx hy ⊢
          by_cases e1 : y = a
          · subst e1; rw [upd_self, s1 x hx]; simp
          · rw [upd_ne _ _ e1]
            by_cases e2 : y = b
            · subst e2; exact s2 x hx
            · rw [s4 x (some y) (by simp [e1]) (by simp [e2]), s7 y e2]
              rw [s5] at hx hy
              exact hg.1 x y hx hy
        · refine ⟨?_, ?_, ?_⟩
          · intro x hx; simp only [s5]; exact hg.2.dead x (by simpa [s6] using hx)
          · intro x y hy; simp only [s6]; exact s9 x y hy
          · intro x y hy
            simp only [s6]
            by_cases e1 : x = a
            · subst e1; simp only [upd_self] at hy; simp at hy
            · simp only [upd_ne _ _ e1] at hy
              by_cases e2 : x = b
              · subst e2; exact s8 y hy
              · rw [s7 x e2] at hy; exact hg.2.out x y hy
      · intro g' h
        simp at h; subst h
        intro x hx
        simp only []
        rw [← s3 x]
        have h0 := s1 x (by rw [s5]; exact hx)
        rw [List.count_eq_zero] at h0
        have : ∀ y ∈ g1.inp x, redirect a b y = y := by
          intro y hy
          unfold redirect
          rw [if_neg]; rintro rfl; exact h0 hy
        rw [List.map_congr_left this]; simp

/-- nodes a call may mention: only ones that were made -/
def Call.mentions (g : G) : Call → Prop
  | .link _ ins => ∀ b, some b ∈ ins → b < g.next
  | _ => True

theorem call_good {g : G} (hg : Good g) (c : Call) (hc : Call.mentions g c) (g' : G)
    (h : call g c = .ok g' ∨ call g c = .err g') : Good g' := by
  cases c with
  | make =>
    simp [call] at h; subst h
    refine ⟨?_, ?_⟩
    · intro a b ha hb
      simp only [make] at ha hb ⊢
      by_cases ea : a = g.next
      · subst ea
        rw [upd_self]
        by_cases eb : b = g.next
        · subst eb; rw [upd_self]; simp
        · rw [upd_ne _ _ eb, eq_comm]
          simp only [List.count_nil]
          rw [List.count_eq_zero]; intro hm; exact absurd (hg.2.out b _ hm) (by omega)
      · rw [upd_ne _ _ ea] at ha ⊢
        by_cases eb : b = g.next
        · subst eb; rw [upd_self]
          simp only [List.count_nil]
          rw [List.count_eq_zero]; intro hm; exact absurd (hg.2.inp a _ hm) (by omega)
        · rw [upd_ne _ _ eb] at hb ⊢; exact hg.1 a b ha hb
    · refine ⟨?_, ?_, ?_⟩
      · intro a ha
        simp only [make] at ha ⊢
        rw [upd_ne _ _ (by omega)]; exact hg.2.dead a (by omega)
      · intro a b hb
        simp only [make] at hb ⊢
        by_cases ea : a = g.next
        · subst ea; rw [upd_self] at hb; simp at hb
        · rw [upd_ne _ _ ea] at hb; have := hg.2.inp a b hb; omega
      · intro a b hb
        simp only [make] at hb ⊢
        by_cases ea : a = g.next
        · subst ea; rw [upd_self] at hb; simp at hb
        · rw [upd_ne _ _ ea] at hb; have := hg.2.out a b hb; omega
  | expire d =>
    simp [call] at h; subst h
    refine ⟨?_, ⟨?_, hg.2.inp, hg.2.out⟩⟩
    · intro a b ha hb
      simp only [expire, Bool.and_eq_true] at ha hb
      exact hg.1 a b ha.1 hb.1
    · intro a ha; simp [expire, hg.2.dead a ha]
  | link n ins => exact (link_spec hg n ins hc).1 g' h
  | replaceOutput a b => exact (replace_spec hg a b).1 g' h

/-- every link call of the history mentions nodes that exist when it is made -/
def WellFormed : G → List Call → Prop
  | _, [] => True
  | g, c :: cs => Call.mentions g c ∧ ∀ g', call g c = .ok g' ∨ call g c = .err g' → WellFormed g' cs

theorem hist_good : ∀ (cs : List Call) (g g' : G), Good g → WellFormed g cs → hist g cs = some g' → Good g' := by
  intro cs
  induction cs with
  | nil => intro g g' hg _ h; simp [hist] at h; subst h; exact hg
  | cons c cs ih =>
    intro g g' hg hw h
    simp only [hist] at h
    cases hc : call g c with
    | ok g1 => rw [hc] at h; exact ih g1 g' (call_good hg c hw.1 g1 (Or.inl hc)) (hw.2 g1 (Or.inl hc)) h
    | err g1 => rw [hc] at h; exact ih g1 g' (call_good hg c hw.1 g1 (Or.inr hc)) (hw.2 g1 (Or.inr hc)) h
    | ub => rw [hc] at h; simp at h
    | hang => rw [hc] at h; simp at h

theorem good_empty : Good empty := ⟨by intro a b ha; simp [empty] at ha, ⟨by simp [empty], by simp [empty], by simp [empty]⟩⟩

/-- **C38.** After every history of making nodes, letting nodes expire, linking (with repeated inputs, re-links, self links,
expired inputs that raise) and replacing outputs, in which every call came back: between any two live nodes, one lists the
other as an input exactly as often as it is listed as the other's output. -/
theorem C38_symmetric (cs : List Call) (g : G) (hw : WellFormed empty cs) (h : hist empty cs = some g) : Symmetric g :=
  (hist_good cs empty g good_empty hw h).1

/-- **C38, what a link does.** In every reachable state a link that returns sets the node's inputs to the list asked for and
leaves the inputs of all other nodes alone. -/
theorem C38_link_sets (cs : List Call) (g g' : G) (hw : WellFormed empty cs) (h : hist empty cs = some g) (n : Nat)
    (ins : List (Option Nat)) (hi : ∀ b, some b ∈ ins → b < g.next) (hl : link g n ins = .ok g') :
    g'.inp n = ins ∧ ∀ x, x ≠ n → g'.inp x = g.inp x :=
  (link_spec (hist_good cs empty g good_empty hw h) n ins hi).2 g' hl

/-- **C38, what replacing does.** In every reachable state a replacement that returns redirects every use of the old node by a
live node to the new node, and nothing else. -/
theorem C38_replace_redirects (cs : List Call) (g g' : G) (hw : WellFormed empty cs) (h : hist empty cs = some g) (a b : Nat)
    (hr : replaceOutput g a b = .ok g') (x : Nat) (hx : g.alive x = true) : g'.inp x = (g.inp x).map (redirect a b) :=
  (replace_spec (hist_good cs empty g good_empty hw h) a b).2 g' hr x hx

/-- **C38, links come back** as long as no listed output has expired (in particular while every graph lives). Missing: the case
with expired outputs, which does not come back (next theorem). -/
theorem C38_link_returns_partial (g : G) (n : Nat) (ins : List (Option Nat))
    (h : ∀ b, some b ∈ g.inp n → g.alive b = true → ∀ x ∈ g.out b, g.alive x = true) :
    link g n ins ≠ .hang ∧ link g n ins ≠ .ub := by
  unfold link
  split
  · obtain ⟨g1, h1⟩ := unlink_total n (g.inp n) g h
    rw [h1]
    simp only []
    obtain ⟨g2, fin, h2, -⟩ := linkNew_spec n ins [] { g1 with inp := upd g1.inp n [] }
    rcases h2 with ⟨h2, -⟩ | ⟨h2, -⟩ <;> rw [h2] <;> simp
  · simp

/-- **C38, false clause.** Re-linking a live node can fail to return: nodes 1 and 2 use node 0, node 2 expires, then node 1 is
linked again. -/
theorem C38_relink_hangs_false : ¬ ∀ (cs : List Call) (g : G) (n : Nat) (ins : List (Option Nat)), WellFormed empty cs →
    hist empty cs = some g → link g n ins ≠ .hang := by
  intro h
  refine h [.make, .make, .make, .link 1 [some 0], .link 2 [some 0], .expire (· == 2)] _ 1 [] ?_ rfl rfl
  refine ⟨trivial, fun g1 h1 => ?_⟩
  simp [call] at h1; subst h1
  refine ⟨trivial, fun g1 h1 => ?_⟩
  simp [call] at h1; subst h1
  refine ⟨trivial, fun g1 h1 => ?_⟩
  simp [call] at h1; subst h1
  refine ⟨by intro b hb; simp at hb; subst hb; decide, fun g1 h1 => ?_⟩
  have e : call (make (make (make empty))) (.link 1 [some 0]) = .ok
      ⟨3, (make (make (make empty))).alive, upd (upd (make (make (make empty))).inp 1 []) 1 [some 0],
        upd (make (make (make empty))).out 0 ([] ++ [1])⟩ := rfl
  rw [e] at h1; simp at h1; subst h1
  refine ⟨by intro b hb; simp at hb; subst hb; decide, fun g1 h1 => ?_⟩
  exact ⟨trivial, fun _ _ => trivial⟩

/-- non-vacuity: a node with a repeated input, re-linked, and a replacement -/
example : (hist empty [.make, .make, .make, .link 2 [some 0, some 0, some 1], .replaceOutput 0 1, .link 1 [some 0]]).map
    (fun g => (g.inp 2, g.out 0, g.out 1, g.inp 1)) =
    some ([some 1, some 1, some 1], [1], [2, 2, 2], [some 0]) := by decide
example : WellFormed empty [.make, .make] := by
  refine ⟨trivial, fun g1 h1 => ?_⟩
  simp [call] at h1; subst h1
  exact ⟨trivial, fun _ _ => trivial⟩

end Verif.Props
