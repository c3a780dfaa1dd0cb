import Verif.Compiler.Split
import Mathlib.Logic.Relation
import Mathlib.Data.List.Basic
import Mathlib.Data.List.Perm.Basic
import Mathlib.Tactic.Linarith
/-!
# Lemmas about the graph splitter
-/
namespace Verif.Compiler.Split
open Verif.Core Relation

/-- `a` reads the result of `b` -/
def Uses (g : Gr) (a b : Nat) : Prop := b ∈ g.inputs a
/-- `a` depends on `b`, through one or more nodes -/
abbrev Below (g : Gr) (a b : Nat) : Prop := TransGen (Uses g) a b

/-- numbered in the order of creation, every node after its inputs -/
def Ordered (g : Gr) : Prop := (∀ n m : Nat, m ∈ g.inputs n → m < n ∧ n < g.size)

theorem mem_outputs {g : Gr} (hg : Ordered g) {m n : Nat} : n ∈ g.outputs m ↔ m ∈ g.inputs n := by
  unfold Gr.outputs
  simp only [List.mem_flatMap, List.mem_range, List.mem_map, List.mem_filter, beq_iff_eq]
  constructor
  · rintro ⟨a, _, b, ⟨hb, rfl⟩, rfl⟩; exact hb
  · intro h; exact ⟨n, (hg n m h).2, m, ⟨h, rfl⟩, rfl⟩

theorem below_lt {g : Gr} (hg : Ordered g) {a b : Nat} (h : Below g a b) : b < a := by
  induction h with
  | single h => exact (hg _ _ h).1
  | tail _ h ih => exact lt_trans (hg _ _ h).1 ih

theorem below_irrefl {g : Gr} (hg : Ordered g) (a : Nat) : ¬ Below g a a := fun h => lt_irrefl _ (below_lt hg h)

theorem below_cases {g : Gr} {a x : Nat} : Below g a x ↔ ∃ b ∈ g.inputs a, x = b ∨ Below g b x := by
  constructor
  · intro h
    rcases TransGen.head'_iff.mp h with ⟨b, hb, hr⟩
    exact ⟨b, hb, (reflTransGen_iff_eq_or_transGen.mp hr)⟩
  · rintro ⟨b, hb, rfl | h⟩
    · exact TransGen.single hb
    · exact TransGen.head hb h

/-! ## the reference cache -/

theorem get_cons (n m : Nat) (l : List Nat) (c : Cache) : Cache.get ((n, l) :: c) m = if m = n then some l else c.get m := by
  unfold Cache.get
  by_cases h : m = n
  · subst h; simp
  · rw [if_neg h, List.lookup_cons]
    have : (m == n) = false := by simpa using h
    rw [this]

theorem get_init (bottoms : List Nat) (n : Nat) : Cache.get (bottoms.map fun n => (n, [])) n = if n ∈ bottoms then some [] else none := by
  induction bottoms with
  | nil => rfl
  | cons b l ih =>
    rw [List.map_cons, get_cons, ih]
    by_cases h : n = b <;> simp [h]

/-- what is stored is right -/
def GoodCache (g : Gr) (c : Cache) : Prop := ∀ (n : Nat) (l : List Nat), c.get n = some l → ∀ x, x ∈ l ↔ Below g n x
/-- nothing stored is lost -/
def Ext (c c' : Cache) : Prop := ∀ n, (c.get n).isSome → (c'.get n).isSome
/-- what a stored node depends on is stored -/
def ClosedCache (g : Gr) (c : Cache) : Prop := ∀ n : Nat, (c.get n).isSome → ∀ x ∈ g.inputs n, (c.get x).isSome

theorem cacheRefs_spec {g : Gr} (hg : Ordered g) : ∀ (f n : Nat) (c : Cache), n < f → GoodCache g c → ClosedCache g c →
    GoodCache g (cacheRefs g f n c) ∧ ClosedCache g (cacheRefs g f n c) ∧ Ext c (cacheRefs g f n c) ∧ ((cacheRefs g f n c).get n).isSome := by
  intro f
  induction f with
  | zero => intro n c h; exact absurd h (Nat.not_lt_zero _)
  | succ f ih =>
    intro n c hn hc hcl
    unfold cacheRefs
    split
    · rename_i h; exact ⟨hc, hcl, fun _ h => h, h⟩
    · rename_i hnone
      have key : ∀ (l : List Nat) (c0 : Cache) (rs : List Nat), (∀ b ∈ l, b < n) → GoodCache g c0 → ClosedCache g c0 →
          let p := l.foldl (fun (p : Cache × List Nat) b =>
            let c' := cacheRefs g f b p.1
            (c', p.2 ++ (c'.get b).getD [] ++ [b])) (c0, rs)
          GoodCache g p.1 ∧ ClosedCache g p.1 ∧ Ext c0 p.1 ∧ (∀ b ∈ l, (p.1.get b).isSome) ∧ ∀ x, x ∈ p.2 ↔ x ∈ rs ∨ ∃ b ∈ l, x = b ∨ Below g b x := by
        intro l
        induction l with
        | nil => intro c0 rs _ h1 h2; exact ⟨h1, h2, fun _ h => h, by simp, by simp⟩
        | cons b l ihl =>
          intro c0 rs hl h1 h2
          obtain ⟨g1, g2, g3, g4⟩ := ih b c0 (by have := hl b (by simp); omega) h1 h2
          obtain ⟨k1, k2, k3, k4, k5⟩ := ihl (cacheRefs g f b c0) (rs ++ ((cacheRefs g f b c0).get b).getD [] ++ [b]) (fun x hx => hl x (by simp [hx])) g1 g2
          simp only [List.foldl_cons]
          refine ⟨k1, k2, fun x hx => k3 x (g3 x hx), ?_, ?_⟩
          · intro x hx
            rcases List.mem_cons.mp hx with rfl | hx
            · exact k3 _ g4
            · exact k4 x hx
          · intro x
            rw [k5 x]
            obtain ⟨lb, hlb⟩ := Option.isSome_iff_exists.mp g4
            have := g1 b lb hlb x
            simp only [hlb, Option.getD_some, List.mem_append, List.mem_cons]
            rw [this]
            constructor
            · rintro (((h | h) | h) | ⟨d, hd, h⟩)
              · exact Or.inl h
              · exact Or.inr ⟨b, Or.inl rfl, Or.inr h⟩
              · exact Or.inr ⟨b, Or.inl rfl, Or.inl (by simpa using h)⟩
              · exact Or.inr ⟨d, Or.inr hd, h⟩
            · rintro (h | ⟨d, rfl | hd, h⟩)
              · exact Or.inl (Or.inl (Or.inl h))
              · rcases h with h | h
                · exact Or.inl (Or.inr (Or.inl h))
                · exact Or.inl (Or.inl (Or.inr h))
              · exact Or.inr ⟨d, hd, h⟩
      obtain ⟨k1, k2, k3, k4, k5⟩ := key (g.inputs n) c [] (fun b hb => (hg n b hb).1) hc hcl
      refine ⟨?_, ?_, ?_, ?_⟩
      · intro m l hm x
        rw [get_cons] at hm
        by_cases hmn : m = n
        · subst hmn
          rw [if_pos rfl] at hm
          have := Option.some.inj hm
          rw [← this, k5 x, below_cases]
          simp
        · rw [if_neg hmn] at hm
          exact k1 m l hm x
      · intro m hm x hx
        rw [get_cons] at hm ⊢
        by_cases hxn : x = n
        · rw [if_pos hxn]; rfl
        · rw [if_neg hxn]
          by_cases hmn : m = n
          · subst hmn; exact k4 x hx
          · rw [if_neg hmn] at hm
            exact k2 m hm x hx
      · intro m hm
        rw [get_cons]
        split
        · rfl
        · exact k3 m hm
      · rw [get_cons, if_pos rfl]; rfl

/-- every node of the copied graph is a given input, which has no inputs itself, or lies below an end -/
def Live (g : Gr) (ends bottoms : List Nat) : Prop :=
  (∀ b ∈ bottoms, g.inputs b = []) ∧ (∀ e ∈ ends, e < g.size) ∧
  ∀ n < g.size, n ∈ bottoms ∨ ∃ e ∈ ends, n = e ∨ Below g e n

theorem setup_ref {g : Gr} {ends bottoms : List Nat} (hg : Ordered g) (hl : Live g ends bottoms) (a b : Nat) :
    (setup g ends bottoms).ref a b = true ↔ Below g a b := by
  obtain ⟨h1, h2, h3⟩ := hl
  have key : ∀ (l : List Nat) (c0 : Cache), (∀ e ∈ l, e < g.size) → GoodCache g c0 → ClosedCache g c0 →
      GoodCache g (l.foldl (fun c e => cacheRefs g (g.size + 1) e c) c0) ∧ ClosedCache g (l.foldl (fun c e => cacheRefs g (g.size + 1) e c) c0) ∧
      Ext c0 (l.foldl (fun c e => cacheRefs g (g.size + 1) e c) c0) ∧ ∀ e ∈ l, (Cache.get (l.foldl (fun c e => cacheRefs g (g.size + 1) e c) c0) e).isSome := by
    intro l
    induction l with
    | nil => intro c0 _ h1 h2; exact ⟨h1, h2, fun _ h => h, by simp⟩
    | cons e l ih =>
      intro c0 hl g1 g2
      obtain ⟨k1, k2, k3, k4⟩ := cacheRefs_spec hg (g.size + 1) e c0 (by have := hl e (by simp); omega) g1 g2
      obtain ⟨m1, m2, m3, m4⟩ := ih _ (fun x hx => hl x (by simp [hx])) k1 k2
      simp only [List.foldl_cons]
      refine ⟨m1, m2, fun x hx => m3 x (k3 x hx), ?_⟩
      intro x hx
      rcases List.mem_cons.mp hx with rfl | hx
      · exact m3 _ k4
      · exact m4 x hx
  obtain ⟨k1, k2, k3, k4⟩ := key ends (bottoms.map fun n => (n, [])) h2 (by
    intro n l hn x
    rw [get_init] at hn
    by_cases hb : n ∈ bottoms
    · rw [if_pos hb] at hn
      have := Option.some.inj hn
      rw [← this, below_cases, h1 n hb]; simp
    · rw [if_neg hb] at hn; simp at hn) (by
    intro n hn x hx
    rw [get_init] at hn
    by_cases hb : n ∈ bottoms
    · rw [h1 n hb] at hx; simp at hx
    · simp [hb] at hn)
  change Cache.ref (List.foldl (fun c e => cacheRefs g (g.size + 1) e c) _ ends) a b = true ↔ _
  generalize List.foldl (fun c e => cacheRefs g (g.size + 1) e c) (bottoms.map fun n => (n, [])) ends = C at k1 k2 k3 k4
  have hdown : ∀ (e x : Nat), (C.get e).isSome → Below g e x → (C.get x).isSome := by
    intro e x he h
    induction h with
    | single h => exact k2 _ he _ h
    | tail _ h ih => exact k2 _ ih _ h
  have hsome : a < g.size → (C.get a).isSome := by
    intro ha
    rcases h3 a ha with h | ⟨e, he, rfl | h⟩
    · exact k3 a (by rw [get_init, if_pos h]; rfl)
    · exact k4 _ he
    · exact hdown e a (k4 e he) h
  unfold Cache.ref
  split
  · rename_i hn
    constructor
    · intro h; cases h
    · intro h
      rcases below_cases.mp h with ⟨d, hd, _⟩
      have := hsome (hg a d hd).2
      rw [hn] at this; cases this
  · rename_i l hn
    rw [List.contains_iff_mem, k1 a l hn b]

/-! ## the queues -/

theorem popGo_spec (bt : Nat → Nat → Bool) (htr : ∀ a b c, bt a b = true → bt b c = true → bt a c = true) (hir : ∀ a, bt a a = false) :
    ∀ (rest pre : List Nat) (t : Nat) (mid : List Nat), (∀ x ∈ pre, bt x t = false) → (∀ x ∈ mid, bt x t = false) →
      List.Perm (t :: (pre ++ mid ++ rest)) ((popGo bt pre t mid rest).1 :: (popGo bt pre t mid rest).2) ∧
      ∀ x ∈ (popGo bt pre t mid rest).2, bt x (popGo bt pre t mid rest).1 = false := by
  intro rest
  induction rest with
  | nil =>
    intro pre t mid h1 h2
    simp only [popGo, List.append_nil]
    refine ⟨List.Perm.refl _, ?_⟩
    intro x hx
    rcases List.mem_append.mp hx with h | h
    · exact h1 x h
    · exact h2 x h
  | cons x xs ih =>
    intro pre t mid h1 h2
    unfold popGo
    split
    · rename_i hb
      obtain ⟨p1, p2⟩ := ih (pre ++ t :: mid) x [] (by
        intro y hy
        have hty : bt y t = false ∨ y = t := by
          rcases List.mem_append.mp hy with h | h
          · exact Or.inl (h1 y h)
          · rcases List.mem_cons.mp h with h | h
            · exact Or.inr h
            · exact Or.inl (h2 y h)
        by_contra hyx
        have hyx : bt y x = true := by simpa using hyx
        have hyt := htr y x t hyx hb
        rcases hty with h | h
        · rw [h] at hyt; cases hyt
        · rw [h, hir] at hyt; cases hyt) (by simp)
      refine ⟨List.Perm.trans ?_ p1, p2⟩
      rw [List.append_nil]
      have e1 : (t :: (pre ++ mid ++ x :: xs)).Perm (x :: (t :: (pre ++ mid ++ xs))) :=
        ((List.perm_middle (a := x) (l₁ := pre ++ mid) (l₂ := xs)).cons t).trans (List.Perm.swap x t _)
      have e2 : (t :: (pre ++ mid ++ xs)).Perm (pre ++ t :: mid ++ xs) := by
        rw [List.append_assoc, List.append_assoc, List.cons_append]
        exact (List.perm_middle (a := t) (l₁ := pre) (l₂ := mid ++ xs)).symm
      exact e1.trans (e2.cons x)
    · rename_i hb
      obtain ⟨p1, p2⟩ := ih pre t (mid ++ [x]) h1 (by
        intro y hy
        rcases List.mem_append.mp hy with h | h
        · exact h2 y h
        · rw [List.mem_singleton] at h; subst h; simpa using hb)
      refine ⟨List.Perm.trans ?_ p1, p2⟩
      simp

theorem popTop_spec {g : Gr} (hg : Ordered g) {r : Nat → Nat → Bool} (hr : ∀ a b, r a b = true ↔ Below g a b) {q rest : List Nat} {n : Nat}
    (h : popTop r q = some (n, rest)) : q.Perm (n :: rest) ∧ ∀ x ∈ q, ¬ Below g x n := by
  unfold popTop at h
  split at h
  · cases h
  · rename_i x xs
    have hs := popGo_spec (fun it target => r it target) (fun a b c h1 h2 => (hr a c).mpr (((hr a b).mp h1).trans ((hr b c).mp h2)))
      (fun a => by have := below_irrefl hg a; rw [← hr] at this; simpa using this) xs [] x [] (by simp) (by simp)
    rw [Option.some.inj h] at hs
    have hp : (x :: xs).Perm (n :: rest) := by simpa using hs.1
    refine ⟨hp, ?_⟩
    intro y hy hb
    rcases List.mem_cons.mp (hp.mem_iff.mp hy) with rfl | hy
    · exact below_irrefl hg _ hb
    · have := hs.2 y hy
      rw [(hr y n).mpr hb] at this; cases this

theorem popBottom_spec {g : Gr} (hg : Ordered g) {r : Nat → Nat → Bool} (hr : ∀ a b, r a b = true ↔ Below g a b) {q rest : List Nat} {n : Nat}
    (h : popBottom r q = some (n, rest)) : q.Perm (n :: rest) ∧ ∀ x ∈ q, ¬ Below g n x := by
  unfold popBottom at h
  split at h
  · cases h
  · rename_i x xs
    have hs := popGo_spec (fun it target => r target it) (fun a b c h1 h2 => (hr c a).mpr (((hr c b).mp h2).trans ((hr b a).mp h1)))
      (fun a => by have := below_irrefl hg a; rw [← hr] at this; simpa using this) xs [] x [] (by simp) (by simp)
    rw [Option.some.inj h] at hs
    have hp : (x :: xs).Perm (n :: rest) := by simpa using hs.1
    refine ⟨hp, ?_⟩
    intro y hy hb
    rcases List.mem_cons.mp (hp.mem_iff.mp hy) with rfl | hy
    · exact below_irrefl hg _ hb
    · have := hs.2 y hy
      rw [(hr n y).mpr hb] at this; cases this

end Verif.Compiler.Split
