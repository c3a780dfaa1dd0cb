import Verif.Memory.Smart
import Mathlib.Data.List.Basic
/-!
# C23: shared ownership frees exactly once
-/
namespace Verif.Props
open Verif.Core Verif.Memory

/-- the handle exists, is a counted owner, and refers to object `c` -/
def owns (c : Nat) (h : Option Handle) : Bool := h == some ⟨true, some c⟩

/-- the number of counted owners of object `c` -/
def owners (s : SState) (c : Nat) : Nat := s.handles.countP (owns c)

/-- every history of handle operations that never calls `dispose()` explicitly -/
inductive SReach : SState → Prop
  | init : SReach SState.init
  | step {s s'} (op : SOp) : SReach s → (∀ h, op ≠ .dispose h) → s.step op = .ok s' → SReach s'

/-- the counter of `c` matches its owners -/
def Matches (s : SState) (c : Nat) (k : Counter) : Prop :=
  k.count = owners s c ∧ (k.alive = true ↔ 0 < owners s c) ∧ k.destroyed = if k.alive then 0 else 1

structure SInv (s : SState) : Prop where
  cnt : ∀ c k, s.counters[c]? = some k → Matches s c k
  bound : ∀ c, s.counters.length ≤ c → owners s c = 0

theorem owners_set (hs : List (Option Handle)) (h : Nat) (o v : Option Handle) (c : Nat) (ho : hs[h]? = some o) :
    (hs.set h v).countP (owns c) + (if owns c o then 1 else 0) = hs.countP (owns c) + (if owns c v then 1 else 0) := by
  induction hs generalizing h with
  | nil => simp at ho
  | cons a t ih =>
    cases h with
    | zero =>
      simp only [List.getElem?_cons_zero, Option.some.injEq] at ho
      subst ho
      simp only [List.set_cons_zero, List.countP_cons]
      omega
    | succ h =>
      simp only [List.getElem?_cons_succ] at ho
      have := ih h ho
      simp only [List.set_cons_succ, List.countP_cons]
      omega

theorem owners_pos {s : SState} {h c : Nat} (hh : s.handles[h]? = some (some ⟨true, some c⟩)) : 0 < owners s c := by
  unfold owners
  rw [List.countP_pos_iff]
  exact ⟨_, List.mem_of_getElem? hh, by simp [owns]⟩

theorem SInv.alive {s : SState} (hi : SInv s) {c : Nat} (hc : 0 < owners s c) :
    ∃ k, s.counters[c]? = some k ∧ s.counter c = .ok k ∧ k.alive = true ∧ k.destroyed = 0 ∧ k.count = owners s c := by
  by_cases hl : c < s.counters.length
  · have hk := List.getElem?_eq_getElem hl
    obtain ⟨h1, h2, h3⟩ := hi.cnt c _ hk
    have ha := h2.2 hc
    refine ⟨_, hk, ?_, ha, ?_, h1⟩
    · unfold SState.counter
      rw [hk]
      simp [ha]
    · rw [h3, ha]; rfl
  · have := hi.bound c (by omega)
    omega

theorem get_ok {s : SState} {h : Nat} {x : Handle} : s.get h = .ok x ↔ s.handles[h]? = some (some x) := by
  unfold SState.get
  constructor
  · intro h'
    split at h'
    · rename_i y hy; cases h'; exact hy
    · cases h'
  · intro h'; rw [h']

/-- releasing a handle and putting a non-owner in its place -/
theorem release {s : SState} (hi : SInv s) {h : Nat} {x : Handle} (hx : s.handles[h]? = some (some x))
    (v : Option Handle) (hv : ∀ c, owns c v = false) :
    ∃ s1, s.dispose h = .ok s1 ∧ s1.handles.set h v = s.handles.set h v ∧
      (∀ j, j ≠ h → s1.handles[j]? = s.handles[j]?) ∧
      SInv { s1 with handles := s.handles.set h v } ∧ s1.counters.length = s.counters.length := by
  have hown : ∀ c, (s.handles.set h v).countP (owns c) + (if owns c (some x) then 1 else 0) = owners s c := by
    intro c
    have := owners_set s.handles h (some x) v c hx
    rw [hv c] at this
    simpa [owners] using this
  unfold SState.dispose
  rw [(get_ok.2 hx), Res.bind_ok]
  obtain ⟨xs, xp⟩ := x
  by_cases hstrong : ∃ c, xs = true ∧ xp = some c
  · obtain ⟨c, rfl, rfl⟩ := hstrong
    obtain ⟨k, hk, hkc, ha, hd, hcnt⟩ := hi.alive (owners_pos hx)
    simp only []
    rw [hkc, Res.bind_ok]
    have hc1 : (s.handles.set h v).countP (owns c) + 1 = owners s c := by
      have := hown c
      simpa [owns] using this
    have hother : ∀ c', c' ≠ c → (s.handles.set h v).countP (owns c') = owners s c' := by
      intro c' hne
      have := hown c'
      have h0 : owns c' (some ⟨true, some c⟩) = false := by simp [owns]; omega
      rw [h0] at this
      simpa using this
    have hclt : c < s.counters.length := (List.getElem?_eq_some_iff.1 hk).1
    by_cases hlast : k.count - 1 ≤ 0
    · rw [if_pos hlast]
      refine ⟨_, rfl, by simp, ?_, ⟨?_, ?_⟩, by simp⟩
      · intro j hj
        simp only []
        rw [List.getElem?_set_ne (Ne.symm hj)]
      · intro c' k' hk'
        simp only [] at hk'
        unfold Matches owners
        simp only []
        by_cases hcc : c' = c
        · subst hcc
          rw [List.getElem?_set_self hclt] at hk'
          cases hk'
          simp only [Bool.false_eq_true, if_false, false_iff]
          refine ⟨by omega, by omega, by omega⟩
        · rw [List.getElem?_set_ne (Ne.symm hcc)] at hk'
          rw [hother c' hcc]
          exact hi.cnt c' k' hk'
      · intro c' hc'
        simp only [List.length_set] at hc'
        unfold owners
        simp only []
        rw [hother c' (by omega)]
        exact hi.bound c' hc'
    · rw [if_neg hlast]
      refine ⟨_, rfl, rfl, fun _ _ => rfl, ⟨?_, ?_⟩, by simp⟩
      · intro c' k' hk'
        simp only [] at hk'
        unfold Matches owners
        simp only []
        by_cases hcc : c' = c
        · subst hcc
          rw [List.getElem?_set_self hclt] at hk'
          cases hk'
          simp only [ha, if_true, true_iff]
          refine ⟨by omega, by omega, hd⟩
        · rw [List.getElem?_set_ne (Ne.symm hcc)] at hk'
          rw [hother c' hcc]
          exact hi.cnt c' k' hk'
      · intro c' hc'
        simp only [List.length_set] at hc'
        unfold owners
        simp only []
        rw [hother c' (by omega)]
        exact hi.bound c' hc'
  · have hno : ∀ c, owns c (some ⟨xs, xp⟩) = false := by
      intro c
      simp only [owns, beq_eq_false_iff_ne, ne_eq, Option.some.injEq, Handle.mk.injEq]
      intro hc
      exact hstrong ⟨c, hc⟩
    refine ⟨s, ?_, rfl, fun _ _ => rfl, ⟨?_, ?_⟩, rfl⟩
    · cases xs <;> cases xp <;> first | rfl | exact absurd ⟨_, rfl, rfl⟩ hstrong
    · intro c k hk
      have := hown c
      rw [hno c] at this
      unfold Matches owners
      simp only []
      rw [show (s.handles.set h v).countP (owns c) = owners s c by simpa using this]
      exact hi.cnt c k hk
    · intro c hc
      have := hown c
      rw [hno c] at this
      unfold owners
      simp only []
      rw [show (s.handles.set h v).countP (owns c) = owners s c by simpa using this]
      exact hi.bound c hc

/-- an additional owner: putting an owner of a live object in the place of a non-owner and counting it -/
theorem acquire {s : SState} (hi : SInv s) {h c : Nat} {o : Option Handle} (ho : s.handles[h]? = some o)
    (hno : ∀ c, owns c o = false) (hc : 0 < owners s c) :
    ∃ s1, SState.incr { s with handles := s.handles.set h (some ⟨true, some c⟩) } c = .ok s1 ∧ SInv s1 := by
  obtain ⟨k, hk, hkc, ha, hd, hcnt⟩ := hi.alive hc
  have hkc' : SState.counter { s with handles := s.handles.set h (some ⟨true, some c⟩) } c = .ok k := hkc
  unfold SState.incr
  rw [hkc', Res.bind_ok]
  have hclt : c < s.counters.length := (List.getElem?_eq_some_iff.1 hk).1
  have hown : ∀ c', (s.handles.set h (some ⟨true, some c⟩)).countP (owns c') =
      owners s c' + if c' = c then 1 else 0 := by
    intro c'
    have := owners_set s.handles h o (some ⟨true, some c⟩) c' ho
    rw [hno c'] at this
    have h0 : owns c' (some ⟨true, some c⟩) = decide (c' = c) := by
      by_cases h : c' = c
      · simp [owns, h]
      · simp [owns, h]; omega
    rw [h0] at this
    simpa [owners] using this
  refine ⟨_, rfl, ⟨?_, ?_⟩⟩
  · intro c' k' hk'
    simp only [] at hk'
    unfold Matches owners
    simp only []
    rw [hown c']
    by_cases hcc : c' = c
    · subst hcc
      rw [List.getElem?_set_self hclt] at hk'
      cases hk'
      simp only [ha, if_true, true_iff]
      refine ⟨by push_cast; omega, by omega, hd⟩
    · rw [List.getElem?_set_ne (Ne.symm hcc)] at hk'
      rw [if_neg hcc]
      exact hi.cnt c' k' hk'
  · intro c' hc'
    simp only [List.length_set] at hc'
    unfold owners
    simp only []
    rw [hown c', if_neg (by omega)]
    exact hi.bound c' hc'

/-- replacing a non-owner by a non-owner -/
theorem keep {s : SState} (hi : SInv s) {h : Nat} {o v : Option Handle} (ho : s.handles[h]? = some o)
    (hno : ∀ c, owns c o = false) (hv : ∀ c, owns c v = false) : SInv { s with handles := s.handles.set h v } := by
  have hown : ∀ c, (s.handles.set h v).countP (owns c) = owners s c := by
    intro c
    have := owners_set s.handles h o v c ho
    rw [hno c, hv c] at this
    simpa [owners] using this
  refine ⟨?_, ?_⟩
  · intro c k hk
    unfold Matches owners
    simp only []
    rw [hown c]
    exact hi.cnt c k hk
  · intro c hc
    unfold owners
    simp only []
    rw [hown c]
    exact hi.bound c hc

theorem append_null {s : SState} (hi : SInv s) (v : Option Handle) (hv : ∀ c, owns c v = false) :
    SInv { s with handles := s.handles ++ [v] } := by
  have hown : ∀ c, (s.handles ++ [v]).countP (owns c) = owners s c := by
    intro c
    simp [owners, List.countP_append, hv c]
  refine ⟨?_, ?_⟩
  · intro c k hk
    unfold Matches owners
    simp only []
    rw [hown c]
    exact hi.cnt c k hk
  · intro c hc
    unfold owners
    simp only []
    rw [hown c]
    exact hi.bound c hc

theorem owns_null (c : Nat) : owns c (some Handle.null) = false := by simp [owns, Handle.null]
theorem owns_none (c : Nat) : owns c none = false := by simp [owns]

theorem copyAssign_ok {s : SState} (hi : SInv s) {dst src : Nat} {x y : Handle}
    (hx : s.handles[dst]? = some (some x)) (hy : s.handles[src]? = some (some y)) :
    ∃ s1, s.copyAssign dst src = .ok s1 ∧ SInv s1 := by
  unfold SState.copyAssign
  by_cases hds : dst = src
  · rw [if_pos hds]; exact ⟨s, rfl, hi⟩
  · rw [if_neg hds]
    obtain ⟨s1, e1, e2, e3, e4, -⟩ := release hi hx (some Handle.null) owns_null
    rw [e1, Res.bind_ok]
    have hy1 : s1.handles[src]? = some (some y) := by rw [e3 src (Ne.symm hds)]; exact hy
    rw [get_ok.2 hy1, Res.bind_ok]
    simp only []
    have hlt : dst < s.handles.length := (List.getElem?_eq_some_iff.1 hx).1
    have hset : s1.handles.set dst (some y) = (s.handles.set dst (some Handle.null)).set dst (some y) := by
      rw [← e2, List.set_set]
    have hd : (s.handles.set dst (some Handle.null))[dst]? = some (some Handle.null) := by
      rw [List.getElem?_set_self hlt]
    have hsrc : (s.handles.set dst (some Handle.null))[src]? = some (some y) := by
      rw [List.getElem?_set_ne hds]; exact hy
    obtain ⟨ys, yp⟩ := y
    by_cases hstrong : ∃ c, ys = true ∧ yp = some c
    · obtain ⟨c, rfl, rfl⟩ := hstrong
      simp only []
      rw [hset]
      exact acquire e4 (h := dst) (c := c) hd owns_null (owners_pos (h := src) hsrc)
    · have hno : ∀ c, owns c (some ⟨ys, yp⟩) = false := by
        intro c
        simp only [owns, beq_eq_false_iff_ne, ne_eq, Option.some.injEq, Handle.mk.injEq]
        intro hc
        exact hstrong ⟨c, hc⟩
      have hk := keep e4 (h := dst) (v := some ⟨ys, yp⟩) hd owns_null hno
      have : ({ s1 with handles := s1.handles.set dst (some ⟨ys, yp⟩) } : SState) =
          { s1 with handles := (s.handles.set dst (some Handle.null)).set dst (some ⟨ys, yp⟩) } := by rw [hset]
      refine ⟨{ s1 with handles := s1.handles.set dst (some ⟨ys, yp⟩) }, ?_, by rw [this]; exact hk⟩
      cases ys <;> cases yp <;> first | rfl | exact absurd ⟨_, rfl, rfl⟩ hstrong

/-- moving handles around keeps the owners -/
theorem sinv_of_owners {s : SState} (hi : SInv s) (hs : List (Option Handle))
    (h : ∀ c, hs.countP (owns c) = owners s c) : SInv { s with handles := hs } := by
  refine ⟨?_, ?_⟩
  · intro c k hk
    unfold Matches owners
    simp only []
    rw [h c]
    exact hi.cnt c k hk
  · intro c hc
    unfold owners
    simp only []
    rw [h c]
    exact hi.bound c hc

/-- what an operation needs of its handles: they exist -/
def Exists (s : SState) (h : Nat) : Prop := ∃ x, s.handles[h]? = some (some x)

/-- the handles an operation uses exist, and it does not promote or dereference a weak handle whose object is gone -/
def Allowed (s : SState) : SOp → Prop
  | .create => True
  | .copy a => Exists s a
  | .assign a b => Exists s a ∧ Exists s b
  | .move a => Exists s a
  | .moveAssign a b => Exists s a ∧ Exists s b
  | .destroy a => Exists s a
  | .weak a => Exists s a
  | .strong a | .deref a => ∃ x, s.handles[a]? = some (some x) ∧
      (x.strong = false → ∀ c, x.ptr = some c → 0 < owners s c)
  | .dispose _ => False

theorem step_ok {s : SState} (hi : SInv s) (op : SOp) (ha : Allowed s op) :
    (∃ s', s.step op = .ok s' ∧ SInv s') ∨ (s.step op = .err ∧ ((∃ h, op = .strong h) ∨ ∃ h, op = .deref h)) := by
  cases op with
  | create =>
    left
    refine ⟨_, rfl, ?_, ?_⟩
    · intro c k hk
      simp only [] at hk
      unfold Matches owners
      simp only [List.countP_append, List.countP_cons, List.countP_nil]
      by_cases hc : c < s.counters.length
      · rw [List.getElem?_append_left hc] at hk
        have h0 : owns c (some ⟨true, some s.counters.length⟩) = false := by simp [owns]; omega
        rw [h0]
        have := hi.cnt c k hk
        unfold Matches owners at this
        simpa using this
      · have hlen : c = s.counters.length := by
          by_contra hne
          rw [List.getElem?_eq_none (by simp; omega)] at hk
          cases hk
        subst hlen
        rw [List.getElem?_append_right (Nat.le_refl _)] at hk
        simp at hk
        subst hk
        have := hi.bound _ (Nat.le_refl s.counters.length)
        unfold owners at this
        rw [this]
        simp [owns]
    · intro c hc
      simp only [List.length_append, List.length_cons, List.length_nil] at hc
      unfold owners
      simp only [List.countP_append, List.countP_cons, List.countP_nil]
      have := hi.bound c (by omega)
      unfold owners at this
      rw [this]
      simp [owns]
      omega
  | copy a =>
    left
    obtain ⟨x, hx⟩ := ha
    have hlt : a < s.handles.length := (List.getElem?_eq_some_iff.1 hx).1
    simp only [SState.step, get_ok.2 hx, Res.bind_ok]
    exact copyAssign_ok (append_null hi _ owns_null) (dst := s.handles.length) (src := a) (x := Handle.null) (y := x)
      (by simp) (by simp only []; rw [List.getElem?_append_left hlt]; exact hx)
  | assign a b =>
    left
    obtain ⟨⟨x, hx⟩, y, hy⟩ := ha
    simp only [SState.step, get_ok.2 hx, get_ok.2 hy, Res.bind_ok]
    exact copyAssign_ok hi hx hy
  | move a =>
    left
    obtain ⟨x, hx⟩ := ha
    simp only [SState.step, get_ok.2 hx, Res.bind_ok]
    refine ⟨_, rfl, sinv_of_owners hi _ ?_⟩
    intro c
    have := owners_set s.handles a (some x) (some Handle.null) c hx
    rw [owns_null c] at this
    simp only [List.countP_append, List.countP_cons, List.countP_nil, owners]
    simpa using this
  | moveAssign a b =>
    left
    obtain ⟨⟨x, hx⟩, y, hy⟩ := ha
    simp only [SState.step, get_ok.2 hx, get_ok.2 hy, Res.bind_ok]
    refine ⟨_, rfl, sinv_of_owners hi _ ?_⟩
    intro c
    have hb : (s.handles.set a (some y))[b]? = some (some y) := by
      by_cases hab : a = b
      · subst hab
        rw [List.getElem?_set_self (List.getElem?_eq_some_iff.1 hx).1]
      · rw [List.getElem?_set_ne hab]; exact hy
    have h1 := owners_set s.handles a (some x) (some y) c hx
    have h2 := owners_set (s.handles.set a (some y)) b (some y) (some x) c hb
    unfold owners
    omega
  | destroy a =>
    left
    obtain ⟨x, hx⟩ := ha
    obtain ⟨s1, e1, e2, e3, e4, -⟩ := release hi hx none owns_none
    simp only [SState.step, e1, Res.bind_ok]
    refine ⟨_, rfl, ?_⟩
    rw [e2]
    exact e4
  | weak a =>
    left
    obtain ⟨x, hx⟩ := ha
    simp only [SState.step, get_ok.2 hx, Res.bind_ok]
    exact ⟨_, rfl, append_null hi _ (by intro c; simp [owns])⟩
  | strong a =>
    obtain ⟨x, hx, hw⟩ := ha
    have hlt : a < s.handles.length := (List.getElem?_eq_some_iff.1 hx).1
    simp only [SState.step, get_ok.2 hx, Res.bind_ok]
    obtain ⟨xs, xp⟩ := x
    cases xp with
    | none => right; exact ⟨rfl, .inl ⟨a, rfl⟩⟩
    | some c =>
      left
      have hpos : 0 < owners s c := by
        cases xs with
        | true => exact owners_pos hx
        | false => exact hw rfl c rfl
      obtain ⟨k, hk, hkc, hal, hd, hcnt⟩ := hi.alive hpos
      simp only [hkc, Res.bind_ok]
      rw [if_neg (by omega)]
      cases xs with
      | true =>
        simp only [if_true]
        exact copyAssign_ok (append_null hi _ owns_null) (dst := s.handles.length) (src := a) (x := Handle.null)
          (y := ⟨true, some c⟩) (by simp) (by simp only []; rw [List.getElem?_append_left hlt]; exact hx)
      | false =>
        simp only [Bool.false_eq_true, if_false]
        have hap := append_null hi (some Handle.null) owns_null
        have hpos' : 0 < owners { s with handles := s.handles ++ [some Handle.null] } c := by
          unfold owners at *
          simp only [List.countP_append]
          omega
        obtain ⟨s1, e, h1⟩ := acquire hap (h := s.handles.length) (c := c) (o := some Handle.null) (by simp) owns_null
          hpos'
        refine ⟨s1, ?_, h1⟩
        rw [← e]
        congr 2
        simp
  | deref a =>
    obtain ⟨x, hx, hw⟩ := ha
    simp only [SState.step, get_ok.2 hx, Res.bind_ok]
    obtain ⟨xs, xp⟩ := x
    cases xp with
    | none => right; exact ⟨rfl, .inr ⟨a, rfl⟩⟩
    | some c =>
      left
      have hpos : 0 < owners s c := by
        cases xs with
        | true => exact owners_pos hx
        | false => exact hw rfl c rfl
      obtain ⟨k, hk, hkc, hal, hd, hcnt⟩ := hi.alive hpos
      simp only [hkc, Res.bind_ok]
      exact ⟨s, rfl, hi⟩
  | dispose a => exact absurd ha (by simp [Allowed])

theorem sreach_inv {s : SState} (h : SReach s) : SInv s := by
  induction h with
  | init => exact ⟨by simp [SState.init], by intro c _; simp [owners, SState.init]⟩
  | @step s s' op _ hop hs ih =>
    by_cases ha : Allowed s op
    · rcases step_ok ih op ha with ⟨s1, e, h1⟩ | ⟨e, -⟩
      · rw [hs] at e; cases e; exact h1
      · rw [hs] at e; cases e
    · exfalso
      -- an operation that is not allowed does not succeed
      cases op with
      | create => exact ha trivial
      | copy a =>
        simp only [SState.step, Res.bind_eq_ok] at hs
        obtain ⟨x, hx, -⟩ := hs
        exact ha ⟨x, get_ok.1 hx⟩
      | assign a b =>
        simp only [SState.step, Res.bind_eq_ok] at hs
        obtain ⟨x, hx, y, hy, -⟩ := hs
        exact ha ⟨⟨x, get_ok.1 hx⟩, y, get_ok.1 hy⟩
      | move a =>
        simp only [SState.step, Res.bind_eq_ok] at hs
        obtain ⟨x, hx, -⟩ := hs
        exact ha ⟨x, get_ok.1 hx⟩
      | moveAssign a b =>
        simp only [SState.step, Res.bind_eq_ok] at hs
        obtain ⟨x, hx, y, hy, -⟩ := hs
        exact ha ⟨⟨x, get_ok.1 hx⟩, y, get_ok.1 hy⟩
      | destroy a =>
        simp only [SState.step, SState.dispose, Res.bind_eq_ok] at hs
        obtain ⟨_, ⟨x, hx, -⟩, -⟩ := hs
        exact ha ⟨x, get_ok.1 hx⟩
      | weak a =>
        simp only [SState.step, Res.bind_eq_ok] at hs
        obtain ⟨x, hx, -⟩ := hs
        exact ha ⟨x, get_ok.1 hx⟩
      | strong a =>
        simp only [SState.step, Res.bind_eq_ok] at hs
        obtain ⟨x, hx, hs⟩ := hs
        refine ha ⟨x, get_ok.1 hx, ?_⟩
        intro _ c hc
        rw [hc] at hs
        simp only [Res.bind_eq_ok] at hs
        obtain ⟨k, hk, -⟩ := hs
        unfold SState.counter at hk
        split at hk
        · rename_i y hy
          split at hk
          · rename_i hal
            exact ((ih.cnt c y hy).2.1).1 hal
          · cases hk
        · cases hk
      | deref a =>
        simp only [SState.step, Res.bind_eq_ok] at hs
        obtain ⟨x, hx, hs⟩ := hs
        refine ha ⟨x, get_ok.1 hx, ?_⟩
        intro _ c hc
        rw [hc] at hs
        simp only [Res.bind_eq_ok] at hs
        obtain ⟨k, hk, -⟩ := hs
        unfold SState.counter at hk
        split at hk
        · rename_i y hy
          split at hk
          · rename_i hal
            exact ((ih.cnt c y hy).2.1).1 hal
          · cases hk
        · cases hk
      | dispose a => exact hop a rfl

/-- C23 (without explicit `dispose()`): after every history, the object of every counter ever created has been deleted
at most once, and it has been deleted exactly if no counted owner is left; `use_count()` is the number of counted
owners. -/
theorem C23_freed_exactly_once_partial {s : SState} (h : SReach s) (c : Nat) (k : Counter)
    (hk : s.counters[c]? = some k) :
    k.destroyed ≤ 1 ∧ (k.destroyed = 1 ↔ owners s c = 0) ∧ k.count = owners s c := by
  obtain ⟨h1, h2, h3⟩ := (sreach_inv h).cnt c k hk
  cases ha : k.alive
  · rw [ha] at h2 h3
    simp only [Bool.false_eq_true, if_false, false_iff] at h2 h3
    exact ⟨by omega, ⟨fun _ => by omega, fun _ => h3⟩, h1⟩
  · rw [ha] at h2 h3
    simp only [if_true, true_iff] at h2 h3
    exact ⟨by omega, ⟨fun h => by omega, fun h => by omega⟩, h1⟩

/-- C23: no operation on existing handles touches freed memory, unless it promotes or dereferences a weak handle whose
object is gone. -/
theorem C23_no_use_after_free_partial {s : SState} (h : SReach s) (op : SOp) (ha : Allowed s op) : s.step op ≠ .ub := by
  rcases step_ok (sreach_inv h) op ha with ⟨s1, e, -⟩ | ⟨e, -⟩ <;> rw [e] <;> simp

/-- run a list of operations -/
def runOps (s : SState) : List SOp → Res SState
  | [] => .ok s
  | op :: t => do
    let s ← s.step op
    runOps s t

/-- create, copy, weak, promote the weak one, drop the first two: the promoted handle still owns the object -/
example : ∃ s, SReach s ∧ owners s 0 = 1 ∧ s.counters.length = 1 := by
  have h0 := SReach.step .create SReach.init (by simp) rfl
  have h1 := SReach.step (.copy 0) h0 (by simp) rfl
  have h2 := SReach.step (.weak 0) h1 (by simp) rfl
  have h3 := SReach.step (.strong 2) h2 (by simp) rfl
  have h4 := SReach.step (.destroy 0) h3 (by simp) rfl
  have h5 := SReach.step (.destroy 1) h4 (by simp) rfl
  exact ⟨_, h5, by decide, by decide⟩

/-- An explicit `dispose()` that leaves other owners does not clear the handle; its destructor releases again: the
object is deleted although handle 1 still owns it. -/
theorem C23_explicit_dispose_false : ∃ s, runOps SState.init [.create, .copy 0, .dispose 0, .destroy 0] = .ok s ∧
    owners s 0 = 1 ∧ s.counters = [⟨0, false, 1⟩] := ⟨_, rfl, by decide, by decide⟩

/-- Promoting a weak handle whose object is gone reads the deleted counter instead of raising an error. -/
theorem C23_weak_dangles_false : runOps SState.init [.create, .weak 0, .destroy 0, .strong 1] = .ub := by decide

/-- The two memory accesses of `use_count++` (a plain `int`, smart.h:61, 96): by which thread, load or store. -/
inductive Access where
  | load (t : Bool)
  | store (t : Bool)

/-- run accesses: the count, and each thread's loaded value -/
def runAccesses : List Access → Nat → (Bool → Nat) → Nat
  | [], c, _ => c
  | .load t :: l, c, r => runAccesses l c fun u => if u = t then c else r u
  | .store t :: l, _, r => runAccesses l (r t + 1) r

/-- Two threads copying a handle of the same object at the same time: an interleaving in which one copy is not counted
(starting from one owner there are three, the count says two). -/
theorem C23_racing_copies_false : ∃ sched : List Access,
    (sched.filter fun a => match a with | .load t => t | .store t => t) = [.load true, .store true] ∧
    (sched.filter fun a => match a with | .load t => !t | .store t => !t) = [.load false, .store false] ∧
    runAccesses sched 1 (fun _ => 0) = 2 :=
  ⟨[.load true, .load false, .store true, .store false], rfl, rfl, rfl⟩

end Verif.Props
