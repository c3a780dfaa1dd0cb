import Verif.Memory.Hard
/-!
# `HardMemory`: owners of blocks, careful histories, and the invariant behind C97
-/
namespace Verif.Props
open Verif.Core Verif.Memory.HardCpu

namespace HardCpu

theorem bytes_free {h h' : Heap} {p : Nat} (hf : h.free p = some h') :
    (∀ q, h'.bytes q = if q = p then none else h.bytes q) ∧ h'.next = h.next := by
  unfold Heap.free at hf
  split at hf
  · cases hf
    refine ⟨fun q => ?_, rfl⟩
    unfold Heap.bytes
    dsimp only
    rw [List.find?_filter]
    split
    · next hq =>
      subst hq
      have : h.live.find? (fun a => (a.1 != q) && (a.1 == q)) = none := by
        rw [List.find?_eq_none]
        intro x _
        by_cases hx : x.1 = q <;> simp [hx]
      simp only [bne_iff_ne, ne_eq, Bool.decide_and, decide_not] at this ⊢
      have e : (fun a : Nat × List UInt8 => decide ((a.fst != q) = true ∧ (a.fst == q) = true)) = fun a => (a.1 != q) && (a.1 == q) := by
        funext a; by_cases h1 : a.1 = q <;> simp [h1]
      first
        | (rw [this]; rfl)
        | (simp only [Option.map_eq_none_iff, List.find?_eq_none]
           intro x _
           by_cases hx : x.1 = q <;> simp [hx])
    · next hq =>
      congr 1
      congr 1
      funext a
      by_cases h1 : a.1 = q
      · simp [h1, hq]
      · simp [h1]
  · cases hf

theorem free_some {h : Heap} {p : Nat} {b : List UInt8} (hb : h.bytes p = some b) : ∃ h', h.free p = some h' := by
  simp [Heap.free, hb]

theorem bytes_malloc (h : Heap) (b : List UInt8) (q : Nat) : (h.malloc b).2.bytes q = if q = h.next then some b else h.bytes q := by
  unfold Heap.malloc Heap.bytes
  dsimp only
  rw [List.find?_cons]
  by_cases hq : q = h.next
  · subst hq; simp
  · have : (h.next == q) = false := by simpa using fun e => hq e.symm
    simp [this, hq]

/-- numbers that are not used yet -/
def Fresh (h : Heap) : Prop := ∀ q, h.next ≤ q → h.bytes q = none

theorem fresh_free {h h' : Heap} {p : Nat} (hf : h.free p = some h') (hh : Fresh h) : Fresh h' := by
  obtain ⟨h1, h2⟩ := bytes_free hf
  intro q hq
  rw [h1]; split
  · rfl
  · exact hh q (h2 ▸ hq)

theorem fresh_malloc {h : Heap} (b : List UInt8) (hh : Fresh h) : Fresh (h.malloc b).2 := by
  intro q hq
  have hq' : h.next + 1 ≤ q := hq
  rw [bytes_malloc, if_neg (by omega)]
  exact hh q (by omega)

theorem some_bytes_length (junk : Nat → UInt8) (n : Nat) : (some_bytes junk n).length = n := by simp [some_bytes]

theorem grown_length (junk : Nat → UInt8) (old : List UInt8) (n : Nat) : (grown junk old n).length = n := by
  simp [grown, some_bytes]; omega

/-- what the allocator does to the heap when it returns: `mem` is gone, the result is a new block of `n` bytes (or nothing if `n` is 0) -/
structure Moved (h h' : Heap) (n : Nat) (mem r : Option Nat) : Prop where
  fresh : Fresh h'
  zero : n = 0 → r = none
  block : n ≠ 0 → ∃ b, r = some h.next ∧ h'.bytes h.next = some b ∧ b.length = n
  other : ∀ q, r ≠ some q → h'.bytes q = if mem = some q then none else h.bytes q

theorem moved_free {h h' : Heap} {p : Nat} (hh : Fresh h) (hf : h.free p = some h') : Moved h h' 0 (some p) none := by
  obtain ⟨h1, h2⟩ := bytes_free hf
  refine ⟨fresh_free hf hh, fun _ => rfl, fun h0 => absurd rfl h0, fun q _ => ?_⟩
  rw [h1]
  by_cases hq : q = p
  · simp [hq]
  · have : p ≠ q := fun e => hq e.symm
    simp [hq, this]

theorem moved_malloc {h : Heap} (hh : Fresh h) (b : List UInt8) (hb : b.length ≠ 0) : Moved h (h.malloc b).2 b.length none (some (h.malloc b).1) := by
  refine ⟨fresh_malloc b hh, fun h0 => absurd h0 hb, fun _ => ⟨b, rfl, by rw [bytes_malloc]; simp, rfl⟩, fun q hq => ?_⟩
  have hq' : q ≠ h.next := fun e => hq (by rw [e]; rfl)
  rw [bytes_malloc, if_neg hq']; simp

theorem moved_both {h h1 : Heap} {p : Nat} (hh : Fresh h) (hf : h.free p = some h1) (b : List UInt8) (hb : b.length ≠ 0) :
    Moved h (h1.malloc b).2 b.length (some p) (some (h1.malloc b).1) := by
  obtain ⟨e1, e2⟩ := bytes_free hf
  refine ⟨fresh_malloc b (fresh_free hf hh), fun h0 => absurd h0 hb, fun _ => ⟨b, by rw [← e2]; rfl, by rw [bytes_malloc, e2]; simp, rfl⟩, fun q hq => ?_⟩
  have hq' : q ≠ h1.next := fun e => hq (by rw [e]; rfl)
  rw [bytes_malloc, if_neg hq', e1]
  by_cases hqp : q = p
  · simp [hqp]
  · have : p ≠ q := fun e => hqp e.symm
    simp [hqp, this]

/-- the allocator on a block that is allocated -/
theorem alloc_spec (room : Bool) (junk : Nat → UInt8) (h : Heap) (n : Nat) (mem : Option Nat) (memSize : Nat) (hh : Fresh h)
    (hm : ∀ p, mem = some p → ∃ b, h.bytes p = some b) :
    (∃ r h', cpuAllocator room junk h n mem memSize = .ok r h' ∧ Moved h h' n mem r ∧ (n ≠ 0 → room = true)) ∨
    (room = false ∧ n ≠ 0 ∧ ∃ h', cpuAllocator room junk h n mem memSize = .thrown h' ∧ ((mem = none ∨ memSize ≠ 0) → h' = h) ∧
      (∀ p, mem = some p → memSize = 0 → h.free p = some h')) := by
  unfold cpuAllocator
  by_cases h0 : n = 0
  · subst h0
    cases mem with
    | none => exact Or.inl ⟨none, h, by simp, ⟨hh, fun _ => rfl, fun h0 => absurd rfl h0, fun q _ => by simp⟩, fun h0 => absurd rfl h0⟩
    | some p =>
      obtain ⟨b, hb⟩ := hm p rfl
      obtain ⟨h1, hf⟩ := free_some hb
      exact Or.inl ⟨none, h1, by simp [hf], moved_free hh hf, fun h0 => absurd rfl h0⟩
  · simp only [h0, if_false]
    cases mem with
    | none =>
      cases room with
      | false => exact Or.inr ⟨rfl, h0, h, by simp, fun _ => rfl, fun p hp => by cases hp⟩
      | true =>
        have hm := moved_malloc hh (some_bytes junk n) (by rw [some_bytes_length]; exact h0)
        rw [some_bytes_length] at hm
        exact Or.inl ⟨_, _, by simp, hm, fun _ => rfl⟩
    | some p =>
      obtain ⟨b, hb⟩ := hm p rfl
      obtain ⟨h1, hf⟩ := free_some hb
      by_cases hs : memSize = 0
      · subst hs
        cases room with
        | false =>
          refine Or.inr ⟨rfl, h0, h1, by simp [hf], fun hx => ?_, fun p' hp _ => ?_⟩
          · rcases hx with hx | hx
            · cases hx
            · exact absurd rfl hx
          · cases hp; exact hf
        | true =>
          have hm := moved_both hh hf (some_bytes junk n) (by rw [some_bytes_length]; exact h0)
          rw [some_bytes_length] at hm
          exact Or.inl ⟨_, _, by simp [hf], hm, fun _ => rfl⟩
      · cases room with
        | false => exact Or.inr ⟨rfl, h0, h, by simp [hs, hb], fun _ => rfl, fun p' _ hx => absurd hx hs⟩
        | true =>
          have hm := moved_both hh hf (grown junk b n) (by rw [grown_length]; exact h0)
          rw [grown_length] at hm
          exact Or.inl ⟨_, _, by simp [hs, hb, hf], hm, fun _ => rfl⟩

/-- the object has the block -/
def Owns (w : World) (i p : Nat) : Prop := ∃ o, w.objs i = some o ∧ o.owns = true ∧ o.data = some p

/-- every allocated block belongs to exactly one object, and has the capacity of that object -/
structure Good (w : World) : Prop where
  fresh : Fresh w.heap
  unborn : ∀ i, w.count ≤ i → w.objs i = none
  size : ∀ i o p, w.objs i = some o → o.owns = true → o.data = some p → ∃ b, w.heap.bytes p = some b ∧ b.length = o.cap
  one : ∀ i j p, Owns w i p → Owns w j p → i = j
  owned : ∀ p b, w.heap.bytes p = some b → ∃ i, Owns w i p
  pos : ∀ p b, w.heap.bytes p = some b → b.length ≠ 0

theorem Good.empty : Good World.empty := by
  refine ⟨fun q _ => rfl, fun i _ => rfl, ?_, ?_, ?_, ?_⟩
  · intro i o p h; cases h
  · rintro i j p ⟨o, h, _⟩; cases h
  · intro p b h; cases h
  · intro p b h; cases h

/-- object `i` exchanges its block for the result of the allocator -/
theorem Good.replace {w : World} (g : Good w) (i : Nat) (mem r : Option Nat) (n : Nat) (h' : Heap) (hm : Moved w.heap h' n mem r)
    (hi : ∀ p, mem = some p ↔ Owns w i p) (o' : Option Obj) (count' : Nat) (hc : w.count ≤ count') (hlt : i < count')
    (ho : ∀ o, o' = some o → o.owns = true → o.data = r ∧ (r ≠ none → o.cap = n))
    (hr : r ≠ none → ∃ o, o' = some o ∧ o.owns = true) :
    Good { ({ w with heap := h' } : World).set i o' with count := count' } := by
  have ow : ∀ j p, Owns { ({ w with heap := h' } : World).set i o' with count := count' } j p ↔ (j = i ∧ r = some p) ∨ (j ≠ i ∧ Owns w j p) := by
    intro j p
    by_cases hj : j = i
    · subst hj
      simp only [Owns, World.set, if_true, true_and, ne_eq, not_true, false_and, or_false]
      constructor
      · rintro ⟨o, h1, h2, h3⟩
        rw [← h3, (ho o h1 h2).1]
      · intro h
        obtain ⟨o, h1, h2⟩ := hr (by rw [h]; simp)
        exact ⟨o, h1, h2, by rw [(ho o h1 h2).1, h]⟩
    · simp [Owns, World.set, hj]
  have newp : ∀ p, r = some p → n ≠ 0 ∧ p = w.heap.next := by
    intro p hp
    by_cases hn : n = 0
    · rw [hm.zero hn] at hp; cases hp
    · obtain ⟨b, h1, _⟩ := hm.block hn
      rw [h1] at hp
      exact ⟨hn, (Option.some.inj hp).symm⟩
  have old : ∀ j p, j ≠ i → Owns w j p → h'.bytes p = w.heap.bytes p ∧ r ≠ some p := by
    intro j p hj hp
    have hb : ∃ b, w.heap.bytes p = some b := by
      obtain ⟨o, h1, h2, h3⟩ := hp
      obtain ⟨b, hb, _⟩ := g.size j o p h1 h2 h3
      exact ⟨b, hb⟩
    have hr' : r ≠ some p := by
      intro hrp
      obtain ⟨b, hb⟩ := hb
      have := g.fresh p (by rw [(newp p hrp).2]; exact Nat.le_refl _)
      rw [this] at hb; cases hb
    refine ⟨?_, hr'⟩
    rw [hm.other p hr', if_neg]
    intro hmem
    exact hj (g.one j i p hp ((hi p).mp hmem))
  refine ⟨hm.fresh, ?_, ?_, ?_, ?_, ?_⟩
  · intro j hj
    have hj' : count' ≤ j := hj
    show (if j = i then o' else w.objs j) = none
    rw [if_neg (by omega)]
    exact g.unborn j (by omega)
  · intro j o p h1 h2 h3
    by_cases hj : j = i
    · subst hj
      have h1' : o' = some o := by simpa [World.set] using h1
      obtain ⟨e1, e2⟩ := ho o h1' h2
      have hrp : r = some p := by rw [← e1, h3]
      obtain ⟨hn, hp⟩ := newp p hrp
      obtain ⟨b, _, hb, hl⟩ := hm.block hn
      exact ⟨b, by rw [hp]; exact hb, by rw [hl, e2 (by rw [hrp]; simp)]⟩
    · have h1' : w.objs j = some o := by simpa [World.set, hj] using h1
      obtain ⟨b, hb, hl⟩ := g.size j o p h1' h2 h3
      exact ⟨b, by rw [← hb]; exact (old j p hj ⟨o, h1', h2, h3⟩).1, hl⟩
  · intro j k p hj hk
    rw [ow] at hj hk
    rcases hj with ⟨hj, hrp⟩ | ⟨hj, hjp⟩ <;> rcases hk with ⟨hk, hrp'⟩ | ⟨hk, hkp⟩
    · rw [hj, hk]
    · exact absurd hrp (old k p hk hkp).2
    · exact absurd hrp' (old j p hj hjp).2
    · exact g.one j k p hjp hkp
  · intro p b hb
    by_cases hrp : r = some p
    · exact ⟨i, (ow i p).mpr (Or.inl ⟨rfl, hrp⟩)⟩
    · have hb' : h'.bytes p = some b := hb
      rw [hm.other p hrp] at hb'
      split at hb'
      · cases hb'
      · next hmem =>
        obtain ⟨j, hj⟩ := g.owned p b hb'
        refine ⟨j, (ow j p).mpr (Or.inr ⟨fun hji => hmem ?_, hj⟩)⟩
        exact (hi p).mpr (hji ▸ hj)
  · intro p b hb
    by_cases hrp : r = some p
    · obtain ⟨hn, hp⟩ := newp p hrp
      obtain ⟨b', _, hb', hl⟩ := hm.block hn
      have hb2 : h'.bytes p = some b := hb
      rw [hp, hb'] at hb2
      cases hb2
      rw [hl]; exact hn
    · have hb' : h'.bytes p = some b := hb
      rw [hm.other p hrp] at hb'
      split at hb'
      · cases hb'
      · exact g.pos p b hb'

/-- the objects are changed so that every block keeps exactly one owner of the same capacity -/
theorem Good.permute {w w' : World} (g : Good w) (hh : w'.heap = w.heap) (hu : ∀ i, w'.count ≤ i → w'.objs i = none)
    (hs : ∀ i o p, w'.objs i = some o → o.owns = true → o.data = some p → ∃ j o', w.objs j = some o' ∧ o'.owns = true ∧ o'.data = some p ∧ o'.cap = o.cap)
    (h1 : ∀ i j p, Owns w' i p → Owns w' j p → i = j) (h2 : ∀ i p, Owns w i p → ∃ j, Owns w' j p) : Good w' := by
  refine ⟨hh ▸ g.fresh, hu, ?_, h1, ?_, hh ▸ g.pos⟩
  · intro i o p a b c
    obtain ⟨j, o', a', b', c', d⟩ := hs i o p a b c
    rw [hh, ← d]
    exact g.size j o' p a' b' c'
  · intro p b hb
    rw [hh] at hb
    obtain ⟨i, hi⟩ := g.owned p b hb
    exact h2 i p hi

/-- the two calls that are excluded: a `resize` of an object that has a block, when the system refuses the new one, and a move onto an object that
has a block -/
def Careful (w : World) : Op → Prop
  | .resize i n room _ => room = true ∨ n = 0 ∨ ∀ p, ¬ Owns w i p
  | .moveTo dst src => dst = src ∨ ∀ p, ¬ Owns w dst p
  | _ => True

theorem lt_count {w : World} (g : Good w) {i : Nat} {o : Obj} (h : w.objs i = some o) : i < w.count := by
  refine Nat.lt_of_not_le fun hc => ?_
  rw [g.unborn i hc] at h; cases h

theorem owns_iff {w : World} {i : Nat} {o : Obj} (h : w.objs i = some o) (ho : o.owns = true) (p : Nat) : o.data = some p ↔ Owns w i p := by
  constructor
  · exact fun hp => ⟨o, h, ho, hp⟩
  · rintro ⟨o', h', _, hp⟩
    rw [h] at h'; cases h'; exact hp

theorem owned_bytes {w : World} (g : Good w) {i : Nat} {o : Obj} (h : w.objs i = some o) (ho : o.owns = true) :
    ∀ p, o.data = some p → ∃ b, w.heap.bytes p = some b := fun p hp => by
  obtain ⟨b, hb, _⟩ := g.size i o p h ho hp; exact ⟨b, hb⟩

/-- the states after a call that is not undefined -/
def After (d : Done) (P : World → Prop) : Prop :=
  match d with
  | .fine w => P w
  | .thrown w => P w
  | .undef => False

theorem assign_good {w : World} (g : Good w) {i : Nat} {o : Obj} (h : w.objs i = some o) (ho : o.owns = true) (n memSize : Nat) (room : Bool)
    (junk : Nat → UInt8) (hs : memSize ≠ 0 ∨ o.data = none ∨ room = true ∨ n = 0) :
    After (assignFrom w i o n (cpuAllocator room junk w.heap n o.data memSize)) Good := by
  rcases alloc_spec room junk w.heap n o.data memSize g.fresh (owned_bytes g h ho) with ⟨r, h', e, hm, _⟩ | ⟨hr, hn, h', e, h1, h2⟩
  · rw [e]
    refine g.replace i o.data r n h' hm (fun p => owns_iff h ho p) _ w.count (Nat.le_refl _) (lt_count g h) ?_ ?_
    · intro o' he _
      cases he
      exact ⟨rfl, fun _ => rfl⟩
    · exact fun _ => ⟨_, rfl, ho⟩
  · rw [e]
    have : h' = w.heap := by
      rcases hs with hs | hs | hs | hs
      · exact h1 (Or.inr hs)
      · exact h1 (Or.inl hs)
      · rw [hr] at hs; cases hs
      · exact absurd hs hn
    show Good { w with heap := h' }
    rw [this]; exact g

theorem Good.drop {w : World} (g : Good w) {i : Nat} {o : Obj} (h : w.objs i = some o) (ho : o.owns = false) (o' : Option Obj)
    (ho' : ∀ x, o' = some x → x.owns = false) : Good (w.set i o') := by
  have hm : Moved w.heap w.heap 0 none none := ⟨g.fresh, fun _ => rfl, fun h => absurd rfl h, fun q _ => by simp⟩
  refine g.replace i none none 0 w.heap hm (fun p => ?_) o' w.count (Nat.le_refl _) (lt_count g h) ?_ (fun h => absurd rfl h)
  · constructor
    · intro h; cases h
    · rintro ⟨x, hx, hx2, _⟩; rw [h] at hx; cases hx; rw [ho] at hx2; cases hx2
  · intro x hx hx2
    rw [ho' x hx] at hx2; cases hx2

theorem step_good {w : World} (g : Good w) (op : Op) (hc : Careful w op) : After (step w op) Good := by
  cases op with
  | make n room junk =>
    simp only [step]
    split
    · next h0 =>
      have hm : Moved w.heap w.heap 0 none none := ⟨g.fresh, fun _ => rfl, fun h => absurd rfl h, fun q _ => by simp⟩
      refine g.replace w.count none none 0 w.heap hm (fun p => ?_) (some ⟨none, 0, true⟩) (w.count + 1) (Nat.le_succ _) (Nat.lt_succ_self _) ?_ (fun h => absurd rfl h)
      · constructor
        · intro h; cases h
        · rintro ⟨o, h, _⟩; rw [g.unborn _ (Nat.le_refl _)] at h; cases h
      · intro o he _; cases he; exact ⟨rfl, fun h => absurd rfl h⟩
    · next h0 =>
      rcases alloc_spec room junk w.heap n none 0 g.fresh (fun p hp => by cases hp) with ⟨r, h', e, hm, _⟩ | ⟨hr, hn, h', e, h1, h2⟩
      · rw [e]
        refine g.replace w.count none r n h' hm (fun p => ?_) (some ⟨r, n, true⟩) (w.count + 1) (Nat.le_succ _) (Nat.lt_succ_self _) ?_ (fun _ => ⟨_, rfl, rfl⟩)
        · constructor
          · intro h; cases h
          · rintro ⟨o, h, _⟩; rw [g.unborn _ (Nat.le_refl _)] at h; cases h
        · intro o he _; cases he; exact ⟨rfl, fun _ => rfl⟩
      · rw [e]
        have : h' = w.heap := h1 (Or.inl rfl)
        show Good { w with heap := h' }
        rw [this]; exact g
  | borrow p n =>
    simp only [step]
    have hm : Moved w.heap w.heap 0 none none := ⟨g.fresh, fun _ => rfl, fun h => absurd rfl h, fun q _ => by simp⟩
    refine g.replace w.count none none 0 w.heap hm (fun p => ?_) (some ⟨p, n, false⟩) (w.count + 1) (Nat.le_succ _) (Nat.lt_succ_self _) ?_ (fun h => absurd rfl h)
    · constructor
      · intro h; cases h
      · rintro ⟨o, h, _⟩; rw [g.unborn _ (Nat.le_refl _)] at h; cases h
    · intro o he ho; cases he; cases ho
  | resize i n room junk =>
    simp only [step]
    split
    · exact g
    · next o h =>
      unfold resize
      split
      · next ho =>
        split
        · refine assign_good g h ho n 0 room junk ?_
          rcases hc with hc | hc | hc
          · exact Or.inr (Or.inr (Or.inl hc))
          · exact Or.inr (Or.inr (Or.inr hc))
          · refine Or.inr (Or.inl ?_)
            rcases hd : o.data with _ | p
            · rfl
            · exact absurd ⟨o, h, ho, hd⟩ (hc p)
        · exact g
      · exact g
  | expect i n room junk =>
    simp only [step]
    split
    · exact g
    · next o h =>
      split
      · next ho =>
        split
        · refine assign_good g h ho n o.cap room junk ?_
          by_cases hz : o.cap = 0
          · rcases hd : o.data with _ | p
            · exact Or.inr (Or.inl rfl)
            · -- an object of capacity 0 has no block of size 0 that it was given: its block is empty, and it keeps it when the request fails
              obtain ⟨b, hb, hl⟩ := g.size i o p h ho hd
              exact absurd (hl.trans hz) (g.pos p b hb)
          · exact Or.inl hz
        · exact g
      · exact g
  | shrink i n room junk =>
    simp only [step]
    split
    · exact g
    · next o h =>
      split
      · next ho =>
        split
        · next hlt => exact assign_good g h ho n o.cap room junk (Or.inl (by omega))
        · exact g
      · exact g
  | dispose i =>
    simp only [step]
    split
    · exact g
    · next o h =>
      split
      · next ho =>
        rcases alloc_spec true (fun _ => 0) w.heap 0 o.data 0 g.fresh (owned_bytes g h ho) with ⟨r, h', e, hm, _⟩ | ⟨hr, _⟩
        · rw [e]
          have hr0 := hm.zero rfl
          refine g.replace i o.data r 0 h' hm (fun p => owns_iff h ho p) _ w.count (Nat.le_refl _) (lt_count g h) ?_ ?_
          · intro o' he _
            cases he
            exact ⟨hr0.symm, fun hx => absurd hr0 hx⟩
          · exact fun hx => absurd hr0 hx
        · cases hr
      · next ho =>
        have ho' : o.owns = false := by simpa using ho
        exact g.drop h ho' (some { o with data := none }) (fun o' he => by cases he; exact ho')
  | moveNew i =>
    simp only [step]
    split
    · exact g
    · next o h =>
      have hlt := lt_count g h
      have ow : ∀ j p, Owns { (w.set i (some { o with owns := false })).set w.count (some o) with count := w.count + 1 } j p ↔
          (j = w.count ∧ Owns w i p) ∨ (j ≠ i ∧ j ≠ w.count ∧ Owns w j p) := by
        intro j p
        by_cases hj : j = w.count
        · subst hj
          simp [Owns, World.set, h]
        · by_cases hji : j = i
          · subst hji
            simp [Owns, World.set, hj]
          · simp [Owns, World.set, hj, hji]
      have noc : ∀ p, ¬ Owns w w.count p := by
        rintro p ⟨o', h', _⟩; rw [g.unborn _ (Nat.le_refl _)] at h'; cases h'
      show Good _
      refine g.permute rfl ?_ ?_ ?_ ?_
      · intro j hj
        have hj' : w.count + 1 ≤ j := hj
        show (if j = w.count then some o else if j = i then _ else w.objs j) = none
        rw [if_neg (by omega), if_neg (by omega)]
        exact g.unborn j (by omega)
      · intro j o' p h1 h2 h3
        have h1' : (if j = w.count then some o else if j = i then some { o with owns := false } else w.objs j) = some o' := h1
        split at h1'
        · cases h1'; exact ⟨i, o, h, h2, h3, rfl⟩
        · split at h1'
          · cases h1'; cases h2
          · exact ⟨j, o', h1', h2, h3, rfl⟩
      · intro j k p hj hk
        rw [ow] at hj hk
        rcases hj with ⟨hj, hp⟩ | ⟨hj, hj2, hp⟩ <;> rcases hk with ⟨hk, hp'⟩ | ⟨hk, hk2, hp'⟩
        · rw [hj, hk]
        · exact absurd (g.one k i p hp' hp) hk
        · exact absurd (g.one j i p hp hp') hj
        · exact g.one j k p hp hp'
      · intro j p hp
        by_cases hji : j = i
        · exact ⟨w.count, (ow _ _).mpr (Or.inl ⟨rfl, hji ▸ hp⟩)⟩
        · refine ⟨j, (ow _ _).mpr (Or.inr ⟨hji, fun e => noc p (e ▸ hp), hp⟩)⟩
  | moveTo dst src =>
    simp only [step]
    split
    · next d o hd h =>
      split
      · exact g
      · next hne =>
        have free : ∀ p, ¬ Owns w dst p := by
          rcases hc with hc | hc
          · exact absurd hc hne
          · exact hc
        have hne' : ¬ src = dst := fun e => hne e.symm
        have ow : ∀ j p, Owns ((w.set src (some { o with owns := false })).set dst (some o)) j p ↔
            (j = dst ∧ Owns w src p) ∨ (j ≠ src ∧ j ≠ dst ∧ Owns w j p) := by
          intro j p
          by_cases hj : j = dst
          · subst hj
            simp [Owns, World.set, h]
          · by_cases hji : j = src
            · subst hji
              simp [Owns, World.set, hj]
            · simp [Owns, World.set, hj, hji]
        show Good _
        refine g.permute rfl ?_ ?_ ?_ ?_
        · intro j hj
          have hj' : w.count ≤ j := hj
          have := lt_count g h
          have := lt_count g hd
          show (if j = dst then some o else if j = src then _ else w.objs j) = none
          rw [if_neg (by omega), if_neg (by omega)]
          exact g.unborn j (by omega)
        · intro j o' p h1 h2 h3
          have h1' : (if j = dst then some o else if j = src then some { o with owns := false } else w.objs j) = some o' := h1
          split at h1'
          · cases h1'; exact ⟨src, o, h, h2, h3, rfl⟩
          · split at h1'
            · cases h1'; cases h2
            · exact ⟨j, o', h1', h2, h3, rfl⟩
        · intro j k p hj hk
          rw [ow] at hj hk
          rcases hj with ⟨hj, hp⟩ | ⟨hj, hj2, hp⟩ <;> rcases hk with ⟨hk, hp'⟩ | ⟨hk, hk2, hp'⟩
          · rw [hj, hk]
          · exact absurd (g.one k src p hp' hp) hk
          · exact absurd (g.one j src p hp hp') hj
          · exact g.one j k p hp hp'
        · intro j p hp
          by_cases hji : j = src
          · exact ⟨dst, (ow _ _).mpr (Or.inl ⟨rfl, hji ▸ hp⟩)⟩
          · exact ⟨j, (ow _ _).mpr (Or.inr ⟨hji, fun e => free p (e ▸ hp), hp⟩)⟩
    · exact g
  | swap i j =>
    simp only [step]
    split
    · next a b ha hb =>
      have ob : ∀ k, ((w.set i (some b)).set j (some a)).objs k = if k = j then w.objs i else if k = i then w.objs j else w.objs k := by
        intro k
        simp only [World.set, ha, hb]
      have ow : ∀ k p, Owns ((w.set i (some b)).set j (some a)) k p ↔ Owns w (if k = j then i else if k = i then j else k) p := by
        intro k p
        simp only [Owns, ob]
        split
        · rfl
        · split <;> rfl
      show Good _
      refine g.permute rfl ?_ ?_ ?_ ?_
      · intro k hk
        have hk' : w.count ≤ k := hk
        have := lt_count g ha
        have := lt_count g hb
        rw [ob, if_neg (by omega), if_neg (by omega)]
        exact g.unborn k hk'
      · intro k o' p h1 h2 h3
        rw [ob] at h1
        split at h1
        · exact ⟨i, o', h1, h2, h3, rfl⟩
        · split at h1
          · exact ⟨j, o', h1, h2, h3, rfl⟩
          · exact ⟨k, o', h1, h2, h3, rfl⟩
      · intro k l p hk hl
        rw [ow] at hk hl
        have := g.one _ _ p hk hl
        by_cases h1 : k = j <;> by_cases h2 : l = j <;> by_cases h3 : k = i <;> by_cases h4 : l = i <;> simp_all
      · intro k p hk
        refine ⟨if k = j then i else if k = i then j else k, (ow _ _).mpr ?_⟩
        have e : (if (if k = j then i else if k = i then j else k) = j then i else if (if k = j then i else if k = i then j else k) = i then j
            else (if k = j then i else if k = i then j else k)) = k := by
          by_cases h1 : k = j
          · subst h1; simp
          · by_cases h3 : k = i
            · subst h3; simp [h1]
            · simp [h1, h3]
        rw [e]; exact hk
    · exact g
  | destroy i =>
    simp only [step]
    split
    · exact g
    · next o h =>
      split
      · next ho =>
        rcases alloc_spec true (fun _ => 0) w.heap 0 o.data 0 g.fresh (owned_bytes g h ho) with ⟨r, h', e, hm, _⟩ | ⟨hr, _⟩
        · rw [e]
          have hr0 := hm.zero rfl
          refine g.replace i o.data r 0 h' hm (fun p => owns_iff h ho p) none w.count (Nat.le_refl _) (lt_count g h) ?_ ?_
          · intro o' he _
            cases he
          · exact fun hx => absurd hr0 hx
        · cases hr
      · next ho =>
        have ho' : o.owns = false := by simpa using ho
        exact g.drop h ho' none (fun o' he => by cases he)

theorem live_nil {h : Heap} (hb : ∀ p, h.bytes p = none) : h.live = [] := by
  cases hl : h.live with
  | nil => rfl
  | cons e es =>
    have := hb e.1
    simp [Heap.bytes, hl, List.find?_cons] at this

/-- a history without the two excluded calls -/
def CarefulRun : World → List Op → Prop
  | _, [] => True
  | w, op :: ops => Careful w op ∧
    match step w op with
    | .fine w' => CarefulRun w' ops
    | .thrown w' => CarefulRun w' ops
    | .undef => True

theorem run_good (ops : List Op) : ∀ w, Good w → CarefulRun w ops → ∃ w', run w ops = some w' ∧ Good w' := by
  induction ops with
  | nil => exact fun w g _ => ⟨w, rfl, g⟩
  | cons op ops ih =>
    intro w g hc
    obtain ⟨h1, h2⟩ := hc
    have hg := step_good g op h1
    rw [run]
    revert h2 hg
    cases step w op with
    | fine w' => exact fun h2 hg => ih w' hg h2
    | thrown w' => exact fun h2 hg => ih w' hg h2
    | undef => exact fun _ hg => hg.elim

/-- the state after a careful history -/
def Reached (w : World) : Prop := ∃ ops, CarefulRun World.empty ops ∧ run World.empty ops = some w

theorem Reached.good {w : World} (h : Reached w) : Good w := by
  obtain ⟨ops, h1, h2⟩ := h
  obtain ⟨w', e, g⟩ := run_good ops _ Good.empty h1
  rw [h2] at e; cases e; exact g

/-- the objects a call is about -/
def names : Op → List Nat
  | .make _ _ _ => []
  | .borrow _ _ => []
  | .resize i _ _ _ => [i]
  | .expect i _ _ _ => [i]
  | .shrink i _ _ _ => [i]
  | .dispose i => [i]
  | .moveNew i => [i]
  | .moveTo i j => [i, j]
  | .swap i j => [i, j]
  | .destroy i => [i]

/-- the object `j` and its bytes are as they were -/
def Same (w : World) (j : Nat) (w' : World) : Prop := w'.objs j = w.objs j ∧ ∀ q, Owns w j q → w'.heap.bytes q = w.heap.bytes q

theorem Moved.same {w : World} (g : Good w) {i : Nat} {mem r : Option Nat} {n : Nat} {h' : Heap} (hm : Moved w.heap h' n mem r)
    (hi : ∀ p, mem = some p → Owns w i p) {j q : Nat} (hj : j ≠ i) (hq : Owns w j q) : h'.bytes q = w.heap.bytes q := by
  have hr : r ≠ some q := by
    intro hr
    by_cases hn : n = 0
    · rw [hm.zero hn] at hr; cases hr
    · obtain ⟨b, h1, _⟩ := hm.block hn
      rw [h1] at hr
      obtain ⟨o, a, b', c⟩ := hq
      obtain ⟨x, hx, _⟩ := g.size j o q a b' c
      rw [← Option.some.inj hr, g.fresh _ (Nat.le_refl _)] at hx; cases hx
  rw [hm.other q hr, if_neg]
  exact fun hmem => hj (g.one j i q hq (hi q hmem))

theorem assign_same {w : World} (g : Good w) {i : Nat} {o : Obj} (h : w.objs i = some o) (ho : o.owns = true) (n memSize : Nat) (room : Bool)
    (junk : Nat → UInt8) {j : Nat} (hj : j ≠ i) : After (assignFrom w i o n (cpuAllocator room junk w.heap n o.data memSize)) (Same w j) := by
  have hi : ∀ p, o.data = some p → Owns w i p := fun p hp => (owns_iff h ho p).mp hp
  rcases alloc_spec room junk w.heap n o.data memSize g.fresh (owned_bytes g h ho) with ⟨r, h', e, hm, _⟩ | ⟨hr, hn, h', e, h1, h2⟩
  · rw [e]
    exact ⟨by simp [World.set, hj], fun q hq => hm.same g hi hj hq⟩
  · rw [e]
    refine ⟨rfl, fun q hq => ?_⟩
    show h'.bytes q = _
    rcases hd : o.data with _ | p
    · rw [h1 (Or.inl hd)]
    · by_cases hs : memSize = 0
      · rw [(bytes_free (h2 p hd hs)).1, if_neg]
        exact fun e => hj (g.one j i q hq (e ▸ hi p hd))
      · rw [h1 (Or.inr hs)]

theorem step_same {w : World} (g : Good w) (op : Op) {j : Nat} (hlt : j < w.count) (hj : j ∉ names op) : After (step w op) (Same w j) := by
  have rfl' : Same w j w := ⟨rfl, fun _ _ => rfl⟩
  have hcount : j ≠ w.count := by omega
  cases op with
  | make n room junk =>
    simp only [step]
    split
    · exact ⟨by simp [World.set, hcount], fun _ _ => rfl⟩
    · rcases alloc_spec room junk w.heap n none 0 g.fresh (fun p hp => by cases hp) with ⟨r, h', e, hm, _⟩ | ⟨hr, hn, h', e, h1, h2⟩
      · rw [e]
        exact ⟨by simp [World.set, hcount], fun q hq => hm.same g (i := w.count) (fun p hp => by cases hp) hcount hq⟩
      · rw [e]
        refine ⟨rfl, fun q _ => ?_⟩
        show h'.bytes q = _
        rw [h1 (Or.inl rfl)]
  | borrow p n => exact ⟨by simp [World.set, hcount], fun _ _ => rfl⟩
  | resize i n room junk =>
    have hj' : j ≠ i := by simpa [names] using hj
    simp only [step]
    split
    · exact rfl'
    · next o h =>
      unfold resize
      split
      · next ho =>
        split
        · exact assign_same g h ho n 0 room junk hj'
        · exact rfl'
      · exact rfl'
  | expect i n room junk =>
    have hj' : j ≠ i := by simpa [names] using hj
    simp only [step]
    split
    · exact rfl'
    · next o h =>
      split
      · next ho =>
        split
        · exact assign_same g h ho n _ room junk hj'
        · exact rfl'
      · exact rfl'
  | shrink i n room junk =>
    have hj' : j ≠ i := by simpa [names] using hj
    simp only [step]
    split
    · exact rfl'
    · next o h =>
      split
      · next ho =>
        split
        · exact assign_same g h ho n _ room junk hj'
        · exact rfl'
      · exact rfl'
  | dispose i =>
    have hj' : j ≠ i := by simpa [names] using hj
    simp only [step]
    split
    · exact rfl'
    · next o h =>
      split
      · next ho =>
        rcases alloc_spec true (fun _ => 0) w.heap 0 o.data 0 g.fresh (owned_bytes g h ho) with ⟨r, h', e, hm, _⟩ | ⟨hr, _⟩
        · rw [e]
          exact ⟨by simp [World.set, hj'], fun q hq => hm.same g (fun p hp => (owns_iff h ho p).mp hp) hj' hq⟩
        · cases hr
      · exact ⟨by simp [World.set, hj'], fun _ _ => rfl⟩
  | moveNew i =>
    have hj' : j ≠ i := by simpa [names] using hj
    simp only [step]
    split
    · exact rfl'
    · exact ⟨by simp [World.set, hj', hcount], fun _ _ => rfl⟩
  | moveTo d s =>
    have hj' : j ≠ d ∧ j ≠ s := by simpa [names] using hj
    simp only [step]
    split
    · split
      · exact rfl'
      · exact ⟨by simp [World.set, hj'.1, hj'.2], fun _ _ => rfl⟩
    · exact rfl'
  | swap d s =>
    have hj' : j ≠ d ∧ j ≠ s := by simpa [names] using hj
    simp only [step]
    split
    · exact ⟨by simp [World.set, hj'.1, hj'.2], fun _ _ => rfl⟩
    · exact rfl'
  | destroy i =>
    have hj' : j ≠ i := by simpa [names] using hj
    simp only [step]
    split
    · exact rfl'
    · next o h =>
      split
      · next ho =>
        rcases alloc_spec true (fun _ => 0) w.heap 0 o.data 0 g.fresh (owned_bytes g h ho) with ⟨r, h', e, hm, _⟩ | ⟨hr, _⟩
        · rw [e]
          exact ⟨by simp [World.set, hj'], fun q hq => hm.same g (fun p hp => (owns_iff h ho p).mp hp) hj' hq⟩
        · cases hr
      · exact ⟨by simp [World.set, hj'], fun _ _ => rfl⟩

/-- a block that no object owns -/
structure Leaked (w : World) (p : Nat) (b : List UInt8) : Prop where
  live : w.heap.bytes p = some b
  old : p < w.heap.next
  none : ∀ j, ¬ Owns w j p

/-- what the allocator does to a block it is not given -/
theorem alloc_other (room : Bool) (junk : Nat → UInt8) (h : Heap) (n : Nat) (mem : Option Nat) (memSize p : Nat) (hp : p < h.next) (hm : mem ≠ some p) :
    match cpuAllocator room junk h n mem memSize with
    | .ok r h' => r ≠ some p ∧ p < h'.next ∧ h'.bytes p = h.bytes p
    | .thrown h' => p < h'.next ∧ h'.bytes p = h.bytes p
    | .ub => True := by
  have fr : ∀ q h', mem = some q → h.free q = some h' → p < h'.next ∧ h'.bytes p = h.bytes p := by
    intro q h' hq hf
    obtain ⟨e1, e2⟩ := bytes_free hf
    refine ⟨e2 ▸ hp, ?_⟩
    rw [e1, if_neg]
    intro e; exact hm (e ▸ hq)
  have ma : ∀ (h' : Heap) b, p < h'.next ∧ h'.bytes p = h.bytes p → some (h'.malloc b).1 ≠ some p ∧ p < (h'.malloc b).2.next ∧ (h'.malloc b).2.bytes p = h.bytes p := by
    intro h' b hh
    refine ⟨?_, Nat.lt_succ_of_lt hh.1, ?_⟩
    · intro e
      have : h'.next = p := Option.some.inj e
      omega
    · rw [bytes_malloc, if_neg (by omega)]; exact hh.2
  have id : p < h.next ∧ h.bytes p = h.bytes p := ⟨hp, rfl⟩
  unfold cpuAllocator
  by_cases h0 : n = 0
  · simp only [h0, if_true]
    cases mem with
    | none => exact ⟨by simp, id⟩
    | some q =>
      dsimp only
      cases hf : h.free q with
      | none => trivial
      | some h' => exact ⟨by simp, fr q h' rfl hf⟩
  · simp only [h0, if_false]
    cases mem with
    | none =>
      cases room with
      | false => exact id
      | true => exact ma h _ id
    | some q =>
      dsimp only
      cases hf : h.free q with
      | none =>
        have hb : h.bytes q = none := by
          unfold Heap.free at hf
          split at hf
          · cases hf
          · assumption
        by_cases hs : memSize = 0 <;> simp [hs, hb]
      | some h' =>
        have hb : ∃ b, h.bytes q = some b := by
          unfold Heap.free at hf
          split at hf
          · next b hb => exact ⟨b, hb⟩
          · cases hf
        obtain ⟨b, hb⟩ := hb
        have h1 := fr q h' rfl hf
        cases room with
        | false => by_cases hs : memSize = 0 <;> simp [hs, hb, id, h1]
        | true =>
          by_cases hs : memSize = 0
          · simp only [hs, ne_eq, not_true, if_false, if_true]
            exact ma h' _ h1
          · simp only [hs, hb, ne_eq, not_false_eq_true, if_true]
            exact ma h' _ h1

/-- no call brings a leaked block back -/
def Keeps (p : Nat) (b : List UInt8) (d : Done) : Prop :=
  match d with
  | .fine w => Leaked w p b
  | .thrown w => Leaked w p b
  | .undef => True

theorem Leaked.set {w : World} {p : Nat} {b : List UInt8} (l : Leaked w p b) (i : Nat) (o : Option Obj) (ho : ∀ x, o = some x → x.owns = true → x.data ≠ some p)
    (h' : Heap) (hh : p < h'.next ∧ h'.bytes p = w.heap.bytes p) (c : Nat) : Leaked { (({ w with heap := h' } : World).set i o) with count := c } p b := by
  refine ⟨hh.2.trans l.live, hh.1, fun j => ?_⟩
  rintro ⟨x, h1, h2, h3⟩
  by_cases hj : j = i
  · subst hj
    have h1' : o = some x := by simpa [World.set] using h1
    exact ho x h1' h2 h3
  · have h1' : w.objs j = some x := by simpa [World.set, hj] using h1
    exact l.none j ⟨x, h1', h2, h3⟩

theorem leak_assign {w : World} {p : Nat} {b : List UInt8} (l : Leaked w p b) {i : Nat} {o : Obj} (h : w.objs i = some o) (ho : o.owns = true)
    (n memSize : Nat) (room : Bool) (junk : Nat → UInt8) : Keeps p b (assignFrom w i o n (cpuAllocator room junk w.heap n o.data memSize)) := by
  have hd : o.data ≠ some p := fun e => l.none i ⟨o, h, ho, e⟩
  have := alloc_other room junk w.heap n o.data memSize p l.old hd
  revert this
  cases cpuAllocator room junk w.heap n o.data memSize with
  | ok r h' => exact fun this => l.set i _ (fun x hx _ => by cases hx; exact this.1) h' this.2 w.count
  | thrown h' => exact fun this => ⟨this.2.trans l.live, this.1, l.none⟩
  | ub => exact fun _ => trivial

theorem leak_step {w : World} {p : Nat} {b : List UInt8} (l : Leaked w p b) (op : Op) : Keeps p b (step w op) := by
  have own : ∀ {i o}, w.objs i = some o → o.owns = true → o.data ≠ some p := fun {i o} h ho e => l.none i ⟨o, h, ho, e⟩
  cases op with
  | make n room junk =>
    simp only [step]
    split
    · exact l.set w.count _ (fun x hx _ => by cases hx; simp) w.heap ⟨l.old, rfl⟩ _
    · have := alloc_other room junk w.heap n none 0 p l.old (by simp)
      revert this
      cases cpuAllocator room junk w.heap n none 0 with
      | ok r h' => exact fun this => l.set w.count _ (fun x hx _ => by cases hx; exact this.1) h' this.2 _
      | thrown h' => exact fun this => ⟨this.2.trans l.live, this.1, l.none⟩
      | ub => exact fun _ => trivial
  | borrow q n => exact l.set w.count _ (fun x hx ho => by cases hx; cases ho) w.heap ⟨l.old, rfl⟩ _
  | resize i n room junk =>
    simp only [step]
    split
    · exact l
    · next o h =>
      unfold resize
      split
      · next ho =>
        split
        · exact leak_assign l h ho ..
        · exact l
      · exact l
  | expect i n room junk =>
    simp only [step]
    split
    · exact l
    · next o h =>
      split
      · next ho =>
        split
        · exact leak_assign l h ho ..
        · exact l
      · exact l
  | shrink i n room junk =>
    simp only [step]
    split
    · exact l
    · next o h =>
      split
      · next ho =>
        split
        · exact leak_assign l h ho ..
        · exact l
      · exact l
  | dispose i =>
    simp only [step]
    split
    · exact l
    · next o h =>
      split
      · next ho =>
        have := alloc_other true (fun _ => 0) w.heap 0 o.data 0 p l.old (own h ho)
        revert this
        cases cpuAllocator true (fun _ => 0) w.heap 0 o.data 0 with
        | ok r h' => exact fun this => l.set i _ (fun x hx _ => by cases hx; simp) h' this.2 w.count
        | thrown h' => exact fun _ => trivial
        | ub => exact fun _ => trivial
      · next ho => exact l.set i _ (fun x hx hx2 => by cases hx; simp) w.heap ⟨l.old, rfl⟩ w.count
  | moveNew i =>
    simp only [step]
    split
    · exact l
    · next o h =>
      have l1 := l.set i (some { o with owns := false }) (fun x hx hx2 => by cases hx; cases hx2) w.heap ⟨l.old, rfl⟩ w.count
      exact l1.set w.count (some o) (fun x hx hx2 => by cases hx; exact own h hx2) w.heap ⟨l.old, rfl⟩ _
  | moveTo d s =>
    simp only [step]
    split
    · next x o hd h =>
      split
      · exact l
      · have l1 := l.set s (some { o with owns := false }) (fun x hx hx2 => by cases hx; cases hx2) w.heap ⟨l.old, rfl⟩ w.count
        exact l1.set d (some o) (fun x hx hx2 => by cases hx; exact own h hx2) w.heap ⟨l.old, rfl⟩ w.count
    · exact l
  | swap i j =>
    simp only [step]
    split
    · next x y hx hy =>
      have l1 := l.set i (some y) (fun z hz hz2 => by cases hz; exact own hy hz2) w.heap ⟨l.old, rfl⟩ w.count
      exact l1.set j (some x) (fun z hz hz2 => by cases hz; exact own hx hz2) w.heap ⟨l.old, rfl⟩ w.count
    · exact l
  | destroy i =>
    simp only [step]
    split
    · exact l
    · next o h =>
      split
      · next ho =>
        have := alloc_other true (fun _ => 0) w.heap 0 o.data 0 p l.old (own h ho)
        revert this
        cases cpuAllocator true (fun _ => 0) w.heap 0 o.data 0 with
        | ok r h' => exact fun this => l.set i _ (fun x hx _ => by cases hx) h' this.2 w.count
        | thrown h' => exact fun _ => trivial
        | ub => exact fun _ => trivial
      · next ho => exact l.set i _ (fun x hx hx2 => by cases hx) w.heap ⟨l.old, rfl⟩ w.count

theorem leak_run {p : Nat} {b : List UInt8} (ops : List Op) : ∀ w, Leaked w p b → ∀ w', run w ops = some w' → Leaked w' p b := by
  induction ops with
  | nil => intro w l w' h; cases h; exact l
  | cons op ops ih =>
    intro w l w' h
    have := leak_step l op
    rw [run] at h
    revert this h
    cases step w op with
    | fine w1 => exact fun h l1 => ih w1 l1 w' h
    | thrown w1 => exact fun h l1 => ih w1 l1 w' h
    | undef => intro h; cases h
end HardCpu
end Verif.Props
