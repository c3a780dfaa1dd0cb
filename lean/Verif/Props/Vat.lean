import Verif.Memory.VatLemmas
/-!
# C22: the pooled allocator

The user's view is the list of outstanding buffers: `(address, size asked for)`. Histories are sequences of calls; the
only assumption on the environment is what `malloc` of the C library guarantees (`Fresh`).
-/
namespace Verif.Props
open Verif.Core Verif.Memory

/-- A pool with the list of outstanding buffers, after any history of calls. `reset` and `dispose` invalidate all
outstanding buffers. A call that throws leaves the pool as it was and continues the history. -/
inductive History : Vat → List (Nat × Nat) → Prop
  | new : History Vat.new []
  | malloc {v out} (n a : Nat) : History v out → 0 < n → Fresh v a n →
      History (v.malloc n a).2 (((v.malloc n a).1, n) :: out)
  | free {v out v'} (p : Nat) : History v out → v.free p = .ok v' → History v' (out.filter fun b => b.1 != p)
  | clean {v out} : History v out → History v.clean out
  | retire {v out} : History v out → History v.retire out
  | reset {v out} : History v out → History v.reset []
  | dispose {v out} : History v out → History v.dispose []

theorem history_inv {v : Vat} {out : List (Nat × Nat)} (h : History v out) :
    Inv v ∧ out = v.dict.map fun e => (e.1, e.2.size) := by
  induction h with
  | new => exact ⟨Inv.new, rfl⟩
  | malloc n a _ hn hf ih =>
    refine ⟨ih.1.malloc hn hf, ?_⟩
    obtain ⟨q, -, e, hs⟩ := malloc_dict ih.1 hn hf
    rw [e, ih.2]
    simp [hs]
  | @free v out v' p _ hfree ih =>
    refine ⟨ih.1.free hfree, ?_⟩
    by_cases hp : p = 0
    · unfold Vat.free at hfree
      rw [if_pos hp] at hfree
      cases hfree
      rw [ih.2, List.filter_eq_self]
      intro b hb
      obtain ⟨e, he, rfl⟩ := List.mem_map.1 hb
      have h1 := ih.1.key e he
      have h2 := (ih.1.pos e.2 (by unfold Vat.pots; rw [List.mem_append]; exact .inr (List.mem_map_of_mem he))).1
      simp only [bne_iff_ne, ne_eq]
      omega
    · rcases free_eq p hp (v := v) with ⟨he, -⟩ | ⟨q, hq, he⟩
      · rw [he] at hfree; cases hfree
      · rw [he] at hfree
        cases hfree
        rw [ih.2, List.filter_map]
        rfl
  | clean _ ih => exact ⟨ih.1.clean, ih.2⟩
  | retire _ ih => exact ⟨ih.1.retire, ih.2⟩
  | reset _ ih => exact ⟨ih.1.reset, rfl⟩
  | dispose _ ih => exact ⟨Inv.dispose, rfl⟩

/-- C22: after every history the outstanding buffers are non-null, do not overlap, and each lies at the start of a
block the pool still holds that is at least as large as what was asked for. -/
theorem C22_outstanding {v : Vat} {out : List (Nat × Nat)} (h : History v out) :
    out.Pairwise Apart ∧ ∀ b ∈ out, b.1 ≠ 0 ∧ ∃ p ∈ v.pots, p.data = b.1 ∧ b.2 ≤ p.cap := by
  obtain ⟨hi, rfl⟩ := history_inv h
  constructor
  · have ha : (v.dict.map Prod.snd).Pairwise fun p q => Apart p.block q.block := by
      have := hi.apart
      unfold Vat.pots at this
      exact (List.pairwise_append.1 this).2.1
    rw [List.pairwise_map] at ha ⊢
    refine ha.imp_of_mem ?_
    intro a b ham hbm hab
    have h1 := hi.key a ham
    have h2 := hi.key b hbm
    have h3 := (hi.pos a.2 (by unfold Vat.pots; rw [List.mem_append]; exact .inr (List.mem_map_of_mem ham))).2.2
    have h4 := (hi.pos b.2 (by unfold Vat.pots; rw [List.mem_append]; exact .inr (List.mem_map_of_mem hbm))).2.2
    unfold Apart Pot.block at *
    simp only at *
    omega
  · intro b hb
    obtain ⟨e, he, rfl⟩ := List.mem_map.1 hb
    have hm : e.2 ∈ v.pots := by unfold Vat.pots; rw [List.mem_append]; exact .inr (List.mem_map_of_mem he)
    have h1 := hi.key e he
    have h2 := hi.pos e.2 hm
    exact ⟨by simp only; omega, e.2, hm, h1.symm, h2.2.2⟩

/-- C22: freeing throws exactly for a non-null address that is not outstanding (and then nothing has changed: the call
produces no new state); freeing an outstanding buffer ends it and no other. -/
theorem C22_free {v : Vat} {out : List (Nat × Nat)} (h : History v out) (p : Nat) (hp : p ≠ 0) :
    (v.free p = .err ↔ p ∉ out.map Prod.fst) ∧ v.free p ≠ .ub ∧
    ∀ v', v.free p = .ok v' → History v' (out.filter fun b => b.1 != p) := by
  obtain ⟨hi, rfl⟩ := history_inv h
  have hmap : (v.dict.map fun e => (e.1, e.2.size)).map Prod.fst = v.dict.map Prod.fst := by
    rw [List.map_map]; rfl
  rw [hmap]
  refine ⟨?_, ?_, fun v' hv' => History.free p h hv'⟩
  · rcases free_eq p hp (v := v) with ⟨he, hm⟩ | ⟨q, hq, he⟩
    · exact ⟨fun _ => hm, fun _ => he⟩
    · rw [he]
      exact ⟨fun h => (by cases h), fun h => absurd (List.mem_map_of_mem (f := Prod.fst) hq) h⟩
  · rcases free_eq p hp (v := v) with ⟨he, -⟩ | ⟨q, -, he⟩ <;> rw [he] <;> simp

/-- C22: as long as some pooled block is large enough, `malloc` takes a pooled block and asks the system for nothing
(its result does not depend on what the system would answer, and no held block changes) — although the pool is not
always sorted. -/
theorem C22_reuse {v : Vat} {out : List (Nat × Nat)} (h : History v out) (n : Nat) (hn : 0 < n)
    (hfit : ∃ p ∈ v.heap, n ≤ p.cap) (a a' : Nat) :
    v.malloc n a = v.malloc n a' ∧ ∃ p ∈ v.heap, (v.malloc n a).1 = p.data ∧ n ≤ p.cap := by
  obtain ⟨hi, -⟩ := history_inv h
  obtain ⟨p, hp, hc⟩ := hfit
  obtain ⟨h1, h2⟩ := find_fits hi.pre hp hc
  unfold Vat.malloc
  rw [if_neg (by omega), if_neg (by omega)]
  simp only [Pot.malloc, if_neg (by omega : ¬ n > (v.heap.getD (find v.heap n) Pot.new).cap)]
  refine ⟨trivial, v.heap.getD (find v.heap n) Pot.new, ?_, rfl, h2⟩
  rw [List.getD_eq_getElem?_getD, List.getElem?_eq_getElem h1]
  simp

/-- C22: a freed buffer serves a following request that is not larger, without the system (unless the controller has
been destroyed). -/
theorem C22_freed_is_reusable {v v' : Vat} {out : List (Nat × Nat)} (h : History v out) (p s n : Nat)
    (hp : (p, s) ∈ out) (hd : v.deprecated = false) (hf : v.free p = .ok v') (hn : 0 < n) (hs : n ≤ s) (a a' : Nat) :
    v'.malloc n a = v'.malloc n a' := by
  have hh := History.free p h hf
  refine (C22_reuse hh n hn ?_ a a').1
  obtain ⟨hi, rfl⟩ := history_inv h
  obtain ⟨e, he, hee⟩ := List.mem_map.1 hp
  simp only [Prod.mk.injEq] at hee
  have hm : e.2 ∈ v.pots := by unfold Vat.pots; rw [List.mem_append]; exact .inr (List.mem_map_of_mem he)
  have hpos := hi.pos e.2 hm
  have hkey := hi.key e he
  have hp0 : p ≠ 0 := by omega
  rcases free_eq p hp0 (v := v) with ⟨herr, -⟩ | ⟨q, hq, hok⟩
  · rw [herr] at hf; cases hf
  · rw [hok] at hf
    cases hf
    have hqe : e = (p, q) := by
      rcases List.mem_cons.1 ((dict_split hq hi.keys).mem_iff.1 he) with h2 | h2
      · exact h2
      · have := (List.mem_filter.1 h2).2
        simp [hee.1] at this
    subst hqe
    simp only [hd, Bool.false_eq_true, if_false]
    refine ⟨q, ?_, by simp only at hee hpos; omega⟩
    have hle : find v.heap q.cap ≤ v.heap.length := by
      by_cases h0 : v.heap = []
      · rw [h0, find_nil]; simp
      · exact Nat.le_of_lt (find_spec hi.pre _ h0).1
    exact (List.perm_insertIdx q v.heap hle).mem_iff.2 (by simp)

/-- C22: nothing is leaked. `dispose` holds nothing; with nothing outstanding, `clean` (or destroying the controller)
holds nothing; after the controller is destroyed, exactly the outstanding buffers' blocks are held. -/
theorem C22_no_leak {v : Vat} {out : List (Nat × Nat)} (h : History v out) :
    v.dispose.pots = [] ∧ (out = [] → v.clean.pots = [] ∧ v.retire.pots = []) ∧
    v.retire.pots.length = out.length ∧ v.retire.pots.map Pot.data = out.map Prod.fst := by
  obtain ⟨hi, rfl⟩ := history_inv h
  refine ⟨rfl, ?_, ?_, ?_⟩
  · intro h0
    have : v.dict = [] := by simpa using h0
    simp [Vat.pots, Vat.clean, Vat.retire, this]
  · simp [Vat.pots, Vat.retire]
  · simp only [Vat.pots, Vat.retire, List.nil_append, List.map_map]
    apply List.map_congr_left
    intro e he
    exact (hi.key e he).symm

/-- deprecated pools stay without pooled blocks: a buffer freed after the controller's destruction is released -/
theorem C22_free_after_destruction {v v' : Vat} {out : List (Nat × Nat)} (h : History v out) (hd : v.deprecated = true)
    (hh : v.heap = []) (p : Nat) (hf : v.free p = .ok v') : v'.heap = [] ∧ v'.deprecated = true := by
  by_cases hp : p = 0
  · unfold Vat.free at hf
    rw [if_pos hp] at hf
    cases hf
    exact ⟨hh, hd⟩
  · rcases free_eq p hp (v := v) with ⟨he, -⟩ | ⟨q, -, he⟩
    · rw [he] at hf; cases hf
    · rw [he] at hf
      cases hf
      simp [hd, hh]

/-- a history: two buffers, the larger freed last makes the pool unsorted, then a request in between -/
example : ∃ v out, History v out ∧ v.heap.map Pot.cap = [20, 10] ∧ out = [(300, 5)] ∧ v.deprecated = false := by
  have h1 : History ⟨[], [(100, ⟨100, 10, 10⟩)], false⟩ [(100, 10)] := by
    have := History.malloc 10 100 History.new (by decide) ⟨by decide, by simp [Vat.new, Vat.pots]⟩
    simpa [Vat.malloc, Vat.new, find_nil, insertNew, Pot.malloc, Pot.new] using this
  have h2 : History ⟨[], [(200, ⟨200, 20, 20⟩), (100, ⟨100, 10, 10⟩)], false⟩ [(200, 20), (100, 10)] := by
    have := History.malloc 20 200 h1 (by decide) ⟨by decide, by simp [Vat.pots, Apart, Pot.block]⟩
    simpa [Vat.malloc, find_nil, insertNew, Pot.malloc, Pot.new] using this
  have h3 : History ⟨[], [(300, ⟨300, 5, 5⟩), (200, ⟨200, 20, 20⟩), (100, ⟨100, 10, 10⟩)], false⟩
      [(300, 5), (200, 20), (100, 10)] := by
    have := History.malloc 5 300 h2 (by decide) ⟨by decide, by simp [Vat.pots, Apart, Pot.block]⟩
    simpa [Vat.malloc, find_nil, insertNew, Pot.malloc, Pot.new] using this
  have h4 := History.free 100 h3 (v' := ⟨[⟨100, 10, 10⟩], [(300, ⟨300, 5, 5⟩), (200, ⟨200, 20, 20⟩)], false⟩)
    (by simp [Vat.free, find_nil])
  have hf : find [⟨100, 10, 10⟩] 20 = 0 := by simp [find, binaryFind]
  have h5 := History.free 200 h4 (v' := ⟨[⟨200, 20, 20⟩, ⟨100, 10, 10⟩], [(300, ⟨300, 5, 5⟩)], false⟩)
    (by simp [Vat.free, hf])
  exact ⟨_, _, h5, rfl, by decide, rfl⟩

/-- The claim "memory is at least as large as requested" fails for a hard memory that is disposed of and then resized
to its old size: `dispose` keeps the capacity, so `resize` sees nothing to do and the data is null. -/
theorem C22_dispose_resize_false : ∃ (m m1 m2 : Hard) (v v1 v2 : Vat), Hard.resize ⟨0, 0⟩ Vat.new 8 100 = .ok (m, v) ∧
    m.dispose v = .ok (m1, v1) ∧ m1.resize v1 8 200 = .ok (m2, v2) ∧ m2.cap = 8 ∧ m2.data = 0 :=
  ⟨⟨8, 100⟩, ⟨8, 0⟩, ⟨8, 0⟩, _, _, _, rfl, rfl, rfl, rfl, rfl⟩

/-- Growing pool memory in place (`expect`) always throws: the controller's allocator has no reallocation. -/
theorem C22_expect_throws_false (m : Hard) (v : Vat) (n a : Nat) (h0 : m.data ≠ 0) (hc : 0 < m.cap) (hn : n > m.cap) :
    m.expect v n a = .err := by
  unfold Hard.expect managed
  rw [if_pos hn, if_neg (by omega), if_pos h0, if_pos hc]
  rfl

end Verif.Props
