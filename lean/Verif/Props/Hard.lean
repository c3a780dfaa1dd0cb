import Verif.Memory.HardLemmas
/-!
# C97: `HardMemory` frees every block exactly once and keeps its bytes

`Owns w i p`: object `i` has an allocator and its pointer is block `p`. `Reached w`: `w` is the state after some history of calls, starting with
no objects, without the two calls of `Careful` (a `resize` for which the system refuses the new block, and a move onto an object that has a block).
-/
namespace Verif.Props
open Verif.Core Verif.Memory.HardCpu HardCpu

/-- **C97** (partial: without the two calls excluded by `Careful`). No history does anything undefined. Afterwards every allocated block belongs to exactly one
object, whose capacity is its size; an object never has a block that is not allocated. When all objects are destroyed, nothing is allocated. -/
theorem C97_freed_once_partial (ops : List Op) (hc : CarefulRun World.empty ops) :
    ∃ w, run World.empty ops = some w ∧
      (∀ p b, w.heap.bytes p = some b → ∃ i, Owns w i p ∧ ∀ j, Owns w j p → j = i) ∧
      (∀ i o p, w.objs i = some o → o.owns = true → o.data = some p → ∃ b, w.heap.bytes p = some b ∧ b.length = o.cap) ∧
      ((∀ i, w.objs i = none) → w.heap.live = []) := by
  obtain ⟨w, e, g⟩ := run_good ops _ Good.empty hc
  refine ⟨w, e, fun p b hb => ?_, g.size, fun hn => live_nil fun p => ?_⟩
  · obtain ⟨i, hi⟩ := g.owned p b hb
    exact ⟨i, hi, fun j hj => g.one j i p hj hi⟩
  · cases hb : w.heap.bytes p with
    | none => rfl
    | some b =>
      obtain ⟨i, o, ho, _⟩ := g.owned p b hb
      rw [hn i] at ho; cases ho

/-- six calls, among them a move, a growth and a refused request; two blocks existed, nothing is left -/
example : let ops := [Op.make 4 true (fun _ => 7), .moveNew 0, .expect 1 9 true (fun _ => 0), .make 2 false (fun _ => 0), .expect 1 20 false (fun _ => 0),
      .destroy 0, .destroy 1]
    CarefulRun World.empty ops ∧ (run World.empty ops).map (fun w => (w.heap.live, w.count)) = some ([], 2) ∧
    (run World.empty (ops.take 5)).map (fun w => w.heap.live) = some [(1, [7, 7, 7, 7, 0, 0, 0, 0, 0])] := by
  refine ⟨?_, by decide +kernel, by decide +kernel⟩
  simp [CarefulRun, Careful, step, cpuAllocator, World.empty, World.set, Heap.malloc, Heap.bytes, Heap.free, assignFrom]

/-- **C97** A call changes no object that it does not name, and none of the bytes of such an object. -/
theorem C97_isolation {w : World} (hw : Reached w) (op : Op) (j : Nat) (o : Obj) (hj : w.objs j = some o) (hn : j ∉ names op) :
    After (step w op) fun w' => w'.objs j = some o ∧ ∀ q b, Owns w j q → w.heap.bytes q = some b → w'.heap.bytes q = some b := by
  have := step_same hw.good op (lt_count hw.good hj) hn
  revert this
  cases step w op with
  | fine w' => exact fun h => ⟨h.1.trans hj, fun q b h1 h2 => (h.2 q h1).trans h2⟩
  | thrown w' => exact fun h => ⟨h.1.trans hj, fun q b h1 h2 => (h.2 q h1).trans h2⟩
  | undef => exact fun h => h

theorem HardCpu.pair_reached : ∃ w, Reached w ∧ Owns w 0 0 ∧ Owns w 1 1 ∧ w.heap.bytes 0 = some [7, 7, 7, 7] ∧ w.heap.bytes 1 = some [9, 9] ∧
    w.objs 0 = some ⟨some 0, 4, true⟩ ∧ w.objs 1 = some ⟨some 1, 2, true⟩ := by
  refine ⟨_, ⟨[Op.make 4 true (fun _ => 7), .make 2 true (fun _ => 9)], ⟨trivial, trivial, trivial⟩, rfl⟩, ⟨_, rfl, rfl, rfl⟩, ⟨_, rfl, rfl, rfl⟩, rfl, rfl, rfl, rfl⟩

/-- destroying object 1 -/
example : ∃ w, Reached w ∧ (∃ o, w.objs 0 = some o) ∧ 0 ∉ names (.destroy 1) ∧ Owns w 0 0 ∧ Owns w 1 1 := by
  obtain ⟨w, h1, h2, h3, _, _, h6, _⟩ := HardCpu.pair_reached
  exact ⟨w, h1, ⟨_, h6⟩, by simp [names], h2, h3⟩

/-- **C97** `expect(n)` gives at least `n` bytes and keeps all the old ones (if the system has room). -/
theorem C97_expect_keeps {w : World} (hw : Reached w) (i p n : Nat) (b : List UInt8) (junk : Nat → UInt8) (hi : Owns w i p) (hb : w.heap.bytes p = some b) :
    ∃ w' p' b', step w (.expect i n true junk) = .fine w' ∧ w'.objs i = some ⟨some p', max b.length n, true⟩ ∧ w'.heap.bytes p' = some b' ∧
      b'.length = max b.length n ∧ b'.take b.length = b := by
  have g := hw.good
  obtain ⟨o, ho, h1, h2⟩ := hi
  obtain ⟨b0, hb0, hl⟩ := g.size i o p ho h1 h2
  rw [hb] at hb0; cases hb0
  have hpos := g.pos p b hb
  obtain ⟨d, c, ow⟩ := o
  dsimp only at h1 h2 hl
  subst h1 h2 hl
  by_cases hn : n > b.length
  · obtain ⟨h', hf⟩ := free_some hb
    refine ⟨({ w with heap := (h'.malloc (grown junk b n)).2 } : World).set i (some ⟨some h'.next, n, true⟩), h'.next, grown junk b n, ?_, ?_, ?_, ?_, ?_⟩
    · simp [step, ho, hn, cpuAllocator, hpos, hb, hf, assignFrom, show n ≠ 0 by omega, World.set, Heap.malloc]
    · show (if i = i then some (⟨some h'.next, n, true⟩ : Obj) else w.objs i) = _
      rw [if_pos rfl, Nat.max_eq_right (by omega)]
    · show ((h'.malloc (grown junk b n)).2).bytes h'.next = _
      rw [bytes_malloc]; simp
    · rw [grown_length]; omega
    · rw [grown, List.take_of_length_le (l := b) (by omega), List.take_left]
  · refine ⟨w, p, b, by simp [step, ho, hn], ?_, hb, by omega, List.take_of_length_le (Nat.le_refl _)⟩
    rw [ho, Nat.max_eq_left (by omega)]

/-- **C97** `shrink(n)` keeps the first `n` bytes; `shrink(0)` frees the block. -/
theorem C97_shrink_keeps {w : World} (hw : Reached w) (i p n : Nat) (b : List UInt8) (junk : Nat → UInt8) (hi : Owns w i p) (hb : w.heap.bytes p = some b)
    (hn : n < b.length) :
    ∃ w', step w (.shrink i n true junk) = .fine w' ∧ w'.heap.bytes p = none ∧
      (n = 0 → w'.objs i = some ⟨none, 0, true⟩) ∧
      (n ≠ 0 → ∃ p', w'.objs i = some ⟨some p', n, true⟩ ∧ w'.heap.bytes p' = some (b.take n)) := by
  have g := hw.good
  obtain ⟨o, ho, h1, h2⟩ := hi
  obtain ⟨b0, hb0, hl⟩ := g.size i o p ho h1 h2
  rw [hb] at hb0; cases hb0
  have hpos := g.pos p b hb
  obtain ⟨d, c, ow⟩ := o
  dsimp only at h1 h2 hl
  subst h1 h2 hl
  obtain ⟨h', hf⟩ := free_some hb
  obtain ⟨e1, e2⟩ := bytes_free hf
  by_cases h0 : n = 0
  · subst h0
    refine ⟨({ w with heap := h' } : World).set i (some ⟨none, 0, true⟩), ?_, ?_, fun _ => by simp [World.set], fun h => absurd rfl h⟩
    · simp [step, ho, hn, cpuAllocator, hf, assignFrom]
    · show h'.bytes p = none
      rw [e1, if_pos rfl]
  · refine ⟨({ w with heap := (h'.malloc (grown junk b n)).2 } : World).set i (some ⟨some h'.next, n, true⟩), ?_, ?_, fun h => absurd h h0, fun _ => ⟨h'.next, by simp [World.set], ?_⟩⟩
    · simp [step, ho, hn, cpuAllocator, hpos, hb, hf, assignFrom, h0, World.set, Heap.malloc]
    · show ((h'.malloc (grown junk b n)).2).bytes p = none
      have hlt : p ≠ h'.next := by
        intro e
        have := g.fresh p (by rw [e, e2]; exact Nat.le_refl _)
        rw [hb] at this; cases this
      rw [bytes_malloc, if_neg hlt, e1, if_pos rfl]
    · show ((h'.malloc (grown junk b n)).2).bytes h'.next = _
      rw [bytes_malloc, if_pos rfl]
      have : n - b.length = 0 := by omega
      simp [grown, some_bytes, this]

example : ∃ w, Reached w ∧ Owns w 0 0 ∧ w.heap.bytes 0 = some [7, 7, 7, 7] ∧ 2 < [7, 7, 7, (7 : UInt8)].length := by
  obtain ⟨w, h1, h2, h3, h4, _⟩ := HardCpu.pair_reached
  exact ⟨w, h1, h2, h4, by decide⟩

/-- **C97** `resize(n)` to another size gives a block of exactly `n` bytes, or none if `n` is 0 (if the system has room). -/
theorem C97_resize {w : World} (hw : Reached w) (i n : Nat) (o : Obj) (junk : Nat → UInt8) (ho : w.objs i = some o) (h1 : o.owns = true) (hn : n ≠ o.cap) :
    ∃ w' d, step w (.resize i n true junk) = .fine w' ∧ w'.objs i = some ⟨d, n, true⟩ ∧ (n = 0 → d = none) ∧
      (n ≠ 0 → ∃ p b, d = some p ∧ w'.heap.bytes p = some b ∧ b.length = n) := by
  have g := hw.good
  obtain ⟨d, c, ow⟩ := o
  dsimp only at h1 hn
  subst h1
  rcases alloc_spec true junk w.heap n d 0 g.fresh (owned_bytes g ho rfl) with ⟨r, h', e, hm, _⟩ | ⟨hr, _⟩
  · refine ⟨({ w with heap := h' } : World).set i (some ⟨r, n, true⟩), r, ?_, by simp [World.set], hm.zero, fun h0 => ?_⟩
    · simp [step, ho, resize, hn, e, assignFrom]
    · obtain ⟨b, e1, e2, e3⟩ := hm.block h0
      exact ⟨_, b, e1, e2, e3⟩
  · cases hr

example : ∃ w o, Reached w ∧ w.objs 1 = some o ∧ o.owns = true ∧ 5 ≠ o.cap := by
  obtain ⟨w, h1, _, _, _, _, _, h7⟩ := HardCpu.pair_reached
  exact ⟨w, _, h1, h7, rfl, by decide⟩

/-- **C97** A growth or a reduction that the system refuses changes nothing. -/
theorem C97_refused_unchanged {w : World} (hw : Reached w) (i p n : Nat) (b : List UInt8) (junk : Nat → UInt8) (hi : Owns w i p) (hb : w.heap.bytes p = some b) :
    step w (.expect i n false junk) = (if n > b.length then .thrown w else .fine w) ∧
    (n ≠ 0 → step w (.shrink i n false junk) = if n < b.length then .thrown w else .fine w) := by
  have g := hw.good
  obtain ⟨o, ho, h1, h2⟩ := hi
  obtain ⟨b0, hb0, hl⟩ := g.size i o p ho h1 h2
  rw [hb] at hb0; cases hb0
  have hpos := g.pos p b hb
  obtain ⟨d, c, ow⟩ := o
  dsimp only at h1 h2 hl
  subst h1 h2 hl
  constructor
  · by_cases hn : n > b.length
    · simp [step, ho, hn, cpuAllocator, hpos, hb, assignFrom, show n ≠ 0 by omega]
    · simp [step, ho, hn]
  · intro h0
    by_cases hn : n < b.length
    · simp [step, ho, hn, cpuAllocator, hpos, hb, assignFrom, h0]
    · simp [step, ho, hn]

/-- **C97, disproved**: a refused `resize` leaves the object with its old size and a pointer to the block that has just been freed; destroying the object is undefined. -/
theorem C97_resize_refused_false {w : World} (hw : Reached w) (i p n : Nat) (o : Obj) (junk : Nat → UInt8) (ho : w.objs i = some o) (h1 : o.owns = true)
    (h2 : o.data = some p) (hn : n ≠ o.cap) (h0 : n ≠ 0) :
    ∃ w', step w (.resize i n false junk) = .thrown w' ∧ w'.objs i = some o ∧ w'.heap.bytes p = none ∧ step w' (.destroy i) = .undef := by
  have g := hw.good
  obtain ⟨d, c, ow⟩ := o
  dsimp only at h1 h2 hn
  subst h1 h2
  obtain ⟨b, hb, _⟩ := g.size i _ p ho rfl rfl
  obtain ⟨h', hf⟩ := free_some hb
  have hg : h'.bytes p = none := by rw [(bytes_free hf).1, if_pos rfl]
  have hf' : h'.free p = none := by simp [Heap.free, hg]
  refine ⟨{ w with heap := h' }, ?_, ho, hg, ?_⟩
  · simp [step, ho, resize, hn, cpuAllocator, h0, hf, assignFrom]
  · simp [step, ho, cpuAllocator, hf']

/-- **C97, disproved**: a move onto an object that has a block loses that block: it stays allocated with the same bytes after every further history, and no
object ever has it. -/
theorem C97_move_leaks_false {w : World} (hw : Reached w) (dst src p : Nat) (b : List UInt8) (o : Obj) (hd : Owns w dst p) (hb : w.heap.bytes p = some b)
    (hs : w.objs src = some o) (hne : dst ≠ src) :
    ∃ w', step w (.moveTo dst src) = .fine w' ∧ ∀ ops w'', run w' ops = some w'' → w''.heap.bytes p = some b ∧ ∀ j, ¬ Owns w'' j p := by
  have g := hw.good
  obtain ⟨x, hx, hx1, hx2⟩ := hd
  have hp : p < w.heap.next := by
    refine Nat.lt_of_not_le fun h => ?_
    rw [g.fresh p h] at hb; cases hb
  have l : Leaked ((w.set src (some { o with owns := false })).set dst (some o)) p b := by
    refine ⟨hb, hp, fun j => ?_⟩
    rintro ⟨y, h1, h2, h3⟩
    have h1' : (if j = dst then some o else if j = src then some { o with owns := false } else w.objs j) = some y := h1
    split at h1'
    · cases h1'
      exact hne (g.one dst src p ⟨x, hx, hx1, hx2⟩ ⟨o, hs, h2, h3⟩)
    · next hj =>
      split at h1'
      · cases h1'; cases h2
      · exact hj (g.one j dst p ⟨y, h1', h2, h3⟩ ⟨x, hx, hx1, hx2⟩)
  refine ⟨_, by simp only [step, hx, hs, hne, if_false]; rfl, fun ops w'' h => ?_⟩
  have := leak_run ops _ l w'' h
  exact ⟨this.live, this.none⟩

/-- a concrete leak: both objects are destroyed, the four bytes are still allocated -/
example : (run World.empty [.make 4 true (fun _ => 7), .make 2 true (fun _ => 9), .moveTo 0 1, .destroy 0, .destroy 1]).map (fun w => w.heap.live)
    = some [(0, [7, 7, 7, 7])] := by decide +kernel

/-- **C97, disproved**: an object that was moved from still reports the block and its size; once the new owner is destroyed, that block is gone. -/
theorem C97_moved_from_false {w : World} (hw : Reached w) (i p : Nat) (o : Obj) (ho : w.objs i = some o) (h1 : o.owns = true) (h2 : o.data = some p) :
    ∃ w', run w [.moveNew i, .destroy w.count] = some w' ∧ w'.objs i = some { o with owns := false } ∧ w'.heap.bytes p = none := by
  have g := hw.good
  have hlt := lt_count g ho
  obtain ⟨b, hb, _⟩ := g.size i o p ho h1 h2
  obtain ⟨h', hf⟩ := free_some hb
  refine ⟨⟨h', fun j => if j = w.count then none else if j = w.count then some o else if j = i then some { o with owns := false } else w.objs j,
    w.count + 1⟩, ?_, ?_, ?_⟩
  · simp [run, step, ho, World.set, h1, cpuAllocator, h2, hf]
  · show (if i = w.count then _ else if i = w.count then _ else if i = i then _ else _) = _
    rw [if_neg (by omega), if_neg (by omega), if_pos rfl]
  · show h'.bytes p = none
    rw [(bytes_free hf).1, if_pos rfl]

/-- **C97, disproved**: after `dispose` the object still reports its old capacity but has no data, and asking again for that capacity gives none. -/
theorem C97_disposed_false {w : World} (hw : Reached w) (i p n : Nat) (o : Obj) (room : Bool) (junk : Nat → UInt8) (ho : w.objs i = some o)
    (h1 : o.owns = true) (h2 : o.data = some p) (hn : n ≤ o.cap) :
    ∃ w', step w (.dispose i) = .fine w' ∧ w'.objs i = some { o with data := none } ∧ step w' (.resize i o.cap room junk) = .fine w' ∧
      step w' (.expect i n room junk) = .fine w' := by
  have g := hw.good
  obtain ⟨b, hb, _⟩ := g.size i o p ho h1 h2
  obtain ⟨h', hf⟩ := free_some hb
  have hn' : ¬ o.cap < n := by omega
  refine ⟨({ w with heap := h' } : World).set i (some { o with data := none }), ?_, by simp [World.set], ?_, ?_⟩
  · simp [step, ho, h1, cpuAllocator, h2, hf]
  · simp [step, World.set, resize, h1]
  · simp [step, World.set, h1, hn']

/-- the objects of `pair_reached` meet the hypotheses of the four statements above -/
example : ∃ w o o', Reached w ∧ w.objs 0 = some o ∧ o.owns = true ∧ o.data = some 0 ∧ 5 ≠ o.cap ∧ 3 ≤ o.cap ∧ Owns w 0 0 ∧
    w.heap.bytes 0 = some [7, 7, 7, 7] ∧ w.objs 1 = some o' := by
  obtain ⟨w, h1, h2, _, h4, _, h6, h7⟩ := HardCpu.pair_reached
  exact ⟨w, _, _, h1, h6, rfl, rfl, by decide, by decide, h2, h4, h7⟩

end Verif.Props
