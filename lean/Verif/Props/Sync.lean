import Verif.Memory.Sync
/-!
# C24: mirrored memory

Specification: every device has at most one current content. A device without one gets, when it is first asked for
through a handle, the content of the handle's own device; writing changes only the device written; broadcasting from a
handle forgets every device but its own, and with it all other handles.
-/
namespace Verif.Props
open Verif.Core Verif.Memory

variable {κ α : Type} [DecidableEq κ]

/-- the user's view: content of each device, device and usability of each handle -/
structure Mirror (κ α : Type) where
  content : κ → Option (List α)
  handles : List (κ × Bool)

/-- device `k` as asked for through a handle of device `own` -/
def Mirror.fetch (m : Mirror κ α) (own k : κ) : Option (List α) := (m.content k).or (m.content own)

def Mirror.put (m : Mirror κ α) (k : κ) (c : Option (List α)) : Mirror κ α :=
  { m with content := fun k' => if k' = k then c else m.content k' }

/-- a call on a usable handle; no answer for other handles -/
def Mirror.step (m : Mirror κ α) : Sync.Op κ α → Option (Mirror κ α × Option (List α))
  | .view i k =>
    match m.handles[i]? with
    | some (own, true) => some ({ m.put k (m.fetch own k) with handles := m.handles ++ [(k, true)] }, none)
    | _ => none
  | .value i =>
    match m.handles[i]? with
    | some (own, true) => some (m, m.content own)
    | _ => none
  | .read i k =>
    match m.handles[i]? with
    | some (own, true) => some (m.put k (m.fetch own k), m.fetch own k)
    | _ => none
  | .write i k c =>
    match m.handles[i]? with
    | some (_, true) => some (m.put k (some c), none)
    | _ => none
  | .broadcast i =>
    match m.handles[i]? with
    | some (own, true) =>
      some (⟨fun k => if k = own then m.content own else none,
        (m.handles.map fun h => (h.1, false)).set i (own, true)⟩, none)
    | _ => none

def Mirror.run (m : Mirror κ α) : List (Sync.Op κ α) → Option (Mirror κ α × List (List α))
  | [] => some (m, [])
  | op :: t =>
    match m.step op with
    | none => none
    | some (m1, o) =>
      match Mirror.run m1 t with
      | none => none
      | some (m2, os) => some (m2, o.toList ++ os)

/-- the representation invariant -/
structure SyncRel (s : Sync κ α) (m : Mirror κ α) : Prop where
  keys : (s.map.map (·.key)).Nodup
  nodes : (s.map.map (·.node)).Nodup
  bufs : (s.map.map (·.buf)).Nodup
  fresh : ∀ e ∈ s.map, e.node < s.next
  alloc : ∀ e ∈ s.map, e.buf < s.bufs.length
  present : ∀ e ∈ s.map, m.content e.key = s.bufs[e.buf]?
  absent : ∀ k, (∀ e ∈ s.map, e.key ≠ k) → m.content k = none
  old : ∀ i : Nat, ∀ v, s.views[i]? = some v → v.node < s.next
  len : s.views.length = m.handles.length
  hkey : ∀ i : Nat, ∀ v h, s.views[i]? = some v → m.handles[i]? = some h → v.key = h.1
  valid : ∀ i : Nat, ∀ v k, s.views[i]? = some v → m.handles[i]? = some (k, true) →
    ∃ e ∈ s.map, e.node = v.node ∧ e.key = v.key

theorem SyncRel.create (k : κ) (c : List α) :
    SyncRel (Sync.create k c) ⟨fun k' => if k' = k then some c else none, [(k, true)]⟩ := by
  constructor <;> simp [Sync.create]
  · intro k' h; exact fun h' => h h'.symm
  · intro i v hi
    cases i with
    | zero => simp at hi; subst hi; simp
    | succ i => simp at hi
  · intro i v b
    cases i with
    | zero => simp; rintro rfl h; exact h
    | succ i => simp
  · intro i v k' hi
    cases i with
    | zero => simp at hi; subst hi; simp
    | succ i => simp at hi

/-- elements of a list without repeated keys -/
theorem nodup_map_inj {β γ : Type} {f : β → γ} {l : List β} (h : (l.map f).Nodup) {a b : β} (ha : a ∈ l) (hb : b ∈ l)
    (hf : f a = f b) : a = b := by
  induction l with
  | nil => simp at ha
  | cons x l ih =>
    simp only [List.map_cons, List.nodup_cons] at h
    rcases List.mem_cons.1 ha with rfl | ha' <;> rcases List.mem_cons.1 hb with rfl | hb'
    · rfl
    · exact absurd (List.mem_map.2 ⟨b, hb', hf.symm⟩) h.1
    · exact absurd (List.mem_map.2 ⟨a, ha', hf⟩) h.1
    · exact ih h.2 ha' hb'

namespace SyncRel
variable {s : Sync κ α} {m : Mirror κ α}

theorem deref (r : SyncRel s m) {e : MapNode κ} (he : e ∈ s.map) : s.deref e.node = .ok e.buf := by
  unfold Sync.deref
  cases h : s.map.find? fun e' => decide (e'.node = e.node) with
  | none =>
    rw [List.find?_eq_none] at h
    simpa using h e he
  | some e' =>
    have h1 := List.find?_some h
    have h2 := List.mem_of_find?_eq_some h
    simp only [decide_eq_true_eq] at h1
    rw [nodup_map_inj r.nodes h2 he h1]

theorem content (r : SyncRel s m) {e : MapNode κ} (he : e ∈ s.map) :
    ∃ c, s.content e.buf = .ok c ∧ m.content e.key = some c := by
  have h := r.alloc e he
  refine ⟨s.bufs[e.buf], ?_, ?_⟩
  · simp [Sync.content, List.getElem?_eq_getElem h]
  · rw [r.present e he, List.getElem?_eq_getElem h]

/-- where device `k` is, as asked for through a usable handle -/
theorem sync (r : SyncRel s m) {i : Nat} {v : View κ} {own : κ} (hv : s.views[i]? = some v)
    (hm : m.handles[i]? = some (own, true)) (k : κ) :
    ∃ s1 e, s.syncInsert v k = .ok (s1, e) ∧ s.sync v k = .ok (s1, e) ∧ e ∈ s1.map ∧ e.key = k ∧
      s1.views = s.views ∧ SyncRel s1 (m.put k (m.fetch own k)) ∧
      (k ≠ v.key → ∀ e', s.find k = some e' → s1 = s ∧ e' = e) ∧ (k = v.key → s1 = s ∧ e.node = v.node) := by
  obtain ⟨ev, hev, hn, hk⟩ := r.valid i v own hv hm
  have hown : v.key = own := r.hkey i v _ hv hm
  have hd := r.deref hev
  rw [hn] at hd
  obtain ⟨c, hc, hmc⟩ := r.content hev
  have hput : ∀ e ∈ s.map, e.key = k → m.put k (m.fetch own k) = m := by
    intro e he hek
    obtain ⟨c', -, h'⟩ := r.content he
    rw [hek] at h'
    unfold Mirror.put Mirror.fetch
    rw [h']
    simp only [Option.some_or]
    cases m with
    | mk mc mh =>
      congr 1
      funext k'
      simp only [] at h' ⊢
      split
      · next h => rw [h, h']
      · rfl
  by_cases hkk : k = v.key
  · have he0 : (⟨k, v.node, ev.buf⟩ : MapNode κ) = ev := by
      cases ev; simp only at hk hn; subst hk hn; rw [hkk]
    refine ⟨s, ev, ?_, ?_, hev, by rw [hk, hkk], rfl, ?_, fun h => absurd hkk h, fun _ => ⟨rfl, hn⟩⟩
    · rw [Sync.syncInsert, if_pos hkk, hd, Res.bind_ok, he0]
    · rw [Sync.sync, Sync.syncLookup, if_pos hkk, hd, Res.bind_ok, Res.bind_ok, he0]
    · rw [hput ev hev (by rw [hk, hkk])]; exact r
  · cases hf : s.find k with
    | some e =>
      have h1 := List.find?_some hf
      have h2 := List.mem_of_find?_eq_some hf
      simp only [decide_eq_true_eq] at h1
      refine ⟨s, e, ?_, ?_, h2, h1, rfl, ?_, ?_, fun h => absurd h hkk⟩
      · rw [Sync.syncInsert, if_neg hkk, hf]
      · rw [Sync.sync, Sync.syncLookup, if_neg hkk, hf, Res.bind_ok]
      · rw [hput e h2 h1]; exact r
      · intro _ e' h; cases h; exact ⟨rfl, rfl⟩
    | none =>
      have habs : ∀ e ∈ s.map, e.key ≠ k := by
        intro e he
        unfold Sync.find at hf
        rw [List.find?_eq_none] at hf
        simpa using hf e he
      have hnone := r.absent k habs
      refine ⟨(Sync.insert { s with bufs := s.bufs ++ [c] } k s.bufs.length), ⟨k, s.next, s.bufs.length⟩, ?_, ?_, ?_,
        rfl, rfl, ?_, fun _ e' h => by simp at h, fun h => absurd h hkk⟩
      · rw [Sync.syncInsert, if_neg hkk, hf]
        simp only []
        rw [hd, Res.bind_ok, hc, Res.bind_ok]
      · rw [Sync.sync, Sync.syncLookup, if_neg hkk, hf, Res.bind_ok]
        simp only []
        rw [Sync.syncInsert, if_neg hkk, hf]
        simp only []
        rw [hd, Res.bind_ok, hc, Res.bind_ok]
      · simp [Sync.insert]
      · have hfetch : m.fetch own k = some c := by
          unfold Mirror.fetch
          rw [hnone, ← hown, ← hk, hmc]; rfl
        rw [hfetch]
        constructor
        · simp only [Sync.insert, List.map_append, List.map_cons, List.map_nil]
          rw [List.nodup_append]
          refine ⟨r.keys, by simp, ?_⟩
          intro a ha b hb
          obtain ⟨e, he, rfl⟩ := List.mem_map.1 ha
          simp only [List.mem_singleton] at hb
          rw [hb]; exact habs e he
        · simp only [Sync.insert, List.map_append, List.map_cons, List.map_nil]
          rw [List.nodup_append]
          refine ⟨r.nodes, by simp, ?_⟩
          intro a ha b hb
          obtain ⟨e, he, rfl⟩ := List.mem_map.1 ha
          simp only [List.mem_singleton] at hb
          have := r.fresh e he; omega
        · simp only [Sync.insert, List.map_append, List.map_cons, List.map_nil]
          rw [List.nodup_append]
          refine ⟨r.bufs, by simp, ?_⟩
          intro a ha b hb
          obtain ⟨e, he, rfl⟩ := List.mem_map.1 ha
          simp only [List.mem_singleton] at hb
          have := r.alloc e he; omega
        · simp only [Sync.insert, List.mem_append, List.mem_singleton]
          rintro e (he | rfl)
          · have := r.fresh e he; omega
          · simp
        · simp only [Sync.insert, List.mem_append, List.mem_singleton, List.length_append, List.length_singleton]
          rintro e (he | rfl)
          · have := r.alloc e he; omega
          · simp
        · simp only [Sync.insert, List.mem_append, List.mem_singleton, Mirror.put]
          rintro e (he | rfl)
          · rw [if_neg (habs e he), r.present e he, List.getElem?_append_left (r.alloc e he)]
          · simp
        · simp only [Sync.insert, List.mem_append, List.mem_singleton, Mirror.put]
          intro k' h
          rw [if_neg]
          · exact r.absent k' fun e he => h e (.inl he)
          · intro h'; exact h _ (.inr rfl) h'.symm
        · simp only [Sync.insert]
          intro j w hj; have := r.old j w hj; omega
        · exact r.len
        · exact r.hkey
        · simp only [Sync.insert, List.mem_append, Mirror.put]
          intro j w k' hj hj'
          obtain ⟨e, he, h⟩ := r.valid j w k' hj hj'
          exact ⟨e, .inl he, h⟩

/-- a further usable handle -/
theorem addView (r : SyncRel s m) {e : MapNode κ} (he : e ∈ s.map) :
    SyncRel { s with views := s.views ++ [⟨e.key, e.node⟩] } { m with handles := m.handles ++ [(e.key, true)] } := by
  have hlen := r.len
  refine { r with old := ?_, len := by simp [hlen], hkey := ?_, valid := ?_ }
  · intro j w hj
    simp only at hj
    rw [List.getElem?_append] at hj
    split at hj
    · exact r.old j w hj
    · rw [List.getElem?_singleton] at hj
      split at hj
      · cases hj; exact r.fresh e he
      · cases hj
  · intro j w h hj hj'
    simp only at hj hj'
    rw [List.getElem?_append] at hj hj'
    rw [hlen] at hj
    split at hj
    · next hlt => rw [if_pos hlt] at hj'; exact r.hkey j w h hj hj'
    · next hlt =>
      rw [if_neg hlt] at hj'
      rw [List.getElem?_singleton] at hj hj'
      split at hj
      · next h0 => rw [if_pos h0] at hj'; cases hj; cases hj'; rfl
      · cases hj
  · intro j w k hj hj'
    simp only at hj hj'
    rw [List.getElem?_append] at hj hj'
    rw [hlen] at hj
    split at hj
    · next hlt => rw [if_pos hlt] at hj'; exact r.valid j w k hj hj'
    · next hlt =>
      rw [List.getElem?_singleton] at hj
      split at hj
      · cases hj; exact ⟨e, he, rfl, rfl⟩
      · cases hj

/-- writing into the buffer of one device -/
theorem writeBuf (r : SyncRel s m) {e : MapNode κ} (he : e ∈ s.map) (c : List α) :
    SyncRel { s with bufs := s.bufs.set e.buf c } (m.put e.key (some c)) := by
  refine { r with alloc := ?_, present := ?_, absent := ?_ }
  · intro e' he'; simpa using r.alloc e' he'
  · intro e' he'
    simp only [Mirror.put]
    by_cases h : e'.key = e.key
    · have := nodup_map_inj r.keys he' he h
      subst this
      rw [if_pos rfl, List.getElem?_set_self (r.alloc _ he)]
    · rw [if_neg h, List.getElem?_set_ne, r.present e' he']
      intro hb
      exact h (by rw [nodup_map_inj r.bufs he he' hb])
  · intro k h
    simp only [Mirror.put]
    rw [if_neg, r.absent k h]
    intro hk; exact h e he hk.symm

theorem step (r : SyncRel s m) {op : Sync.Op κ α} {m1 : Mirror κ α} {o : Option (List α)}
    (h : m.step op = some (m1, o)) : ∃ s1, s.step op = .ok (s1, o) ∧ SyncRel s1 m1 := by
  have hview : ∀ {i : Nat} {own : κ}, m.handles[i]? = some (own, true) → ∃ v, s.views[i]? = some v := by
    intro i own hi
    have := (List.getElem?_eq_some_iff.1 hi).1
    rw [← r.len] at this
    exact ⟨_, List.getElem?_eq_getElem this⟩
  cases op with
  | view i k =>
    simp only [Mirror.step] at h
    split at h <;> try cases h
    next own hm =>
    obtain ⟨v, hv⟩ := hview hm
    obtain ⟨s1, e, e1, e2, he, hek, hsv, r1, hfind, hself⟩ := r.sync hv hm k
    have r2 := r1.addView he
    rw [hek] at r2
    refine ⟨_, ?_, r2⟩
    simp only [Sync.step, hv, Sync.view]
    by_cases hkk : k = v.key
    · obtain ⟨rfl, hn⟩ := hself hkk
      rw [if_pos hkk, Res.bind_ok, hn, hkk]
    · rw [if_neg hkk]
      cases hf : s.find k with
      | some e' =>
        obtain ⟨rfl, rfl⟩ := hfind hkk e' hf
        simp only [Res.bind_ok]
      | none => simp only [e1, Res.bind_ok]
  | value i =>
    simp only [Mirror.step] at h
    split at h <;> try cases h
    next own hm =>
    obtain ⟨v, hv⟩ := hview hm
    obtain ⟨e, he, hn, hk⟩ := r.valid i v own hv hm
    obtain ⟨c, hc, hmc⟩ := r.content he
    refine ⟨s, ?_, r⟩
    have hown : v.key = own := r.hkey i v _ hv hm
    rw [← hown, ← hk, hmc]
    simp only [Sync.step, hv, ← hn, r.deref he, Res.bind_ok, hc]
  | read i k =>
    simp only [Mirror.step] at h
    split at h <;> try cases h
    next own hm =>
    obtain ⟨v, hv⟩ := hview hm
    obtain ⟨s1, e, e1, e2, he, hek, hsv, r1, -, -⟩ := r.sync hv hm k
    obtain ⟨c, hc, hmc⟩ := r1.content he
    refine ⟨s1, ?_, r1⟩
    have : m.fetch own k = some c := by rw [← hmc, hek]; simp [Mirror.put]
    rw [this]
    simp only [Sync.step, hv, e2, Res.bind_ok, hc]
  | write i k c =>
    simp only [Mirror.step] at h
    split at h <;> try cases h
    next own hm =>
    obtain ⟨v, hv⟩ := hview hm
    obtain ⟨s1, e, e1, e2, he, hek, hsv, r1, -, -⟩ := r.sync hv hm k
    obtain ⟨c0, hc, hmc⟩ := r1.content he
    have r2 := r1.writeBuf he c
    refine ⟨{ s1 with bufs := s1.bufs.set e.buf c }, ?_, ?_⟩
    · simp only [Sync.step, hv, e2, Res.bind_ok, hc]
    · rw [hek] at r2
      have : (m.put k (m.fetch own k)).put k (some c) = m.put k (some c) := by
        unfold Mirror.put
        simp only [Mirror.mk.injEq, and_true]
        funext k'
        split <;> rfl
      rwa [this] at r2
  | broadcast i =>
    simp only [Mirror.step] at h
    split at h <;> try cases h
    next own hm =>
    obtain ⟨v, hv⟩ := hview hm
    obtain ⟨e, he, hn, hk⟩ := r.valid i v own hv hm
    obtain ⟨c, hc, hmc⟩ := r.content he
    have hown : v.key = own := r.hkey i v _ hv hm
    have hd := r.deref he
    rw [hn] at hd
    have hi := (List.getElem?_eq_some_iff.1 hv).1
    refine ⟨_, by simp only [Sync.step, hv, Sync.broadcast, hd, Res.bind_ok]; rfl, ?_⟩
    constructor
    · simp
    · simp
    · simp
    · simp
    · simpa using r.alloc e he
    · simp only [List.mem_singleton]
      rintro e' rfl
      simp only [hown, if_true]
      rw [← hown, ← hk, r.present e he]
    · intro k' h'
      simp only [List.mem_singleton] at h'
      have := h' _ rfl
      simp only at this
      simp only []
      rw [if_neg]
      intro h2; exact this (by rw [hown, h2])
    · intro j w hj
      simp only at hj
      by_cases hij : i = j
      · subst hij
        rw [List.getElem?_set_self hi] at hj; cases hj; simp
      · rw [List.getElem?_set_ne hij] at hj
        have := r.old j w hj; simp only; omega
    · simp [r.len]
    · intro j w h' hj hj'
      simp only at hj hj'
      by_cases hij : i = j
      · subst hij
        rw [List.getElem?_set_self hi] at hj
        rw [List.getElem?_set_self (by simpa [← r.len] using hi)] at hj'
        cases hj; cases hj'; exact hown
      · rw [List.getElem?_set_ne hij] at hj
        rw [List.getElem?_set_ne hij, List.getElem?_map, Option.map_eq_some_iff] at hj'
        obtain ⟨h0, e0, rfl⟩ := hj'
        exact r.hkey j w h0 hj e0
    · intro j w k' hj hj'
      simp only at hj hj'
      by_cases hij : i = j
      · subst hij
        rw [List.getElem?_set_self hi] at hj
        cases hj
        exact ⟨_, List.mem_singleton.2 rfl, rfl, rfl⟩
      · rw [List.getElem?_set_ne hij, List.getElem?_map, Option.map_eq_some_iff] at hj'
        obtain ⟨h0, e0, e1⟩ := hj'
        cases e1

end SyncRel

/-- **C24 (refinement)** Every sequence of calls on handles that no other handle's broadcast has invalidated reads exactly
what the specification says, and never touches a destroyed entry. -/
theorem C24_mirror_partial (k : κ) (c : List α) (ops : List (Sync.Op κ α)) (m : Mirror κ α) (os : List (List α))
    (h : Mirror.run ⟨fun k' => if k' = k then some c else none, [(k, true)]⟩ ops = some (m, os)) :
    ∃ s, (Sync.create k c).run ops = .ok (s, os) := by
  have key : ∀ (ops : List (Sync.Op κ α)) (s : Sync κ α) (m0 m : Mirror κ α) (os : List (List α)), SyncRel s m0 →
      m0.run ops = some (m, os) → ∃ s1, s.run ops = .ok (s1, os) := by
    intro ops
    induction ops with
    | nil => intro s m0 m os _ h; cases h; exact ⟨s, rfl⟩
    | cons op t ih =>
      intro s m0 m os r h
      simp only [Mirror.run] at h
      split at h
      · cases h
      · next m1 o hs =>
        split at h
        · cases h
        · next m2 os' hr =>
          cases h
          obtain ⟨s1, e1, r1⟩ := r.step hs
          obtain ⟨s2, e2⟩ := ih s1 m1 _ _ r1 hr
          exact ⟨s2, by simp only [Sync.run, e1, Res.bind_ok, e2]⟩
  exact key ops _ _ m os (SyncRel.create k c) h

/-- device 0 holds [1]; device 1 gets a copy, is written, the copy on 0 stays; broadcasting from 1 makes 0 follow -/
example : (Mirror.run ⟨fun k' => if k' = 0 then some [1] else none, [(0, true)]⟩
    ([.view 0 1, .write 1 1 [7], .value 0, .value 1, .broadcast 1, .read 1 0] : List (Sync.Op Nat Nat))).map Prod.snd =
    some [[1], [7], [7]] := by rfl
example : ((Sync.create 0 [1]).run
    ([.view 0 1, .write 1 1 [7], .value 0, .value 1, .broadcast 1, .read 1 0] : List (Sync.Op Nat Nat))).bind
      (fun r => .ok r.2) = .ok [[1], [7], [7]] := by rfl

/-- states after a legal history, with what the user knows -/
def SyncReach (s : Sync κ α) (m : Mirror κ α) : Prop :=
  ∃ k c ops os, Mirror.run ⟨fun k' => if k' = k then some c else none, [(k, true)]⟩ ops = some (m, os) ∧
    (Sync.create k c : Sync κ α).run ops = .ok (s, os)

theorem SyncReach.rel {s : Sync κ α} {m : Mirror κ α} (h : SyncReach s m) : SyncRel s m := by
  obtain ⟨k, c, ops, os, hm, hs⟩ := h
  have key : ∀ (ops : List (Sync.Op κ α)) (s0 s : Sync κ α) (m0 m : Mirror κ α) (os : List (List α)), SyncRel s0 m0 →
      m0.run ops = some (m, os) → s0.run ops = .ok (s, os) → SyncRel s m := by
    intro ops
    induction ops with
    | nil => intro s0 s m0 m os r h h'; cases h; cases h'; exact r
    | cons op t ih =>
      intro s0 s m0 m os r h h'
      simp only [Mirror.run] at h
      split at h
      · cases h
      · next m1 o hs =>
        split at h
        · cases h
        · next m2 os' hr =>
          cases h
          obtain ⟨s1, e1, r1⟩ := r.step hs
          simp only [Sync.run, e1, Res.bind_ok, Res.bind_eq_ok] at h'
          obtain ⟨⟨s2, o2⟩, e2, h'⟩ := h'
          simp only [Res.ok.injEq, Prod.mk.injEq, List.append_cancel_left_eq] at h'
          obtain ⟨rfl, rfl⟩ := h'
          exact ih s1 _ m1 _ _ r1 hr e2
  exact key ops _ s _ m os (SyncRel.create k c) hm hs

/-- **C24 (broadcast)** After a broadcast through a usable handle, every device shows what that handle's own device
showed before. -/
theorem C24_broadcast (s : Sync κ α) (m : Mirror κ α) (h : SyncReach s m) (i : Nat) (own : κ)
    (hi : m.handles[i]? = some (own, true)) (k : κ) :
    ∃ c s1 s2 s3, s.step (.value i) = .ok (s, some c) ∧ s.step (.broadcast i) = .ok (s1, none) ∧
      s1.step (.read i k) = .ok (s2, some c) ∧ s2.step (.value i) = .ok (s3, some c) := by
  have r := h.rel
  have hil := (List.getElem?_eq_some_iff.1 hi).1
  obtain ⟨s0, e0, -⟩ := r.step (op := .value i) (m1 := m) (o := m.content own) (by simp [Mirror.step, hi])
  have hv : ∃ v, s.views[i]? = some v := ⟨_, List.getElem?_eq_getElem (by rw [r.len]; exact hil)⟩
  obtain ⟨v, hv⟩ := hv
  obtain ⟨e, he, hn, hk⟩ := r.valid i v own hv hi
  obtain ⟨c, hc, hmc⟩ := r.content he
  have hown : v.key = own := r.hkey i v _ hv hi
  rw [hk, hown] at hmc
  obtain ⟨s1, e1, r1⟩ := r.step (op := .broadcast i) (by simp only [Mirror.step, hi]; rfl)
  have hi1 : ((m.handles.map fun h => (h.1, false)).set i (own, true))[i]? = some (own, true) := by
    rw [List.getElem?_set_self (by simpa using hil)]
  obtain ⟨s2, e2, r2⟩ := r1.step (op := .read i k) (by simp only [Mirror.step, hi1]; rfl)
  obtain ⟨s3, e3, r3⟩ := r2.step (op := .value i) (by simp only [Mirror.step, Mirror.put, hi1]; rfl)
  have hf : ∀ k, Mirror.fetch (⟨fun k => if k = own then m.content own else none,
      (m.handles.map fun h => (h.1, false)).set i (own, true)⟩ : Mirror κ α) own k = some c := by
    intro k
    simp only [Mirror.fetch, if_true, hmc]
    split <;> rfl
  refine ⟨c, s1, s2, s3, ?_, e1, ?_, ?_⟩
  · have hd := r.deref he
    rw [hn] at hd
    simp only [Sync.step, hv, hd, Res.bind_ok, hc]
  · rw [e2, hf]
  · rw [e3]
    simp only [hf]
    split
    · rfl
    · simp [hmc]

/-- the hypotheses can be met after a history with two devices and a write on the second -/
example : ∃ (s : Sync Nat Nat) (m : Mirror Nat Nat), SyncReach s m ∧ m.handles[1]? = some (1, true) ∧
    m.content 1 = some [7] ∧ m.content 0 = some [1] :=
  ⟨_, _, ⟨0, [1], [.view 0 1, .write 1 1 [7]], _, rfl, rfl⟩, rfl, rfl, rfl⟩

/-- **C24, negation of the unrestricted claim** After a broadcast through one handle, reading through *any* other handle of
the memory, of the same device or another, follows a pointer to a destroyed map entry. -/
theorem C24_other_handles_false (s s1 : Sync κ α) (m : Mirror κ α) (h : SyncReach s m) (i j : Nat) (own : κ)
    (hi : m.handles[i]? = some (own, true)) (hij : i ≠ j) (hj : j < m.handles.length)
    (hb : s.step (.broadcast i) = .ok (s1, none)) : s1.step (.value j) = .ub := by
  have r := h.rel
  have hil := (List.getElem?_eq_some_iff.1 hi).1
  have hv : s.views[i]? = some (s.views[i]'(by rw [r.len]; exact hil)) := List.getElem?_eq_getElem _
  have hw : s.views[j]? = some (s.views[j]'(by rw [r.len]; exact hj)) := List.getElem?_eq_getElem _
  simp only [Sync.step, hv, Sync.broadcast, Res.bind_eq_ok] at hb
  obtain ⟨s', ⟨b, -, hs'⟩, h1⟩ := hb
  cases h1
  cases hs'
  have hold := r.old j _ hw
  simp only [Sync.step, List.getElem?_set_ne hij, hw]
  simp only [Sync.deref]
  rw [List.find?_eq_none.2]
  · rfl
  · simp; omega

/-- two views of the same device: the second one is left dangling -/
example : (Sync.create 0 [1]).run ([.view 0 0, .broadcast 0, .value 1] : List (Sync.Op Nat Nat)) = .ub := by rfl

/-- The check under the read lock and the insertion under the write lock may be separated by other threads' calls: the
second half alone does what the whole call does in the state it finds. -/
theorem C24_double_check (s : Sync κ α) (v : View κ) (k : κ) : s.syncInsert v k = s.sync v k := by
  unfold Sync.sync Sync.syncLookup Sync.syncInsert
  by_cases hk : k = v.key
  · simp only [hk, if_true]
    cases s.deref v.node <;> rfl
  · simp only [hk, if_false]
    cases hf : s.find k with
    | none => simp only [Res.bind_ok]
    | some e => rfl

end Verif.Props
