import Verif.Runtime.Clone
import Verif.Props.Bench
/-!
# Property theorems: clones of programs (C37)
-/
namespace Verif.Props
open Verif.Runtime Verif.Runtime.Clone
variable {α V : Type}

/-! ## Lemmas about one operator -/

theorem put_lookup (m : PMap α) (k x : String) (v : α) :
    (m.put k v).lookup x = if x = k then some v else m.lookup x := by
  unfold PMap.put
  rw [List.lookup_cons]
  by_cases h : x = k
  · simp [h]
  · have : (x == k) = false := by simp [h]
    rw [this, if_neg h]
    simp only []
    induction m with
    | nil => rfl
    | cons a m ih =>
      obtain ⟨y, w⟩ := a
      by_cases hy : y = k
      · subst hy
        rw [List.filter_cons_of_neg (by simp), ih, List.lookup_cons, this]
      · rw [List.filter_cons_of_pos (by simp [hy]), List.lookup_cons, List.lookup_cons, ih]

theorem put_keys (m : PMap α) (k : String) (v : α) (x : String) :
    x ∈ (m.put k v).map (·.1) ↔ x = k ∨ x ∈ m.map (·.1) := by
  unfold PMap.put
  simp only [List.map_cons, List.mem_cons, List.mem_map, List.mem_filter]
  constructor
  · rintro (h | ⟨a, ⟨h1, -⟩, h2⟩)
    · exact Or.inl h
    · exact Or.inr ⟨a, h1, h2⟩
  · rintro (h | ⟨a, h1, h2⟩)
    · exact Or.inl h
    · by_cases e : x = k
      · exact Or.inl e
      · exact Or.inr ⟨a, ⟨h1, by simp [h2, e]⟩, h2⟩

theorem put_nodup (m : PMap α) (k : String) (v : α) (h : (m.map (·.1)).Nodup) : ((m.put k v).map (·.1)).Nodup := by
  unfold PMap.put
  rw [List.map_cons, List.nodup_cons]
  refine ⟨?_, ?_⟩
  · intro hx
    obtain ⟨a, ha, e⟩ := List.mem_map.1 hx
    have := (List.mem_filter.1 ha).2
    simp at this e
    exact this e
  · exact List.Sublist.nodup (List.Sublist.map _ List.filter_sublist) h

theorem lookup_isSome (m : PMap α) (x : String) : (m.lookup x).isSome ↔ x ∈ m.map (·.1) := by
  induction m with
  | nil => simp
  | cons a m ih =>
    obtain ⟨y, w⟩ := a
    rw [List.lookup_cons]
    by_cases h : x = y
    · simp [h]
    · have : (x == y) = false := by simp [h]
      rw [this]; simp only [List.map_cons, List.mem_cons, h, false_or]; exact ih

/-- the invariant of operator objects -/
structure ObjOk (o : Obj α V) : Prop where
  nodup : (o.params.map (·.1)).Nodup
  settable : ∀ p ∈ o.params.map (·.1), o.kind.settable p = true
  dflt : ∀ p ∈ o.kind.dflt.map (·.1), p ∈ o.params.map (·.1)
  act : o.active = (o.params.lookup ·) ∨ o.kind.initOk (o.params.lookup ·) = false

theorem setAll_spec (k : Kind α V) : ∀ (ps m : PMap α), (m.map (·.1)).Nodup → (∀ p ∈ m.map (·.1), k.settable p = true) →
    ((∀ p ∈ ps.map (·.1), k.settable p = true) → ∃ m', setAll k ps m = some m') ∧
    (∀ m', setAll k ps m = some m' →
      (m'.map (·.1)).Nodup ∧ (∀ p ∈ m'.map (·.1), k.settable p = true) ∧ (∀ p ∈ m.map (·.1), p ∈ m'.map (·.1)) ∧
      ((ps.map (·.1)).Nodup → ∀ x, m'.lookup x = (ps.lookup x).or (m.lookup x))) := by
  intro ps
  induction ps with
  | nil =>
    intro m h1 h2
    refine ⟨fun _ => ⟨m, rfl⟩, ?_⟩
    intro m' h
    simp only [setAll, Option.some.injEq] at h
    subst h
    exact ⟨h1, h2, fun _ h => h, fun _ x => by simp⟩
  | cons a ps ih =>
    intro m h1 h2
    obtain ⟨p, v⟩ := a
    by_cases hp : k.settable p = true
    · have g1 := put_nodup m p v h1
      have g2 : ∀ q ∈ (m.put p v).map (·.1), k.settable q = true := by
        intro q hq
        rcases (put_keys m p v q).1 hq with rfl | hq
        · exact hp
        · exact h2 q hq
      obtain ⟨i1, i2⟩ := ih (m.put p v) g1 g2
      constructor
      · intro h
        obtain ⟨m', e⟩ := i1 (fun q hq => h q (by simp only [List.map_cons, List.mem_cons]; exact Or.inr hq))
        exact ⟨m', by simp [setAll, hp, e]⟩
      · intro m' h
        simp only [setAll, hp, if_true] at h
        obtain ⟨a1, a2, a3, a4⟩ := i2 m' h
        refine ⟨a1, a2, fun q hq => a3 q ((put_keys m p v q).2 (Or.inr hq)), ?_⟩
        intro hnd x
        rw [List.map_cons, List.nodup_cons] at hnd
        rw [a4 hnd.2, put_lookup, List.lookup_cons]
        by_cases e : x = p
        · subst e
          have : ps.lookup x = none := by
            cases hl : ps.lookup x with
            | none => rfl
            | some w => exact absurd ((lookup_isSome ps x).1 (by rw [hl]; rfl)) hnd.1
          rw [this]; simp
        · have e' : (x == p) = false := by simp [e]
          rw [e', if_neg e]
    · have hp' : k.settable p = false := by simpa using hp
      constructor
      · intro h; exact absurd (h p (by simp)) hp
      · intro m' h; simp [setAll, hp'] at h

theorem dflt_settable (k : Kind α V) : ∀ p ∈ k.dflt.map (·.1), k.settable p = true := by
  intro p hp
  have := k.dflt_field p hp
  simp [Kind.settable, this]

theorem mkObj_ok (k : Kind α V) (ps : PMap α) (o : Obj α V) (h : mkObj k ps = some o) :
    ObjOk o ∧ o.kind = k ∧ o.active = (o.params.lookup ·) := by
  unfold mkObj at h
  obtain ⟨-, s2⟩ := setAll_spec k ps k.dflt k.dflt_nodup (dflt_settable k)
  split at h
  · simp at h
  · rename_i m hm
    obtain ⟨a1, a2, a3, -⟩ := s2 m hm
    split at h
    · simp only [Option.some.injEq] at h
      subst h
      exact ⟨⟨a1, a2, a3, Or.inl rfl⟩, rfl, rfl⟩
    · simp at h

/-- cloning an operator gives one that behaves the same -/
theorem mkObj_clone {o o' : Obj α V} (ho : ObjOk o) (h : mkObj o.kind o.params = some o') :
    o'.kind = o.kind ∧ o'.active = o.active := by
  obtain ⟨-, s2⟩ := setAll_spec o.kind o.params o.kind.dflt o.kind.dflt_nodup (dflt_settable o.kind)
  unfold mkObj at h
  split at h
  · simp at h
  · rename_i m hm
    obtain ⟨-, -, -, a4⟩ := s2 m hm
    have e : (fun x => m.lookup x) = (fun x => o.params.lookup x) := by
      funext x
      rw [a4 ho.nodup x]
      cases hl : o.params.lookup x with
      | some v => rfl
      | none =>
        simp only [Option.none_or]
        cases hd : o.kind.dflt.lookup x with
        | none => rfl
        | some v =>
          have h1 := ho.dflt x ((lookup_isSome _ x).1 (by rw [hd]; rfl))
          have h2 := (lookup_isSome _ x).2 h1
          rw [hl] at h2; simp at h2
    split at h
    · rename_i hi
      simp only [Option.some.injEq] at h
      subst h
      refine ⟨rfl, ?_⟩
      rw [e] at hi
      rcases ho.act with ha | ha
      · rw [ha]; exact e
      · rw [ha] at hi; simp at hi
    · simp at h

/-- cloning an operator whose parameters initialise succeeds -/
theorem mkObj_total {o : Obj α V} (ho : ObjOk o) (hi : o.kind.initOk (o.params.lookup ·) = true) :
    ∃ o', mkObj o.kind o.params = some o' := by
  obtain ⟨s1, s2⟩ := setAll_spec o.kind o.params o.kind.dflt o.kind.dflt_nodup (dflt_settable o.kind)
  obtain ⟨m, hm⟩ := s1 ho.settable
  obtain ⟨-, -, -, a4⟩ := s2 m hm
  have e : (fun x => m.lookup x) = (fun x => o.params.lookup x) := by
    funext x
    rw [a4 ho.nodup x]
    cases hl : o.params.lookup x with
    | some v => rfl
    | none =>
      simp only [Option.none_or]
      cases hd : o.kind.dflt.lookup x with
      | none => rfl
      | some v =>
        have h1 := ho.dflt x ((lookup_isSome _ x).1 (by rw [hd]; rfl))
        have h2 := (lookup_isSome _ x).2 h1
        rw [hl] at h2; simp at h2
  unfold mkObj
  rw [hm]
  simp only [e, hi, if_true]
  exact ⟨_, rfl⟩

/-! ## Code and heaps -/

/-- the operator objects a piece of code refers to -/
def opIds : List (PInstr V) → List Nat
  | [] => []
  | .plain _ :: c => opIds c
  | .op id _ _ :: c => id :: opIds c

def HeapOk (h : List (Obj α V)) : Prop := ∀ o ∈ h, ObjOk o

theorem den_congr {h h' : List (Obj α V)} (c : List (PInstr V)) (hc : ∀ id ∈ opIds c, h'[id]? = h[id]?) :
    c.map (denInstr h') = c.map (denInstr h) := by
  induction c with
  | nil => rfl
  | cons i c ih =>
    cases i with
    | plain i => simp only [List.map_cons]; rw [ih hc]; rfl
    | op id na nr =>
      simp only [List.map_cons]
      rw [ih (fun x hx => hc x (by simp [opIds, hx]))]
      congr 1
      simp only [denInstr]
      rw [hc id (by simp [opIds])]

theorem den_ext {h : List (Obj α V)} (e : List (Obj α V)) (c : List (PInstr V)) (hc : ∀ id ∈ opIds c, id < h.length) :
    c.map (denInstr (h ++ e)) = c.map (denInstr h) :=
  den_congr c fun id hid => List.getElem?_append_left (hc id hid)

theorem heapOk_append {h e : List (Obj α V)} (h1 : HeapOk h) (h2 : HeapOk e) : HeapOk (h ++ e) := by
  intro o ho
  rcases List.mem_append.1 ho with ho | ho
  · exact h1 o ho
  · exact h2 o ho

theorem cloneCode_spec : ∀ (c : List (PInstr V)) (h h' : List (Obj α V)) (c' : List (PInstr V)),
    HeapOk h → (∀ id ∈ opIds c, id < h.length) → cloneCode h c = some (h', c') →
    (∃ e, h' = h ++ e) ∧ HeapOk h' ∧ (∀ id ∈ opIds c', h.length ≤ id ∧ id < h'.length) ∧
    c'.map (denInstr h') = c.map (denInstr h) := by
  intro c
  induction c with
  | nil =>
    intro h h' c' h1 _ hc
    simp only [cloneCode, Option.some.injEq, Prod.mk.injEq] at hc
    obtain ⟨rfl, rfl⟩ := hc
    exact ⟨⟨[], by simp⟩, h1, by simp [opIds], rfl⟩
  | cons i c ih =>
    intro h h' c' h1 h2 hc
    cases i with
    | plain i =>
      simp only [cloneCode, Option.map_eq_some_iff] at hc
      obtain ⟨⟨h'', c''⟩, e1, e2⟩ := hc
      simp only [Prod.mk.injEq] at e2
      obtain ⟨rfl, rfl⟩ := e2
      obtain ⟨a1, a2, a3, a4⟩ := ih h h'' c'' h1 h2 e1
      refine ⟨a1, a2, a3, ?_⟩
      simp only [List.map_cons, a4]; rfl
    | op id na nr =>
      simp only [cloneCode] at hc
      cases ho : h[id]? with
      | none => rw [ho] at hc; simp at hc
      | some o =>
        rw [ho] at hc
        simp only [] at hc
        cases hm : mkObj o.kind o.params with
        | none => rw [hm] at hc; simp at hc
        | some o' =>
          rw [hm] at hc
          simp only [Option.map_eq_some_iff] at hc
          obtain ⟨⟨h'', c''⟩, e1, e2⟩ := hc
          simp only [Prod.mk.injEq] at e2
          obtain ⟨rfl, rfl⟩ := e2
          have hoo : ObjOk o := h1 o (List.mem_of_getElem? ho)
          have g1 : HeapOk (h ++ [o']) := heapOk_append h1 (by
            intro x hx; simp at hx; subst hx; exact (mkObj_ok _ _ _ hm).1)
          have h2' : ∀ x ∈ opIds c, x < h.length := fun x hx => h2 x (by simp [opIds, hx])
          obtain ⟨⟨e, a1⟩, a2, a3, a4⟩ := ih (h ++ [o']) h'' c'' g1
            (fun x hx => by have := h2' x hx; simp; omega) e1
          have hlen : h''.length = h.length + 1 + e.length := by rw [a1]; simp; omega
          refine ⟨⟨o' :: e, by rw [a1]; simp⟩, a2, ?_, ?_⟩
          · intro x hx
            simp only [opIds, List.mem_cons] at hx
            rcases hx with rfl | hx
            · omega
            · have := a3 x hx; simp at this; omega
          · simp only [List.map_cons, a4]
            rw [den_ext [o'] c h2']
            congr 1
            have q1 : h''[h.length]? = some o' := by rw [a1]; simp
            obtain ⟨k1, k2⟩ := mkObj_clone hoo hm
            simp only [denInstr, q1, ho, k1, k2]

theorem compileCode_spec : ∀ (c : List (Instr V ⊕ (Kind α V × PMap α × Nat × Nat))) (h h' : List (Obj α V))
    (c' : List (PInstr V)), HeapOk h → compileCode h c = some (h', c') →
    (∃ e, h' = h ++ e) ∧ HeapOk h' ∧ (∀ id ∈ opIds c', h.length ≤ id ∧ id < h'.length) := by
  intro c
  induction c with
  | nil =>
    intro h h' c' h1 hc
    simp only [compileCode, Option.some.injEq, Prod.mk.injEq] at hc
    obtain ⟨rfl, rfl⟩ := hc
    exact ⟨⟨[], by simp⟩, h1, by simp [opIds]⟩
  | cons i c ih =>
    intro h h' c' h1 hc
    cases i with
    | inl i =>
      simp only [compileCode, Option.map_eq_some_iff] at hc
      obtain ⟨⟨h'', c''⟩, e1, e2⟩ := hc
      simp only [Prod.mk.injEq] at e2
      obtain ⟨rfl, rfl⟩ := e2
      exact ih h h'' c'' h1 e1
    | inr q =>
      obtain ⟨k, ps, na, nr⟩ := q
      simp only [compileCode] at hc
      cases hm : mkObj k ps with
      | none => rw [hm] at hc; simp at hc
      | some o' =>
        rw [hm] at hc
        simp only [Option.map_eq_some_iff] at hc
        obtain ⟨⟨h'', c''⟩, e1, e2⟩ := hc
        simp only [Prod.mk.injEq] at e2
        obtain ⟨rfl, rfl⟩ := e2
        have g1 : HeapOk (h ++ [o']) := heapOk_append h1 (by
            intro x hx; simp at hx; subst hx; exact (mkObj_ok _ _ _ hm).1)
        obtain ⟨⟨e, a1⟩, a2, a3⟩ := ih (h ++ [o']) h'' c'' g1 e1
        have hlen : h''.length = h.length + 1 + e.length := by rw [a1]; simp; omega
        refine ⟨⟨o' :: e, by rw [a1]; simp⟩, a2, ?_⟩
        intro x hx
        simp only [opIds, List.mem_cons] at hx
        rcases hx with rfl | hx
        · omega
        · have := a3 x hx; simp at this; omega

theorem setParam_spec (nameOf : PMap α → String) (name param : String) (v : α) : ∀ (c : List (PInstr V)) (h : List (Obj α V)),
    HeapOk h →
    HeapOk (setParam nameOf name param v h c).1 ∧ (setParam nameOf name param v h c).1.length = h.length ∧
    (∀ id, id ∉ opIds c → (setParam nameOf name param v h c).1[id]? = h[id]?) := by
  intro c
  induction c with
  | nil => intro h h1; exact ⟨h1, rfl, fun _ _ => rfl⟩
  | cons i c ih =>
    intro h h1
    cases i with
    | plain i => exact ih h h1
    | op id na nr =>
      simp only [setParam]
      cases ho : h[id]? with
      | none => exact ⟨h1, rfl, fun _ _ => rfl⟩
      | some o =>
        have hoo : ObjOk o := h1 o (List.mem_of_getElem? ho)
        simp only []
        split
        · obtain ⟨a1, a2, a3⟩ := ih h h1
          exact ⟨a1, a2, fun x hx => a3 x (by simp [opIds] at hx; exact hx.2)⟩
        · split
          · rename_i hset
            have mk : ∀ act', (act' = ((o.params.put param v).lookup ·) ∨
                o.kind.initOk ((o.params.put param v).lookup ·) = false) →
                HeapOk (h.set id ⟨o.kind, o.params.put param v, act'⟩) := by
              intro act' ha x hx
              rcases List.mem_or_eq_of_mem_set hx with hx | rfl
              · exact h1 x hx
              · refine ⟨put_nodup _ _ _ hoo.nodup, ?_, ?_, ha⟩
                · intro p hp
                  rcases (put_keys _ _ _ _).1 hp with rfl | hp
                  · exact hset
                  · exact hoo.settable p hp
                · intro p hp
                  exact (put_keys _ _ _ _).2 (Or.inr (hoo.dflt p hp))
            split
            · obtain ⟨a1, a2, a3⟩ := ih _ (mk _ (Or.inl rfl))
              refine ⟨a1, by simpa using a2, ?_⟩
              intro x hx
              simp only [opIds, List.mem_cons, not_or] at hx
              rw [a3 x hx.2, List.getElem?_set_ne (Ne.symm hx.1)]
            · rename_i hi
              refine ⟨mk _ (Or.inr (by simpa using hi)), by simp, ?_⟩
              intro x hx
              simp only [opIds, List.mem_cons, not_or] at hx
              exact List.getElem?_set_ne (Ne.symm hx.1)
          · exact ⟨h1, rfl, fun _ _ => rfl⟩

theorem cloneBody_spec (h h' : List (Obj α V)) (b b' : Body V) (h1 : HeapOk h) (h2 : ∀ id ∈ opIds b.code, id < h.length)
    (hc : cloneBody h b = some (h', b')) :
    (∃ e, h' = h ++ e) ∧ HeapOk h' ∧ (∀ id ∈ opIds b'.code, h.length ≤ id ∧ id < h'.length) ∧
    (∀ f, b'.den h' f = b.den h f) ∧ b'.nin = b.nin ∧ b'.nout = b.nout ∧ b'.inSlots = b.inSlots ∧ b'.outSlots = b.outSlots := by
  simp only [cloneBody, Option.map_eq_some_iff] at hc
  obtain ⟨⟨h'', c''⟩, e1, e2⟩ := hc
  simp only [Prod.mk.injEq] at e2
  obtain ⟨rfl, rfl⟩ := e2
  obtain ⟨a1, a2, a3, a4⟩ := cloneCode_spec b.code h h'' c'' h1 h2 e1
  exact ⟨a1, a2, a3, fun f => by simp only [Body.den, a4], rfl, rfl, rfl, rfl⟩

/-- the bodies among optional filters -/
def filterBodies (fs : List (Option (Body V))) : List (Body V) := fs.filterMap id

theorem cloneFilters_spec : ∀ (fs : List (Option (Body V))) (h h' : List (Obj α V)) (fs' : List (Option (Body V))),
    HeapOk h → (∀ f ∈ filterBodies fs, ∀ id ∈ opIds f.code, id < h.length) → cloneFilters h fs = some (h', fs') →
    (∃ e, h' = h ++ e) ∧ HeapOk h' ∧
    (∀ f ∈ filterBodies fs', ∀ id ∈ opIds f.code, h.length ≤ id ∧ id < h'.length) ∧
    (∀ i : Nat, filterDen h' fs' i = filterDen h fs i) := by
  intro fs
  induction fs with
  | nil =>
    intro h h' fs' h1 _ hc
    simp only [cloneFilters, Option.some.injEq, Prod.mk.injEq] at hc
    obtain ⟨rfl, rfl⟩ := hc
    exact ⟨⟨[], by simp⟩, h1, by simp [filterBodies], fun i => by simp [filterDen]⟩
  | cons f fs ih =>
    intro h h' fs' h1 h2 hc
    cases f with
    | none =>
      simp only [cloneFilters, Option.map_eq_some_iff] at hc
      obtain ⟨⟨h'', c''⟩, e1, e2⟩ := hc
      simp only [Prod.mk.injEq] at e2
      obtain ⟨rfl, rfl⟩ := e2
      obtain ⟨a1, a2, a3, a4⟩ := ih h h'' c'' h1 (by simpa [filterBodies] using h2) e1
      refine ⟨a1, a2, by simpa [filterBodies] using a3, ?_⟩
      intro i
      cases i with
      | zero => simp [filterDen]
      | succ i => simpa [filterDen] using a4 i
    | some f =>
      simp only [cloneFilters] at hc
      cases hb : cloneBody h f with
      | none => rw [hb] at hc; simp at hc
      | some q =>
        obtain ⟨hh, f'⟩ := q
        rw [hb] at hc
        simp only [Option.map_eq_some_iff] at hc
        obtain ⟨⟨h'', c''⟩, e1, e2⟩ := hc
        simp only [Prod.mk.injEq] at e2
        obtain ⟨rfl, rfl⟩ := e2
        have hf2 : ∀ id ∈ opIds f.code, id < h.length := h2 f (by simp [filterBodies])
        have hrest : ∀ g ∈ filterBodies fs, ∀ id ∈ opIds g.code, id < h.length :=
          fun g hg => h2 g (by simp [filterBodies] at hg ⊢; exact Or.inr hg)
        obtain ⟨⟨e, b1⟩, b2, b3, b4, -⟩ := cloneBody_spec h hh f f' h1 hf2 hb
        have hle : h.length ≤ hh.length := by rw [b1]; simp
        obtain ⟨⟨e', a1⟩, a2, a3, a4⟩ := ih hh h'' c'' b2 (fun g hg id hid => by have := hrest g hg id hid; omega) e1
        have hle' : hh.length ≤ h''.length := by rw [a1]; simp
        refine ⟨⟨e ++ e', by rw [a1, b1]; simp⟩, a2, ?_, ?_⟩
        · intro g hg id hid
          have : g = f' ∨ g ∈ filterBodies c'' := by simpa [filterBodies, eq_comm] using hg
          rcases this with rfl | hg
          · have := b3 id hid; omega
          · have := a3 g hg id hid; omega
        · intro i
          cases i with
          | zero =>
            simp only [filterDen, List.getElem?_cons_zero]
            rw [← b4]
            unfold Body.den
            rw [a1, den_ext e' f'.code (fun id hid => (b3 id hid).2)]
          | succ i =>
            have e0 : ∀ (h : List (Obj α V)) x (l : List (Option (Body V))), filterDen h (x :: l) (i + 1) = filterDen h l i := by
              intro h x l; simp [filterDen]
            rw [e0, e0, a4 i]
            simp only [filterDen]
            cases hfi : fs[i]? with
            | none => rfl
            | some g =>
              cases g with
              | none => rfl
              | some g =>
                simp only [Body.den]
                rw [b1, den_ext e g.code (hrest g (by
                  simp only [filterBodies, List.mem_filterMap, id]; exact ⟨some g, List.mem_of_getElem? hfi, rfl⟩))]

/-! ## Worlds -/

/-- all filter bodies that exist -/
def World.filterList (w : World α V) : List (Body V) := w.pool ++ w.progs.flatMap fun p => filterBodies p.filters

/-- who owns which operator object -/
structure WOk (w : World α V) : Prop where
  heap : HeapOk w.heap
  bound : ∀ p ∈ w.progs, ∀ id ∈ opIds p.body.code, id < w.heap.length
  fbound : ∀ f ∈ World.filterList w, ∀ id ∈ opIds f.code, id < w.heap.length
  apart : ∀ (j k : Nat) p q, w.progs[j]? = some p → w.progs[k]? = some q → j ≠ k → ∀ id ∈ opIds p.body.code, id ∉ opIds q.body.code
  fapart : ∀ p ∈ w.progs, ∀ id ∈ opIds p.body.code, ∀ f ∈ World.filterList w, id ∉ opIds f.code

theorem filterList_prog {w : World α V} {p : Program V} (hp : p ∈ w.progs) {f : Body V} (hf : f ∈ filterBodies p.filters) :
    f ∈ World.filterList w := List.mem_append_right _ (List.mem_flatMap.2 ⟨p, hp, hf⟩)

/-- the behaviour of a program does not change when the objects it uses are the same -/
theorem prog_den_congr {h h' : List (Obj α V)} (p : Program V) (hb : ∀ id ∈ opIds p.body.code, h'[id]? = h[id]?)
    (hf : ∀ f ∈ filterBodies p.filters, ∀ id ∈ opIds f.code, h'[id]? = h[id]?) : p.den h' = p.den h := by
  unfold Program.den
  unfold Body.den
  rw [den_congr p.body.code hb]
  congr 1
  funext i
  simp only [filterDen]
  cases hi : p.filters[i]? with
  | none => rfl
  | some g =>
    cases g with
    | none => rfl
    | some g =>
      simp only [Body.den]
      rw [den_congr g.code (hf g (by
        simp only [filterBodies, List.mem_filterMap, id]; exact ⟨some g, List.mem_of_getElem? hi, rfl⟩))]

theorem wok_den_ext {w : World α V} (hw : WOk w) {p : Program V} (hp : p ∈ w.progs) (e : List (Obj α V)) :
    p.den (w.heap ++ e) = p.den w.heap :=
  prog_den_congr p (fun id hid => List.getElem?_append_left (hw.bound p hp id hid))
    (fun f hf id hid => List.getElem?_append_left (hw.fbound f (filterList_prog hp hf) id hid))

/-- adding a program whose objects are new -/
theorem wok_add {w : World α V} (hw : WOk w) {h' : List (Obj α V)} {p : Program V} (e : List (Obj α V)) (he : h' = w.heap ++ e)
    (hh : HeapOk h') (hb : ∀ id ∈ opIds p.body.code, w.heap.length ≤ id ∧ id < h'.length)
    (hf : ∀ f ∈ filterBodies p.filters, ∀ id ∈ opIds f.code, w.heap.length ≤ id ∧ id < h'.length)
    (hbf : ∀ f ∈ filterBodies p.filters, ∀ id ∈ opIds f.code, id ∉ opIds p.body.code) :
    WOk { w with heap := h', progs := w.progs ++ [p] } := by
  have hle : w.heap.length ≤ h'.length := by rw [he]; simp
  have fl : ∀ f, f ∈ World.filterList ({ w with heap := h', progs := w.progs ++ [p] } : World α V) →
      f ∈ World.filterList w ∨ f ∈ filterBodies p.filters := by
    intro f hf'
    simp only [World.filterList, List.flatMap_append, List.mem_append] at hf' ⊢
    rcases hf' with h | h | h
    · exact Or.inl (Or.inl h)
    · exact Or.inl (Or.inr h)
    · right; simpa using h
  refine ⟨hh, ?_, ?_, ?_, ?_⟩
  · intro q hq id hid
    rcases List.mem_append.1 hq with hq | hq
    · have := hw.bound q hq id hid; simp only []; omega
    · simp at hq; subst hq; exact (hb id hid).2
  · intro f hf' id hid
    rcases fl f hf' with h | h
    · have := hw.fbound f h id hid; simp only []; omega
    · exact (hf f h id hid).2
  · intro j k p1 p2 h1 h2 hjk id hid hid2
    have cls : ∀ (j : Nat) q, (w.progs ++ [p])[j]? = some q → (w.progs[j]? = some q ∧ j < w.progs.length) ∨ (q = p ∧ j = w.progs.length) := by
      intro j q hq
      rw [List.getElem?_append] at hq
      split at hq
      · rename_i hl; exact Or.inl ⟨hq, hl⟩
      · right
        have hj : j - w.progs.length < [p].length := by
          rcases Nat.lt_or_ge (j - w.progs.length) [p].length with h | h
          · exact h
          · rw [List.getElem?_eq_none h] at hq; simp at hq
        have : j - w.progs.length = 0 := by simp at hj; omega
        rw [this] at hq
        simp at hq
        exact ⟨hq.symm, by omega⟩
    rcases cls j p1 h1 with ⟨a1, -⟩ | ⟨rfl, a2⟩
    · rcases cls k p2 h2 with ⟨b1, -⟩ | ⟨rfl, b2⟩
      · exact hw.apart j k p1 p2 a1 b1 hjk id hid hid2
      · have := hw.bound p1 (List.mem_of_getElem? a1) id hid; have := hb id hid2; omega
    · rcases cls k p2 h2 with ⟨b1, -⟩ | ⟨rfl, b2⟩
      · have := hw.bound p2 (List.mem_of_getElem? b1) id hid2; have := hb id hid; omega
      · omega
  · intro q hq id hid f hf' hid2
    rcases List.mem_append.1 hq with hq | hq
    · rcases fl f hf' with h | h
      · exact hw.fapart q hq id hid f h hid2
      · have := hw.bound q hq id hid; have := hf f h id hid2; omega
    · simp at hq; subst hq
      rcases fl f hf' with h | h
      · have := hw.fbound f h id hid2; have := hb id hid; omega
      · exact hbf f h id hid2 hid

theorem clone_spec {w : World α V} (hw : WOk w) {p p' : Program V} (hp : p ∈ w.progs) {h' : List (Obj α V)}
    (hc : Clone.clone w.heap p = some (h', p')) :
    WOk { w with heap := h', progs := w.progs ++ [p'] } ∧ (∃ e, h' = w.heap ++ e) ∧ p'.den h' = p.den w.heap ∧
    p'.body.nin = p.body.nin ∧ p'.body.nout = p.body.nout ∧ p'.body.inSlots = p.body.inSlots ∧
    p'.body.outSlots = p.body.outSlots := by
  unfold Clone.clone at hc
  cases hf : cloneFilters w.heap p.filters with
  | none => rw [hf] at hc; simp at hc
  | some q =>
    obtain ⟨h1, fs⟩ := q
    rw [hf] at hc
    simp only [] at hc
    cases hb : cloneBody h1 p.body with
    | none => rw [hb] at hc; simp at hc
    | some q =>
      obtain ⟨h2, b⟩ := q
      rw [hb] at hc
      simp only [Option.some.injEq, Prod.mk.injEq] at hc
      obtain ⟨rfl, rfl⟩ := hc
      obtain ⟨⟨e1, a1⟩, a2, a3, a4⟩ := cloneFilters_spec p.filters w.heap h1 fs hw.heap
        (fun f hf' => hw.fbound f (filterList_prog hp hf')) hf
      have l1 : w.heap.length ≤ h1.length := by rw [a1]; simp
      obtain ⟨⟨e2, b1⟩, b2, b3, b4, b5, b6, b7, b8⟩ := cloneBody_spec h1 h2 p.body b a2
        (fun id hid => by have := hw.bound p hp id hid; omega) hb
      have l2 : h1.length ≤ h2.length := by rw [b1]; simp
      refine ⟨?_, ⟨e1 ++ e2, by rw [b1, a1]; simp⟩, ?_, b5, b6, b7, b8⟩
      · apply wok_add hw (e1 ++ e2) (by rw [b1, a1]; simp) b2
        · intro id hid; have := b3 id hid; omega
        · intro f hf' id hid; have := a3 f hf' id hid; omega
        · intro f hf' id hid hid2; have := a3 f hf' id hid; have := b3 id hid2; omega
      · simp only [Program.den]
        rw [b4]
        have e3 : p.body.den h1 = p.body.den w.heap := by
          funext f; unfold Body.den
          rw [a1, den_ext e1 p.body.code (hw.bound p hp)]
        rw [e3]
        congr 1
        funext i
        rw [← a4 i]
        simp only [filterDen]
        cases hi : fs[i]? with
        | none => rfl
        | some g =>
          cases g with
          | none => rfl
          | some g =>
            simp only [Body.den]
            have hg : g ∈ filterBodies fs := by
              simp only [filterBodies, List.mem_filterMap, id]; exact ⟨some g, List.mem_of_getElem? hi, rfl⟩
            rw [b1, den_ext e2 g.code (fun id hid => (a3 g hg id hid).2)]

theorem filterBodies_replicate (n : Nat) : filterBodies (List.replicate n (none : Option (Body V))) = [] := by
  induction n with
  | zero => rfl
  | succ n ih => simpa [List.replicate_succ, filterBodies] using ih

theorem filterBodies_set {fs : List (Option (Body V))} {i : Nat} {x : Option (Body V)} {f : Body V}
    (h : f ∈ filterBodies (fs.set i x)) : f ∈ filterBodies fs ∨ x = some f := by
  simp only [filterBodies, List.mem_filterMap, id] at h ⊢
  obtain ⟨a, ha, rfl⟩ := h
  rcases List.mem_or_eq_of_mem_set ha with h | h
  · exact Or.inl ⟨_, h, rfl⟩
  · exact Or.inr h.symm

theorem wok_act (nameOf : PMap α → String) {w : World α V} (hw : WOk w) (a : Act α V) : WOk (act nameOf w a) := by
  cases a with
  | compile code ins outs data cast =>
    simp only [act]
    split
    · exact hw
    · rename_i h c hc
      obtain ⟨⟨e, a1⟩, a2, a3⟩ := compileCode_spec code w.heap h c hw.heap hc
      apply wok_add hw e a1 a2
      · exact a3
      · simp [filterBodies_replicate]
      · simp [filterBodies_replicate]
  | clone k =>
    simp only [act]
    split
    · exact hw
    · rename_i p hp
      split
      · exact hw
      · rename_i h p' hc
        exact (clone_spec hw (List.mem_of_getElem? hp) hc).1
  | setParam k name param v =>
    simp only [act]
    split
    · exact hw
    · rename_i p hp
      obtain ⟨a1, a2, -⟩ := setParam_spec nameOf name param v p.body.code w.heap hw.heap
      exact ⟨a1, fun q hq id hid => by rw [a2]; exact hw.bound q hq id hid,
        fun f hf id hid => by rw [a2]; exact hw.fbound f hf id hid, hw.apart, hw.fapart⟩
  | filter code ins outs data cast =>
    simp only [act]
    split
    · exact hw
    · rename_i h c hc
      obtain ⟨⟨e, a1⟩, a2, a3⟩ := compileCode_spec code w.heap h c hw.heap hc
      have hle : w.heap.length ≤ h.length := by rw [a1]; simp
      have fl : ∀ f, f ∈ World.filterList ({ w with heap := h, pool := w.pool ++ [mkBody c ins outs data cast] } : World α V) →
          f ∈ World.filterList w ∨ f = mkBody c ins outs data cast := by
        intro f hf
        simp only [World.filterList, List.mem_append, List.mem_singleton] at hf ⊢
        rcases hf with (h | h) | h
        · exact Or.inl (Or.inl h)
        · exact Or.inr h
        · exact Or.inl (Or.inr h)
      refine ⟨a2, ?_, ?_, hw.apart, ?_⟩
      · intro q hq id hid; have := hw.bound q hq id hid; simp only []; omega
      · intro f hf id hid
        rcases fl f hf with h' | rfl
        · have := hw.fbound f h' id hid; simp only []; omega
        · exact (a3 id hid).2
      · intro q hq id hid f hf hid2
        rcases fl f hf with h' | rfl
        · exact hw.fapart q hq id hid f h' hid2
        · have := hw.bound q hq id hid; have := a3 id hid2; omega
  | bindFilter k i f =>
    have gen : ∀ (p : Program V) (x : Option (Body V)), w.progs[k]? = some p → (∀ g, x = some g → g ∈ w.pool) →
        WOk { w with progs := w.progs.set k { p with filters := p.filters.set i x } } := by
      intro p x hp hx
      have cls : ∀ (j : Nat) q, (w.progs.set k { p with filters := p.filters.set i x })[j]? = some q →
          ∃ q0, w.progs[j]? = some q0 ∧ q.body = q0.body := by
        intro j q hq
        rw [List.getElem?_set] at hq
        split at hq
        · split at hq
          · rename_i hjk _
            simp at hq; subst hq; subst hjk
            exact ⟨p, hp, rfl⟩
          · simp at hq
        · exact ⟨q, hq, rfl⟩
      have clsm : ∀ q ∈ w.progs.set k { p with filters := p.filters.set i x }, ∃ q0 ∈ w.progs, q.body = q0.body := by
        intro q hq
        obtain ⟨j, hj⟩ := List.getElem?_of_mem hq
        obtain ⟨q0, h1, h2⟩ := cls j q hj
        exact ⟨q0, List.mem_of_getElem? h1, h2⟩
      have fl : ∀ f, f ∈ World.filterList ({ w with progs := w.progs.set k { p with filters := p.filters.set i x } } : World α V) →
          f ∈ World.filterList w := by
        intro f hf
        simp only [World.filterList, List.mem_append, List.mem_flatMap] at hf ⊢
        rcases hf with h | ⟨q, hq, hqf⟩
        · exact Or.inl h
        · rcases List.mem_or_eq_of_mem_set hq with h | rfl
          · exact Or.inr ⟨q, h, hqf⟩
          · rcases filterBodies_set hqf with h | h
            · exact Or.inr ⟨p, List.mem_of_getElem? hp, h⟩
            · exact Or.inl (hx f h)
      refine ⟨hw.heap, ?_, ?_, ?_, ?_⟩
      · intro q hq id hid
        obtain ⟨q0, h1, h2⟩ := clsm q hq
        rw [h2] at hid; exact hw.bound q0 h1 id hid
      · intro f hf id hid; exact hw.fbound f (fl f hf) id hid
      · intro j l q1 q2 h1 h2 hjl id hid hid2
        obtain ⟨r1, s1, t1⟩ := cls j q1 h1
        obtain ⟨r2, s2, t2⟩ := cls l q2 h2
        rw [t1] at hid; rw [t2] at hid2
        exact hw.apart j l r1 r2 s1 s2 hjl id hid hid2
      · intro q hq id hid f hf
        obtain ⟨q0, h1, h2⟩ := clsm q hq
        rw [h2] at hid
        exact hw.fapart q0 h1 id hid f (fl f hf)
    simp only [act]
    split
    · exact hw
    · rename_i p hp
      split
      · exact hw
      · split
        · exact gen p none hp (by simp)
        · rename_i j
          split
          · exact hw
          · rename_i q hq
            split
            · exact hw
            · exact gen p (some q) hp (by intro g hg; simp at hg; subst hg; exact List.mem_of_getElem? hq)

theorem wok_world (nameOf : PMap α → String) (as : List (Act α V)) : WOk (world nameOf as) := by
  have : ∀ (as : List (Act α V)) (w : World α V), WOk w → WOk (as.foldl (act nameOf) w) := by
    intro as
    induction as with
    | nil => intro w hw; exact hw
    | cons a as ih => intro w hw; exact ih _ (wok_act nameOf hw a)
  apply this
  exact ⟨by intro o ho; simp at ho, by simp, by simp [World.filterList], by simp, by simp⟩

/-! ## Theorems -/

/-- **C37, a clone behaves like its original.** After any history of compiling, cloning, binding filters and setting operator
parameters (successful or not), a clone of any program is a new program with the same launch behaviour (hence, by C36, the same
results on every input), the same counts and the same input and output slots by name. -/
theorem C37_clone_equivalent (nameOf : PMap α → String) (as : List (Act α V)) (k : Nat) (p : Program V)
    (h' : List (Obj α V)) (p' : Program V) (hk : (world nameOf as).progs[k]? = some p)
    (hc : Clone.clone (world nameOf as).heap p = some (h', p')) :
    world nameOf (as ++ [.clone k]) = { world nameOf as with heap := h', progs := (world nameOf as).progs ++ [p'] } ∧
    p'.den h' = p.den (world nameOf as).heap ∧
    p'.body.nin = p.body.nin ∧ p'.body.nout = p.body.nout ∧
    p'.body.inSlots = p.body.inSlots ∧ p'.body.outSlots = p.body.outSlots := by
  obtain ⟨-, -, h1⟩ := clone_spec (wok_world nameOf as) (List.mem_of_getElem? hk) hc
  refine ⟨?_, h1⟩
  simp only [world, List.foldl_append, List.foldl_cons, List.foldl_nil]
  simp only [world] at hk hc
  simp only [act, hk, hc]

/-- which program an action may change -/
def changes : Act α V → Option Nat
  | .setParam k _ _ _ => some k
  | .bindFilter k _ _ => some k
  | _ => none

/-- **C37, programs are independent.** In every reachable state, any action leaves the behaviour of every program it is not
directed at as it was: setting an operator parameter or a filter on a program affects neither its clones, nor the program it
was cloned from, nor any other. -/
theorem C37_independent (nameOf : PMap α → String) (as : List (Act α V)) (a : Act α V) (k : Nat) (p : Program V)
    (hk : (world nameOf as).progs[k]? = some p) (ha : changes a ≠ some k) :
    (world nameOf (as ++ [a])).progs[k]? = some p ∧
    p.den (world nameOf (as ++ [a])).heap = p.den (world nameOf as).heap := by
  have e : world nameOf (as ++ [a]) = act nameOf (world nameOf as) a := by simp [world]
  rw [e]
  have hw := wok_world nameOf as
  generalize world nameOf as = w at hw hk
  have hp : p ∈ w.progs := List.mem_of_getElem? hk
  have hkl : k < w.progs.length := by
    rcases Nat.lt_or_ge k w.progs.length with h | h
    · exact h
    · rw [List.getElem?_eq_none h] at hk; simp at hk
  cases a with
  | compile code ins outs data cast =>
    simp only [act]
    split
    · exact ⟨hk, rfl⟩
    · rename_i h c hc
      obtain ⟨⟨e, a1⟩, -⟩ := compileCode_spec code w.heap h c hw.heap hc
      exact ⟨by rw [List.getElem?_append_left hkl]; exact hk, by simp only []; rw [a1]; exact wok_den_ext hw hp e⟩
  | clone j =>
    simp only [act]
    split
    · exact ⟨hk, rfl⟩
    · rename_i q hq
      split
      · exact ⟨hk, rfl⟩
      · rename_i h p' hc
        obtain ⟨-, ⟨e, a1⟩, -⟩ := clone_spec hw (List.mem_of_getElem? hq) hc
        exact ⟨by rw [List.getElem?_append_left hkl]; exact hk, by simp only []; rw [a1]; exact wok_den_ext hw hp e⟩
  | setParam j name param v =>
    simp only [act]
    split
    · exact ⟨hk, rfl⟩
    · rename_i q hq
      refine ⟨hk, ?_⟩
      obtain ⟨-, -, a3⟩ := setParam_spec nameOf name param v q.body.code w.heap hw.heap
      have hjk : j ≠ k := by intro h; subst h; exact ha rfl
      apply prog_den_congr
      · intro id hid
        exact a3 id (hw.apart k j p q hk hq (Ne.symm hjk) id hid)
      · intro f hf id hid
        exact a3 id (fun h => hw.fapart q (List.mem_of_getElem? hq) id h f (filterList_prog hp hf) hid)
  | filter code ins outs data cast =>
    simp only [act]
    split
    · exact ⟨hk, rfl⟩
    · rename_i h c hc
      obtain ⟨⟨e, a1⟩, -⟩ := compileCode_spec code w.heap h c hw.heap hc
      exact ⟨hk, by simp only []; rw [a1]; exact wok_den_ext hw hp e⟩
  | bindFilter j i f =>
    have hjk : j ≠ k := by intro h; subst h; exact ha rfl
    simp only [act]
    split
    · exact ⟨hk, rfl⟩
    · split
      · exact ⟨hk, rfl⟩
      · split
        · exact ⟨by rw [List.getElem?_set_ne hjk]; exact hk, rfl⟩
        · split
          · exact ⟨hk, rfl⟩
          · split
            · exact ⟨hk, rfl⟩
            · exact ⟨by rw [List.getElem?_set_ne hjk]; exact hk, rfl⟩

/-- **C37, when cloning fails.** In every reachable state, cloning a program succeeds if the present parameters of its
operators (and of its filters' operators) initialise; so it can only fail after a `set_operator_param` that raised. -/
theorem C37_clone_total (nameOf : PMap α → String) (as : List (Act α V)) (p : Program V)
    (hp : p ∈ (world nameOf as).progs)
    (hi : ∀ o ∈ (world nameOf as).heap, o.kind.initOk (o.params.lookup ·) = true) :
    ∃ r, Clone.clone (world nameOf as).heap p = some r := by
  have hw := wok_world nameOf as
  generalize world nameOf as = w at hw hp hi
  let Good := fun (h : List (Obj α V)) => HeapOk h ∧ ∀ o ∈ h, o.kind.initOk (o.params.lookup ·) = true
  have mkGood : ∀ (k : Kind α V) ps o, mkObj k ps = some o → o.kind.initOk (o.params.lookup ·) = true := by
    intro k ps o h
    unfold mkObj at h
    split at h
    · simp at h
    · split at h
      · simp only [Option.some.injEq] at h; subst h; assumption
      · simp at h
  have cc : ∀ (c : List (PInstr V)) (h : List (Obj α V)), Good h → (∀ id ∈ opIds c, id < h.length) →
      ∃ h' c', cloneCode h c = some (h', c') ∧ Good h' ∧ h.length ≤ h'.length := by
    intro c
    induction c with
    | nil => intro h g _; exact ⟨h, [], rfl, g, Nat.le_refl _⟩
    | cons i c ih =>
      intro h g hb
      cases i with
      | plain i =>
        obtain ⟨h', c', e, g', l⟩ := ih h g hb
        exact ⟨h', .plain i :: c', by simp [cloneCode, e], g', l⟩
      | op id na nr =>
        have hid := hb id (by simp [opIds])
        have ho : h[id]? = some h[id] := List.getElem?_eq_getElem hid
        obtain ⟨o', hm⟩ := mkObj_total (g.1 _ (List.getElem_mem hid)) (g.2 _ (List.getElem_mem hid))
        have g2 : Good (h ++ [o']) := by
          refine ⟨heapOk_append g.1 ?_, ?_⟩
          · intro x hx; simp at hx; subst hx; exact (mkObj_ok _ _ _ hm).1
          · intro x hx
            rcases List.mem_append.1 hx with hx | hx
            · exact g.2 x hx
            · simp at hx; subst hx; exact mkGood _ _ _ hm
        obtain ⟨h', c', e, g', l⟩ := ih (h ++ [o']) g2 (fun x hx => by
          have := hb x (by simp [opIds, hx]); simp; omega)
        refine ⟨h', .op h.length na nr :: c', ?_, g', by simp at l; omega⟩
        simp [cloneCode, hid, hm, e]
  have cf : ∀ (fs : List (Option (Body V))) (h : List (Obj α V)), Good h →
      (∀ f ∈ filterBodies fs, ∀ id ∈ opIds f.code, id < h.length) →
      ∃ h' fs', cloneFilters h fs = some (h', fs') ∧ Good h' ∧ h.length ≤ h'.length := by
    intro fs
    induction fs with
    | nil => intro h g _; exact ⟨h, [], rfl, g, Nat.le_refl _⟩
    | cons f fs ih =>
      intro h g hb
      cases f with
      | none =>
        obtain ⟨h', c', e, g', l⟩ := ih h g (by simpa [filterBodies] using hb)
        exact ⟨h', none :: c', by simp [cloneFilters, e], g', l⟩
      | some f =>
        obtain ⟨h1, c1, e1, g1, l1⟩ := cc f.code h g (hb f (by simp [filterBodies]))
        obtain ⟨h', c', e, g', l⟩ := ih h1 g1 (fun x hx id hid => by
          have := hb x (by simp [filterBodies] at hx ⊢; exact Or.inr hx) id hid; omega)
        exact ⟨h', some { f with code := c1, inNames := [], outNames := [] } :: c',
          by simp [cloneFilters, cloneBody, e1, e], g', by omega⟩
  obtain ⟨h1, fs, e1, g1, l1⟩ := cf p.filters w.heap ⟨hw.heap, hi⟩ (fun f hf => hw.fbound f (filterList_prog hp hf))
  obtain ⟨h2, c2, e2, g2, l2⟩ := cc p.body.code h1 g1 (fun id hid => by have := hw.bound p hp id hid; omega)
  exact ⟨(h2, ⟨{ p.body with code := c2, inNames := [], outNames := [] }, fs⟩), by simp [Clone.clone, e1, cloneBody, e2]⟩

/-- **C37, setting a parameter** on a program whose operators accept it changes exactly the operators of that name: each of
them now behaves as its kind does with that one parameter replaced, all others as before. -/
theorem C37_set_param (nameOf : PMap α → String) (name param : String) (v : α) (c : List (PInstr V)) (h h' : List (Obj α V))
    (hnd : (opIds c).Nodup) (hs : setParam nameOf name param v h c = (h', true)) :
    ∀ id ∈ opIds c, ∃ o o', h[id]? = some o ∧ h'[id]? = some o' ∧ o'.kind = o.kind ∧
      (nameOf o.params ≠ name → o' = o) ∧
      (nameOf o.params = name → o'.active = fun x => if x = param then some v else o.params.lookup x) := by
  induction c generalizing h with
  | nil => intro id hid; simp [opIds] at hid
  | cons i c ih =>
    cases i with
    | plain i => exact ih h hnd hs
    | op j na nr =>
      simp only [opIds, List.nodup_cons] at hnd
      simp only [setParam] at hs
      have untouched : ∀ (h : List (Obj α V)), setParam nameOf name param v h c = (h', true) → h'[j]? = h[j]? := by
        intro h hh
        have gen : ∀ (c : List (PInstr V)) (h : List (Obj α V)), j ∉ opIds c →
            (setParam nameOf name param v h c).1[j]? = h[j]? := by
          intro c
          induction c with
          | nil => intro h _; rfl
          | cons i c ih =>
            intro h hj
            cases i with
            | plain i => exact ih h hj
            | op l na nr =>
              simp only [opIds, List.mem_cons, not_or] at hj
              simp only [setParam]
              split
              · rfl
              · split
                · exact ih h hj.2
                · split
                  · split
                    · rw [ih _ hj.2, List.getElem?_set_ne (Ne.symm hj.1)]
                    · exact List.getElem?_set_ne (Ne.symm hj.1)
                  · rfl
        have := gen c h hnd.1
        rw [hh] at this; exact this
      cases ho : h[j]? with
      | none => rw [ho] at hs; simp at hs
      | some o =>
        have hjl : j < h.length := by
          rcases Nat.lt_or_ge j h.length with hl | hl
          · exact hl
          · rw [List.getElem?_eq_none hl] at ho; simp at ho
        rw [ho] at hs
        simp only [] at hs
        split at hs
        · rename_i hn
          intro id hid
          simp only [opIds, List.mem_cons] at hid
          rcases hid with rfl | hid
          · exact ⟨o, o, ho, by rw [untouched h hs]; exact ho, rfl, fun _ => rfl, fun e => absurd e hn⟩
          · exact ih h hnd.2 hs id hid
        · rename_i hn
          split at hs
          · split at hs
            · intro id hid
              simp only [opIds, List.mem_cons] at hid
              rcases hid with rfl | hid
              · refine ⟨o, ⟨o.kind, o.params.put param v, (List.lookup · (o.params.put param v))⟩, ho,
                  by rw [untouched _ hs, List.getElem?_set_self hjl], rfl, ?_, ?_⟩
                · intro e; exact absurd e hn
                · intro _; funext x; simp only [put_lookup]
              · obtain ⟨a, b, h1, h2⟩ := ih _ hnd.2 hs id hid
                rw [List.getElem?_set_ne (by intro e; subst e; exact hnd.1 hid)] at h1
                exact ⟨a, b, h1, h2⟩
            · simp at hs
          · simp at hs

/-- C37's clause that a clone can be used at every entry point like the original -/
def CloneEntryClaim (α V : Type) : Prop :=
  ∀ (nameOf : PMap α → String) (as : List (Act α V)) (p p' : Program V) (h' : List (Obj α V)) (P : PackOps V)
    (adj : Adjust V) (trace : List V → List (String × V)) (names : List String) (args : List V) (s : Stk V),
    p ∈ (world nameOf as).progs → Clone.clone (world nameOf as).heap p = some (h', p') → args.length = p.body.nin →
    Bench.runHook P adj names ⟨some (p.desk (world nameOf as).heap trace), args, [], fun _ => none, s⟩ ≠ .ub →
    Bench.runHook P adj names ⟨some (p'.desk h' trace), args, [], fun _ => none, s⟩ ≠ .ub

/-- a kind of operator pushing its parameter `"c"` -/
def constKind : Kind Nat Nat where
  dflt := [("c", 1)]
  fields := ["c"]
  strict := true
  initOk := fun f => f "c" ≠ some 0
  sem := fun f => pushOp ((f "c").getD 0)
  dflt_nodup := by decide
  dflt_field := by decide

/-- a history: compile one operator over one input, set its parameter to 5, clone, then set the clone's to 7 -/
def cloneSample : List (Act Nat Nat) :=
  [.compile [.inr (constKind, [], 1, 1)] ["x"] ["y"] [] (fun _ => none), .setParam 0 "" "c" 5, .clone 0,
   .setParam 1 "" "c" 7, .setParam 0 "" "c" 0]

/-- non-vacuity: the original gives 5 (a refused parameter later too), the clone 7 -/
example : (world (fun _ => "") cloneSample).progs.map (fun p =>
    launchOffline noPack some (p.den (world (fun _ => "") cloneSample).heap) [3] ⟨[], 0, []⟩) =
    [.ok ⟨[], 0, []⟩ [5], .ok ⟨[], 0, []⟩ [7]] := by decide

def hookObj : Obj Nat Nat := ⟨constKind, [("c", 1)], fun x => List.lookup x [("c", 1)]⟩
def hookBody : Body Nat := mkBody [.op 0 1 1] ["x"] ["y"] [] (fun _ => none)
def isUb {σ α : Type} : Out σ α → Bool
  | .ub => true
  | _ => false

/-- **C37, false clause.** The clone has lost the names of its inputs, so a hooked run on it reads outside a vector, while the
original runs. -/
theorem C37_run_hook_clone_false : ¬ CloneEntryClaim Nat Nat := by
  intro h
  have := h (fun _ => "") (cloneSample.take 1) ⟨hookBody, [none]⟩
    ⟨{ hookBody with code := [.op 1 1 1], inNames := [], outNames := [] }, [none]⟩
    [hookObj, hookObj] noPack some (fun _ => []) [] [3] ⟨[], 0, []⟩ (List.mem_singleton.2 rfl) rfl rfl (by
      intro e
      have e2 : isUb (Bench.runHook noPack some [] ⟨some ((Program.mk hookBody [none]).desk
        (world (fun _ => "") (cloneSample.take 1)).heap (fun _ => [])), [3], [], fun _ => none, ⟨[], 0, []⟩⟩) = false := by decide
      rw [e] at e2
      simp [isUb] at e2)
  exact this rfl

end Verif.Props
