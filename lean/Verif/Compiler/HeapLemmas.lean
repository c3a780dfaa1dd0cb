import Verif.Compiler.Heap
import Verif.Compiler.Sound
/-! Helper lemmas for C05 and C06. -/
namespace Verif.Compiler
open Verif.Runtime
variable {V : Type} [Inhabited V]

theorem graphOf_append (h e : Arena V) (n : Nat) (hn : n < h.length) :
    (graphOf (h ++ e)).kind n = (graphOf h).kind n ∧ (graphOf (h ++ e)).inputs n = (graphOf h).inputs n ∧
    (graphOf (h ++ e)).value n = (graphOf h).value n ∧ (graphOf (h ++ e)).sem n = (graphOf h).sem n := by
  have : (h ++ e)[n]? = h[n]? := List.getElem?_append_left hn
  simp only [graphOf, this, and_self]

theorem graphOf_apply_append (h e : Arena V) (P : PackOps V) (n : Nat) (hn : n < h.length) (vs : List V) :
    (graphOf (h ++ e)).apply P n vs = (graphOf h).apply P n vs := by
  obtain ⟨a, b, c, d⟩ := graphOf_append h e n hn
  simp only [Graph.apply, a, d]

theorem closed_inputs {h : Arena V} (hc : Closed h) {n m : Nat} (hm : m ∈ (graphOf h).inputs n) :
    m < h.length := by
  simp only [graphOf] at hm
  cases hr : h[n]? with
  | none => rw [hr] at hm; simp at hm
  | some r => rw [hr] at hm; exact hc n r hr m hm

theorem den_lt {h : Arena V} {P : PackOps V} {env} {n : Nat} {v : V} (hd : Den (graphOf h) P env n v) :
    n < h.length := by
  rcases Nat.lt_or_ge n h.length with hl | hl
  · exact hl
  · have hk : (graphOf h).kind n = .variable := by simp [graphOf, List.getElem?_eq_none hl]
    cases hd with
    | param h1 => rw [hk] at h1; cases h1
    | const h1 => rw [hk] at h1; cases h1
    | node _ _ ha => simp [Graph.apply, hk] at ha

theorem den_extend {h e : Arena V} {P : PackOps V} {env} {n : Nat} {v : V}
    (hd : Den (graphOf h) P env n v) : Den (graphOf (h ++ e)) P env n v := by
  induction hd with
  | @param n v hk he =>
    have hn := den_lt (Den.param (G := graphOf h) (P := P) hk he)
    exact .param (by rw [(graphOf_append h e n hn).1]; exact hk) he
  | @const n hk =>
    have hn := den_lt (Den.const (G := graphOf h) (P := P) (env := env) hk)
    have hg := graphOf_append h e n hn
    rw [← hg.2.2.1]
    exact .const (by rw [hg.1]; exact hk)
  | @node n vs v hl hi ha ih =>
    have hn := den_lt (Den.node hl hi ha)
    have hg := graphOf_append h e n hn
    refine .node (vs := vs) (by rw [hg.2.1]; exact hl) ?_ (by rw [graphOf_apply_append _ _ _ _ hn]; exact ha)
    intro i h1 h2
    simp only [hg.2.1]
    exact ih i (by rw [← hg.2.1]; exact h1) h2

theorem den_restrict {h e : Arena V} (hc : Closed h) {P : PackOps V} {env} {n : Nat} {v : V}
    (hd : Den (graphOf (h ++ e)) P env n v) (hn : n < h.length) : Den (graphOf h) P env n v := by
  induction hd with
  | @param n v hk he => exact .param (by rw [← (graphOf_append h e n hn).1]; exact hk) he
  | @const n hk =>
    have hg := graphOf_append h e n hn
    rw [hg.2.2.1]
    exact .const (by rw [← hg.1]; exact hk)
  | @node n vs v hl hi ha ih =>
    have hg := graphOf_append h e n hn
    refine .node (vs := vs) (by rw [← hg.2.1]; exact hl) ?_ (by rw [← graphOf_apply_append _ e _ _ hn]; exact ha)
    intro i h1 h2
    have := ih i (by rw [hg.2.1]; exact h1) h2
    simp only [hg.2.1] at this
    exact this (closed_inputs hc (List.getElem_mem h1))

theorem den_append_iff {h e : Arena V} (hc : Closed h) {P : PackOps V} {env} {n : Nat} {v : V}
    (hn : n < h.length) : Den (graphOf (h ++ e)) P env n v ↔ Den (graphOf h) P env n v :=
  ⟨fun hd => den_restrict hc hd hn, den_extend⟩

/-- node `a` of `h` and node `b` of `h'` have the same values -/
def SameDen (P : PackOps V) (h : Arena V) (a : Nat) (h' : Arena V) (b : Nat) : Prop :=
  ∀ env v, Den (graphOf h) P env a v ↔ Den (graphOf h') P env b v

theorem SameDen.trans {P : PackOps V} {h h' h'' : Arena V} {a b c : Nat} (h1 : SameDen P h a h' b)
    (h2 : SameDen P h' b h'' c) : SameDen P h a h'' c := fun env v => (h1 env v).trans (h2 env v)

theorem sameDen_extend {P : PackOps V} {h e : Arena V} (hc : Closed h) {a : Nat} (ha : a < h.length) :
    SameDen P h a (h ++ e) a := fun _ _ => (den_append_iff hc ha).symm

/-- `cs` are nodes of `h'` with the same values as the nodes `ns` of `h` -/
def SameRow (P : PackOps V) (h : Arena V) (ns : List Nat) (h' : Arena V) (cs : List Nat) : Prop :=
  cs.length = ns.length ∧ ∀ i (h1 : i < ns.length) (h2 : i < cs.length), SameDen P h ns[i] h' cs[i]

theorem SameRow.den {P : PackOps V} {h h' : Arena V} {ns cs : List Nat} (hr : SameRow P h ns h' cs) (env) (vs) :
    DenRow (graphOf h) P env ns vs ↔ DenRow (graphOf h') P env cs vs := by
  constructor
  · rintro ⟨h1, h2⟩
    exact ⟨by rw [h1, hr.1], fun i hi hi' => (hr.2 i (by rw [← hr.1]; exact hi) hi env _).mp (h2 i _ hi')⟩
  · rintro ⟨h1, h2⟩
    exact ⟨by rw [h1, hr.1], fun i hi hi' => (hr.2 i hi (by rw [hr.1]; exact hi) env _).mpr (h2 i _ hi')⟩

/-- a computed node has a value iff its inputs have and the function does -/
theorem den_node_iff {G : Graph Nat V} {P : PackOps V} {env} {n : Nat} {v : V}
    (hp : G.kind n ≠ .param) (hc : G.kind n ≠ .const) :
    Den G P env n v ↔ ∃ vs, DenRow G P env (G.inputs n) vs ∧ G.apply P n vs = some v := by
  constructor
  · intro h
    cases h with
    | param hk => exact absurd hk hp
    | const hk => exact absurd hk hc
    | node hl hi ha => exact ⟨_, ⟨hl, hi⟩, ha⟩
  · rintro ⟨vs, ⟨h1, h2⟩, h3⟩
    exact .node h1 h2 h3

theorem graphOf_last (h : Arena V) (r : NodeRec V) :
    (graphOf (h ++ [r])).kind h.length = r.kind ∧ (graphOf (h ++ [r])).inputs h.length = r.inputs ∧
    (graphOf (h ++ [r])).value h.length = r.value ∧ (graphOf (h ++ [r])).sem h.length = r.sem := by
  simp [graphOf]

theorem graphOf_get {h : Arena V} {n : Nat} {r : NodeRec V} (hr : h[n]? = some r) :
    (graphOf h).kind n = r.kind ∧ (graphOf h).inputs n = r.inputs ∧
    (graphOf h).value n = r.value ∧ (graphOf h).sem n = r.sem := by
  simp [graphOf, hr]

/-- a copy of a computed node with inputs of the same values has the same values -/
theorem sameDen_copy {P : PackOps V} {h0 h : Arena V} {n : Nat} {r : NodeRec V} {cs : List Nat}
    (hr : h0[n]? = some r) (hp : r.kind ≠ .param) (hc : r.kind ≠ .const)
    (hcl : Closed h) (hlt : ∀ c ∈ cs, c < h.length)
    (hrow : SameRow P h0 r.inputs h cs) :
    SameDen P h0 n (h ++ [{ r with inputs := cs }]) h.length := by
  intro env v
  obtain ⟨k1, k2, k3, k4⟩ := graphOf_get hr
  obtain ⟨l1, l2, l3, l4⟩ := graphOf_last h { r with inputs := cs }
  simp only at l1 l2 l3 l4
  rw [den_node_iff (by rw [k1]; exact hp) (by rw [k1]; exact hc),
    den_node_iff (by rw [l1]; exact hp) (by rw [l1]; exact hc)]
  have hap : ∀ vs, (graphOf h0).apply P n vs = (graphOf (h ++ [{ r with inputs := cs }])).apply P h.length vs := by
    intro vs; simp only [Graph.apply, k1, k4, l1, l4]
  simp only [hap, k2, l2]
  have hrow' : ∀ vs, DenRow (graphOf h0) P env r.inputs vs ↔
      DenRow (graphOf (h ++ [{ r with inputs := cs }])) P env cs vs := by
    intro vs
    rw [hrow.den env vs]
    constructor
    · rintro ⟨a, b⟩; exact ⟨a, fun i h1 h2 => den_extend (b i h1 h2)⟩
    · rintro ⟨a, b⟩; exact ⟨a, fun i h1 h2 => den_restrict hcl (b i h1 h2) (hlt _ (List.getElem_mem h1))⟩
  simp only [hrow']

theorem closed_append {h : Arena V} {r : NodeRec V} (hc : Closed h) (hr : ∀ m ∈ r.inputs, m < h.length) :
    Closed (h ++ [r]) := by
  intro n x hx m hm
  simp only [List.length_append, List.length_singleton]
  rcases Nat.lt_or_ge n h.length with hn | hn
  · rw [List.getElem?_append_left hn] at hx
    have := hc n x hx m hm; omega
  · obtain ⟨hl, he⟩ : ∃ hl : n < (h ++ [r]).length, (h ++ [r])[n] = x := by
      rcases Nat.lt_or_ge n (h ++ [r]).length with hl | hl
      · rw [List.getElem?_eq_getElem hl] at hx; exact ⟨hl, Option.some.inj hx⟩
      · rw [List.getElem?_eq_none hl] at hx; cases hx
    simp at hl
    have : n = h.length := by omega
    subst this
    simp at he; subst he
    have := hr m hm; omega

/-! ### constant folding -/

/-- every operator, field or pack node needed below `c` has an input that is not a constant -/
def Folded (h : Arena V) (c : Nat) : Prop :=
  ∀ m, Needs (graphOf h) [c] m → (graphOf h).kind m ≠ .param → (graphOf h).kind m ≠ .const →
    ∃ i ∈ (graphOf h).inputs m, (graphOf h).kind i ≠ .const

theorem needs_root_cases {G : Graph Nat V} {n m : Nat} (h : Needs G [n] m) :
    m = n ∨ ∃ c ∈ G.inputs n, Needs G [c] m := by
  induction h with
  | root h => left; simpa using h
  | @input a b _ hp hc hi ih =>
    right
    rcases ih with rfl | ⟨c, hc1, hc2⟩
    · exact ⟨b, hi, .root (by simp)⟩
    · exact ⟨c, hc1, .input hc2 hp hc hi⟩

theorem needs_leaf {G : Graph Nat V} {n m : Nat} (hk : G.kind n = .param ∨ G.kind n = .const)
    (h : Needs G [n] m) : m = n := by
  induction h with
  | root h => simpa using h
  | input _ h1 h2 _ ih =>
    rw [ih] at h1 h2
    rcases hk with hk | hk
    · exact absurd hk h1
    · exact absurd hk h2

theorem folded_leaf {h : Arena V} {n : Nat}
    (hk : (graphOf h).kind n = .param ∨ (graphOf h).kind n = .const) : Folded h n := by
  intro m hm hp hc
  have := needs_leaf hk hm
  subst this
  rcases hk with hk | hk
  · exact absurd hk hp
  · exact absurd hk hc

/-- invariant of folding, `h0` being the original arena -/
structure FInv (P : PackOps V) (h0 : Arena V) (st : FSt V) : Prop where
  ext : ∃ e, st.heap = h0 ++ e
  closed : Closed st.heap
  rc : ∀ n c, n < h0.length → st.rc n = some c → c < st.heap.length ∧ (graphOf st.heap).kind c = .const ∧
    SameDen P h0 n st.heap c
  rn : ∀ n c, n < h0.length → st.rn n = some c → c < st.heap.length ∧ SameDen P h0 n st.heap c ∧
    Folded st.heap c ∧ (graphOf st.heap).kind c ≠ .const

theorem needs_extend {h e : Arena V} (hc : Closed h) {c m : Nat} (hcl : c < h.length)
    (hn : Needs (graphOf (h ++ e)) [c] m) : m < h.length ∧ Needs (graphOf h) [c] m := by
  induction hn with
  | root hr => simp at hr; subst hr; exact ⟨hcl, .root (by simp)⟩
  | @input a b _ hp hcn hi ih =>
    obtain ⟨h1, h2⟩ := ih
    obtain ⟨g1, g2, -, -⟩ := graphOf_append h e a h1
    rw [g1] at hp hcn
    rw [g2] at hi
    exact ⟨closed_inputs hc hi, .input h2 hp hcn hi⟩

theorem folded_extend {h e : Arena V} (hc : Closed h) {c : Nat} (hcl : c < h.length)
    (hn : Folded h c) : Folded (h ++ e) c := by
  intro m hm hp hcn
  obtain ⟨h1, h2⟩ := needs_extend hc hcl hm
  obtain ⟨g1, g2, -, -⟩ := graphOf_append h e m h1
  rw [g1] at hp hcn
  rw [g2]
  obtain ⟨i, hi, hk⟩ := hn m h2 hp hcn
  exact ⟨i, hi, by rw [(graphOf_append h e i (closed_inputs hc hi)).1]; exact hk⟩

theorem finv_extend {P : PackOps V} {h0 : Arena V} {st : FSt V} (hI : FInv P h0 st) (e : Arena V)
    (hc : Closed (st.heap ++ e)) : FInv P h0 { st with heap := st.heap ++ e } := by
  obtain ⟨⟨e0, he⟩, hcl, hrc, hrn⟩ := hI
  refine ⟨⟨e0 ++ e, by simp [he]⟩, hc, ?_, ?_⟩
  · intro n c hn hcn
    obtain ⟨a, b, d⟩ := hrc n c hn hcn
    refine ⟨by simp; omega, by rw [(graphOf_append _ e c a).1]; exact b, d.trans (sameDen_extend hcl a)⟩
  · intro n c hn hcn
    obtain ⟨a, b, d, f⟩ := hrn n c hn hcn
    exact ⟨by simp; omega, b.trans (sameDen_extend hcl a), folded_extend hcl a d,
      by rw [(graphOf_append _ e c a).1]; exact f⟩

theorem ins_spec {f : Nat → Option Nat} {k v n c : Nat} (h : ins f k v n = some c) :
    f n = some c ∨ (n = k ∧ c = v) := by
  unfold ins at h
  cases hf : f k with
  | some x => rw [hf] at h; exact .inl h
  | none =>
    rw [hf] at h; simp only at h
    split at h
    · rename_i hk; cases h; exact .inr ⟨hk, rfl⟩
    · exact .inl h

/-- what folding one node returns -/
def FoldPost (P : PackOps V) (h0 : Arena V) (st : FSt V) (n : Nat) (res : FSt V × Nat × Bool) : Prop :=
  FInv P h0 res.1 ∧ (∃ e, res.1.heap = st.heap ++ e) ∧ res.2.1 < res.1.heap.length ∧
  SameDen P h0 n res.1.heap res.2.1 ∧
  (res.2.2 = true → (graphOf res.1.heap).kind res.2.1 = .const) ∧ Folded res.1.heap res.2.1 ∧
  (res.2.2 = false → (graphOf res.1.heap).kind res.2.1 ≠ .const)

theorem foldInputs_post {P : PackOps V} {h0 : Arena V} (recur : FSt V → Nat → R (FSt V × Nat × Bool))
    (hrec : ∀ st n res, FInv P h0 st → n < h0.length → recur st n = .ok res → FoldPost P h0 st n res)
    (is : List Nat) (his : ∀ i ∈ is, i < h0.length) (st : FSt V) (hI : FInv P h0 st)
    (st' : FSt V) (cs : List Nat) (vs : List V) (allC : Bool)
    (h : foldInputs recur st is = .ok (st', cs, vs, allC)) :
    FInv P h0 st' ∧ (∃ e, st'.heap = st.heap ++ e) ∧ (∀ c ∈ cs, c < st'.heap.length) ∧
    SameRow P h0 is st'.heap cs ∧ (∀ c ∈ cs, Folded st'.heap c) ∧
    (allC = true → (∀ env, DenRow (graphOf h0) P env is vs)) ∧
    (allC = false → ∃ c ∈ cs, (graphOf st'.heap).kind c ≠ .const) := by
  induction is generalizing st st' cs vs allC with
  | nil =>
    simp [foldInputs] at h
    obtain ⟨rfl, rfl, rfl, rfl⟩ := h
    exact ⟨hI, ⟨[], by simp⟩, by simp, ⟨rfl, by simp⟩, by simp, fun _ env => ⟨rfl, by simp⟩, by simp⟩
  | cons i is ih =>
    simp only [foldInputs] at h
    cases hr : recur st i with
    | err => rw [hr] at h; simp [R.bind] at h
    | fuel => rw [hr] at h; simp [R.bind] at h
    | ok res1 =>
      obtain ⟨st1, c, isC⟩ := res1
      rw [hr] at h
      simp only [R.bind] at h
      cases hr2 : foldInputs recur st1 is with
      | err => rw [hr2] at h; simp [R.bind] at h
      | fuel => rw [hr2] at h; simp [R.bind] at h
      | ok res2 =>
        obtain ⟨st2, cs2, vs2, allC2⟩ := res2
        rw [hr2] at h
        simp only [R.ok.injEq, Prod.mk.injEq] at h
        obtain ⟨rfl, rfl, rfl, rfl⟩ := h
        obtain ⟨p1, ⟨e1, p2⟩, p3, p4, p5, p6, p7⟩ := hrec st i _ hI (his i (by simp)) hr
        simp only at p1 p2 p3 p4 p5 p6 p7
        obtain ⟨q1, ⟨e2, q2⟩, q3, q4, q5, q6, q7⟩ :=
          ih (fun k hk => his k (by simp [hk])) st1 p1 st2 cs2 vs2 allC2 hr2
        have hcl1 := p1.closed
        refine ⟨q1, ⟨e1 ++ e2, by rw [q2, p2]; simp⟩, ?_, ?_, ?_, ?_, ?_⟩
        · intro k hk
          simp at hk
          rcases hk with rfl | hk
          · rw [q2]; simp; omega
          · exact q3 k hk
        · refine ⟨by simp [q4.1], ?_⟩
          intro j h1 h2
          cases j with
          | zero =>
            simp only [List.getElem_cons_zero]
            rw [q2]; exact p4.trans (sameDen_extend hcl1 p3)
          | succ j =>
            simp only [List.getElem_cons_succ]
            exact q4.2 j _ _
        · intro k hk
          simp at hk
          rcases hk with rfl | hk
          · rw [q2]; exact folded_extend hcl1 p3 p6
          · exact q5 k hk
        · intro hall env
          simp only [Bool.and_eq_true] at hall
          obtain ⟨rfl, hall2⟩ := hall
          simp only [if_true]
          have hk := p5 rfl
          have : Den (graphOf h0) P env i ((graphOf st1.heap).value c) := (p4 env _).mpr (.const hk)
          exact DenRow.append (DenRow.single this) (q6 hall2 env)
        · intro hall
          simp only [Bool.and_eq_false_iff] at hall
          rcases hall with h | h
          · exact ⟨c, by simp, by rw [q2, (graphOf_append _ e2 c p3).1]; exact p7 h⟩
          · obtain ⟨k, hk1, hk2⟩ := q7 h
            exact ⟨k, by simp [hk1], hk2⟩

theorem foldNode_post {P : PackOps V} {h0 : Arena V} (hc0 : Closed h0) (fuel : Nat) :
    ∀ (root : Bool) (st : FSt V) (n : Nat) (res : FSt V × Nat × Bool), FInv P h0 st → n < h0.length →
      foldNode fuel root st n = .ok res → FoldPost P h0 st n res := by
  induction fuel with
  | zero => intro root st n res _ _ h; simp [foldNode] at h
  | succ k ih =>
    intro root st n res hI hn h
    simp only [foldNode] at h
    cases hrn : st.rn n with
    | some c =>
      simp only [hrn, R.ok.injEq] at h
      subst h
      obtain ⟨a, b, d, f⟩ := hI.rn n c hn hrn
      exact ⟨hI, ⟨[], by simp⟩, a, b, by simp, d, fun _ => f⟩
    | none =>
    simp only [hrn] at h
    cases hrc : st.rc n with
    | some c =>
      simp only [hrc, R.ok.injEq] at h
      subst h
      obtain ⟨a, b, d⟩ := hI.rc n c hn hrc
      exact ⟨hI, ⟨[], by simp⟩, a, d, fun _ => b, folded_leaf (.inr b), by simp⟩
    | none =>
    simp only [hrc] at h
    obtain ⟨e0, he0⟩ := hI.ext
    obtain ⟨r, hr0⟩ : ∃ r, h0[n]? = some r := ⟨_, List.getElem?_eq_getElem hn⟩
    have hr : st.heap[n]? = some r := by rw [he0, List.getElem?_append_left hn]; exact hr0
    simp only [hr] at h
    have hnl : n < st.heap.length := by rw [he0]; simp; omega
    have hself : SameDen P h0 n st.heap n := by rw [he0]; exact sameDen_extend hc0 hn
    obtain ⟨k1, k2, k3, k4⟩ := graphOf_get hr
    have main : r.kind ≠ .param → r.kind ≠ .const →
        (foldInputs (foldNode k false) st r.inputs).bind (foldFinish root n r) = .ok res →
        FoldPost P h0 st n res := by
      intro hp hcn h
      cases hf : foldInputs (foldNode k false) st r.inputs with
      | err => rw [hf] at h; simp [R.bind] at h
      | fuel => rw [hf] at h; simp [R.bind] at h
      | ok res1 =>
        obtain ⟨st1, cs, vs, allC⟩ := res1
        rw [hf] at h
        simp only [R.bind, foldFinish] at h
        have hin : ∀ i ∈ r.inputs, i < h0.length := fun i hi => hc0 n r hr0 i hi
        obtain ⟨q1, ⟨e1, q2⟩, q3, q4, q5, q6, q7⟩ :=
          foldInputs_post (foldNode k false) (fun st n res => ih false st n res) r.inputs hin st hI st1 cs vs allC hf
        have hcl1 := q1.closed
        obtain ⟨e2, he2⟩ := q1.ext
        have hn1 : n < st1.heap.length := by rw [he2]; simp; omega
        have hr1 : st1.heap[n]? = some r := by rw [he2, List.getElem?_append_left hn]; exact hr0
        obtain ⟨m1, m2, m3, m4⟩ := graphOf_get hr1
        cases hall : allC with
        | true =>
          simp only [hall, if_true] at h
          cases hrun : intimeRun r vs with
          | none => simp [hrun] at h
          | some v =>
            simp only [hrun, R.ok.injEq] at h
            subst h
            have hclN : Closed (st1.heap ++ [⟨.const, [], v, fun _ => none⟩]) := closed_append hcl1 (by simp)
            have hIe := finv_extend q1 _ hclN
            obtain ⟨l1, l2, l3, l4⟩ := graphOf_last st1.heap ⟨.const, [], v, fun _ => none⟩
            have hsame : SameDen P h0 n (st1.heap ++ [⟨.const, [], v, fun _ => none⟩]) st1.heap.length := by
              intro env w
              obtain ⟨g1, g2, g3, g4⟩ := graphOf_get hr0
              rw [den_node_iff (by rw [g1]; exact hp) (by rw [g1]; exact hcn), g2]
              have hap : (graphOf h0).apply P n vs = some v := by
                unfold intimeRun at hrun
                split at hrun
                · rename_i hk; simp only [Graph.apply, g1, hk, g4]; exact hrun
                · cases hrun
              constructor
              · rintro ⟨vs', hvs', hw⟩
                rw [hvs'.det (q6 hall env), hap] at hw
                cases hw
                have := Den.const (G := graphOf (st1.heap ++ [⟨.const, [], v, fun _ => none⟩])) (P := P)
                  (env := env) l1
                rw [l3] at this; exact this
              · intro hd
                have := Den.const (G := graphOf (st1.heap ++ [⟨.const, [], v, fun _ => none⟩])) (P := P)
                  (env := env) l1
                rw [l3] at this
                rw [hd.det this]
                exact ⟨vs, q6 hall env, hap⟩
            have hlt : st1.heap.length < (st1.heap ++ [(⟨.const, [], v, fun _ => none⟩ : NodeRec V)]).length := by
              simp
            refine ⟨⟨hIe.ext, hIe.closed, ?_, hIe.rn⟩, ⟨e1 ++ [⟨.const, [], v, fun _ => none⟩], by simp [q2]⟩, hlt,
              hsame, fun _ => l1, ?_, by simp⟩
            · intro x c hx hxc
              rcases ins_spec hxc with hxc | ⟨hxk, rfl⟩
              · exact hIe.rc x c hx hxc
              · split at hxk
                · -- the key is the new node, never an original one
                  exfalso; rw [hxk, he2] at hx; simp at hx; omega
                · subst hxk; exact ⟨hlt, l1, hsame⟩
            · exact folded_leaf (.inr l1)
        | false =>
          simp only [hall, Bool.false_eq_true, if_false] at h
          obtain ⟨w, hw1, hw2⟩ := q7 hall
          by_cases hcs : cs = r.inputs
          · simp only [hcs, if_true, R.ok.injEq] at h
            subst h
            have hsame : SameDen P h0 n st1.heap n := by rw [he2]; exact sameDen_extend hc0 hn
            have hnn : Folded st1.heap n := by
              intro m hm hp' hcn'
              rcases needs_root_cases hm with rfl | ⟨c, hcm, hcN⟩
              · rw [m2]; exact ⟨w, hcs ▸ hw1, hw2⟩
              · rw [m2] at hcm
                exact q5 c (hcs ▸ hcm) m hcN hp' hcn'
            refine ⟨⟨q1.ext, q1.closed, q1.rc, ?_⟩, ⟨e1, q2⟩, hn1, hsame, by simp, hnn,
              fun _ => by rw [m1]; exact hcn⟩
            intro x c hx hxc
            rcases ins_spec hxc with hxc | ⟨rfl, rfl⟩
            · exact q1.rn x c hx hxc
            · exact ⟨hn1, hsame, hnn, by rw [m1]; exact hcn⟩
          · simp only [hcs, if_false, R.ok.injEq] at h
            subst h
            have hclN : Closed (st1.heap ++ [{ r with inputs := cs }]) := closed_append hcl1 q3
            have hIe := finv_extend q1 _ hclN
            obtain ⟨l1, l2, l3, l4⟩ := graphOf_last st1.heap { r with inputs := cs }
            have hsame := sameDen_copy (P := P) hr0 hp hcn hcl1 q3 q4
            have hlt : st1.heap.length < (st1.heap ++ [{ r with inputs := cs }]).length := by simp
            have hnn : Folded (st1.heap ++ [{ r with inputs := cs }]) st1.heap.length := by
              intro m hm hp' hcn'
              rcases needs_root_cases hm with rfl | ⟨c, hcm, hcN⟩
              · rw [l2]; exact ⟨w, hw1, by rw [(graphOf_append _ _ w (q3 w hw1)).1]; exact hw2⟩
              · rw [l2] at hcm
                exact folded_extend hcl1 (q3 c hcm) (q5 c hcm) m hcN hp' hcn'
            refine ⟨⟨hIe.ext, hIe.closed, hIe.rc, ?_⟩, ⟨e1 ++ [{ r with inputs := cs }], by simp [q2]⟩, hlt, hsame,
              by simp, hnn, fun _ => by rw [l1]; exact hcn⟩
            intro x c hx hxc
            rcases ins_spec hxc with hxc | ⟨hxk, rfl⟩
            · exact hIe.rn x c hx hxc
            · split at hxk
              · exfalso; rw [hxk, he2] at hx; simp at hx; omega
              · subst hxk; exact ⟨hlt, hsame, hnn, by rw [l1]; exact hcn⟩
    cases hk : r.kind with
    | «variable» => rw [hk] at h; simp at h
    | const =>
      rw [hk] at h
      simp only [R.ok.injEq] at h
      subst h
      refine ⟨⟨hI.ext, hI.closed, ?_, hI.rn⟩, ⟨[], by simp⟩, hnl, hself, fun _ => by rw [k1, hk],
        folded_leaf (.inr (by rw [k1, hk])), by simp⟩
      intro x c hx hxc
      rcases ins_spec hxc with hxc | ⟨rfl, rfl⟩
      · exact hI.rc x c hx hxc
      · exact ⟨hnl, by rw [k1, hk], hself⟩
    | param =>
      rw [hk] at h
      simp only [R.ok.injEq] at h
      subst h
      refine ⟨⟨hI.ext, hI.closed, hI.rc, ?_⟩, ⟨[], by simp⟩, hnl, hself, by simp,
        folded_leaf (.inl (by rw [k1, hk])), fun _ => by rw [k1, hk]; simp⟩
      intro x c hx hxc
      rcases ins_spec hxc with hxc | ⟨rfl, rfl⟩
      · exact hI.rn x c hx hxc
      · exact ⟨hnl, hself, folded_leaf (.inl (by rw [k1, hk])), by rw [k1, hk]; simp⟩
    | field j => rw [hk] at h; exact main (by simp [hk]) (by simp [hk]) h
    | pack => rw [hk] at h; exact main (by simp [hk]) (by simp [hk]) h
    | oper => rw [hk] at h; exact main (by simp [hk]) (by simp [hk]) h

end Verif.Compiler
