import Verif.Module.Fusion
import Verif.Module.LoadLemmas
import Verif.Compiler.HeapLemmas
/-! Helper lemmas for C39. -/
namespace Verif.Module.Fusion
open Verif.Runtime Verif.Compiler Verif.Module
variable {V : Type} [Inhabited V]

/-- **Specification**: `m` is `n` or one of its (transitive) inputs -/
inductive Under (G : Graph Nat V) : Nat → Nat → Prop where
  | refl (n) : Under G n n
  | step {n k m} (h : k ∈ G.inputs n) (h' : Under G k m) : Under G n m

theorem ins_none {f : Nat → Option Nat} {k v : Nat} (h : f k = none) (n : Nat) :
    ins f k v n = if n = k then some v else f n := by
  unfold ins; rw [h]

theorem ins_mono {f : Nat → Option Nat} {k v n c : Nat} (h : f n = some c) : ins f k v n = some c := by
  unfold ins
  cases hk : f k with
  | some x => exact h
  | none =>
    simp only []
    split
    · rename_i e; subst e; rw [hk] at h; cases h
    · exact h

theorem ins_other {f : Nat → Option Nat} {k v n : Nat} (h : n ≠ k) : ins f k v n = f n := by
  unfold ins
  cases hk : f k with
  | some x => rfl
  | none => simp [h]

/-- `c` is a plain clone of the source node `n` -/
def CloneOf (h0 : Arena V) (st : ZSt V) (n c : Nat) : Prop :=
  ∃ r cs, h0[n]? = some r ∧ st.heap[c]? = some { r with inputs := cs } ∧ r.inputs.map st.ready = cs.map some

/-- `c` is the copy node put in place of `n` -/
def CopyOf (h0 : Arena V) (w : List (Nat × Nat)) (st : ZSt V) (n c : Nat) : Prop :=
  ∃ m d, (n, m) ∈ w ∧ m < h0.length ∧ st.heap[c]? = some (copyNode d) ∧ st.ready m = some d

structure Inv (h0 : Arena V) (w : List (Nat × Nat)) (st : ZSt V) : Prop where
  pre : ∃ t, st.heap = h0 ++ t
  ent : ∀ n, n < h0.length → ∀ c, st.ready n = some c → h0.length ≤ c ∧ c < st.heap.length ∧
    ((n ∉ w.map Prod.fst ∧ CloneOf h0 st n c) ∨ CopyOf h0 w st n c)
  inj : ∀ n m c, n < h0.length → m < h0.length → st.ready n = some c → st.ready m = some c → n = m

/-- `st'` extends `st` -/
def Ext (st st' : ZSt V) : Prop :=
  (∃ t, st'.heap = st.heap ++ t) ∧ ∀ n c, st.ready n = some c → st'.ready n = some c

theorem Ext.refl (st : ZSt V) : Ext st st := ⟨⟨[], by simp⟩, fun _ _ h => h⟩
theorem Ext.trans {a b c : ZSt V} (h : Ext a b) (h' : Ext b c) : Ext a c := by
  obtain ⟨⟨t, e⟩, r⟩ := h
  obtain ⟨⟨t', e'⟩, r'⟩ := h'
  exact ⟨⟨t ++ t', by rw [e', e, List.append_assoc]⟩, fun n c hn => r' n c (r n c hn)⟩

theorem ext_get {st st' : ZSt V} (h : Ext st st') {c : Nat} {r : NodeRec V} (hc : st.heap[c]? = some r) :
    st'.heap[c]? = some r := by
  obtain ⟨⟨t, e⟩, _⟩ := h
  rw [e, List.getElem?_append_left]
  · exact hc
  · exact (List.getElem?_eq_some_iff.1 hc).1

theorem map_ready_mono {f g : Nat → Option Nat} (h : ∀ n c, f n = some c → g n = some c) :
    ∀ (l cs : List Nat), l.map f = cs.map some → l.map g = cs.map some := by
  intro l
  induction l with
  | nil => intro cs hcs; simpa using hcs
  | cons x l ih =>
    intro cs hcs
    cases cs with
    | nil => simp at hcs
    | cons c cs =>
      simp only [List.map_cons, List.cons.injEq] at hcs ⊢
      exact ⟨h x c hcs.1, ih cs hcs.2⟩

theorem cloneOf_ext {h0 : Arena V} {st st' : ZSt V} (h : Ext st st') {n c : Nat} (hc : CloneOf h0 st n c) :
    CloneOf h0 st' n c := by
  obtain ⟨r, cs, h1, h2, h3⟩ := hc
  exact ⟨r, cs, h1, ext_get h h2, map_ready_mono h.2 _ _ h3⟩

theorem copyOf_ext {h0 : Arena V} {w} {st st' : ZSt V} (h : Ext st st') {n c : Nat} (hc : CopyOf h0 w st n c) :
    CopyOf h0 w st' n c := by
  obtain ⟨m, d, h1, h2, h3, h4⟩ := hc
  exact ⟨m, d, h1, h2, ext_get h h3, h.2 _ _ h4⟩

/-- adding a fresh node that stands for the not yet ready `n` -/
theorem push_inv {h0 : Arena V} {w : List (Nat × Nat)} {st : ZSt V} (hI : Inv h0 w st) (n : Nat) (r : NodeRec V)
    (hn : n < h0.length) (hr : st.ready n = none)
    (ho : ∀ st', Ext st st' → st'.heap[st.heap.length]? = some r →
      (n ∉ w.map Prod.fst ∧ CloneOf h0 st' n st.heap.length) ∨ CopyOf h0 w st' n st.heap.length) :
    let st' : ZSt V := ⟨st.heap ++ [r], ins (ins st.ready n st.heap.length) st.heap.length st.heap.length⟩
    Inv h0 w st' ∧ Ext st st' ∧ st'.ready n = some st.heap.length ∧
      ∀ m, m < h0.length → m ≠ n → st'.ready m = st.ready m := by
  intro st'
  obtain ⟨t, ht⟩ := hI.pre
  have hlen : h0.length ≤ st.heap.length := by rw [ht]; simp
  have hE : Ext st st' := ⟨⟨[r], rfl⟩, fun m c hm => ins_mono (ins_mono hm)⟩
  have hget : st'.heap[st.heap.length]? = some r := by simp [st']
  have hself : st'.ready n = some st.heap.length := by
    refine ins_mono ?_
    rw [ins_none hr]; simp
  have hoth : ∀ m, m < h0.length → m ≠ n → st'.ready m = st.ready m := by
    intro m hm hmn
    show ins _ _ _ m = _
    rw [ins_other (by omega), ins_other hmn]
  refine ⟨⟨⟨t ++ [r], by simp [st', ht]⟩, ?_, ?_⟩, hE, hself, hoth⟩
  · intro m hm c hc
    by_cases e : m = n
    · subst e
      rw [hself] at hc
      cases hc
      exact ⟨hlen, by simp [st'], ho st' hE hget⟩
    · rw [hoth m hm e] at hc
      obtain ⟨a, b, d⟩ := hI.ent m hm c hc
      refine ⟨a, by simp [st']; omega, ?_⟩
      rcases d with ⟨d1, d2⟩ | d
      · exact Or.inl ⟨d1, cloneOf_ext hE d2⟩
      · exact Or.inr (copyOf_ext hE d)
  · intro a b c ha hb hac hbc
    by_cases ea : a = n <;> by_cases eb : b = n
    · omega
    · subst ea
      rw [hself] at hac; cases hac
      rw [hoth b hb eb] at hbc
      have := (hI.ent b hb _ hbc).2.1
      omega
    · subst eb
      rw [hself] at hbc; cases hbc
      rw [hoth a ha ea] at hac
      have := (hI.ent a ha _ hac).2.1
      omega
    · rw [hoth a ha ea] at hac
      rw [hoth b hb eb] at hbc
      exact hI.inj a b c ha hb hac hbc

/-- what cloning `n` does -/
structure CPost (h0 : Arena V) (w : List (Nat × Nat)) (st : ZSt V) (n : Nat) (st' : ZSt V) (c : Nat) : Prop where
  inv : Inv h0 w st'
  ext : Ext st st'
  rdy : st'.ready n = some c
  dom : ∀ m, m < h0.length → st'.ready m ≠ none → st.ready m ≠ none ∨ Under (graphOf h0) n m

/-- what cloning a list does -/
structure LPost (h0 : Arena V) (w : List (Nat × Nat)) (st : ZSt V) (ns : List Nat) (st' : ZSt V) (cs : List Nat) : Prop where
  inv : Inv h0 w st'
  ext : Ext st st'
  rdy : ns.map st'.ready = cs.map some
  dom : ∀ m, m < h0.length → st'.ready m ≠ none → st.ready m ≠ none ∨ ∃ n ∈ ns, Under (graphOf h0) n m

theorem list_post {h0 : Arena V} {w : List (Nat × Nat)} (recur : ZSt V → Nat → R (ZSt V × Nat)) :
    ∀ (ns : List Nat) (st : ZSt V),
    (∀ n ∈ ns, ∀ st st' c, Inv h0 w st → (∀ m, Under (graphOf h0) n m → st.ready m = none → m ∉ w.map Prod.fst) →
      recur st n = .ok (st', c) → CPost h0 w st n st' c) →
    Inv h0 w st → (∀ n ∈ ns, ∀ m, Under (graphOf h0) n m → st.ready m = none → m ∉ w.map Prod.fst) →
    ∀ st' cs, zipInputs recur st ns = .ok (st', cs) → LPost h0 w st ns st' cs := by
  intro ns
  induction ns with
  | nil =>
    intro st _ hI _ st' cs h
    simp only [zipInputs, R.ok.injEq, Prod.mk.injEq] at h
    obtain ⟨rfl, rfl⟩ := h
    exact ⟨hI, Ext.refl _, rfl, fun m _ h => Or.inl h⟩
  | cons x ns ih =>
    intro st hrec hI hw st' cs h
    simp only [zipInputs] at h
    cases hx : recur st x with
    | err => rw [hx] at h; cases h
    | fuel => rw [hx] at h; cases h
    | ok p =>
      obtain ⟨st1, c⟩ := p
      rw [hx] at h
      simp only [R.bind] at h
      cases hz : zipInputs recur st1 ns with
      | err => rw [hz] at h; cases h
      | fuel => rw [hz] at h; cases h
      | ok q =>
        obtain ⟨st2, cs2⟩ := q
        rw [hz] at h
        simp only [R.ok.injEq, Prod.mk.injEq] at h
        obtain ⟨rfl, rfl⟩ := h
        have h1 := hrec x (by simp) st st1 c hI (hw x (by simp)) hx
        have h2 := ih st1 (fun n hn => hrec n (by simp [hn])) h1.inv (by
          intro n hn m hm hr
          refine hw n (by simp [hn]) m hm ?_
          cases e : st.ready m with
          | none => rfl
          | some c' => rw [h1.ext.2 m c' e] at hr; cases hr) st2 cs2 hz
        refine ⟨h2.inv, h1.ext.trans h2.ext, ?_, ?_⟩
        · simp only [List.map_cons, List.cons.injEq]
          exact ⟨h2.ext.2 _ _ h1.rdy, h2.rdy⟩
        · intro m hm hr
          rcases h2.dom m hm hr with h | ⟨n, hn, hu⟩
          · rcases h1.dom m hm h with h | h
            · exact Or.inl h
            · exact Or.inr ⟨x, by simp, h⟩
          · exact Or.inr ⟨n, by simp [hn], hu⟩

theorem under_rank {G : Graph Nat V} {rank : Nat → Nat} (hR : Ranked G rank) {n m : Nat} (h : Under G n m) :
    rank m ≤ rank n := by
  induction h with
  | refl => exact Nat.le_refl _
  | step h _ ih => exact Nat.le_trans ih (Nat.le_of_lt (hR _ _ h))

theorem inv_get {h0 : Arena V} {w} {st : ZSt V} (hI : Inv h0 w st) {n : Nat} (hn : n < h0.length) :
    st.heap[n]? = h0[n]? := by
  obtain ⟨t, ht⟩ := hI.pre
  rw [ht, List.getElem?_append_left hn]

theorem clone_post {h0 : Arena V} {rank : Nat → Nat} (hR : Ranked (graphOf h0) rank) (hcl : Closed h0)
    {w : List (Nat × Nat)} : ∀ (fuel n : Nat), n < h0.length → ∀ st st' c, Inv h0 w st →
    (∀ m, Under (graphOf h0) n m → st.ready m = none → m ∉ w.map Prod.fst) →
    cloneNode fuel st n = .ok (st', c) → CPost h0 w st n st' c := by
  intro fuel
  induction fuel with
  | zero => intro n hn st st' c _ _ h; cases h
  | succ k ih =>
    intro n hn st st' c hI hw h
    simp only [cloneNode] at h
    cases hr : st.ready n with
    | some c' =>
      rw [hr] at h
      simp only [R.ok.injEq, Prod.mk.injEq] at h
      obtain ⟨rfl, rfl⟩ := h
      exact ⟨hI, Ext.refl _, hr, fun m _ h => Or.inl h⟩
    | none =>
      rw [hr] at h
      simp only [] at h
      rw [inv_get hI hn] at h
      have hr0 : h0[n]? = some h0[n] := List.getElem?_eq_getElem hn
      rw [hr0] at h
      simp only [] at h
      have hin : (graphOf h0).inputs n = h0[n].inputs := (graphOf_get hr0).2.1
      cases hz : zipInputs (cloneNode k) st h0[n].inputs with
      | err => rw [hz] at h; cases h
      | fuel => rw [hz] at h; cases h
      | ok q =>
        obtain ⟨st1, cs⟩ := q
        rw [hz] at h
        simp only [R.bind, R.ok.injEq, Prod.mk.injEq] at h
        obtain ⟨rfl, rfl⟩ := h
        have hL := list_post (h0 := h0) (w := w) (cloneNode k) h0[n].inputs st
          (fun m hm st st' c => ih m (hcl n _ hr0 m hm) st st' c) hI
          (fun m hm x hx => hw x (.step (by rw [hin]; exact hm) hx)) st1 cs hz
        have hn1 : st1.ready n = none := by
          cases e : st1.ready n with
          | none => rfl
          | some x =>
            rcases hL.dom n hn (by rw [e]; simp) with h | ⟨m, hm, hu⟩
            · exact absurd hr h
            · have a := under_rank hR hu
              have b := hR n m (by rw [hin]; exact hm)
              omega
        obtain ⟨hI', hE', hs', ho'⟩ := push_inv hL.inv n { h0[n] with inputs := cs } hn hn1 (by
          intro st2 hE2 hg2
          exact Or.inl ⟨hw n (.refl n) hr, h0[n], cs, hr0, hg2, map_ready_mono hE2.2 _ _ hL.rdy⟩)
        refine ⟨hI', hL.ext.trans hE', hs', ?_⟩
        intro m hm hmr
        by_cases e : m = n
        · subst e; exact Or.inr (.refl _)
        · rw [ho' m hm e] at hmr
          rcases hL.dom m hm hmr with h | ⟨x, hx, hu⟩
          · exact Or.inl h
          · exact Or.inr (.step (by rw [hin]; exact hx) hu)

/-- cloning succeeds with enough fuel -/
theorem clone_total {h0 : Arena V} {rank : Nat → Nat} (hR : Ranked (graphOf h0) rank) (hcl : Closed h0)
    {w : List (Nat × Nat)} : ∀ (fuel n : Nat), n < h0.length → rank n < fuel → ∀ st, Inv h0 w st →
    (∀ m, Under (graphOf h0) n m → st.ready m = none → m ∉ w.map Prod.fst) →
    ∃ p, cloneNode fuel st n = .ok p := by
  intro fuel
  induction fuel with
  | zero => intro n _ h; omega
  | succ k ih =>
    intro n hn hf st hI hw
    simp only [cloneNode]
    cases hr : st.ready n with
    | some c' => exact ⟨_, rfl⟩
    | none =>
      simp only []
      have hr0 : h0[n]? = some h0[n] := List.getElem?_eq_getElem hn
      rw [inv_get hI hn, hr0]
      simp only []
      have hin : (graphOf h0).inputs n = h0[n].inputs := (graphOf_get hr0).2.1
      have key : ∀ (l : List Nat), (∀ m ∈ l, m ∈ h0[n].inputs) → ∀ st, Inv h0 w st →
          (∀ m, Under (graphOf h0) n m → st.ready m = none → m ∉ w.map Prod.fst) →
          ∃ p, zipInputs (cloneNode k) st l = .ok p := by
        intro l
        induction l with
        | nil => intro _ st _ _; exact ⟨_, rfl⟩
        | cons x l ihl =>
          intro hl st hI hw
          have hx := hl x (by simp)
          have hu : ∀ m, Under (graphOf h0) x m → st.ready m = none → m ∉ w.map Prod.fst :=
            fun m hm => hw m (.step (by rw [hin]; exact hx) hm)
          obtain ⟨⟨st1, c⟩, e1⟩ := ih x (hcl n _ hr0 x hx) (by have := hR n x (by rw [hin]; exact hx); omega) st hI hu
          have h1 := clone_post hR hcl k x (hcl n _ hr0 x hx) st st1 c hI hu e1
          obtain ⟨⟨st2, cs⟩, e2⟩ := ihl (fun m hm => hl m (by simp [hm])) st1 h1.inv (by
            intro m hm hr
            refine hw m hm ?_
            cases e : st.ready m with
            | none => rfl
            | some c' => rw [h1.ext.2 m c' e] at hr; cases hr)
          exact ⟨(st2, c :: cs), by simp [zipInputs, e1, e2, R.bind]⟩
      obtain ⟨⟨st1, cs⟩, e⟩ := key _ (fun _ h => h) st hI hw
      rw [e]
      exact ⟨_, rfl⟩

/-! ## Meaning -/

/-- **Specification**: the value `v` of node `n` in a system of modules in which every pair `(a, b)` of `w` makes
the input `a` take the value of `b`, and the other parameters take theirs from `env`. -/
inductive Wired (G : Graph Nat V) (P : PackOps V) (w : List (Nat × Nat)) (env : Nat → Option V) : Nat → V → Prop where
  | wire {n m v} (h : (n, m) ∈ w) (hv : Wired G P w env m v) : Wired G P w env n v
  | param {n v} (hn : n ∉ w.map Prod.fst) (hk : G.kind n = .param) (he : env n = some v) : Wired G P w env n v
  | const {n} (hn : n ∉ w.map Prod.fst) (hk : G.kind n = .const) : Wired G P w env n (G.value n)
  | node {n vs v} (hn : n ∉ w.map Prod.fst) (hlen : vs.length = (G.inputs n).length)
      (hin : ∀ i (h1 : i < (G.inputs n).length) (h2 : i < vs.length), Wired G P w env ((G.inputs n)[i]) (vs[i]))
      (hap : G.apply P n vs = some v) : Wired G P w env n v

theorem map_get {f : Nat → Option Nat} {l cs : List Nat} (h : l.map f = cs.map some) {i : Nat} (h1 : i < l.length)
    (h2 : i < cs.length) : f l[i] = some cs[i] := by
  have : (l.map f)[i]? = (cs.map some)[i]? := by rw [h]
  simpa [List.getElem?_map, h1, h2] using this

theorem needs_step {G : Graph Nat V} {c x y : Nat} (hp : G.kind c ≠ .param) (hc : G.kind c ≠ .const) (hx : x ∈ G.inputs c)
    (h : Needs G [x] y) : Needs G [c] y := by
  induction h with
  | root h =>
    simp only [List.mem_singleton] at h
    subst h
    exact .input (.root (by simp)) hp hc hx
  | input _ hp hc hi ih => exact .input ih hp hc hi

theorem copy_apply {h : Arena V} {P : PackOps V} {c d : Nat} {vs : List V} {v : V} (hc : h[c]? = some (copyNode d)) :
    (graphOf h).apply P c vs = some v ↔ vs = [v] := by
  simp only [Graph.apply, (graphOf_get hc).1, (graphOf_get hc).2.2.2, copyNode]
  match vs with
  | [] => simp
  | [x] => simp
  | x :: y :: z => simp

theorem clone_apply {h0 h : Arena V} {P : PackOps V} {n c : Nat} {r : NodeRec V} {cs : List Nat} (hn : h0[n]? = some r)
    (hc : h[c]? = some { r with inputs := cs }) (vs : List V) :
    (graphOf h).apply P c vs = (graphOf h0).apply P n vs := by
  simp only [Graph.apply, (graphOf_get hc).1, (graphOf_get hc).2.2.2, (graphOf_get hn).1, (graphOf_get hn).2.2.2]

theorem den_wired {h0 : Arena V} (hcl : Closed h0) {w : List (Nat × Nat)} {st : ZSt V} (hI : Inv h0 w st) (P : PackOps V)
    {env env' : Nat → Option V}
    {c : Nat} {v : V} (hd : Den (graphOf st.heap) P env' c v) :
    (∀ n, n < h0.length → (graphOf h0).kind n = .param → ∀ c', st.ready n = some c' → n ∉ w.map Prod.fst →
      Needs (graphOf st.heap) [c] c' → env' c' = env n) →
    ∀ n, n < h0.length → st.ready n = some c → Wired (graphOf h0) P w env n v := by
  induction hd with
  | @param c v hk he =>
    intro henv n hn hr
    rcases (hI.ent n hn c hr).2.2 with ⟨hw, r, cs, h1, h2, h3⟩ | ⟨m, d, h1, hm, h2, h3⟩
    · have k1 : (graphOf h0).kind n = .param := by
        rw [(graphOf_get h1).1]; rw [(graphOf_get h2).1] at hk; exact hk
      exact .param hw k1 (by rw [← henv n hn k1 c hr hw (.root (by simp))]; exact he)
    · rw [(graphOf_get h2).1] at hk; cases hk
  | @const c hk =>
    intro henv n hn hr
    rcases (hI.ent n hn c hr).2.2 with ⟨hw, r, cs, h1, h2, h3⟩ | ⟨m, d, h1, hm, h2, h3⟩
    · have k1 : (graphOf h0).kind n = .const := by
        rw [(graphOf_get h1).1]; rw [(graphOf_get h2).1] at hk; exact hk
      have : (graphOf st.heap).value c = (graphOf h0).value n := by
        rw [(graphOf_get h1).2.2.1, (graphOf_get h2).2.2.1]
      rw [this]
      exact .const hw k1
    · rw [(graphOf_get h2).1] at hk; cases hk
  | @node c vs v hlen hin hap ih =>
    intro henv n hn hr
    have hkp : (graphOf st.heap).kind c ≠ .param := by
      intro h; simp [Graph.apply, h] at hap
    have hkc : (graphOf st.heap).kind c ≠ .const := by
      intro h; simp [Graph.apply, h] at hap
    have ih' : ∀ i (h1 : i < ((graphOf st.heap).inputs c).length) (h2 : i < vs.length), ∀ n, n < h0.length →
        st.ready n = some (((graphOf st.heap).inputs c)[i]) → Wired (graphOf h0) P w env n vs[i] := by
      intro i h1 h2
      exact ih i h1 h2 (fun n hn k c' hc' hw hne => henv n hn k c' hc' hw (needs_step hkp hkc (List.getElem_mem h1) hne))
    rcases (hI.ent n hn c hr).2.2 with ⟨hw, r, cs, h1, h2, h3⟩ | ⟨m, d, h1, hm, h2, h3⟩
    · have hi0 : (graphOf h0).inputs n = r.inputs := (graphOf_get h1).2.1
      have hi1 : (graphOf st.heap).inputs c = cs := (graphOf_get h2).2.1
      have hl : r.inputs.length = cs.length := by simpa using congrArg List.length h3
      refine .node hw (by rw [hlen, hi1, hi0, hl]) ?_ (by rw [← clone_apply h1 h2]; exact hap)
      intro i a b
      have a' : i < r.inputs.length := by rw [← hi0]; exact a
      have b' : i < ((graphOf st.heap).inputs c).length := by rw [hi1, ← hl]; exact a'
      have e1 : ((graphOf h0).inputs n)[i] = r.inputs[i] := by simp only [hi0]
      rw [e1]
      refine ih' i b' b _ (hcl n r h1 _ (List.getElem_mem a')) ?_
      have := map_get h3 a' (by omega)
      rw [this]
      simp only [hi1]
    · rw [copy_apply h2] at hap
      subst hap
      have hi1 : (graphOf st.heap).inputs c = [d] := (graphOf_get h2).2.1
      refine .wire h1 (ih' 0 (by simp [hi1]) (by simp) m hm ?_)
      rw [h3]; simp only [hi1]; rfl

theorem wired_den {h0 : Arena V} (hcl : Closed h0) {w : List (Nat × Nat)} (hu : (w.map Prod.fst).Nodup) {st : ZSt V}
    (hI : Inv h0 w st) (P : PackOps V) {env env' : Nat → Option V}
    {n : Nat} {v : V} (hd : Wired (graphOf h0) P w env n v) :
    n < h0.length → ∀ c, st.ready n = some c →
    (∀ n, n < h0.length → (graphOf h0).kind n = .param → ∀ c', st.ready n = some c' → n ∉ w.map Prod.fst →
      Needs (graphOf st.heap) [c] c' → env' c' = env n) →
    Den (graphOf st.heap) P env' c v := by
  have uniq : ∀ (w : List (Nat × Nat)), (w.map Prod.fst).Nodup → ∀ n m m', (n, m) ∈ w → (n, m') ∈ w → m = m' := by
    intro w hu n m m' h h'
    induction w with
    | nil => cases h
    | cons p w ih =>
      simp only [List.map_cons, List.nodup_cons] at hu
      rcases List.mem_cons.1 h with e1 | g <;> rcases List.mem_cons.1 h' with e2 | g'
      · have := e1.trans e2.symm; cases this; rfl
      · exact absurd (List.mem_map.2 ⟨(n, m'), g', by rw [← e1]⟩) hu.1
      · exact absurd (List.mem_map.2 ⟨(n, m), g, by rw [← e2]⟩) hu.1
      · exact ih hu.2 g g'
  induction hd with
  | @wire n m v h hv ih =>
    intro hn c hr henv
    rcases (hI.ent n hn c hr).2.2 with ⟨hw, -⟩ | ⟨m', d, h1, hm, h2, h3⟩
    · exact absurd (List.mem_map.2 ⟨_, h, rfl⟩) hw
    · have := uniq w hu n m m' h h1
      subst this
      have hi : (graphOf st.heap).inputs c = [d] := (graphOf_get h2).2.1
      have hkp : (graphOf st.heap).kind c = .oper := (graphOf_get h2).1
      have hd := ih hm d h3 (fun x hx hk c' hc' hw hne => henv x hx hk c' hc' hw
        (needs_step (by rw [hkp]; simp) (by rw [hkp]; simp) (by rw [hi]; simp) hne))
      exact .node (vs := [v]) (by simp [hi]) (by
        intro i a b
        have : i = 0 := by simp at b; exact b
        subst this
        simp only [hi, List.getElem_cons_zero]
        exact hd) ((copy_apply h2).2 rfl)
  | @param n v hnw hk he =>
    intro hn c hr henv
    rcases (hI.ent n hn c hr).2.2 with ⟨hw, r, cs, h1, h2, h3⟩ | ⟨m', d, h1, -⟩
    · refine .param (by rw [(graphOf_get h2).1, ← (graphOf_get h1).1]; exact hk) ?_
      rw [henv n hn hk c hr hw (.root (by simp))]; exact he
    · exact absurd (List.mem_map.2 ⟨_, h1, rfl⟩) hnw
  | @const n hnw hk =>
    intro hn c hr henv
    rcases (hI.ent n hn c hr).2.2 with ⟨hw, r, cs, h1, h2, h3⟩ | ⟨m', d, h1, -⟩
    · have : (graphOf h0).value n = (graphOf st.heap).value c := by
        rw [(graphOf_get h1).2.2.1, (graphOf_get h2).2.2.1]
      rw [this]
      exact .const (by rw [(graphOf_get h2).1, ← (graphOf_get h1).1]; exact hk)
    · exact absurd (List.mem_map.2 ⟨_, h1, rfl⟩) hnw
  | @node n vs v hnw hlen hin hap ih =>
    intro hn c hr henv
    rcases (hI.ent n hn c hr).2.2 with ⟨hw, r, cs, h1, h2, h3⟩ | ⟨m', d, h1, -⟩
    · have hi0 : (graphOf h0).inputs n = r.inputs := (graphOf_get h1).2.1
      have hi1 : (graphOf st.heap).inputs c = cs := (graphOf_get h2).2.1
      have hl : r.inputs.length = cs.length := by simpa using congrArg List.length h3
      rw [← clone_apply h1 h2] at hap
      have hkp : (graphOf st.heap).kind c ≠ .param := by
        intro h; simp [Graph.apply, h] at hap
      have hkc : (graphOf st.heap).kind c ≠ .const := by
        intro h; simp [Graph.apply, h] at hap
      refine .node (by rw [hlen, hi1, hi0, hl]) ?_ hap
      intro i a b
      have a' : i < r.inputs.length := by rw [hl, ← hi1]; exact a
      have a2 : i < ((graphOf h0).inputs n).length := by rw [hi0]; exact a'
      have e1 : ((graphOf h0).inputs n)[i] = r.inputs[i] := by simp only [hi0]
      have hg : st.ready (((graphOf h0).inputs n)[i]) = some ((graphOf st.heap).inputs c)[i] := by
        rw [e1, map_get h3 a' (by omega)]; simp only [hi1]
      refine ih i a2 b (by rw [e1]; exact hcl n r h1 _ (List.getElem_mem a')) _ hg ?_
      intro x hx hk c' hc' hw' hne
      exact henv x hx hk c' hc' hw' (needs_step hkp hkc (List.getElem_mem a) hne)
    · exact absurd (List.mem_map.2 ⟨_, h1, rfl⟩) hnw

end Verif.Module.Fusion
