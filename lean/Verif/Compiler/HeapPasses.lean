import Verif.Compiler.HeapLemmas
/-! Constant folding of output lists, its termination, and zipping (helpers for C05, C06). -/
namespace Verif.Compiler
open Verif.Runtime
variable {V : Type} [Inhabited V]

theorem foldRoots_post {P : PackOps V} {h0 : Arena V} (hc0 : Closed h0) (fuel : Nat) (ns : List Nat)
    (hns : ∀ n ∈ ns, n < h0.length) (st : FSt V) (hI : FInv P h0 st) (st' : FSt V) (cs : List Nat)
    (h : foldRoots fuel st ns = .ok (st', cs)) :
    FInv P h0 st' ∧ (∃ e, st'.heap = st.heap ++ e) ∧ (∀ c ∈ cs, c < st'.heap.length) ∧
    SameRow P h0 ns st'.heap cs ∧ ∀ c ∈ cs, Folded st'.heap c := by
  induction ns generalizing st st' cs with
  | nil =>
    simp [foldRoots] at h
    obtain ⟨rfl, rfl⟩ := h
    exact ⟨hI, ⟨[], by simp⟩, by simp, ⟨rfl, by simp⟩, by simp⟩
  | cons n ns ih =>
    simp only [foldRoots] at h
    cases hr : foldNode fuel true st n with
    | err => rw [hr] at h; simp [R.bind] at h
    | fuel => rw [hr] at h; simp [R.bind] at h
    | ok res1 =>
      obtain ⟨st1, c, isC⟩ := res1
      rw [hr] at h
      simp only [R.bind] at h
      cases hr2 : foldRoots fuel st1 ns with
      | err => rw [hr2] at h; simp [R.bind] at h
      | fuel => rw [hr2] at h; simp [R.bind] at h
      | ok res2 =>
        obtain ⟨st2, cs2⟩ := res2
        rw [hr2] at h
        simp only [R.ok.injEq, Prod.mk.injEq] at h
        obtain ⟨rfl, rfl⟩ := h
        obtain ⟨p1, ⟨e1, p2⟩, p3, p4, -, p6, -⟩ := foldNode_post hc0 fuel true st n _ hI (hns n (by simp)) hr
        simp only at p1 p2 p3 p4 p6
        obtain ⟨q1, ⟨e2, q2⟩, q3, q4, q5⟩ := ih (fun k hk => hns k (by simp [hk])) st1 p1 st2 cs2 hr2
        have hcl1 := p1.closed
        refine ⟨q1, ⟨e1 ++ e2, by rw [q2, p2]; simp⟩, ?_, ?_, ?_⟩
        · intro k hk
          simp at hk
          rcases hk with rfl | hk
          · rw [q2]; simp; omega
          · exact q3 k hk
        · refine ⟨by simp [q4.1], ?_⟩
          intro j h1 h2
          cases j with
          | zero =>
            simp only [List.getElem_cons_zero]
            rw [q2]; exact p4.trans (sameDen_extend hcl1 p3)
          | succ j =>
            simp only [List.getElem_cons_succ]
            exact q4.2 j _ _
        · intro k hk
          simp at hk
          rcases hk with rfl | hk
          · rw [q2]; exact folded_extend hcl1 p3 p6
          · exact q5 k hk

/-! ### termination of folding -/

theorem foldInputs_fuel {P : PackOps V} {h0 : Arena V} (recur : FSt V → Nat → R (FSt V × Nat × Bool))
    (is : List Nat) (his : ∀ i ∈ is, i < h0.length)
    (hpost : ∀ st n res, FInv P h0 st → n < h0.length → recur st n = .ok res → FoldPost P h0 st n res)
    (hrec : ∀ st n, FInv P h0 st → n ∈ is → recur st n ≠ .fuel)
    (st : FSt V) (hI : FInv P h0 st) : foldInputs recur st is ≠ .fuel := by
  induction is generalizing st with
  | nil => simp [foldInputs]
  | cons i is ih =>
    simp only [foldInputs]
    cases hr : recur st i with
    | err => simp [R.bind]
    | fuel => exact absurd hr (hrec st i hI (by simp))
    | ok res1 =>
      obtain ⟨st1, c, isC⟩ := res1
      simp only [R.bind]
      have := ih (fun k hk => his k (by simp [hk])) (fun st n hI hn => hrec st n hI (by simp [hn])) st1
        (hpost st i _ hI (his i (by simp)) hr).1
      cases hr2 : foldInputs recur st1 is with
      | err => simp [R.bind]
      | fuel => exact absurd hr2 this
      | ok res2 => simp [R.bind]

theorem foldNode_fuel {P : PackOps V} {h0 : Arena V} (hc0 : Closed h0) {rank : Nat → Nat}
    (hR : Ranked (graphOf h0) rank) (fuel : Nat) :
    ∀ (root : Bool) (st : FSt V) (n : Nat), FInv P h0 st → n < h0.length → rank n < fuel →
      foldNode fuel root st n ≠ .fuel := by
  induction fuel with
  | zero => intro root st n _ _ h; omega
  | succ k ih =>
    intro root st n hI hn hrk
    simp only [foldNode]
    cases hrn : st.rn n with
    | some c => simp
    | none =>
    simp only
    cases hrc : st.rc n with
    | some c => simp
    | none =>
    simp only
    obtain ⟨e0, he0⟩ := hI.ext
    obtain ⟨r, hr0⟩ : ∃ r, h0[n]? = some r := ⟨_, List.getElem?_eq_getElem hn⟩
    have hr : st.heap[n]? = some r := by rw [he0, List.getElem?_append_left hn]; exact hr0
    simp only [hr]
    have hin : ∀ i ∈ r.inputs, i < h0.length := fun i hi => hc0 n r hr0 i hi
    have main : (foldInputs (foldNode k false) st r.inputs).bind (foldFinish root n r) ≠ .fuel := by
      have := foldInputs_fuel (foldNode k false) r.inputs hin (fun st n res => foldNode_post hc0 k false st n res)
        (fun st i hI hi => ih false st i hI (hin i hi) (by
          have := hR n i (by rw [(graphOf_get hr0).2.1]; exact hi)
          omega)) st hI
      cases hf : foldInputs (foldNode k false) st r.inputs with
      | fuel => exact absurd hf this
      | err => simp [R.bind]
      | ok res =>
        obtain ⟨st1, cs, vs, allC⟩ := res
        simp only [R.bind, foldFinish]
        split
        · split <;> simp
        · split <;> simp
    split <;> first | exact main | simp

theorem foldRoots_fuel {P : PackOps V} {h0 : Arena V} (hc0 : Closed h0) {rank : Nat → Nat}
    (hR : Ranked (graphOf h0) rank) (fuel : Nat) (ns : List Nat) (hns : ∀ n ∈ ns, n < h0.length)
    (hf : ∀ n ∈ ns, rank n < fuel) (st : FSt V) (hI : FInv P h0 st) :
    foldRoots fuel st ns ≠ .fuel := by
  induction ns generalizing st with
  | nil => simp [foldRoots]
  | cons n ns ih =>
    simp only [foldRoots]
    cases hr : foldNode fuel true st n with
    | err => simp [R.bind]
    | fuel => exact absurd hr (foldNode_fuel hc0 hR fuel true st n hI (hns n (by simp)) (hf n (by simp)))
    | ok res1 =>
      obtain ⟨st1, c, isC⟩ := res1
      simp only [R.bind]
      have := ih (fun k hk => hns k (by simp [hk])) (fun k hk => hf k (by simp [hk])) st1
        (foldNode_post hc0 fuel true st n _ hI (hns n (by simp)) hr).1
      cases hr2 : foldRoots fuel st1 ns with
      | err => simp [R.bind]
      | fuel => exact absurd hr2 this
      | ok res2 => simp [R.bind]

/-! ### zipping -/

/-- Parameter nodes have no inputs -/
def ParamLeaf (h : Arena V) : Prop := ∀ (n : Nat) (r : NodeRec V), h[n]? = some r → r.kind = .param → r.inputs = []

/-- **What is assumed of a rewrite option**: it appends well formed nodes and returns a node that has the
same values as the one it replaces. -/
def OptionOk (P : PackOps V) (o : ZipOption V) : Prop :=
  ∀ h n new z, Closed h → ParamLeaf h → n < h.length → o h n = some (new, z) →
    Closed (h ++ new) ∧ ParamLeaf (h ++ new) ∧ z < (h ++ new).length ∧ SameDen P h n (h ++ new) z

/-- invariant of zipping -/
structure ZInv (P : PackOps V) (h0 : Arena V) (st : ZSt V) : Prop where
  ext : ∃ e, st.heap = h0 ++ e
  closed : Closed st.heap
  leaf : ParamLeaf st.heap
  ready : ∀ n z, st.ready n = some z → n < st.heap.length ∧ z < st.heap.length ∧ SameDen P st.heap n st.heap z

theorem SameDen.symm {P : PackOps V} {h h' : Arena V} {a b : Nat} (h1 : SameDen P h a h' b) :
    SameDen P h' b h a := fun env v => (h1 env v).symm

theorem zinv_extend {P : PackOps V} {h0 : Arena V} {st : ZSt V} (hI : ZInv P h0 st) (e : Arena V)
    (hc : Closed (st.heap ++ e)) (hl : ParamLeaf (st.heap ++ e)) :
    ZInv P h0 { st with heap := st.heap ++ e } := by
  obtain ⟨⟨e0, he⟩, hcl, hlf, hr⟩ := hI
  refine ⟨⟨e0 ++ e, by simp [he]⟩, hc, hl, ?_⟩
  intro n z hn
  obtain ⟨a, b, c⟩ := hr n z hn
  refine ⟨by simp; omega, by simp; omega, ?_⟩
  exact ((sameDen_extend hcl a).symm.trans c).trans (sameDen_extend hcl b)

theorem ins_keep (f : Nat → Option Nat) (k x m w : Nat) (hm : f m = some w) : ins f k x m = some w := by
  unfold ins
  cases hf : f k with
  | some y => simpa using hm
  | none =>
    have : m ≠ k := by rintro rfl; rw [hf] at hm; cases hm
    simp [this, hm]

theorem applyOptions_post {P : PackOps V} (os : List (ZipOption V)) (hos : ∀ o ∈ os, OptionOk P o)
    (h : Arena V) (n : Nat) (hc : Closed h) (hl : ParamLeaf h) (hn : n < h.length) :
    ∃ new z, applyOptions os h n = (h ++ new, z) ∧ Closed (h ++ new) ∧ ParamLeaf (h ++ new) ∧
      z < (h ++ new).length ∧ SameDen P h n (h ++ new) z := by
  induction os with
  | nil => exact ⟨[], n, by simp [applyOptions], by simpa using hc, by simpa using hl, by simpa using hn,
      by simp; exact fun _ _ => Iff.rfl⟩
  | cons o os ih =>
    simp only [applyOptions]
    cases ho : o h n with
    | none => exact ih (fun x hx => hos x (by simp [hx]))
    | some p =>
      obtain ⟨new, z⟩ := p
      exact ⟨new, z, rfl, hos o (by simp) h n new z hc hl hn ho⟩

def ZipPost (P : PackOps V) (h0 : Arena V) (st : ZSt V) (n : Nat) (res : ZSt V × Nat) : Prop :=
  ZInv P h0 res.1 ∧ (∃ e, res.1.heap = st.heap ++ e) ∧ res.2 < res.1.heap.length ∧
  SameDen P st.heap n res.1.heap res.2 ∧ (∀ m z, st.ready m = some z → res.1.ready m = some z)

theorem zipInputs_post {P : PackOps V} {h0 : Arena V} (recur : ZSt V → Nat → R (ZSt V × Nat))
    (hrec : ∀ st n res, ZInv P h0 st → n < st.heap.length → recur st n = .ok res → ZipPost P h0 st n res)
    (is : List Nat) (st : ZSt V) (hI : ZInv P h0 st) (his : ∀ i ∈ is, i < st.heap.length)
    (st' : ZSt V) (cs : List Nat) (h : zipInputs recur st is = .ok (st', cs)) :
    ZInv P h0 st' ∧ (∃ e, st'.heap = st.heap ++ e) ∧ (∀ c ∈ cs, c < st'.heap.length) ∧
    SameRow P st.heap is st'.heap cs ∧ (∀ m z, st.ready m = some z → st'.ready m = some z) := by
  induction is generalizing st st' cs with
  | nil =>
    simp [zipInputs] at h
    obtain ⟨rfl, rfl⟩ := h
    exact ⟨hI, ⟨[], by simp⟩, by simp, ⟨rfl, by simp⟩, fun _ _ h => h⟩
  | cons i is ih =>
    simp only [zipInputs] at h
    cases hr : recur st i with
    | err => rw [hr] at h; simp [R.bind] at h
    | fuel => rw [hr] at h; simp [R.bind] at h
    | ok res1 =>
      obtain ⟨st1, c⟩ := res1
      rw [hr] at h
      simp only [R.bind] at h
      cases hr2 : zipInputs recur st1 is with
      | err => rw [hr2] at h; simp [R.bind] at h
      | fuel => rw [hr2] at h; simp [R.bind] at h
      | ok res2 =>
        obtain ⟨st2, cs2⟩ := res2
        rw [hr2] at h
        simp only [R.ok.injEq, Prod.mk.injEq] at h
        obtain ⟨rfl, rfl⟩ := h
        obtain ⟨p1, ⟨e1, p2⟩, p3, p4, p5⟩ := hrec st i _ hI (his i (by simp)) hr
        simp only at p1 p2 p3 p4 p5
        obtain ⟨q1, ⟨e2, q2⟩, q3, q4, q5⟩ := ih st1 p1 (fun k hk => by
          have := his k (by simp [hk]); rw [p2]; simp; omega) st2 cs2 hr2
        have hcl := hI.closed
        have hcl1 := p1.closed
        refine ⟨q1, ⟨e1 ++ e2, by rw [q2, p2]; simp⟩, ?_, ?_, fun m z hm => q5 m z (p5 m z hm)⟩
        · intro k hk
          simp at hk
          rcases hk with rfl | hk
          · rw [q2]; simp; omega
          · exact q3 k hk
        · refine ⟨by simp [q4.1], ?_⟩
          intro j h1 h2
          cases j with
          | zero =>
            simp only [List.getElem_cons_zero]
            rw [q2]; exact p4.trans (sameDen_extend hcl1 p3)
          | succ j =>
            simp only [List.getElem_cons_succ]
            have hj : j < is.length := by simpa using h1
            have := q4.2 j hj (by simpa using h2)
            refine SameDen.trans ?_ this
            rw [p2]
            exact sameDen_extend hcl (his _ (by simp [List.getElem_mem hj]))

theorem zipNode_post {P : PackOps V} {h0 : Arena V} (os : List (ZipOption V)) (hos : ∀ o ∈ os, OptionOk P o)
    (fuel : Nat) : ∀ (st : ZSt V) (n : Nat) (res : ZSt V × Nat), ZInv P h0 st → n < st.heap.length →
      zipNode os fuel st n = .ok res → ZipPost P h0 st n res := by
  induction fuel with
  | zero => intro st n res _ _ h; simp [zipNode] at h
  | succ k ih =>
    intro st n res hI hn h
    simp only [zipNode] at h
    cases hrd : st.ready n with
    | some z =>
      simp only [hrd, R.ok.injEq] at h
      subst h
      obtain ⟨a, b, c⟩ := hI.ready n z hrd
      exact ⟨hI, ⟨[], by simp⟩, b, c, fun _ _ h => h⟩
    | none =>
    simp only [hrd] at h
    obtain ⟨new, z, ha, hcN, hlN, hz, hsd⟩ := applyOptions_post os hos st.heap n hI.closed hI.leaf hn
    simp only [ha] at h
    obtain ⟨r, hr⟩ : ∃ r, (st.heap ++ new)[z]? = some r := ⟨_, List.getElem?_eq_getElem hz⟩
    simp only [hr] at h
    have hI1 := zinv_extend hI new hcN hlN
    cases hf : zipInputs (zipNode os k) { st with heap := st.heap ++ new } r.inputs with
    | err => rw [hf] at h; simp [R.bind] at h
    | fuel => rw [hf] at h; simp [R.bind] at h
    | ok res1 =>
      obtain ⟨st1, cs⟩ := res1
      rw [hf] at h
      simp only [R.bind] at h
      obtain ⟨q1, ⟨e1, q2⟩, q3, q4, q5⟩ := zipInputs_post (zipNode os k) ih r.inputs _ hI1
        (fun i hi => hcN z r hr i hi) st1 cs hf
      simp only at q2 q4 q5
      have hcl1 := q1.closed
      have hn1 : n < st1.heap.length := by rw [q2]; simp; omega
      have hn2 : n < (st.heap ++ new).length := by simp; omega
      have hz1 : z < st1.heap.length := by rw [q2, List.length_append]; omega
      have hz2 : SameDen P st.heap n st1.heap z := by rw [q2]; exact hsd.trans (sameDen_extend hcN hz)
      have hback : SameDen P st1.heap n st.heap n := by
        rw [q2, List.append_assoc]; exact (sameDen_extend hI.closed hn).symm
      by_cases hcs : cs = r.inputs
      · simp only [hcs, if_true, R.ok.injEq] at h
        subst h
        refine ⟨⟨q1.ext, q1.closed, q1.leaf, ?_⟩, ⟨new ++ e1, by rw [q2]; simp⟩, hz1, hz2,
          fun m w hm => ins_keep _ _ _ _ _ (q5 m w hm)⟩
        intro x c hxc
        rcases ins_spec hxc with hxc | ⟨rfl, rfl⟩
        · exact q1.ready x c hxc
        · exact ⟨hn1, hz1, hback.trans hz2⟩
      · simp only [hcs, if_false, R.ok.injEq] at h
        subst h
        have hp : r.kind ≠ .param := by
          intro hk
          have he := hlN z r hr hk
          apply hcs
          have := q4.1
          rw [he] at this ⊢
          simpa using this
        have hclN : Closed (st1.heap ++ [{ r with inputs := cs }]) := closed_append hcl1 q3
        have hlfN : ParamLeaf (st1.heap ++ [{ r with inputs := cs }]) := by
          intro m x hx hk
          rcases Nat.lt_or_ge m st1.heap.length with hm | hm
          · rw [List.getElem?_append_left hm] at hx; exact q1.leaf m x hx hk
          · have : m = st1.heap.length := by
              rcases Nat.lt_or_ge m (st1.heap ++ [{ r with inputs := cs }]).length with hl | hl
              · simp at hl; omega
              · rw [List.getElem?_eq_none hl] at hx; cases hx
            subst this
            simp at hx; subst hx; exact absurd hk hp
        have hIe := zinv_extend q1 _ hclN hlfN
        have hlt : st1.heap.length < (st1.heap ++ [{ r with inputs := cs }]).length := by simp
        obtain ⟨l1, l2, l3, l4⟩ := graphOf_last st1.heap { r with inputs := cs }
        obtain ⟨g1, g2, g3, g4⟩ := graphOf_get hr
        have hsame : SameDen P (st.heap ++ new) z (st1.heap ++ [{ r with inputs := cs }]) st1.heap.length := by
          by_cases hk : r.kind = .const
          · intro env v
            constructor
            · intro hd
              have h1 := Den.const (G := graphOf (st.heap ++ new)) (P := P) (env := env) (g1.trans hk)
              have h2 := Den.const (G := graphOf (st1.heap ++ [{ r with inputs := cs }])) (P := P) (env := env)
                (l1.trans hk)
              rw [hd.det h1, g3]; rw [l3] at h2; exact h2
            · intro hd
              have h1 := Den.const (G := graphOf (st.heap ++ new)) (P := P) (env := env) (g1.trans hk)
              have h2 := Den.const (G := graphOf (st1.heap ++ [{ r with inputs := cs }])) (P := P) (env := env)
                (l1.trans hk)
              rw [hd.det h2, l3]; rw [g3] at h1; exact h1
          · exact sameDen_copy hr hp hk hcl1 q3 q4
        have hres := hsd.trans hsame
        refine ⟨⟨hIe.ext, hIe.closed, hIe.leaf, ?_⟩, ⟨new ++ e1 ++ [{ r with inputs := cs }], by simp [q2]⟩, hlt,
          hres, fun m w hm => ins_keep _ _ _ _ _ (q5 m w hm)⟩
        intro x c hxc
        rcases ins_spec hxc with hxc | ⟨rfl, rfl⟩
        · exact hIe.ready x c hxc
        · refine ⟨by simp; omega, hlt, ?_⟩
          exact ((sameDen_extend hcl1 hn1).symm.trans hback).trans hres

/-! ### heights: termination and sharing of zipping -/

/-- see `HH` -/
def HHk (G : Graph Nat V) : Nat → Nat → Prop
  | 0, n => G.inputs n = []
  | k + 1, n => ∀ m ∈ G.inputs n, HHk G k m

/-- `n` has height at most `k`: every path below it has at most `k` steps. -/
def HH (G : Graph Nat V) (n k : Nat) : Prop := HHk G k n

theorem HHk.step {G : Graph Nat V} : ∀ {k n : Nat}, HHk G k n → HHk G (k + 1) n
  | 0, n, h => by intro m hm; rw [show G.inputs n = [] from h] at hm; simp at hm
  | k + 1, n, h => fun m hm => HHk.step (h m hm)

theorem HH.mono {G : Graph Nat V} {n k l : Nat} (h : HH G n k) (hl : k ≤ l) : HH G n l := by
  induction hl with
  | refl => exact h
  | step _ ih => exact HHk.step ih

theorem HH_iff {G : Graph Nat V} {n k : Nat} :
    HH G n k ↔ ∀ m ∈ G.inputs n, ∃ k', k' < k ∧ HH G m k' := by
  cases k with
  | zero =>
    constructor
    · intro h m hm; rw [show G.inputs n = [] from h] at hm; simp at hm
    · intro h
      show G.inputs n = []
      cases hi : G.inputs n with
      | nil => rfl
      | cons m ms => obtain ⟨k', h', -⟩ := h m (by simp [hi]); omega
  | succ k =>
    constructor
    · intro h m hm; exact ⟨k, by omega, h m hm⟩
    · intro h m hm
      obtain ⟨k', h1, h2⟩ := h m hm
      exact h2.mono (by omega)

theorem HH.extend {h e : Arena V} (hc : Closed h) {n k : Nat} (hn : n < h.length) :
    HH (graphOf (h ++ e)) n k ↔ HH (graphOf h) n k := by
  induction k using Nat.strongRecOn generalizing n with
  | _ k ih =>
    rw [HH_iff, HH_iff, (graphOf_append h e _ hn).2.1]
    constructor
    · intro h' m hm
      obtain ⟨k', h1, h2⟩ := h' m hm
      exact ⟨k', h1, (ih k' h1 (closed_inputs hc hm)).mp h2⟩
    · intro h' m hm
      obtain ⟨k', h1, h2⟩ := h' m hm
      exact ⟨k', h1, (ih k' h1 (closed_inputs hc hm)).mpr h2⟩

/-- **Assumption for termination and sharing**: an option never makes a node higher. -/
def OptionFlat (o : ZipOption V) : Prop :=
  ∀ h n new z k, Closed h → n < h.length → o h n = some (new, z) → HH (graphOf h) n k →
    HH (graphOf (h ++ new)) z k

theorem applyOptions_flat {P : PackOps V} (os : List (ZipOption V)) (hfl : ∀ o ∈ os, OptionFlat o)
    (h : Arena V) (n k : Nat) (hc : Closed h) (hn : n < h.length) (hh : HH (graphOf h) n k) :
    HH (graphOf (applyOptions os h n).1) (applyOptions os h n).2 k := by
  induction os with
  | nil => exact hh
  | cons o os ih =>
    simp only [applyOptions]
    cases ho : o h n with
    | none => exact ih (fun x hx => hfl x (by simp [hx]))
    | some p => obtain ⟨new, z⟩ := p; exact hfl o (by simp) h n new z k hc hn ho hh

/-- memoised results are not higher than their keys -/
def HInv (st : ZSt V) : Prop :=
  ∀ n z k, st.ready n = some z → HH (graphOf st.heap) n k → HH (graphOf st.heap) z k

/-- height part of the contract of zipping one node -/
def HPost (st : ZSt V) (n k : Nat) (res : ZSt V × Nat) : Prop :=
  HInv res.1 ∧ HH (graphOf res.1.heap) res.2 k ∧
  (∀ m w, res.1.ready m = some w → st.ready m = some w ∨ HH (graphOf res.1.heap) m k) ∧
  res.1.ready n = some res.2

theorem hinv_extend {P : PackOps V} {h0 : Arena V} {st : ZSt V} (hI : ZInv P h0 st) (hH : HInv st) (e : Arena V) :
    HInv { st with heap := st.heap ++ e } := by
  intro n z k hr hh
  obtain ⟨a, b, -⟩ := hI.ready n z hr
  simp only at hh ⊢
  rw [HH.extend hI.closed a] at hh
  rw [HH.extend hI.closed b]
  exact hH n z k hr hh

theorem zipInputs_height {P : PackOps V} {h0 : Arena V} (recur : ZSt V → Nat → R (ZSt V × Nat)) (k : Nat)
    (hpost : ∀ st n res, ZInv P h0 st → n < st.heap.length → recur st n = .ok res → ZipPost P h0 st n res)
    (hrec : ∀ st n, ZInv P h0 st → HInv st → n < st.heap.length → HH (graphOf st.heap) n k →
      recur st n ≠ .fuel ∧ ∀ res, recur st n = .ok res → HPost st n k res)
    (is : List Nat) (st : ZSt V) (hI : ZInv P h0 st) (hH : HInv st)
    (his : ∀ i ∈ is, i < st.heap.length ∧ HH (graphOf st.heap) i k) :
    zipInputs recur st is ≠ .fuel ∧ ∀ st' cs, zipInputs recur st is = .ok (st', cs) →
      HInv st' ∧ (∀ c ∈ cs, HH (graphOf st'.heap) c k) ∧
      (∀ m w, st'.ready m = some w → st.ready m = some w ∨ HH (graphOf st'.heap) m k) ∧
      (∀ i (h1 : i < is.length) (h2 : i < cs.length), st'.ready is[i] = some cs[i]) := by
  induction is generalizing st with
  | nil =>
    refine ⟨by simp [zipInputs], ?_⟩
    intro st' cs h
    simp [zipInputs] at h
    obtain ⟨rfl, rfl⟩ := h
    exact ⟨hH, by simp, fun m w h => .inl h, by simp⟩
  | cons i is ih =>
    obtain ⟨hi1, hi2⟩ := his i (by simp)
    obtain ⟨hnf, hok⟩ := hrec st i hI hH hi1 hi2
    simp only [zipInputs]
    cases hr : recur st i with
    | err => simp [R.bind]
    | fuel => exact absurd hr hnf
    | ok res1 =>
      obtain ⟨st1, c⟩ := res1
      obtain ⟨p1, ⟨e1, p2⟩, p3, p4, p5⟩ := hpost st i _ hI hi1 hr
      obtain ⟨a1, a2, a3, a4⟩ := hok _ hr
      simp only at p1 p2 p3 p4 p5 a1 a2 a3 a4
      have his1 : ∀ j ∈ is, j < st1.heap.length ∧ HH (graphOf st1.heap) j k := by
        intro j hj
        obtain ⟨b1, b2⟩ := his j (by simp [hj])
        rw [p2]
        exact ⟨by simp; omega, (HH.extend hI.closed b1).mpr b2⟩
      obtain ⟨hnf2, hok2⟩ := ih st1 p1 a1 his1
      simp only [R.bind]
      cases hr2 : zipInputs recur st1 is with
      | err => simp [R.bind]
      | fuel => exact absurd hr2 hnf2
      | ok res2 =>
        obtain ⟨st2, cs2⟩ := res2
        refine ⟨by simp [R.bind], ?_⟩
        intro st' cs h
        simp only [R.ok.injEq, Prod.mk.injEq] at h
        obtain ⟨rfl, rfl⟩ := h
        obtain ⟨b1, b2, b3, b4⟩ := hok2 st2 cs2 hr2
        obtain ⟨q1, ⟨e2, q2⟩, q3, q4, q5⟩ := zipInputs_post recur hpost is st1 p1 (fun j hj => (his1 j hj).1) st2 cs2 hr2
        refine ⟨b1, ?_, ?_, ?_⟩
        · intro x hx
          simp at hx
          rcases hx with rfl | hx
          · rw [q2]; exact (HH.extend p1.closed p3).mpr a2
          · exact b2 x hx
        · intro m w hm
          rcases b3 m w hm with h | h
          · rcases a3 m w h with h' | h'
            · exact .inl h'
            · right; rw [q2]; exact (HH.extend p1.closed (p1.ready m w h).1).mpr h'
          · exact .inr h
        · intro j h1 h2
          cases j with
          | zero => exact q5 _ _ a4
          | succ j => exact b4 j (by simpa using h1) (by simpa using h2)

theorem exists_min_height {G : Graph Nat V} {n k : Nat} (h : HH G n k) :
    ∃ k0, k0 ≤ k ∧ HH G n k0 ∧ ∀ k', k' < k0 → ¬ HH G n k' := by
  induction k using Nat.strongRecOn with
  | _ k ih =>
    by_cases hex : ∃ k', k' < k ∧ HH G n k'
    · obtain ⟨k', h1, h2⟩ := hex
      obtain ⟨k0, a, b, c⟩ := ih k' h1 h2
      exact ⟨k0, by omega, b, c⟩
    · exact ⟨k, Nat.le_refl _, h, fun k' h1 h2 => hex ⟨k', h1, h2⟩⟩

theorem zipNode_height {P : PackOps V} {h0 : Arena V} (os : List (ZipOption V)) (hos : ∀ o ∈ os, OptionOk P o)
    (hfl : ∀ o ∈ os, OptionFlat o) (fuel : Nat) :
    ∀ (st : ZSt V) (n k : Nat), ZInv P h0 st → HInv st → n < st.heap.length → HH (graphOf st.heap) n k →
      k < fuel → zipNode os fuel st n ≠ .fuel ∧ ∀ res, zipNode os fuel st n = .ok res → HPost st n k res := by
  induction fuel with
  | zero => intro st n k _ _ _ _ h; omega
  | succ f ih =>
    intro st n k hI hH hn hh hk
    simp only [zipNode]
    cases hrd : st.ready n with
    | some z =>
      simp only
      refine ⟨by simp, ?_⟩
      intro res h
      simp only [R.ok.injEq] at h
      subst h
      exact ⟨hH, hH n z k hrd hh, fun m w h => .inl h, hrd⟩
    | none =>
    simp only
    obtain ⟨new, z, ha, hcN, hlN, hz, hsd⟩ := applyOptions_post os hos st.heap n hI.closed hI.leaf hn
    obtain ⟨k0, hk0, hmin1, hmin2⟩ := exists_min_height hh
    have hzk := applyOptions_flat (P := P) os hfl st.heap n k0 hI.closed hn hmin1
    simp only [ha] at hzk ⊢
    obtain ⟨r, hr⟩ : ∃ r, (st.heap ++ new)[z]? = some r := ⟨_, List.getElem?_eq_getElem hz⟩
    simp only [hr]
    have hI1 := zinv_extend hI new hcN hlN
    have hH1 := hinv_extend hI hH new
    -- heights of the inputs
    have hins : ∀ i ∈ r.inputs, i < (st.heap ++ new).length ∧ HH (graphOf (st.heap ++ new)) i (k0 - 1) := by
      intro i hi
      refine ⟨hcN z r hr i hi, ?_⟩
      have h := HH_iff.mp hzk
      rw [(graphOf_get hr).2.1] at h
      obtain ⟨k', h1, h2⟩ := h i hi
      exact h2.mono (by omega)
    have hk0pos : r.inputs ≠ [] → 0 < k0 := by
      intro hne
      obtain ⟨i, hi⟩ := List.exists_mem_of_ne_nil _ hne
      have h := HH_iff.mp hzk
      rw [(graphOf_get hr).2.1] at h
      obtain ⟨k', h1, -⟩ := h i hi
      omega
    have hz' : zipInputs (zipNode os f) { st with heap := st.heap ++ new } r.inputs ≠ .fuel ∧
        ∀ st' cs, zipInputs (zipNode os f) { st with heap := st.heap ++ new } r.inputs = .ok (st', cs) →
        HInv st' ∧ (∀ c ∈ cs, HH (graphOf st'.heap) c (k0 - 1)) ∧
        (∀ m w, st'.ready m = some w → st.ready m = some w ∨ (0 < k0 ∧ HH (graphOf st'.heap) m (k0 - 1))) := by
      by_cases hne : r.inputs = []
      · rw [hne]
        refine ⟨by simp [zipInputs], ?_⟩
        intro st' cs h
        simp [zipInputs] at h
        obtain ⟨rfl, rfl⟩ := h
        exact ⟨hH1, by simp, fun m w h => .inl h⟩
      · have hpos := hk0pos hne
        obtain ⟨x1, x2⟩ := zipInputs_height (zipNode os f) (k0 - 1) (zipNode_post os hos f)
          (fun st n a b c d => ih st n (k0 - 1) a b c d (by omega)) r.inputs _ hI1 hH1 hins
        refine ⟨x1, ?_⟩
        intro st' cs h
        obtain ⟨y1, y2, y3, -⟩ := x2 st' cs h
        exact ⟨y1, y2, fun m w h => (y3 m w h).imp id (fun h => ⟨hpos, h⟩)⟩
    obtain ⟨x1, x2⟩ := hz'
    cases hf : zipInputs (zipNode os f) { st with heap := st.heap ++ new } r.inputs with
    | err => simp [R.bind]
    | fuel => exact absurd hf x1
    | ok res1 =>
      obtain ⟨st1, cs⟩ := res1
      obtain ⟨y1, y2, y3⟩ := x2 st1 cs hf
      obtain ⟨q1, ⟨e1, q2⟩, q3, q4, q5⟩ := zipInputs_post (zipNode os f) (zipNode_post os hos f) r.inputs _ hI1
        (fun i hi => hcN z r hr i hi) st1 cs hf
      simp only at q2 q4 q5
      simp only [R.bind]
      have hcl1 := q1.closed
      have hn2 : n < (st.heap ++ new).length := by simp; omega
      have hn1 : n < st1.heap.length := by rw [q2, List.length_append]; omega
      have hz1 : z < st1.heap.length := by rw [q2, List.length_append]; omega
      have hnn : ∀ k', HH (graphOf st1.heap) n k' → HH (graphOf st.heap) n k' := by
        intro k' h
        rw [q2, List.append_assoc] at h
        exact (HH.extend hI.closed hn).mp h
      have hrd1 : st1.ready n = none := by
        cases h : st1.ready n with
        | none => rfl
        | some w =>
          rcases y3 n w h with h' | ⟨hp, h'⟩
          · rw [hrd] at h'; cases h'
          · exact absurd (hnn _ h') (hmin2 _ (by omega))
      have hset : ∀ x, ins st1.ready n x n = some x := by
        intro x; unfold ins; rw [hrd1]; simp
      have hzk1 : HH (graphOf st1.heap) z k0 := by rw [q2]; exact (HH.extend hcN hz).mpr hzk
      split
      · refine ⟨by simp, ?_⟩
        intro res h
        simp only [R.ok.injEq] at h
        subst h
        refine ⟨?_, hzk1.mono hk0, ?_, hset z⟩
        · intro x c k' hxc hx
          rcases ins_spec hxc with hxc | ⟨rfl, rfl⟩
          · exact y1 x c k' hxc hx
          · have : k0 ≤ k' := by
              rcases Nat.lt_or_ge k' k0 with h | h
              · exact absurd (hnn _ hx) (hmin2 _ h)
              · exact h
            exact hzk1.mono this
        · intro m w hm
          rcases ins_spec hm with hm | ⟨rfl, rfl⟩
          · rcases y3 m w hm with h | ⟨hp, h⟩
            · exact .inl h
            · exact .inr (h.mono (by omega))
          · right
            show HH (graphOf st1.heap) m k
            rw [q2, List.append_assoc]; exact (HH.extend hI.closed hn).mpr hh
      · rename_i hcs
        refine ⟨by simp, ?_⟩
        intro res h
        simp only [R.ok.injEq] at h
        subst h
        have hne : r.inputs ≠ [] := by
          intro he
          apply hcs
          have := q4.1
          rw [he] at this ⊢
          simpa using this
        have hpos := hk0pos hne
        have hlast : HH (graphOf (st1.heap ++ [{ r with inputs := cs }])) st1.heap.length k0 := by
          refine HH_iff.mpr fun m hm => ?_
          rw [(graphOf_last st1.heap { r with inputs := cs }).2.1] at hm
          exact ⟨k0 - 1, by omega, (HH.extend hcl1 (q3 m hm)).mpr (y2 m hm)⟩
        refine ⟨?_, hlast.mono hk0, ?_, hset _⟩
        · intro x c k' hxc hx
          simp only at hxc hx ⊢
          rcases ins_spec hxc with hxc | ⟨rfl, rfl⟩
          · obtain ⟨d1, d2, -⟩ := q1.ready x c hxc
            exact (HH.extend hcl1 d2).mpr (y1 x c k' hxc ((HH.extend hcl1 d1).mp hx))
          · have : k0 ≤ k' := by
              rcases Nat.lt_or_ge k' k0 with h | h
              · exact absurd (hnn _ ((HH.extend hcl1 hn1).mp hx)) (hmin2 _ h)
              · exact h
            exact hlast.mono this
        · intro m w hm
          simp only at hm ⊢
          rcases ins_spec hm with hm | ⟨rfl, rfl⟩
          · rcases y3 m w hm with h | ⟨hp, h⟩
            · exact .inl h
            · right
              exact (HH.extend hcl1 (q1.ready m w hm).1).mpr (h.mono (by omega))
          · right
            rw [q2, List.append_assoc, List.append_assoc]; exact (HH.extend hI.closed hn).mpr hh

/-! ### sharing -/

/-- every memoised node `n ↦ c` comes from a node `z` of the same values, and the inputs of `c` are the
memoised images of the inputs of `z` -/
def SInv (P : PackOps V) (st : ZSt V) : Prop :=
  ∀ n c, st.ready n = some c → c < st.heap.length ∧ ∃ z, z < st.heap.length ∧ SameDen P st.heap n st.heap z ∧
    ((graphOf st.heap).inputs z).map st.ready = ((graphOf st.heap).inputs c).map some

theorem sinv_extend {P : PackOps V} {h0 : Arena V} {st : ZSt V} (hI : ZInv P h0 st) (hS : SInv P st) (e : Arena V) :
    SInv P { st with heap := st.heap ++ e } := by
  intro n c hr
  obtain ⟨a, z, b, c', d⟩ := hS n c hr
  obtain ⟨n1, -, -⟩ := hI.ready n c hr
  refine ⟨by simp; omega, z, by simp; omega, ?_, ?_⟩
  · exact ((sameDen_extend hI.closed n1).symm.trans c').trans (sameDen_extend hI.closed b)
  · simp only
    rw [(graphOf_append st.heap e z b).2.1, (graphOf_append st.heap e c a).2.1]; exact d

/-- a row of memo lookups -/
theorem map_ready {f : Nat → Option Nat} {is cs : List Nat} (hl : cs.length = is.length)
    (h : ∀ i (h1 : i < is.length) (h2 : i < cs.length), f is[i] = some cs[i]) : is.map f = cs.map some := by
  apply List.ext_getElem (by simp [hl])
  intro i h1 h2
  simp at h1 h2
  simp [h i h1 h2]

theorem map_ready_keep {f g : Nat → Option Nat} {is cs : List Nat} (h : is.map f = cs.map some)
    (hk : ∀ m w, f m = some w → g m = some w) : is.map g = cs.map some := by
  induction is generalizing cs with
  | nil => simpa using h
  | cons i is ih =>
    cases cs with
    | nil => simp at h
    | cons c cs =>
      simp at h ⊢
      exact ⟨hk _ _ h.1, ih h.2⟩

theorem sinv_ins {P : PackOps V} {h0 : Arena V} {st : ZSt V} {n c z : Nat} (hI : ZInv P h0 st) (hS : SInv P st)
    (hc : c < st.heap.length)
    (hz : z < st.heap.length) (hd : SameDen P st.heap n st.heap z)
    (hm : ((graphOf st.heap).inputs z).map st.ready = ((graphOf st.heap).inputs c).map some) :
    SInv P { st with ready := ins st.ready n c } := by
  intro m w hmw
  rcases ins_spec hmw with h | ⟨rfl, rfl⟩
  · obtain ⟨a, z', b, d, e⟩ := hS m w h
    exact ⟨a, z', b, d, map_ready_keep e fun m w h => ins_keep _ _ _ _ _ h⟩
  · exact ⟨hc, z, hz, hd, map_ready_keep hm fun m w h => ins_keep _ _ _ _ _ h⟩

theorem zipInputs_shared {P : PackOps V} {h0 : Arena V} (recur : ZSt V → Nat → R (ZSt V × Nat)) (k : Nat)
    (hpost : ∀ st n res, ZInv P h0 st → n < st.heap.length → recur st n = .ok res → ZipPost P h0 st n res)
    (hrec : ∀ st n, ZInv P h0 st → HInv st → n < st.heap.length → HH (graphOf st.heap) n k →
      recur st n ≠ .fuel ∧ ∀ res, recur st n = .ok res → HPost st n k res)
    (hsh : ∀ st n res, ZInv P h0 st → HInv st → SInv P st → n < st.heap.length → HH (graphOf st.heap) n k →
      recur st n = .ok res → SInv P res.1)
    (is : List Nat) (st : ZSt V) (hI : ZInv P h0 st) (hH : HInv st) (hS : SInv P st)
    (his : ∀ i ∈ is, i < st.heap.length ∧ HH (graphOf st.heap) i k)
    (st' : ZSt V) (cs : List Nat) (h : zipInputs recur st is = .ok (st', cs)) : SInv P st' := by
  induction is generalizing st cs with
  | nil =>
    simp [zipInputs] at h
    obtain ⟨rfl, rfl⟩ := h
    exact hS
  | cons i is ih =>
    obtain ⟨hi1, hi2⟩ := his i (by simp)
    simp only [zipInputs] at h
    cases hr : recur st i with
    | err => rw [hr] at h; simp [R.bind] at h
    | fuel => rw [hr] at h; simp [R.bind] at h
    | ok res1 =>
      obtain ⟨st1, c⟩ := res1
      rw [hr] at h
      simp only [R.bind] at h
      cases hr2 : zipInputs recur st1 is with
      | err => rw [hr2] at h; simp [R.bind] at h
      | fuel => rw [hr2] at h; simp [R.bind] at h
      | ok res2 =>
        obtain ⟨st2, cs2⟩ := res2
        rw [hr2] at h
        simp only [R.ok.injEq, Prod.mk.injEq] at h
        obtain ⟨rfl, rfl⟩ := h
        obtain ⟨p1, ⟨e1, p2⟩, p3, p4, p5⟩ := hpost st i _ hI hi1 hr
        obtain ⟨a1, -, -, -⟩ := (hrec st i hI hH hi1 hi2).2 _ hr
        have s1 := hsh st i _ hI hH hS hi1 hi2 hr
        simp only at p1 p2 a1 s1
        refine ih st1 p1 a1 s1 ?_ cs2 hr2
        intro j hj
        obtain ⟨b1, b2⟩ := his j (by simp [hj])
        rw [p2]
        exact ⟨by simp; omega, (HH.extend hI.closed b1).mpr b2⟩

theorem zipNode_shared {P : PackOps V} {h0 : Arena V} (os : List (ZipOption V)) (hos : ∀ o ∈ os, OptionOk P o)
    (hfl : ∀ o ∈ os, OptionFlat o) (fuel : Nat) :
    ∀ (st : ZSt V) (n k : Nat) (res : ZSt V × Nat), ZInv P h0 st → HInv st → SInv P st → n < st.heap.length →
      HH (graphOf st.heap) n k → k < fuel → zipNode os fuel st n = .ok res → SInv P res.1 := by
  induction fuel with
  | zero => intro st n k res _ _ _ _ _ h; omega
  | succ f ih =>
    intro st n k res hI hH hS hn hh hk h
    simp only [zipNode] at h
    cases hrd : st.ready n with
    | some z =>
      simp only [hrd, R.ok.injEq] at h
      subst h; exact hS
    | none =>
    simp only [hrd] at h
    obtain ⟨new, z, ha, hcN, hlN, hz, hsd⟩ := applyOptions_post os hos st.heap n hI.closed hI.leaf hn
    have hzk := applyOptions_flat (P := P) os hfl st.heap n k hI.closed hn hh
    simp only [ha] at hzk h
    obtain ⟨r, hr⟩ : ∃ r, (st.heap ++ new)[z]? = some r := ⟨_, List.getElem?_eq_getElem hz⟩
    simp only [hr] at h
    have hI1 := zinv_extend hI new hcN hlN
    have hH1 := hinv_extend hI hH new
    have hS1 := sinv_extend hI hS new
    have hins : ∀ i ∈ r.inputs, i < (st.heap ++ new).length ∧ HH (graphOf (st.heap ++ new)) i (k - 1) ∧ 0 < k := by
      intro i hi
      refine ⟨hcN z r hr i hi, ?_⟩
      have h := HH_iff.mp hzk
      rw [(graphOf_get hr).2.1] at h
      obtain ⟨k', h1, h2⟩ := h i hi
      exact ⟨h2.mono (by omega), by omega⟩
    cases hf : zipInputs (zipNode os f) { st with heap := st.heap ++ new } r.inputs with
    | err => rw [hf] at h; simp [R.bind] at h
    | fuel => rw [hf] at h; simp [R.bind] at h
    | ok res1 =>
      obtain ⟨st1, cs⟩ := res1
      rw [hf] at h
      simp only [R.bind] at h
      obtain ⟨q1, ⟨e1, q2⟩, q3, q4, q5⟩ := zipInputs_post (zipNode os f) (zipNode_post os hos f) r.inputs _ hI1
        (fun i hi => hcN z r hr i hi) st1 cs hf
      simp only at q2 q4 q5
      have hrow : SInv P st1 ∧ r.inputs.map st1.ready = cs.map some := by
        by_cases hne : r.inputs = []
        · rw [hne] at hf ⊢
          simp [zipInputs] at hf
          obtain ⟨rfl, rfl⟩ := hf
          exact ⟨hS1, rfl⟩
        · obtain ⟨i, hi⟩ := List.exists_mem_of_ne_nil _ hne
          have hpos := (hins i hi).2.2
          have hrec := fun st n a b c d => zipNode_height (h0 := h0) os hos hfl f st n (k - 1) a b c d (by omega)
          have his := fun i hi => (⟨(hins i hi).1, (hins i hi).2.1⟩ : _ ∧ _)
          refine ⟨zipInputs_shared (zipNode os f) (k - 1) (zipNode_post os hos f) hrec
            (fun st n res a b c d e g => ih st n (k - 1) res a b c d e (by omega) g) r.inputs _ hI1 hH1 hS1 his st1 cs hf,
            ?_⟩
          have := ((zipInputs_height (zipNode os f) (k - 1) (zipNode_post os hos f) hrec r.inputs _ hI1 hH1 his).2
            st1 cs hf).2.2.2
          exact map_ready q4.1 this
      obtain ⟨hS2, hmap⟩ := hrow
      have hcl1 := q1.closed
      have hn1 : n < st1.heap.length := by rw [q2]; simp; omega
      have hz1 : z < st1.heap.length := by rw [q2, List.length_append]; omega
      have hz2 : SameDen P st1.heap n st1.heap z := by
        have hback : SameDen P st1.heap n st.heap n := by
          rw [q2, List.append_assoc]; exact (sameDen_extend hI.closed hn).symm
        refine hback.trans ?_
        rw [q2]; exact hsd.trans (sameDen_extend hcN hz)
      have hrz : (graphOf st1.heap).inputs z = r.inputs := by
        rw [q2, (graphOf_append _ e1 z hz).2.1]; exact (graphOf_get hr).2.1
      by_cases hcs : cs = r.inputs
      · simp only [hcs, if_true, R.ok.injEq] at h
        subst h
        refine sinv_ins q1 hS2 hz1 hz1 hz2 ?_
        rw [hrz, hmap, hcs]
      · simp only [hcs, if_false, R.ok.injEq] at h
        subst h
        have hp : r.kind ≠ .param := by
          intro hk
          have he := hlN z r hr hk
          apply hcs
          have := q4.1
          rw [he] at this ⊢
          simpa using this
        have hclN : Closed (st1.heap ++ [{ r with inputs := cs }]) := closed_append hcl1 q3
        have hlfN : ParamLeaf (st1.heap ++ [{ r with inputs := cs }]) := by
          intro m x hx hk
          rcases Nat.lt_or_ge m st1.heap.length with hm | hm
          · rw [List.getElem?_append_left hm] at hx; exact q1.leaf m x hx hk
          · have : m = st1.heap.length := by
              rcases Nat.lt_or_ge m (st1.heap ++ [{ r with inputs := cs }]).length with hl | hl
              · simp at hl; omega
              · rw [List.getElem?_eq_none hl] at hx; cases hx
            subst this
            simp at hx; subst hx; exact absurd hk hp
        have hIe := zinv_extend q1 _ hclN hlfN
        have hSe := sinv_extend q1 hS2 [{ r with inputs := cs }]
        obtain ⟨l1, l2, l3, l4⟩ := graphOf_last st1.heap { r with inputs := cs }
        refine sinv_ins (st := ⟨st1.heap ++ [{ r with inputs := cs }], st1.ready⟩) hIe hSe (c := st1.heap.length) (by simp) (z := z)
          (by simp; omega) ?_ ?_
        · exact ((sameDen_extend hcl1 hn1).symm.trans hz2).trans (sameDen_extend hcl1 hz1)
        · simp only
          rw [(graphOf_append _ _ z hz1).2.1, hrz, l2, hmap]

end Verif.Compiler
