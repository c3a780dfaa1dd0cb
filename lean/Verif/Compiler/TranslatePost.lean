import Verif.Compiler.TranslateLemmas
/-! What one application of the packing option does (helpers for C47). -/
namespace Verif.Compiler
open Verif.Runtime
open Verif.Module.Fusion (F)

variable {V C : Type} {K : Kern V C} {f : String → V} {stk : List Nat} {st : TSt V C} {S : Nat → Prop} {g : Gh V}

/-- the outcome of the option at node `n` with value `v` -/
def OptPost (K : Kern V C) (f : String → V) (stk : List Nat) (st : TSt V C) (S : Nat → Prop) (g : Gh V) (n : Nat) (v : V)
    (h1 : TArena V C) (z : Nat) : Prop :=
  ∃ g1 r, J K f (n :: stk) ⟨h1, st.ready⟩ S g1 ∧ Ext stk st S g ⟨h1, st.ready⟩ S g1 ∧ h1[z]? = some r ∧
    g1.val z = none ∧ st.heap.length ≤ z ∧ Vals K f g1.val r v ∧ g1.val n = some v ∧
    (∀ i ∈ r.inputs, Prot (n :: stk) ⟨h1, st.ready⟩ g1 i ∧ g1.rank i < g1.rank n) ∧
    ∀ (s : String) (d : Option Nat) (is : List Nat), st.heap[n]? = some ⟨.param s d, is⟩ → r = ⟨.param s none, []⟩

theorem val_fresh (hJ : J K f stk st S g) {i : Nat} (hi : st.heap.length ≤ i) : g.val i = none := by
  cases h : g.val i with
  | none => rfl
  | some v => have := hJ.lt i v h; omega

theorem ready_fresh (hJ : J K f stk st S g) {i : Nat} (hi : st.heap.length ≤ i) : st.ready i = none := by
  cases h : st.ready i with
  | none => rfl
  | some z => obtain ⟨-, v, hv, -⟩ := hJ.ready i z h; have := hJ.lt i v hv; omega

theorem owner_fresh (hJ : J K f stk st S g) {i : Nat} (hi : g.val i = none) : g.owner i = none := by
  cases h : g.owner i with
  | none => rfl
  | some m => obtain ⟨x, hx⟩ := hJ.ownVal i m h; rw [hi] at hx; cases hx

theorem not_stk {n : Nat} (hrk : ∀ m ∈ stk, g.rank n < g.rank m) {w : Nat} (hw : g.rank w ≤ g.rank n) : w ∉ stk := by
  intro h; have := hrk w h; omega

/-- an input of the node at hand belongs to it or to nobody -/
theorem input_owner (hJ : J K f stk st S g) {n : Nat} {v : V} {r : TRec V C} (hv : g.val n = some v)
    (hr : st.ready n = none) (hs : n ∉ stk) (hn : st.heap[n]? = some r) {i : Nat} (hi : i ∈ r.inputs) {m : Nat}
    (ho : g.owner i = some m) : m = n := (hJ.own i m ho n v r hv hr hs hn hi).symm

theorem copy_post (hJ : J K f stk st S g) {n : Nat} {v : V} {r r' : TRec V C} (hv : g.val n = some v)
    (hr : st.ready n = none) (hs : n ∉ stk) (hn : st.heap[n]? = some r) (hrank : ∀ i ∈ r.inputs, g.rank i < g.rank n)
    (hsub : ∀ i ∈ r'.inputs, i ∈ r.inputs) (hvals : Vals K f g.val r' v)
    (hname : ∀ s d is, r = ⟨.param s d, is⟩ → r' = ⟨.param s none, []⟩) :
    OptPost K f stk st S g n v (st.heap ++ [r']) st.heap.length := by
  refine ⟨g, r', (hJ.push n).append [r'], ⟨by simp, ?_, fun _ h => h, fun _ h => .inl h, fun _ _ h => h,
    fun i hp => ⟨hp, rfl⟩, fun _ _ => rfl, fun _ _ h => h, fun _ _ _ _ h => by simp only; rw [List.getElem?_append_left h]⟩, by simp, val_fresh hJ (Nat.le_refl _), Nat.le_refl _, hvals, hv, ?_, ?_⟩
  · intro i hi _
    exact List.getElem?_append_left hi
  · intro i hi
    obtain ⟨x, hx⟩ := vals_inputs hvals i hi
    refine ⟨⟨x, hx, ?_⟩, hrank i (hsub i hi)⟩
    intro m ho
    left
    rw [input_owner hJ hv hr hs hn (hsub i hi) ho]; simp
  · intro s d is hp
    rw [hn] at hp
    exact hname s d is (Option.some.inj hp)

theorem constVal_some {h : TArena V C} {w : Nat} {x : V} (hc : constVal h w = some x) :
    ∃ is, h[w]? = some ⟨.const x, is⟩ := by
  unfold constVal at hc
  split at hc
  · rename_i v is he
    cases hc; exact ⟨is, he⟩
  · cases hc

/-- a pending constant holds its value -/
theorem const_val (hJ : J K f stk st S g) {w : Nat} {x y : V} (hc : constVal st.heap w = some x) (hv : g.val w = some y)
    (hr : st.ready w = none) (hs : w ∉ stk) : y = x := by
  obtain ⟨is, hw⟩ := constVal_some hc
  obtain ⟨r, e1, e2, -, -⟩ := hJ.pend w y hv hr hs
  rw [hw] at e1; cases e1
  exact e2.2.symm

theorem packed_post (hJ : J K f stk st S g) {n w : Nat} {v kv p : V} {r : TRec V C} {op : TOp V C} {is : List Nat}
    (hv : g.val n = some v) (hr : st.ready n = none) (hs : n ∉ stk) (hn : st.heap[n]? = some r)
    (hrank : ∀ i ∈ r.inputs, g.rank i < g.rank n) (hstk : ∀ m ∈ stk, g.rank n < g.rank m) (hsub : ∀ i ∈ is, i ∈ r.inputs)
    (hw : w ∈ r.inputs) (ho : g.owner w = some n) (hc : constVal st.heap w ≠ none) (hkv : g.val w = some kv)
    (hvals : Vals K f (setAt g.val w (some p)) ⟨op, is⟩ v) (hnp : r.op.kind ≠ .param) :
    OptPost K f stk st S g n v (setVal st.heap w p ++ [⟨op, is⟩]) st.heap.length := by
  have hwr : st.ready w = none := by
    by_contra hne
    rcases hJ.ownReady w n ho hne with h | h
    · exact hs h
    · exact h hr
  have hwn : w ≠ n := by rintro rfl; exact Nat.lt_irrefl _ (hrank w hw)
  have hws : w ∉ n :: stk := by
    intro h
    rcases List.mem_cons.1 h with h | h
    · exact hwn h
    · have := hstk w h; have := hrank w hw; omega
  have hJ2 := (hJ.push n).mutate p ho (by simp) hwr hc hkv hws
  have hJ3 := hJ2.append [⟨op, is⟩]
  refine ⟨_, ⟨op, is⟩, hJ3, ⟨by simp [setVal_length], ?_, fun _ h => h, fun _ h => .inl h, ?_, ?_, fun _ _ => rfl, fun _ _ h => h,
    fun _ _ _ _ h => by simp only; rw [List.getElem?_append_left (by rw [setVal_length]; exact h)]; exact setVal_param p hc⟩,
    ?_, ?_, Nat.le_refl _, hvals, ?_, ?_, ?_⟩
  · intro i hi hvi
    simp only
    rw [List.getElem?_append_left (by rw [setVal_length]; exact hi), setVal_get]
    rintro rfl; rw [hkv] at hvi; cases hvi
  · intro i hi hvi
    simp only [setAt]
    rw [if_neg]
    · exact hvi
    · rintro rfl; rw [hkv] at hvi; cases hvi
  · rintro i ⟨x, hx, hpo⟩
    have hiw : i ≠ w := by
      rintro rfl
      rcases hpo n ho with h | h
      · exact hs h
      · exact h hr
    have : setAt g.val w (some p) i = g.val i := by simp [setAt, hiw]
    exact ⟨⟨x, this.trans hx, hpo⟩, this⟩
  · rw [List.getElem?_append_right (by rw [setVal_length])]; simp [setVal_length]
  · have h0 := hJ.lt w kv hkv
    simp only [setAt]
    rw [if_neg (by omega)]
    exact val_fresh hJ (Nat.le_refl _)
  · simp only [setAt]; rw [if_neg (Ne.symm hwn)]; exact hv
  · intro i hi
    refine ⟨?_, hrank i (hsub i hi)⟩
    obtain ⟨x, hx⟩ := vals_inputs hvals i hi
    refine ⟨x, hx, ?_⟩
    intro m hm
    left
    rw [input_owner hJ hv hr hs hn (hsub i hi) hm]; simp
  · intro s d js hp
    rw [hn] at hp; cases hp
    exact absurd rfl hnp

/-- `transConst` on an operand of a Gemm -/
theorem transConst_post (hJ : J K f stk st S g) {n a : Nat} {x : V} {t : Bool} {h' : TArena V C} (hn : n ∈ stk)
    (hx : g.val a = some x) (hc : constVal st.heap a ≠ none → g.owner a = some n ∧ st.ready a = none ∧ a ∉ stk)
    (ht : t = true → constVal st.heap a ≠ none) (h : transConst K st.heap a t = .ok h') :
    ∃ x', (if t then K.transposed x = some x' else x' = x) ∧
      J K f stk ⟨h', st.ready⟩ S { g with val := setAt g.val a (some x') } ∧ h'.length = st.heap.length ∧
      (∀ i, g.val i = none → h'[i]? = st.heap[i]?) ∧ (∀ i, constVal h' i ≠ none ↔ constVal st.heap i ≠ none) ∧
      (∀ (i : Nat) (s : String) (d : Option Nat) (is : List Nat),
        h'[i]? = some ⟨.param s d, is⟩ ↔ st.heap[i]? = some ⟨.param s d, is⟩) := by
  have hsame : setAt g.val a (some x) = g.val := by
    funext i; simp only [setAt]; split
    · subst i; exact hx.symm
    · rfl
  cases t with
  | false =>
    have e : h' = st.heap := by
      unfold transConst at h
      cases hcv : constVal st.heap a <;> rw [hcv] at h <;> simp at h <;> exact h.symm
    subst e
    refine ⟨x, by simp, ?_, rfl, fun _ _ => rfl, fun _ => Iff.rfl, fun _ _ _ _ => Iff.rfl⟩
    rw [hsame]; exact hJ
  | true =>
    have hcv := ht rfl
    obtain ⟨h1, h2, h3⟩ := hc hcv
    obtain ⟨y, hy⟩ := Option.ne_none_iff_exists'.1 hcv
    have hxy := const_val hJ hy hx h2 h3
    subst hxy
    unfold transConst at h
    simp only [hy, if_true] at h
    cases htr : K.transposed x with
    | none => rw [htr] at h; simp at h
    | some x' =>
      rw [htr] at h; simp only [F.ok.injEq] at h; subst h
      refine ⟨x', by simp, hJ.mutate x' h1 hn h2 hcv hx h3, setVal_length _ _ _, ?_, fun i => constVal_setVal _ _ _ _ hcv,
        fun _ _ _ _ => setVal_param x' hcv⟩
      intro i hi
      apply setVal_get
      rintro rfl; rw [hx] at hi; cases hi

/-- a fresh node that owns nothing becomes a source node -/
theorem J.adoptPlain (hJ : J K f stk st S g) {t n : Nat} {r : TRec V C} {x : V} (k : Nat) (ht : st.heap[t]? = some r)
    (hS : ¬ S t) (hr : st.ready t = none) (hv : g.val t = none) (hn : n ∈ stk) (hvals : Vals K f g.val r x)
    (hrk : ∀ i ∈ r.inputs, g.rank i < k) (hop : (∃ c, r.op = .const c) ∨ r.op = .mul)
    (hown : ∀ i ∈ r.inputs, g.owner i = none) :
    J K f stk st S ⟨setAt g.val t (some x), setAt g.rank t k, g.owner⟩ := by
  refine hJ.adopt ht hS hr hv hn rfl (fun i hi => by simp [setAt, hi]) (fun i => .inl rfl) hvals ?_ ?_ (fun i hi => .inr (hown i hi))
  · intro i hi
    refine ⟨?_, by simp [setAt]; exact hrk i hi⟩
    rintro rfl
    obtain ⟨y, hy⟩ := vals_inputs hvals i hi
    rw [hv] at hy; cases hy
  · unfold PackOk
    rcases hop with ⟨c, hc⟩ | hc <;> rw [hc] <;> trivial

end Verif.Compiler
