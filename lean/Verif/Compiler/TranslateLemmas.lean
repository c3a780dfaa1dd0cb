import Verif.Compiler.Translate
import Mathlib.Tactic.Ring
/-! The translator with weight packing keeps the values of the outputs when weights are not shared (helpers for C47). -/
namespace Verif.Compiler
open Verif.Runtime
open Verif.Module.Fusion (F)

variable {V C : Type}

/-- **Specification**: node `n` of the arena has value `v` when the parameter called `s` has value `f s`. -/
inductive TDen (K : Kern V C) (f : String → V) (h : TArena V C) : Nat → V → Prop where
  | param {n : Nat} {s : String} {d : Option Nat} {is : List Nat} (hn : h[n]? = some ⟨.param s d, is⟩) : TDen K f h n (f s)
  | const {n : Nat} {v : V} {is : List Nat} (hn : h[n]? = some ⟨.const v, is⟩) : TDen K f h n v
  | node {n : Nat} {r : TRec V C} {vs : List V} {v : V} (hn : h[n]? = some r) (hl : vs.length = r.inputs.length)
      (hi : ∀ (i : Nat) (h1 : i < r.inputs.length) (h2 : i < vs.length), TDen K f h r.inputs[i] vs[i])
      (hs : r.op.sem K vs = some v) : TDen K f h n v

/-- **What is assumed of the operators**: multiplying with packed weights is multiplying with the weights, and a Gemm is
the linear combination it is rewritten to, whenever the original computes a value. -/
structure Kern.Sound (K : Kern V C) : Prop where
  innerArity : ∀ t p vs v, K.innerProd t p vs = some v → vs.length = 2
  convArity : ∀ c v2 p vs v, K.conv c v2 p vs = some v → vs.length = if v2 then 3 else 2
  gemmArity : ∀ a b tA tB vs v, K.gemm a b tA tB vs = some v → vs.length = 3
  packB : ∀ t x w p v, K.packB t w = some p → K.innerProd t false [x, w] = some v → K.innerProd false true [x, p] = some v
  packA : ∀ c x w p v, K.packA w = some p → K.conv c false false [x, w] = some v → K.conv c false true [x, p] = some v
  packA2 : ∀ c x y w p v, K.packA w = some p → K.conv c true false [x, y, w] = some v →
    K.conv c true true [x, y, p] = some v
  gemm : ∀ alpha beta tA tB a b c v a' b', K.gemm alpha beta tA tB [a, b, c] = some v →
    (if tA then K.transposed a = some a' else a' = a) → (if tB then K.transposed b = some b' else b' = b) →
    ∃ m, K.innerProd false false [a', b'] = some m ∧
      (K.nearZero beta = true → (K.nearOne alpha = true → v = m) ∧ (K.nearOne alpha = false → K.mul [alpha, m] = some v)) ∧
      (K.nearZero beta = false → ∃ q, K.mul [beta, c] = some q ∧
        (K.nearOne alpha = true → K.add [m, q] = some v) ∧
        (K.nearOne alpha = false → ∃ am, K.mul [alpha, m] = some am ∧ K.add [am, q] = some v))

theorem tden_agree {K : Kern V C} {f : String → V} {h h' : TArena V C} {S : Nat → Prop}
    (hcl : ∀ z, S z → ∀ r, h[z]? = some r → ∀ i ∈ r.inputs, S i) (hag : ∀ z, S z → h'[z]? = h[z]?) {z : Nat} {v : V}
    (hd : TDen K f h z v) (hz : S z) : TDen K f h' z v := by
  induction hd with
  | param hn => exact .param ((hag _ hz).trans hn)
  | const hn => exact .const ((hag _ hz).trans hn)
  | node hn hl hi hs ih =>
    exact .node ((hag _ hz).trans hn) hl (fun i h1 h2 => ih i h1 h2 (hcl _ hz _ hn _ (List.getElem_mem h1))) hs

/-! ## ghost state -/

/-- what the proof remembers about source nodes: their value, a rank that decreases along inputs, and for weights the only
node that uses them -/
structure Gh (V : Type) where
  val : Nat → Option V
  rank : Nat → Nat
  owner : Nat → Option Nat

/-- the value of a record from the values of its inputs -/
def Vals (K : Kern V C) (f : String → V) (val : Nat → Option V) (r : TRec V C) (v : V) : Prop :=
  match r.op with
  | .param s _ => r.inputs = [] ∧ f s = v
  | .const c => r.inputs = [] ∧ c = v
  | op => ∃ vs, r.inputs.map val = vs.map some ∧ op.sem K vs = some v

/-- the weights a node may replace belong to it -/
def PackOk (h : TArena V C) (g : Gh V) (n : Nat) (r : TRec V C) : Prop :=
  match r.op with
  | .inner _ p => p = false ∧ ∀ x w rest, r.inputs = x :: w :: rest → constVal h w ≠ none → g.owner w = some n ∧ x ≠ w
  | .conv _ v2 p => p = false ∧
      (v2 = false → ∀ x w rest, r.inputs = x :: w :: rest → constVal h w ≠ none → g.owner w = some n ∧ x ≠ w) ∧
      (v2 = true → ∀ x y w rest, r.inputs = x :: y :: w :: rest → constVal h w ≠ none →
        g.owner w = some n ∧ x ≠ w ∧ y ≠ w)
  | .gemm _ _ _ tB _ => ∀ a b c rest, r.inputs = a :: b :: c :: rest →
      (constVal h a ≠ none → g.owner a = some n ∧ a ≠ b) ∧ (constVal h b ≠ none → g.owner b = some n ∧ a ≠ b) ∧
      g.owner c = none ∧ (tB = true → constVal h b ≠ none) ∧ ∀ i ∈ r.inputs, g.rank i + 4 ≤ g.rank n
  | _ => True

/-- the invariant: `stk` are the nodes being translated, `S` the finished nodes of the new graph -/
structure J (K : Kern V C) (f : String → V) (stk : List Nat) (st : TSt V C) (S : Nat → Prop) (g : Gh V) : Prop where
  lt : ∀ n v, g.val n = some v → n < st.heap.length
  pend : ∀ n v, g.val n = some v → st.ready n = none → n ∉ stk → ∃ r, st.heap[n]? = some r ∧ Vals K f g.val r v ∧
    (∀ i ∈ r.inputs, g.rank i < g.rank n) ∧ PackOk st.heap g n r
  own : ∀ w m, g.owner w = some m → ∀ n v r, g.val n = some v → st.ready n = none → n ∉ stk → st.heap[n]? = some r →
    w ∈ r.inputs → n = m
  ownReady : ∀ w m, g.owner w = some m → st.ready w ≠ none → m ∈ stk ∨ st.ready m ≠ none
  ownVal : ∀ w m, g.owner w = some m → ∃ x, g.val w = some x
  ready : ∀ n z, st.ready n = some z → S z ∧ ∃ v, g.val n = some v ∧ TDen K f st.heap z v
  closed : ∀ z, S z → z < st.heap.length ∧ ∀ r, st.heap[z]? = some r → ∀ i ∈ r.inputs, S i
  apart : ∀ z, S z → g.val z = none
  names : ∀ (n z : Nat) (s : String) (d : Option Nat) (is : List Nat), st.heap[n]? = some ⟨.param s d, is⟩ → st.ready n = some z → st.heap[z]? = some ⟨.param s none, []⟩

/-- the value of this source node is final -/
def Prot (stk : List Nat) (st : TSt V C) (g : Gh V) (i : Nat) : Prop :=
  ∃ x, g.val i = some x ∧ ∀ m, g.owner i = some m → m ∈ stk ∨ st.ready m ≠ none

/-- what a step leaves alone -/
structure Ext (stk : List Nat) (st : TSt V C) (S : Nat → Prop) (g : Gh V) (st' : TSt V C) (S' : Nat → Prop) (g' : Gh V) :
    Prop where
  len : st.heap.length ≤ st'.heap.length
  keep : ∀ i, i < st.heap.length → g.val i = none → st'.heap[i]? = st.heap[i]?
  mono : ∀ z, S z → S' z
  fresh : ∀ z, S' z → S z ∨ st.heap.length ≤ z
  none_ : ∀ i, i < st.heap.length → g.val i = none → g'.val i = none
  prot : ∀ i, Prot stk st g i → Prot stk st' g' i ∧ g'.val i = g.val i
  rank : ∀ i, i < st.heap.length → g'.rank i = g.rank i
  ready : ∀ n z, st.ready n = some z → st'.ready n = some z
  params : ∀ (n : Nat) (s : String) (d : Option Nat) (is : List Nat), n < st.heap.length →
    (st'.heap[n]? = some ⟨.param s d, is⟩ ↔ st.heap[n]? = some ⟨.param s d, is⟩)

theorem Ext.refl (stk : List Nat) (st : TSt V C) (S : Nat → Prop) (g : Gh V) : Ext stk st S g st S g :=
  ⟨Nat.le_refl _, fun _ _ _ => rfl, fun _ h => h, fun _ h => .inl h, fun _ _ h => h, fun _ h => ⟨h, rfl⟩, fun _ _ => rfl,
    fun _ _ h => h, fun _ _ _ _ _ => Iff.rfl⟩

theorem Ext.trans {stk : List Nat} {a b c : TSt V C} {S T U : Nat → Prop} {g g' g'' : Gh V}
    (h1 : Ext stk a S g b T g') (h2 : Ext stk b T g' c U g'') : Ext stk a S g c U g'' where
  len := h1.len.trans h2.len
  keep i hi hv := (h2.keep i (by have := h1.len; omega) (h1.none_ i hi hv)).trans (h1.keep i hi hv)
  mono z hz := h2.mono z (h1.mono z hz)
  fresh z hz := by
    rcases h2.fresh z hz with h | h
    · exact h1.fresh z h
    · right; have := h1.len; omega
  none_ i hi hv := h2.none_ i (by have := h1.len; omega) (h1.none_ i hi hv)
  prot i hp := by
    obtain ⟨a1, a2⟩ := h1.prot i hp
    obtain ⟨b1, b2⟩ := h2.prot i a1
    exact ⟨b1, b2.trans a2⟩
  rank i hi := (h2.rank i (by have := h1.len; omega)).trans (h1.rank i hi)
  ready n z hr := h2.ready n z (h1.ready n z hr)
  params n s d is hn := (h2.params n s d is (by have := h1.len; omega)).trans (h1.params n s d is hn)

/-! ## elementary steps -/

theorem constVal_setVal (h : TArena V C) (w : Nat) (p : V) (i : Nat) (hw : constVal h w ≠ none) :
    (constVal (setVal h w p) i ≠ none ↔ constVal h i ≠ none) := by
  unfold setVal
  cases hr : h[w]? with
  | none => simp
  | some r =>
    simp only
    by_cases hi : i = w
    · subst hi
      have hlt : i < h.length := by
        by_contra hc; rw [List.getElem?_eq_none (by omega)] at hr; cases hr
      have : (h.set i { r with op := .const p })[i]? = some { r with op := .const p } := by simp [hlt]
      simp only [constVal, this]
      simpa [constVal] using hw
    · have : (h.set w { r with op := .const p })[i]? = h[i]? := by simp [Ne.symm hi]
      simp only [constVal, this]

theorem setVal_get (h : TArena V C) (w : Nat) (p : V) (i : Nat) (hi : i ≠ w) : (setVal h w p)[i]? = h[i]? := by
  unfold setVal
  cases hr : h[w]? with
  | none => rfl
  | some r => simp [Ne.symm hi]

theorem setVal_length (h : TArena V C) (w : Nat) (p : V) : (setVal h w p).length = h.length := by
  unfold setVal
  cases hr : h[w]? <;> simp

theorem setVal_self {h : TArena V C} {w : Nat} {r : TRec V C} (hr : h[w]? = some r) (p : V) :
    (setVal h w p)[w]? = some { r with op := .const p } := by
  unfold setVal
  have hlt : w < h.length := by
    by_contra hc; rw [List.getElem?_eq_none (by omega)] at hr; cases hr
  simp only [hr]
  rw [List.getElem?_set_self hlt]

theorem setVal_param {h : TArena V C} {w : Nat} (p : V) (hw : constVal h w ≠ none) {i : Nat} {s : String} {d : Option Nat}
    {is : List Nat} : (setVal h w p)[i]? = some ⟨.param s d, is⟩ ↔ h[i]? = some ⟨.param s d, is⟩ := by
  by_cases hi : i = w
  · subst hi
    cases hr : h[i]? with
    | none => unfold setVal; rw [hr]; simp [hr]
    | some r =>
      rw [setVal_self hr]
      constructor
      · intro h; cases h
      · intro h
        cases h
        simp [constVal, hr] at hw
  · rw [setVal_get _ _ _ _ hi]

/-- weights are the same up to the values of constants -/
theorem packOk_heap {h h' : TArena V C} {g : Gh V} {n : Nat} {r : TRec V C}
    (hc : ∀ i ∈ r.inputs, (constVal h' i ≠ none ↔ constVal h i ≠ none)) (hp : PackOk h g n r) : PackOk h' g n r := by
  unfold PackOk at hp ⊢
  cases hop : r.op with
  | inner t p =>
    rw [hop] at hp
    refine ⟨hp.1, ?_⟩
    intro x w rest hi hw
    exact hp.2 x w rest hi ((hc w (by simp [hi])).1 hw)
  | conv c v2 p =>
    rw [hop] at hp
    refine ⟨hp.1, ?_, ?_⟩
    · intro hv x w rest hi hw
      exact hp.2.1 hv x w rest hi ((hc w (by simp [hi])).1 hw)
    · intro hv x y w rest hi hw
      exact hp.2.2 hv x y w rest hi ((hc w (by simp [hi])).1 hw)
  | gemm al be tA tB ex =>
    rw [hop] at hp
    intro a b c rest hi
    obtain ⟨h1, h2, h3, h4, h5⟩ := hp a b c rest hi
    have ha := hc a (by simp [hi])
    have hb := hc b (by simp [hi])
    exact ⟨fun q => h1 (ha.1 q), fun q => h2 (hb.1 q), h3, fun q => hb.2 (h4 q), h5⟩
  | _ => trivial

/-- weights belong to the same nodes -/
theorem packOk_ghost {h : TArena V C} {g g' : Gh V} {n : Nat} {r : TRec V C}
    (ho : ∀ i ∈ r.inputs, (g.owner i = some n → g'.owner i = some n) ∧ (g.owner i = none → g'.owner i = none))
    (hr : ∀ i ∈ r.inputs, g'.rank i = g.rank i) (hn : g'.rank n = g.rank n) (hp : PackOk h g n r) : PackOk h g' n r := by
  unfold PackOk at hp ⊢
  cases hop : r.op with
  | inner t p =>
    rw [hop] at hp
    refine ⟨hp.1, ?_⟩
    intro x w rest hi hw
    obtain ⟨a, b⟩ := hp.2 x w rest hi hw
    exact ⟨(ho w (by simp [hi])).1 a, b⟩
  | conv c v2 p =>
    rw [hop] at hp
    refine ⟨hp.1, ?_, ?_⟩
    · intro hv x w rest hi hw
      obtain ⟨a, b⟩ := hp.2.1 hv x w rest hi hw
      exact ⟨(ho w (by simp [hi])).1 a, b⟩
    · intro hv x y w rest hi hw
      obtain ⟨a, b⟩ := hp.2.2 hv x y w rest hi hw
      exact ⟨(ho w (by simp [hi])).1 a, b⟩
  | gemm al be tA tB ex =>
    rw [hop] at hp
    intro a b c rest hi
    obtain ⟨h1, h2, h3, h4, h5⟩ := hp a b c rest hi
    refine ⟨fun q => ⟨(ho a (by simp [hi])).1 (h1 q).1, (h1 q).2⟩, fun q => ⟨(ho b (by simp [hi])).1 (h2 q).1, (h2 q).2⟩,
      (ho c (by simp [hi])).2 h3, h4, ?_⟩
    intro i hm
    rw [hr i hm, hn]; exact h5 i hm
  | _ => trivial

theorem vals_congr {K : Kern V C} {f : String → V} {val val' : Nat → Option V} {r : TRec V C} {v : V}
    (hc : ∀ i ∈ r.inputs, val' i = val i) (hv : Vals K f val r v) : Vals K f val' r v := by
  unfold Vals at hv ⊢
  have : r.inputs.map val' = r.inputs.map val := List.map_congr_left hc
  cases hop : r.op <;> rw [hop] at hv <;> simp only at hv ⊢ <;> first | exact hv | (rw [this]; exact hv)

/-- the inputs of a node that has a value have values -/
theorem vals_inputs {K : Kern V C} {f : String → V} {val : Nat → Option V} {r : TRec V C} {v : V}
    (hv : Vals K f val r v) : ∀ i ∈ r.inputs, ∃ x, val i = some x := by
  intro i hi
  unfold Vals at hv
  have main : (∃ vs : List V, r.inputs.map val = vs.map some) → ∃ x, val i = some x := by
    rintro ⟨vs, h⟩
    have : val i ∈ r.inputs.map val := List.mem_map_of_mem hi
    rw [h] at this
    obtain ⟨x, -, hx⟩ := List.mem_map.1 this
    exact ⟨x, hx.symm⟩
  cases hop : r.op <;> rw [hop] at hv <;> simp only at hv <;>
    first
    | (rw [hv.1] at hi; cases hi)
    | (obtain ⟨vs, h, -⟩ := hv; exact main ⟨vs, h⟩)

theorem J.push {K : Kern V C} {f : String → V} {stk : List Nat} {st : TSt V C} {S : Nat → Prop} {g : Gh V}
    (hJ : J K f stk st S g) (n : Nat) : J K f (n :: stk) st S g where
  lt := hJ.lt
  pend m v hv hr hm := hJ.pend m v hv hr (fun h => hm (by simp [h]))
  own w m ho k v r hv hr hm := hJ.own w m ho k v r hv hr (fun h => hm (by simp [h]))
  ownReady w m ho hr := by
    rcases hJ.ownReady w m ho hr with h | h
    · exact .inl (by simp [h])
    · exact .inr h
  ownVal := hJ.ownVal
  ready := hJ.ready
  closed := hJ.closed
  apart := hJ.apart
  names := hJ.names

/-- `f` with the value `x` at `k` -/
def setAt {α : Type} (f : Nat → α) (k : Nat) (x : α) : Nat → α := fun i => if i = k then x else f i

/-- replacing the constant `w` that only a node being translated uses -/
theorem J.mutate {K : Kern V C} {f : String → V} {stk : List Nat} {st : TSt V C} {S : Nat → Prop} {g : Gh V}
    (hJ : J K f stk st S g) {w n : Nat} {old : V} (p : V) (ho : g.owner w = some n) (hn : n ∈ stk)
    (hr : st.ready w = none) (hc : constVal st.heap w ≠ none) (hval : g.val w = some old) (hws : w ∉ stk) :
    J K f stk { st with heap := setVal st.heap w p } S { g with val := setAt g.val w (some p) } := by
  obtain ⟨rw', hrw⟩ : ∃ r, st.heap[w]? = some r := ⟨_, List.getElem?_eq_getElem (hJ.lt w old hval)⟩
  have hin : ∀ m v r, g.val m = some v → st.ready m = none → m ∉ stk → st.heap[m]? = some r → w ∉ r.inputs := by
    intro m v r a b c d e
    exact c (by rw [hJ.own w n ho m v r a b c d e]; exact hn)
  have hSw : ¬ S w := by
    intro h; rw [hJ.apart w h] at hval; cases hval
  refine ⟨?_, ?_, ?_, hJ.ownReady, ?_, ?_, ?_, ?_, ?_⟩
  · intro m v hv
    rw [setVal_length]
    simp only [setAt] at hv
    split at hv
    · subst m; exact hJ.lt w old hval
    · exact hJ.lt m v hv
  · intro m v hv hm hst
    simp only [setAt] at hv hm
    by_cases hmw : m = w
    · subst hmw
      simp at hv; subst hv
      refine ⟨_, setVal_self hrw p, ?_, ?_, trivial⟩
      · obtain ⟨r, hr', hv', -, -⟩ := hJ.pend m old hval hr hws
        rw [hrw] at hr'; cases hr'
        have : rw'.inputs = [] := by
          unfold Vals at hv'
          unfold constVal at hc
          rw [hrw] at hc
          cases hop : rw'.op with
          | const c => rw [hop] at hv'; exact hv'.1
          | _ => exfalso; obtain ⟨op, is⟩ := rw'; simp only at hop; subst hop; simp at hc
        exact ⟨this, rfl⟩
      · intro i hi
        obtain ⟨r, hr', -, hrk, -⟩ := hJ.pend m old hval hr hws
        rw [hrw] at hr'; cases hr'
        exact hrk i hi
    · rw [if_neg hmw] at hv
      obtain ⟨r, hr', hv', hrk, hp⟩ := hJ.pend m v hv hm hst
      refine ⟨r, (setVal_get _ _ _ _ hmw).trans hr', ?_, hrk, ?_⟩
      · refine vals_congr (fun i hi => ?_) hv'
        simp only [setAt]
        rw [if_neg]
        rintro rfl
        exact hin m v r hv hm hst hr' hi
      · exact packOk_ghost (fun _ _ => ⟨id, id⟩) (fun _ _ => rfl) rfl
          (packOk_heap (fun i _ => constVal_setVal _ _ _ _ hc) hp)
  · intro x m hx k v r hv hk hst hr' hi
    simp only [setAt] at hv
    by_cases hkw : k = w
    · subst hkw
      simp only at hr'
      rw [setVal_self hrw p] at hr'; cases hr'
      exact hJ.own x m hx k old rw' hval hk hst hrw hi
    · rw [if_neg hkw] at hv
      simp only at hr'
      rw [setVal_get _ _ _ _ hkw] at hr'
      exact hJ.own x m hx k v r hv hk hst hr' hi
  · intro x m hx
    obtain ⟨y, hy⟩ := hJ.ownVal x m hx
    by_cases hxw : x = w
    · exact ⟨p, by simp [setAt, hxw]⟩
    · exact ⟨y, by simp [setAt, hxw, hy]⟩
  · intro k z hk
    simp only at hk
    obtain ⟨hs, v, hv, hd⟩ := hJ.ready k z hk
    refine ⟨hs, v, ?_, ?_⟩
    · simp only [setAt]
      rw [if_neg]
      · exact hv
      · rintro rfl; rw [hr] at hk; cases hk
    · exact tden_agree (S := S) (fun z hz => (hJ.closed z hz).2)
        (fun z hz => setVal_get _ _ _ _ (by rintro rfl; exact hSw hz)) hd hs
  · intro z hz
    rw [setVal_length]
    refine ⟨(hJ.closed z hz).1, ?_⟩
    intro r hr'
    rw [setVal_get _ _ _ _ (by rintro rfl; exact hSw hz)] at hr'
    exact (hJ.closed z hz).2 r hr'
  · intro z hz
    simp only [setAt]
    rw [if_neg (by rintro rfl; exact hSw hz)]
    exact hJ.apart z hz
  · intro k z s d is hk hkr
    simp only at hk hkr ⊢
    have hkw : k ≠ w := by rintro rfl; rw [hr] at hkr; cases hkr
    rw [setVal_get _ _ _ _ hkw] at hk
    rw [setVal_get]
    · exact hJ.names k z s d is hk hkr
    · rintro rfl; exact hSw (hJ.ready k z hkr).1

theorem constVal_append (h e : TArena V C) (i : Nat) (hi : i < h.length) : constVal (h ++ e) i = constVal h i := by
  unfold constVal; rw [List.getElem?_append_left hi]

/-- new nodes that nothing refers to yet -/
theorem J.append {K : Kern V C} {f : String → V} {stk : List Nat} {st : TSt V C} {S : Nat → Prop} {g : Gh V}
    (hJ : J K f stk st S g) (e : TArena V C) : J K f stk { st with heap := st.heap ++ e } S g where
  lt n v hv := by have := hJ.lt n v hv; simp; omega
  pend n v hv hr hs := by
    obtain ⟨r, h1, h2, h3, h4⟩ := hJ.pend n v hv hr hs
    refine ⟨r, by simp only; rw [List.getElem?_append_left (hJ.lt n v hv)]; exact h1, h2, h3, ?_⟩
    refine packOk_heap (fun i hi => ?_) h4
    obtain ⟨x, hx⟩ := vals_inputs h2 i hi
    rw [constVal_append _ _ _ (hJ.lt i x hx)]
  own w m ho n v r hv hr hs hn hi := by
    simp only at hn
    rw [List.getElem?_append_left (hJ.lt n v hv)] at hn
    exact hJ.own w m ho n v r hv hr hs hn hi
  ownReady := hJ.ownReady
  ownVal := hJ.ownVal
  ready n z hr := by
    obtain ⟨a, v, b, c⟩ := hJ.ready n z hr
    exact ⟨a, v, b, tden_agree (S := S) (fun z hz => (hJ.closed z hz).2)
      (fun z hz => List.getElem?_append_left (hJ.closed z hz).1) c a⟩
  closed z hz := by
    obtain ⟨a, b⟩ := hJ.closed z hz
    refine ⟨by simp; omega, ?_⟩
    intro r hr
    simp only at hr
    rw [List.getElem?_append_left a] at hr
    exact b r hr
  apart := hJ.apart
  names n z s d is hn hr := by
    obtain ⟨a, v, b, -⟩ := hJ.ready n z hr
    simp only at hn ⊢
    rw [List.getElem?_append_left (hJ.lt n v b)] at hn
    rw [List.getElem?_append_left (hJ.closed z a).1]
    exact hJ.names n z s d is hn hr

/-- a fresh node becomes a source node; it takes over weights of a node being translated -/
theorem J.adopt {K : Kern V C} {f : String → V} {stk : List Nat} {st : TSt V C} {S : Nat → Prop} {g g' : Gh V}
    (hJ : J K f stk st S g) {t n : Nat} {r : TRec V C} {x : V} (ht : st.heap[t]? = some r) (hS : ¬ S t)
    (hr : st.ready t = none) (hv : g.val t = none) (hn : n ∈ stk)
    (hval' : g'.val = setAt g.val t (some x)) (hrank' : ∀ i, i ≠ t → g'.rank i = g.rank i)
    (howner' : ∀ i, g'.owner i = g.owner i ∨ (g'.owner i = some t ∧ g.owner i = some n ∧ st.ready i = none))
    (hvals : Vals K f g.val r x) (hrk : ∀ i ∈ r.inputs, i ≠ t ∧ g.rank i < g'.rank t)
    (hpk : PackOk st.heap g' t r) (hown : ∀ i ∈ r.inputs, g'.owner i = some t ∨ g'.owner i = none) :
    J K f stk st S g' := by
  have hfresh : ∀ m v q, g.val m = some v → st.ready m = none → m ∉ stk → st.heap[m]? = some q → t ∉ q.inputs := by
    intro m v q h1 h2 h3 h4 h5
    obtain ⟨r', e1, e2, -, -⟩ := hJ.pend m v h1 h2 h3
    rw [h4] at e1; cases e1
    obtain ⟨y, hy⟩ := vals_inputs e2 t h5
    rw [hv] at hy; cases hy
  have hpend : ∀ m v, g'.val m = some v → m ≠ t → g.val m = some v := by
    intro m v h hm
    rw [hval'] at h; simpa [setAt, hm] using h
  refine ⟨?_, ?_, ?_, ?_, ?_, ?_, hJ.closed, ?_, hJ.names⟩
  · intro m v h
    by_cases hm : m = t
    · subst hm
      by_contra hc; rw [List.getElem?_eq_none (by omega)] at ht; cases ht
    · exact hJ.lt m v (hpend m v h hm)
  · intro m v h hrm hs
    by_cases hm : m = t
    · subst hm
      have hvx : v = x := by rw [hval'] at h; simpa [setAt] using h.symm
      subst hvx
      refine ⟨r, ht, ?_, ?_, hpk⟩
      · refine vals_congr (fun i hi => ?_) hvals
        rw [hval']; simp [setAt, (hrk i hi).1]
      · intro i hi
        rw [hrank' i (hrk i hi).1]; exact (hrk i hi).2
    · have h' := hpend m v h hm
      obtain ⟨q, h1, h2, h3, h4⟩ := hJ.pend m v h' hrm hs
      have hti := hfresh m v q h' hrm hs h1
      have hne : ∀ i ∈ q.inputs, i ≠ t := fun i hi e => hti (e ▸ hi)
      refine ⟨q, h1, ?_, ?_, ?_⟩
      · refine vals_congr (fun i hi => ?_) h2
        rw [hval']; simp [setAt, hne i hi]
      · intro i hi
        rw [hrank' i (hne i hi), hrank' m hm]; exact h3 i hi
      · refine packOk_ghost (fun i hi => ?_) (fun i hi => hrank' i (hne i hi)) (hrank' m hm) h4
        rcases howner' i with e | ⟨e, e2, -⟩
        · rw [e]; exact ⟨id, id⟩
        · constructor
          · intro e3
            rw [e2] at e3; cases e3
            exact absurd hn hs
          · intro e3; rw [e2] at e3; cases e3
  · intro w m ho k v q hk hrk' hs hq hi
    by_cases hkt : k = t
    · subst hkt
      rw [ht] at hq; cases hq
      rcases hown w hi with h | h
      · rw [ho] at h; cases h; rfl
      · rw [ho] at h; cases h
    · have hk' := hpend k v hk hkt
      rcases howner' w with e | ⟨e, e2, -⟩
      · rw [e] at ho
        exact hJ.own w m ho k v q hk' hrk' hs hq hi
      · have := hJ.own w n e2 k v q hk' hrk' hs hq hi
        subst this; exact absurd hn hs
  · intro w m ho hw
    rcases howner' w with e | ⟨e, e2, e3⟩
    · rw [e] at ho; exact hJ.ownReady w m ho hw
    · exact absurd e3 hw
  · intro w m ho
    have : ∃ m', g.owner w = some m' := by
      rcases howner' w with e | ⟨-, e2, -⟩
      · exact ⟨m, e ▸ ho⟩
      · exact ⟨n, e2⟩
    obtain ⟨m', hm'⟩ := this
    obtain ⟨y, hy⟩ := hJ.ownVal w m' hm'
    by_cases hwt : w = t
    · exact ⟨x, by rw [hval', hwt]; simp [setAt]⟩
    · exact ⟨y, by rw [hval']; simp [setAt, hwt, hy]⟩
  · intro k z hk
    obtain ⟨a, v, b, c⟩ := hJ.ready k z hk
    refine ⟨a, v, ?_, c⟩
    rw [hval']
    have : k ≠ t := by rintro rfl; rw [hr] at hk; cases hk
    simp [setAt, this, b]
  · intro z hz
    rw [hval']
    have : z ≠ t := by rintro rfl; exact hS hz
    simp [setAt, this, hJ.apart z hz]

end Verif.Compiler
