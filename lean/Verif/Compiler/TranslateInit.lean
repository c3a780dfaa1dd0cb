import Verif.Compiler.TranslateMain
import Verif.Compiler.Terminate
/-! The initial state of the translator satisfies the invariant (helpers for C47). -/
namespace Verif.Compiler
open Verif.Runtime
open Verif.Module.Fusion (F)

variable {V C : Type} {K : Kern V C} {f : String → V}

/-- **Specification**: `w` is a constant that the packing option may replace when it handles node `n`. -/
def Weight (h : TArena V C) (n w : Nat) : Prop :=
  constVal h w ≠ none ∧ ∃ r, h[n]? = some r ∧
    match r.op with
    | .inner _ _ => r.inputs[1]? = some w
    | .conv _ v2 _ => r.inputs[if v2 then 2 else 1]? = some w
    | .gemm _ _ _ _ _ => r.inputs[0]? = some w ∨ r.inputs[1]? = some w
    | _ => False

/-- **Specification**: every weight is read once, by the node it is a weight of, and is not an output or input of the module. -/
structure Unshared (h : TArena V C) (roots : List Nat) : Prop where
  once : ∀ n w, Weight h n w → ∀ (m : Nat) (r : TRec V C), h[m]? = some r → w ∈ r.inputs → m = n ∧ r.inputs.count w = 1
  root : ∀ n w, Weight h n w → w ∉ roots

/-- **Specification**: the module is a graph as the importers write it: references stay in it, parameters and constants
have no inputs, no operator carries the `kernel_packed` flag yet, the factors of a Gemm that is to be transposed on the
right are constants, and there is no cycle. -/
structure Plain [Inhabited V] (K : Kern V C) (h : TArena V C) : Prop where
  closed : ∀ (n : Nat) (r : TRec V C), h[n]? = some r → ∀ m ∈ r.inputs, m < h.length
  leafP : ∀ (n : Nat) (s : String) (d : Option Nat) (is : List Nat), h[n]? = some ⟨.param s d, is⟩ → is = []
  leafC : ∀ (n : Nat) (v : V) (is : List Nat), h[n]? = some ⟨.const v, is⟩ → is = []
  unpackedI : ∀ (n : Nat) (t p : Bool) (is : List Nat), h[n]? = some ⟨.inner t p, is⟩ → p = false
  unpackedC : ∀ (n : Nat) (c : C) (v2 p : Bool) (is : List Nat), h[n]? = some ⟨.conv c v2 p, is⟩ → p = false
  gemmB : ∀ (n : Nat) (a b : V) (tA e : Bool) (x y : Nat) (rest : List Nat),
    h[n]? = some ⟨.gemm a b tA true e, x :: y :: rest⟩ → constVal h y ≠ none
  acyclic : ∀ n, ¬ DependsOn (graphOf (h.map (TRec.toRec K))) n n

theorem tden_det {h : TArena V C} {n : Nat} {v v' : V} (h1 : TDen K f h n v) (h2 : TDen K f h n v') : v = v' := by
  induction h1 generalizing v' with
  | param hn =>
    cases h2 with
    | param hn' => rw [hn] at hn'; cases hn'; rfl
    | const hn' => rw [hn] at hn'; cases hn'
    | node hn' _ _ hs => rw [hn] at hn'; cases hn'; simp [TOp.sem] at hs
  | const hn =>
    cases h2 with
    | param hn' => rw [hn] at hn'; cases hn'
    | const hn' => rw [hn] at hn'; cases hn'; rfl
    | node hn' _ _ hs => rw [hn] at hn'; cases hn'; simp [TOp.sem] at hs
  | @node n r vs v hn hl hi hs ih =>
    cases h2 with
    | param hn' => rw [hn] at hn'; cases hn'; simp [TOp.sem] at hs
    | const hn' => rw [hn] at hn'; cases hn'; simp [TOp.sem] at hs
    | @node _ r' vs' _ hn' hl' hi' hs' =>
      rw [hn] at hn'; cases hn'
      have : vs = vs' := by
        apply List.ext_getElem (by omega)
        intro i a b
        exact ih i (by omega) a (hi' i (by omega) b)
      subst this
      rw [hs] at hs'
      exact Option.some.inj hs'

open Classical in
/-- the value of a node, if it has one -/
noncomputable def tval (K : Kern V C) (f : String → V) (h : TArena V C) (n : Nat) : Option V :=
  if hv : ∃ v, TDen K f h n v then some hv.choose else none

theorem tval_some {h : TArena V C} {n : Nat} {v : V} : tval K f h n = some v ↔ TDen K f h n v := by
  unfold tval
  split
  · rename_i hv
    constructor
    · intro e; cases e; exact hv.choose_spec
    · intro e; rw [tden_det hv.choose_spec e]
  · rename_i hv
    constructor
    · intro e; cases e
    · intro e; exact absurd ⟨v, e⟩ hv

open Classical in
/-- the node a weight belongs to -/
noncomputable def towner (h : TArena V C) (w : Nat) : Option Nat :=
  if hw : ∃ n, Weight h n w then some hw.choose else none

theorem towner_some {h : TArena V C} {w m : Nat} (e : towner h w = some m) : Weight h m w := by
  unfold towner at e
  split at e
  · rename_i hw
    cases e; exact hw.choose_spec
  · cases e

theorem towner_none {h : TArena V C} {w : Nat} (e : ∀ m, ¬ Weight h m w) : towner h w = none := by
  unfold towner
  split
  · rename_i hw
    exact absurd hw.choose_spec (e _)
  · rfl

theorem towner_eq {h : TArena V C} {roots : List Nat} (hu : Unshared h roots) {n w : Nat} (hw : Weight h n w) :
    towner h w = some n := by
  have hx : ∃ n, Weight h n w := ⟨n, hw⟩
  have hy : Weight h hx.choose w := hx.choose_spec
  unfold towner
  rw [dif_pos hx]
  obtain ⟨r, hr, hm⟩ := hw.2
  have hin : w ∈ r.inputs := by
    split at hm
    · exact List.mem_of_getElem? hm
    · exact List.mem_of_getElem? hm
    · rcases hm with hm | hm <;> exact List.mem_of_getElem? hm
    · exact hm.elim
  exact congrArg some (hu.once _ _ hy n r hr hin).1.symm

theorem vals_of_tden [Inhabited V] {h : TArena V C} (hp : Plain K h) {n : Nat} {v : V} (hd : TDen K f h n v) :
    ∃ r, h[n]? = some r ∧ Vals K f (tval K f h) r v := by
  cases hd with
  | param hn => exact ⟨_, hn, hp.leafP _ _ _ _ hn, rfl⟩
  | const hn => exact ⟨_, hn, hp.leafC _ _ _ hn, rfl⟩
  | @node _ r vs _ hn hl hi hs =>
    refine ⟨r, hn, ?_⟩
    have hm : r.inputs.map (tval K f h) = vs.map some := by
      apply List.ext_getElem (by simp [hl])
      intro i a b
      simp only [List.length_map] at a b
      simp only [List.getElem_map]
      exact tval_some.2 (hi i a b)
    unfold Vals
    split
    · rename_i e; rw [e] at hs; simp [TOp.sem] at hs
    · rename_i e; rw [e] at hs; simp [TOp.sem] at hs
    · exact ⟨vs, hm, hs⟩

theorem weight_mem {h : TArena V C} {n w : Nat} (hw : Weight h n w) : ∃ r, h[n]? = some r ∧ w ∈ r.inputs := by
  obtain ⟨r, hr, hm⟩ := hw.2
  refine ⟨r, hr, ?_⟩
  split at hm
  · exact List.mem_of_getElem? hm
  · exact List.mem_of_getElem? hm
  · rcases hm with hm | hm <;> exact List.mem_of_getElem? hm
  · exact hm.elim

theorem packOk_init [Inhabited V] {h : TArena V C} {roots : List Nat} (hp : Plain K h) (hu : Unshared h roots)
    {rank : Nat → Nat} (hrank : ∀ (n : Nat) (r : TRec V C), h[n]? = some r → ∀ i ∈ r.inputs, rank i < rank n)
    {n : Nat} {r : TRec V C} (hn : h[n]? = some r) :
    PackOk h ⟨tval K f h, fun i => 4 * rank i, towner h⟩ n r := by
  obtain ⟨op, is⟩ := r
  cases op with
  | inner t p =>
    refine ⟨hp.unpackedI _ _ _ _ hn, ?_⟩
    intro x w rest hi hw
    simp only at hi
    have hW : Weight h n w := ⟨hw, _, hn, by simp [hi]⟩
    refine ⟨towner_eq hu hW, ?_⟩
    have := (hu.once _ _ hW n _ hn (by simp [hi])).2
    rintro rfl
    simp [hi] at this
  | conv c v2 p =>
    refine ⟨hp.unpackedC _ _ _ _ _ hn, ?_, ?_⟩
    · rintro rfl x w rest hi hw
      simp only at hi
      have hW : Weight h n w := ⟨hw, _, hn, by simp [hi]⟩
      refine ⟨towner_eq hu hW, ?_⟩
      have := (hu.once _ _ hW n _ hn (by simp [hi])).2
      rintro rfl
      simp [hi] at this
    · rintro rfl x y w rest hi hw
      simp only at hi
      have hW : Weight h n w := ⟨hw, _, hn, by simp [hi]⟩
      have := (hu.once _ _ hW n _ hn (by simp [hi])).2
      simp only [hi] at this
      refine ⟨towner_eq hu hW, ?_, ?_⟩
      · rintro rfl
        simp [List.count_cons] at this
      · rintro rfl
        simp [List.count_cons] at this
        omega
  | gemm al be tA tB ex =>
    intro a b c rest hi
    simp only at hi
    have hWa : constVal h a ≠ none → Weight h n a := fun hw => ⟨hw, _, hn, by simp [hi]⟩
    have hWb : constVal h b ≠ none → Weight h n b := fun hw => ⟨hw, _, hn, by simp [hi]⟩
    refine ⟨?_, ?_, ?_, ?_, ?_⟩
    · intro hw
      refine ⟨towner_eq hu (hWa hw), ?_⟩
      have := (hu.once _ _ (hWa hw) n _ hn (by simp [hi])).2
      rintro rfl
      simp [hi] at this
    · intro hw
      refine ⟨towner_eq hu (hWb hw), ?_⟩
      have := (hu.once _ _ (hWb hw) n _ hn (by simp [hi])).2
      rintro rfl
      simp [hi] at this
    · simp only
      cases ho : towner h c with
      | none => rfl
      | some m =>
        exfalso
        have hW := towner_some ho
        obtain ⟨rfl, hc⟩ := hu.once _ _ hW n _ hn (by simp [hi])
        obtain ⟨r, hr, hm⟩ := hW.2
        rw [hn] at hr; cases hr
        simp only [hi] at hm hc
        rcases hm with hm | hm
        · simp at hm; subst hm; simp [List.count_cons] at hc
        · simp at hm; subst hm; simp [List.count_cons] at hc; omega
    · rintro rfl
      subst hi
      exact hp.gemmB _ _ _ _ _ _ _ _ hn
    · intro i hI
      have := hrank n _ hn i hI
      simp only
      omega
  | param _ _ => trivial
  | const _ => trivial
  | mul => trivial
  | add => trivial
  | other _ => trivial

theorem rank_exists [Inhabited V] {h : TArena V C} (hp : Plain K h) : ∃ rank : Nat → Nat,
    ∀ (n : Nat) (r : TRec V C), h[n]? = some r → ∀ i ∈ r.inputs, rank i < rank n := by
  have hin : ∀ (n : Nat) (r : TRec V C), h[n]? = some r → (graphOf (h.map (TRec.toRec K))).inputs n = r.inputs := by
    intro n r hr
    simp [graphOf, hr, TRec.toRec]
  obtain ⟨rank, hr⟩ := exists_rank (G := graphOf (h.map (TRec.toRec K))) (List.range h.length) (by
    intro n m hm
    cases e : h[n]? with
    | none => simp [graphOf, e] at hm
    | some r =>
      rw [hin n r e] at hm
      exact List.mem_range.2 (hp.closed n r e m hm)) hp.acyclic
  exact ⟨rank, fun n r e i hi => hr n i (by rw [hin n r e]; exact hi)⟩

theorem J_init [Inhabited V] {h : TArena V C} {roots : List Nat} (hp : Plain K h) (hu : Unshared h roots) (f : String → V)
    {rank : Nat → Nat} (hrank : ∀ (n : Nat) (r : TRec V C), h[n]? = some r → ∀ i ∈ r.inputs, rank i < rank n) :
    J K f [] ⟨h, fun _ => none⟩ (fun _ => False) ⟨tval K f h, fun i => 4 * rank i, towner h⟩ where
  lt n v hv := by
    obtain ⟨r, hr, -⟩ := vals_of_tden hp (tval_some.1 hv)
    exact (List.getElem?_eq_some_iff.1 hr).1
  pend n v hv _ _ := by
    obtain ⟨r, hr, hva⟩ := vals_of_tden hp (tval_some.1 hv)
    refine ⟨r, hr, hva, ?_, packOk_init hp hu hrank hr⟩
    intro i hi
    have := hrank n r hr i hi
    simp only
    omega
  own w m hw n v r _ _ _ hr hin := (hu.once _ _ (towner_some hw) n r hr hin).1
  ownReady w m _ hr := by simp at hr
  ownVal w m hw := by
    have := (towner_some hw).1
    unfold constVal at this
    split at this
    · rename_i v is e
      exact ⟨v, tval_some.2 (.const e)⟩
    · simp at this
  ready n z hr := by simp at hr
  closed z hz := hz.elim
  apart z hz := hz.elim
  names n z s d is _ hr := by simp at hr

/-- **Specification**: a row of nodes has a row of values -/
def TRow (K : Kern V C) (f : String → V) (h : TArena V C) (ns : List Nat) (vs : List V) : Prop :=
  vs.length = ns.length ∧ ∀ (i : Nat) (h1 : i < ns.length) (h2 : i < vs.length), TDen K f h ns[i] vs[i]

theorem TRow.map [Inhabited V] {h : TArena V C} {ns : List Nat} {vs : List V} (hr : TRow K f h ns vs) :
    ns.map (tval K f h) = vs.map some := by
  apply List.ext_getElem (by simp [hr.1])
  intro i a b
  simp only [List.length_map] at a b
  simp only [List.getElem_map]
  exact tval_some.2 (hr.2 i a b)

theorem translate_sound [Inhabited V] (hK : K.Sound) (s : Skip) {fuel : Nat} {h h' : TArena V C} {outputs inputs outs' ins' : List Nat}
    (hp : Plain K h) (hu : Unshared h (outputs ++ inputs))
    (hin : ∀ i ∈ inputs, ∃ (nm : String) (d : Option Nat), h[i]? = some ⟨.param nm d, []⟩)
    (f : String → V) {vs : List V} (hv : TRow K f h outputs vs)
    (ht : translate K s fuel h outputs inputs = .ok (h', outs', ins')) :
    TRow K f h' outs' vs ∧ ins'.length = inputs.length ∧
      ∀ (j i c : Nat) (nm : String) (d : Option Nat) (is : List Nat), inputs[j]? = some i → ins'[j]? = some c →
        h[i]? = some ⟨.param nm d, is⟩ → h'[c]? = some ⟨.param nm none, []⟩ := by
  unfold translate at ht
  obtain ⟨⟨st1, outs⟩, e1, ht⟩ := F.bind_ok ht
  obtain ⟨⟨st2, ins⟩, e2, ht⟩ := F.bind_ok ht
  simp only [F.ok.injEq, Prod.mk.injEq] at ht
  obtain ⟨rfl, rfl, rfl⟩ := ht
  obtain ⟨rank, hrank⟩ := rank_exists hp
  have hJ := J_init hp hu f hrank
  have hrec := fun st S g n v st' z => transNode_post (K := K) (f := f) hK s fuel [] st S g n v st' z
  have hprot : ∀ i ∈ outputs ++ inputs, ∀ x, TDen K f h i x →
      Prot [] ⟨h, fun _ => none⟩ ⟨tval K f h, fun i => 4 * rank i, towner h⟩ i := by
    intro i hi x hx
    refine ⟨x, tval_some.2 hx, ?_⟩
    intro m hm
    exact absurd hi (hu.root _ _ (towner_some hm))
  obtain ⟨S1, g1, j1, x1, l1, c1, d1, -⟩ := transInputs_post _ hrec outputs _ _ _ vs st1 outs hJ (by
      intro i hi
      obtain ⟨k, hk, rfl⟩ := List.getElem_of_mem hi
      exact ⟨hprot _ (by simp) _ (hv.2 k hk (by have := hv.1; omega)), by simp⟩) (by simp) hv.map e1
  have hpar : ∀ i ∈ inputs, ∃ x, TDen K f h i x := by
    intro i hi
    obtain ⟨nm, d, e⟩ := hin i hi
    exact ⟨_, .param e⟩
  obtain ⟨ws, hws⟩ : ∃ ws : List V, inputs.map g1.val = ws.map some := by
    refine ⟨inputs.map fun i => (g1.val i).getD default, ?_⟩
    simp only [List.map_map]
    apply List.map_congr_left
    intro i hi
    obtain ⟨x, hx⟩ := hpar i hi
    obtain ⟨-, e⟩ := x1.prot i (hprot i (by simp [hi]) x hx)
    simp only at e
    simp [Function.comp, e, tval_some.2 hx]
  obtain ⟨S2, g2, j2, x2, l2, c2, d2, n2⟩ := transInputs_post _ hrec inputs _ _ _ ws st2 ins j1 (by
      intro i hi
      obtain ⟨x, hx⟩ := hpar i hi
      exact ⟨(x1.prot i (hprot i (by simp [hi]) x hx)).1, by simp⟩) (by simp) hws e2
  refine ⟨⟨by rw [l1]; exact hv.1, ?_⟩, l2, ?_⟩
  · intro i h1 h2
    refine tden_agree (S := S1) ?_ ?_ (d1 i h1 h2) (c1 _ (List.getElem_mem h1))
    · intro z hz r hr
      exact (j1.closed z hz).2 r hr
    · intro z hz
      exact x2.keep z (j1.closed z hz).1 (j1.apart z hz)
  · intro j i c nm d is hi hc hh
    have hlt : i < h.length := (List.getElem?_eq_some_iff.1 hh).1
    exact n2 j i c nm d is hi hc ((x1.params i nm d is hlt).2 hh)

end Verif.Compiler
