import Verif.Props.PackKern
import Verif.Props.Compiler
import Verif.Compiler.TranslateClosed
import Mathlib.Algebra.Ring.Int.Defs
/-!
# C47: translating a module (weight packing) keeps its meaning

`TDen` (Verif/Compiler/TranslateLemmas.lean) is the meaning of a node, `Plain` and `Unshared`
(Verif/Compiler/TranslateInit.lean) describe ordinary modules whose weights are read once.
-/
namespace Verif.Props
open Verif.Core Verif.Kernels Verif.Compiler Verif.Runtime
open Verif.Module.Fusion (F)

/-- C47, for any operators that satisfy the packing laws: when translation succeeds on a module whose weights are not
shared, for all values of the inputs the translated outputs have exactly the values the outputs had, in order, and the
inputs are, in order, the parameters with the same names. -/
theorem C47_translate_preserves_meaning_partial {V C : Type} [Inhabited V] (K : Kern V C) (hK : K.Sound) (s : Skip)
    (fuel : Nat) (h h' : TArena V C) (outputs inputs outs' ins' : List Nat)
    (hp : Plain K h) (hu : Unshared h (outputs ++ inputs))
    (hin : ∀ i ∈ inputs, ∃ (nm : String) (d : Option Nat), h[i]? = some ⟨.param nm d, []⟩)
    (ht : translate K s fuel h outputs inputs = .ok (h', outs', ins')) :
    ∀ (f : String → V) (vs : List V), TRow K f h outputs vs → TRow K f h' outs' vs ∧ ins'.length = inputs.length ∧
      ∀ (j i c : Nat) (nm : String) (d : Option Nat) (is : List Nat), inputs[j]? = some i → ins'[j]? = some c →
        h[i]? = some ⟨.param nm d, is⟩ → h'[c]? = some ⟨.param nm none, []⟩ :=
  fun f _ hv => translate_sound hK s hp hu hin f hv ht

/-- the same for the operators of the library on `float` tensors (exact arithmetic) -/
theorem C47_pack_preserves_results_partial {α : Type} [CommSemiring α] (near : α → α → Bool)
    (hn0 : ∀ x, near x 0 = true → x = 0) (hn1 : ∀ x, near x 1 = true → x = 1) (h01 : near 0 1 = false) (toInt : α → Int)
    [Inhabited (Arr α)] (s : Skip) (fuel : Nat) (h h' : TArena (Arr α) (ConvPar α)) (outputs inputs outs' ins' : List Nat)
    (hp : Plain (arrKern near toInt) h) (hu : Unshared h (outputs ++ inputs))
    (hin : ∀ i ∈ inputs, ∃ (nm : String) (d : Option Nat), h[i]? = some ⟨.param nm d, []⟩)
    (ht : translate (arrKern near toInt) s fuel h outputs inputs = .ok (h', outs', ins')) :
    ∀ (f : String → Arr α) (vs : List (Arr α)), TRow (arrKern near toInt) f h outputs vs →
      TRow (arrKern near toInt) f h' outs' vs :=
  fun f _ hv => (translate_sound (arrKern_sound near hn0 hn1 h01 toInt) s hp hu hin f hv ht).1

/-- the name of a parameter -/
def nameOf {V C : Type} (h : TArena V C) (i : Nat) : Option String :=
  match h[i]? with
  | some ⟨.param s _, _⟩ => some s
  | _ => none

theorem trow_det {V C : Type} {K : Kern V C} {f : String → V} {h : TArena V C} {ns : List Nat} {vs vs' : List V}
    (h1 : TRow K f h ns vs) (h2 : TRow K f h ns vs') : vs = vs' := by
  apply List.ext_getElem (by rw [h1.1, h2.1])
  intro i a b
  exact tden_det (h1.2 i (by have := h1.1; omega) a) (h2.2 i (by have := h1.1; omega) b)

/-- C47 with C01: translating a module whose weights are not shared and compiling the result (zipping with options that
keep values, folding constants, generating code) gives a program that, on any arguments for which the module's outputs
have values, returns exactly those values and leaves the stack as it found it. -/
theorem C47_translated_program_partial {V C : Type} [Inhabited V] (K : Kern V C) (hK : K.Sound) (s : Skip) (fuel : Nat)
    (h h' : TArena V C) (outputs inputs outs' ins' : List Nat) (hp : Plain K h) (hu : Unshared h (outputs ++ inputs))
    (hout : ∀ n ∈ outputs, n < h.length)
    (hin : ∀ i ∈ inputs, ∃ (nm : String) (d : Option Nat), h[i]? = some ⟨.param nm d, []⟩)
    (hnames : (inputs.map (nameOf h)).Nodup)
    (ht : translate K s fuel h outputs inputs = .ok (h', outs', ins'))
    (P : PackOps V) (os : List (ZipOption V)) (hos : ∀ o ∈ os, OptionOk P o)
    (f1 f2 f3 : Nat) (h1 h2 : Arena V) (outs1 outs2 : List Nat)
    (hz : zipRoots os f1 (h'.map (TRec.toRec K)) outs' = .ok (h1, outs1)) (hf : constFold f2 h1 outs1 = .ok (h2, outs2))
    (hused : ins' = [] ∨ ∃ p, (graphOf h2).kind p = .param ∧ Needs (graphOf h2) outs2 p)
    (ops : OpTable Nat V) (refs : Nat → Nat → Bool)
    (hops : ∀ n f, Needs (graphOf h2) outs2 n → (graphOf h2).kind n = .oper → ops n = some f →
      Implements f ((graphOf h2).inputs n).length ((graphOf h2).sem n))
    (blk : Block V) (hcomp : compile (graphOf h2) ops refs ins' outs2 f3 = some (some blk)) :
    ∀ (adj : Adjust V) (args : List V) (f : String → V) (vs : List V) (stk : Stk V), stk.Wf →
      args.length = inputs.length →
      (∀ (j i : Nat) (nm : String) (a : V), inputs[j]? = some i → nameOf h i = some nm → args[j]? = some a → f nm = a) →
      TRow K f h outputs vs → launchOffline P adj blk.prog args stk = .ok stk vs := by
  intro adj args f vs stk hstk hla hargs hv
  obtain ⟨t1, t2, t3⟩ := translate_sound hK s hp hu hin f hv ht
  obtain ⟨w1, w2, w3⟩ := translate_wf (K := K) (h := h) (fun n r hr => ⟨hp.closed n r hr, fun sn d e => by
    obtain ⟨op, is⟩ := r
    simp only at e
    subst e
    exact hp.leafP n _ _ _ hr⟩) ht
  have hname : ∀ (j : Nat) (hj : j < ins'.length), ∃ i nm, inputs[j]? = some i ∧ nameOf h i = some nm ∧
      nameOf h' ins'[j] = some nm := by
    intro j hj
    have hj' : j < inputs.length := by omega
    obtain ⟨nm, d, e⟩ := hin inputs[j] (List.getElem_mem hj')
    refine ⟨inputs[j], nm, List.getElem?_eq_getElem hj', by simp [nameOf, e], ?_⟩
    have := t3 j inputs[j] ins'[j] nm d [] (List.getElem?_eq_getElem hj') (List.getElem?_eq_getElem hj) e
    simp [nameOf, this]
  have hmap : ins'.map (nameOf h') = inputs.map (nameOf h) := by
    apply List.ext_getElem (by simp [t2])
    intro j a b
    simp only [List.length_map] at a b
    obtain ⟨i, nm, e1, e2, e3⟩ := hname j a
    rw [List.getElem?_eq_getElem b] at e1
    cases e1
    simp only [List.getElem_map]
    rw [e3, e2]
  have hnd : ins'.Nodup := by
    apply List.Nodup.of_map (nameOf h')
    rw [hmap]; exact hnames
  obtain ⟨-, -, c3⟩ := C01_pipeline_partial P os hos (h'.map (TRec.toRec K)) w1.closed.1 w1.closed.2 ins' outs'
    (by simpa using w2) hnd f1 f2 f3 h1 h2 outs1 outs2 hz hf hused ops refs hops blk hcomp
  have hrow : ∀ ws, DenRow (graphOf (h'.map (TRec.toRec K))) P (envOf f h') outs' ws ↔ TRow K f h' outs' ws := by
    intro ws
    unfold DenRow TRow
    constructor
    · rintro ⟨a, b⟩; exact ⟨a, fun i h1 h2 => tden_iff_den.2 (b i h1 h2)⟩
    · rintro ⟨a, b⟩; exact ⟨a, fun i h1 h2 => tden_iff_den.1 (b i h1 h2)⟩
  rcases c3 adj args (envOf f h') stk hstk (by omega) (by
      intro j a b
      obtain ⟨i, nm, e1, e2, e3⟩ := hname j a
      have := hargs j i nm args[j] e1 e2 (List.getElem?_eq_getElem b)
      unfold nameOf at e3
      unfold envOf
      split at e3
      · rename_i hh; cases e3; rw [hh]; simp [this]
      · cases e3) with ⟨outs, a, b⟩ | ⟨a, -⟩
  · rw [trow_det ((hrow _).1 a) t1] at b
    exact b
  · exact absurd ⟨vs, (hrow _).2 t1⟩ a

/-! ## concrete modules -/

/-- a computable evaluator, to exhibit values of concrete modules -/
def teval {V C : Type} (K : Kern V C) (f : String → V) (h : TArena V C) : Nat → Nat → Option V
  | 0, _ => none
  | k + 1, n =>
    match h[n]? with
    | none => none
    | some ⟨.param s _, _⟩ => some (f s)
    | some ⟨.const v, _⟩ => some v
    | some r =>
      match r.inputs.mapM (teval K f h k) with
      | some vs => r.op.sem K vs
      | none => none

theorem mapM_get {A B : Type} {g : A → Option B} : ∀ {l : List A} {m : List B}, l.mapM g = some m →
    m.length = l.length ∧ ∀ (i : Nat) (h1 : i < l.length) (h2 : i < m.length), g l[i] = some m[i]
  | [], m, h => by simp at h; subst h; simp
  | a :: l, m, h => by
    simp only [List.mapM_cons, Option.bind_eq_bind, Option.bind_eq_some_iff] at h
    obtain ⟨b, hb, bs, hbs, h⟩ := h
    simp at h; subst h
    obtain ⟨e1, e2⟩ := mapM_get hbs
    refine ⟨by simp [e1], ?_⟩
    intro i h1 h2
    cases i with
    | zero => exact hb
    | succ i => exact e2 i (by simpa using h1) (by simpa using h2)

theorem teval_den {V C : Type} {K : Kern V C} {f : String → V} {h : TArena V C} {k n : Nat} {v : V}
    (e : teval K f h k n = some v) : TDen K f h n v := by
  induction k generalizing n v with
  | zero => simp [teval] at e
  | succ k ih =>
    simp only [teval] at e
    split at e
    · cases e
    · rename_i s d is hn; cases e; exact .param hn
    · rename_i c is hn; cases e; exact .const hn
    · rename_i r h1 h2 hn
      split at e
      · rename_i vs hm
        obtain ⟨a, b⟩ := mapM_get hm
        exact .node hn a (fun i h1 h2 => ih (b i h1 h2)) e
      · cases e

theorem tevals_row {V C : Type} {K : Kern V C} {f : String → V} {h : TArena V C} {k : Nat} {ns : List Nat} {vs : List V}
    (e : ns.mapM (teval K f h k) = some vs) : TRow K f h ns vs := by
  obtain ⟨a, b⟩ := mapM_get e
  exact ⟨a, fun i h1 h2 => teval_den (b i h1 h2)⟩

/-- integers, exact comparison -/
abbrev KI : Kern (Arr Int) (ConvPar Int) := arrKern (fun a b => a == b) id

instance : Inhabited (Arr Int) := ⟨⟨10, [], []⟩⟩

/-- translate, then evaluate the outputs -/
def runTranslated (f : String → Arr Int) (h : TArena (Arr Int) (ConvPar Int)) (outputs inputs : List Nat) :
    Option (List (Arr Int)) :=
  match translate KI ⟨false, false, false, false⟩ 20 h outputs inputs with
  | .ok (h', outs', _) => outs'.mapM (teval KI f h' 20)
  | _ => none

theorem runTranslated_some {f : String → Arr Int} {h : TArena (Arr Int) (ConvPar Int)} {outputs inputs : List Nat}
    {vs : List (Arr Int)} (e : runTranslated f h outputs inputs = some vs) : ∃ h' outs' ins',
      translate KI ⟨false, false, false, false⟩ 20 h outputs inputs = .ok (h', outs', ins') ∧ TRow KI f h' outs' vs := by
  unfold runTranslated at e
  split at e
  · rename_i h' outs' ins' ht
    exact ⟨h', outs', ins', ht, tevals_row e⟩
  · cases e

/-- a row vector, and a matrix whose element `(i, j)` is `10 i + j` -/
def rowV (n : Nat) : Arr Int := ⟨10, [1, (n : Int)], (List.range n).map fun (i : Nat) => (i : Int) + 1⟩
def tab (m n : Nat) : Arr Int :=
  ⟨10, [(m : Int), (n : Int)], (List.range m).flatMap fun (i : Nat) => (List.range n).map fun (j : Nat) => (10 * i + j : Int)⟩
def sc (a : Int) : Arr Int := ⟨10, [], [a]⟩

/-- `3 · (inner(x, W) · Bᵀ) + 2 · c`, with `W` of nine columns: packed inner product and a Gemm with transposed weights -/
def modA : TArena (Arr Int) (ConvPar Int) :=
  [⟨.param "x" (some 10), []⟩, ⟨.const (tab 2 9), []⟩, ⟨.inner false false, [0, 1]⟩, ⟨.const (tab 10 9), []⟩,
   ⟨.const (rowV 10), []⟩, ⟨.gemm (sc 3) (sc 2) false true true, [2, 3, 4]⟩]

theorem acyclic_of_below {V C : Type} [Inhabited V] {K : Kern V C} {h : TArena V C}
    (hb : ∀ (n : Nat) (r : TRec V C), h[n]? = some r → ∀ m ∈ r.inputs, m < n) :
    ∀ n, ¬ DependsOn (graphOf (h.map (TRec.toRec K))) n n := by
  have hlt : ∀ n m, DependsOn (graphOf (h.map (TRec.toRec K))) n m → m < n := by
    have hin : ∀ n m, m ∈ (graphOf (h.map (TRec.toRec K))).inputs n → m < n := by
      intro n m hm
      cases e : h[n]? with
      | none => simp [graphOf, e] at hm
      | some r => simp [graphOf, e, TRec.toRec] at hm; exact hb n r e m hm
    intro n m hd
    induction hd with
    | direct h => exact hin _ _ h
    | trans h _ ih => exact Nat.lt_trans ih (hin _ _ h)
  intro n hn
  exact Nat.lt_irrefl _ (hlt n n hn)

/-- a check for `Plain` on modules whose nodes come in topological order -/
def plainB {V C : Type} (h : TArena V C) : Bool :=
  (List.range h.length).all fun n =>
    match h[n]? with
    | none => true
    | some r => r.inputs.all (· < n) &&
      match r.op with
      | .param _ _ => r.inputs.isEmpty
      | .const _ => r.inputs.isEmpty
      | .inner _ p => !p
      | .conv _ _ p => !p
      | .gemm _ _ _ tB _ => !tB || match r.inputs with
        | _ :: y :: _ => (constVal h y).isSome
        | _ => true
      | _ => true

theorem plainB_spec {V C : Type} [Inhabited V] {K : Kern V C} {h : TArena V C} (hb : plainB h = true) : Plain K h := by
  have hat : ∀ (n : Nat) (r : TRec V C), h[n]? = some r → (∀ m ∈ r.inputs, m < n) ∧
      (match r.op with
      | .param _ _ => r.inputs.isEmpty
      | .const _ => r.inputs.isEmpty
      | .inner _ p => !p
      | .conv _ _ p => !p
      | .gemm _ _ _ tB _ => !tB || match r.inputs with
        | _ :: y :: _ => (constVal h y).isSome
        | _ => true
      | _ => true) = true := by
    intro n r hr
    have hlt : n < h.length := (List.getElem?_eq_some_iff.1 hr).1
    unfold plainB at hb
    rw [List.all_eq_true] at hb
    have := hb n (List.mem_range.2 hlt)
    rw [hr] at this
    simp only [Bool.and_eq_true, List.all_eq_true, decide_eq_true_eq] at this
    exact this
  refine ⟨?_, ?_, ?_, ?_, ?_, ?_, acyclic_of_below fun n r hr => (hat n r hr).1⟩
  · intro n r hr m hm
    have := (hat n r hr).1 m hm
    have hlt : n < h.length := (List.getElem?_eq_some_iff.1 hr).1
    omega
  · intro n s d is hr; simpa using (hat n _ hr).2
  · intro n v is hr; simpa using (hat n _ hr).2
  · intro n t p is hr; simpa using (hat n _ hr).2
  · intro n c v2 p is hr; simpa using (hat n _ hr).2
  · intro n a b tA e x y rest hr
    have := (hat n _ hr).2
    simp at this
    intro hc
    rw [hc] at this
    simp at this

theorem modA_nth {n : Nat} {r : TRec (Arr Int) (ConvPar Int)} (h : modA[n]? = some r) : (n = 0 ∧ r = ⟨.param "x" (some 10), []⟩) ∨
    (n = 1 ∧ r = ⟨.const (tab 2 9), []⟩) ∨ (n = 2 ∧ r = ⟨.inner false false, [0, 1]⟩) ∨ (n = 3 ∧ r = ⟨.const (tab 10 9), []⟩) ∨
    (n = 4 ∧ r = ⟨.const (rowV 10), []⟩) ∨ (n = 5 ∧ r = ⟨.gemm (sc 3) (sc 2) false true true, [2, 3, 4]⟩) := by
  rcases n with _ | _ | _ | _ | _ | _ | n <;> simp [modA] at h <;> simp [h]

theorem modA_plain : Plain KI modA := plainB_spec (by decide +kernel)

theorem modA_unshared : Unshared modA ([5] ++ [0]) := by
  have hw : ∀ n w, Weight modA n w → (n = 2 ∧ w = 1) ∨ (n = 5 ∧ w = 3) := by
    rintro n w ⟨hc, r, hr, hm⟩
    rcases modA_nth hr with ⟨rfl, rfl⟩ | ⟨rfl, rfl⟩ | ⟨rfl, rfl⟩ | ⟨rfl, rfl⟩ | ⟨rfl, rfl⟩ | ⟨rfl, rfl⟩ <;> simp at hm
    · omega
    · rcases hm with rfl | rfl
      · simp [constVal, modA] at hc
      · right; exact ⟨rfl, rfl⟩
  refine ⟨?_, ?_⟩
  · intro n w h m r hr hin
    rcases modA_nth hr with ⟨rfl, rfl⟩ | ⟨rfl, rfl⟩ | ⟨rfl, rfl⟩ | ⟨rfl, rfl⟩ | ⟨rfl, rfl⟩ | ⟨rfl, rfl⟩ <;>
      simp at hin <;> rcases hw n w h with ⟨rfl, rfl⟩ | ⟨rfl, rfl⟩ <;> simp at hin ⊢
  · intro n w h
    rcases hw n w h with ⟨rfl, rfl⟩ | ⟨rfl, rfl⟩ <;> simp

/-- non-vacuity: the module satisfies the hypotheses and translation succeeds -/
example : Plain KI modA ∧ Unshared modA ([5] ++ [0]) ∧
    ∃ vs h' outs' ins', TRow KI (fun _ => rowV 2) modA [5] vs ∧
      translate KI ⟨false, false, false, false⟩ 20 modA [5] [0] = .ok (h', outs', ins') ∧
      TRow KI (fun _ => rowV 2) h' outs' vs := by
  have e0 : ∃ vs, [5].mapM (teval KI (fun _ => rowV 2) modA 20) = some vs ∧ runTranslated (fun _ => rowV 2) modA [5] [0] = some vs :=
    ⟨[⟨10, [1, 10], [3998, 12640, 21282, 29924, 38566, 47208, 55850, 64492, 73134, 81776]⟩], by decide +kernel, by decide +kernel⟩
  obtain ⟨vs, e1, e2⟩ := e0
  obtain ⟨h', outs', ins', a, b⟩ := runTranslated_some e2
  exact ⟨modA_plain, modA_unshared, vs, h', outs', ins', tevals_row e1, a, b⟩

/-- non-vacuity of the end-to-end theorem: translate, zip, fold, compile and run the module -/
example : (match translate KI ⟨false, false, false, false⟩ 20 modA [5] [0] with
    | .ok (h', outs', ins') => match zipRoots [] 20 (h'.map (TRec.toRec KI)) outs' with
      | .ok (h1, o1) => match constFold 20 h1 o1 with
        | .ok (h2, o2) => match compile (graphOf h2) (fun n => some (liftOp ((graphOf h2).sem n))) (fun _ _ => false) ins' o2 200 with
          | some (some b) => (match launchOffline ⟨fun _ => sc 0, fun _ _ => none⟩ some b.prog [rowV 2] ⟨[], 0, []⟩ with
            | .ok s r => some (s.cells.length, r)
            | _ => none)
          | _ => none
        | _ => none
      | _ => none
    | _ => none) = some (0, [⟨10, [1, 10], [3998, 12640, 21282, 29924, 38566, 47208, 55850, 64492, 73134, 81776]⟩]) := by
  decide +kernel

/-! ## where it fails -/

/-- two inner products in a row with the same weights -/
def modTied : TArena (Arr Int) (ConvPar Int) :=
  [⟨.param "x" none, []⟩, ⟨.const (tab 2 2), []⟩, ⟨.inner false false, [0, 1]⟩, ⟨.inner false false, [2, 1]⟩]

/-- Weights shared by two operators, one of which feeds the other, are packed twice: the compiled module computes something
else (`x W W = [230, 273]` becomes `[32, 372]`). -/
theorem C47_tied_weights_false : ∃ vs vs' h' outs' ins', Plain KI modTied ∧ TRow KI (fun _ => rowV 2) modTied [3] vs ∧
    translate KI ⟨false, false, false, false⟩ 20 modTied [3] [0] = .ok (h', outs', ins') ∧
    TRow KI (fun _ => rowV 2) h' outs' vs' ∧ vs ≠ vs' := by
  obtain ⟨h', outs', ins', a, b⟩ := runTranslated_some (f := fun _ => rowV 2) (h := modTied) (outputs := [3]) (inputs := [0])
    (vs := [⟨10, [1, 2], [32, 372]⟩]) (by decide +kernel)
  exact ⟨[⟨10, [1, 2], [230, 273]⟩], _, h', outs', ins', plainB_spec (by decide +kernel),
    tevals_row (k := 20) (by decide +kernel), a, b, by decide⟩

/-- a single inner product -/
def modOnce : TArena (Arr Int) (ConvPar Int) :=
  [⟨.param "x" none, []⟩, ⟨.const (tab 2 2), []⟩, ⟨.inner false false, [0, 1]⟩]

/-- Translating changes the module it is given: its constants are replaced by the packed ones, so the module's own outputs
have other values afterwards, and translating (compiling) it a second time succeeds with other results. -/
theorem C47_translate_twice_false : ∃ vs ws h' outs' ins' h'' outs'' ins'', Plain KI modOnce ∧
    Unshared modOnce ([2] ++ [0]) ∧ TRow KI (fun _ => rowV 2) modOnce [2] vs ∧
    translate KI ⟨false, false, false, false⟩ 20 modOnce [2] [0] = .ok (h', outs', ins') ∧
    TRow KI (fun _ => rowV 2) h' outs' vs ∧ TRow KI (fun _ => rowV 2) h' [2] ws ∧
    translate KI ⟨false, false, false, false⟩ 20 h' [2] [0] = .ok (h'', outs'', ins'') ∧
    TRow KI (fun _ => rowV 2) h'' outs'' ws ∧ vs ≠ ws := by
  obtain ⟨h', outs', ins', a, b⟩ := runTranslated_some (f := fun _ => rowV 2) (h := modOnce) (outputs := [2]) (inputs := [0])
    (vs := [⟨10, [1, 2], [20, 23]⟩]) (by decide +kernel)
  have hx : (match translate KI ⟨false, false, false, false⟩ 20 modOnce [2] [0] with
      | .ok (h', _, _) => some (runTranslated (fun _ => rowV 2) h' [2] [0], [2].mapM (teval KI (fun _ => rowV 2) h' 20))
      | _ => none) = some (some [⟨10, [1, 2], [2, 32]⟩], some [⟨10, [1, 2], [2, 32]⟩]) := by decide +kernel
  rw [a] at hx
  simp only [Option.some.injEq, Prod.mk.injEq] at hx
  obtain ⟨h'', outs'', ins'', c, d⟩ := runTranslated_some hx.1
  refine ⟨_, _, h', outs', ins', h'', outs'', ins'', plainB_spec (by decide +kernel), ?_,
    tevals_row (k := 20) (by decide +kernel), a, b, tevals_row hx.2, c, d, by decide⟩
  have hn : ∀ {n : Nat} {r : TRec (Arr Int) (ConvPar Int)}, modOnce[n]? = some r → (n = 0 ∧ r = ⟨.param "x" none, []⟩) ∨
      (n = 1 ∧ r = ⟨.const (tab 2 2), []⟩) ∨ (n = 2 ∧ r = ⟨.inner false false, [0, 1]⟩) := by
    intro n r h
    rcases n with _ | _ | _ | n <;> simp [modOnce] at h <;> simp [h]
  have hw : ∀ n w, Weight modOnce n w → n = 2 ∧ w = 1 := by
    rintro n w ⟨hc, r, hr, hm⟩
    rcases hn hr with ⟨rfl, rfl⟩ | ⟨rfl, rfl⟩ | ⟨rfl, rfl⟩ <;> simp at hm
    exact ⟨rfl, hm.symm⟩
  refine ⟨?_, ?_⟩
  · intro n w h m r hr hi
    obtain ⟨rfl, rfl⟩ := hw n w h
    rcases hn hr with ⟨rfl, rfl⟩ | ⟨rfl, rfl⟩ | ⟨rfl, rfl⟩ <;> simp at hi ⊢
  · intro n w h
    obtain ⟨rfl, rfl⟩ := hw n w h
    simp

/-- Weights that are also an output of the module come out packed. -/
theorem C47_weight_output_false : ∃ vs vs' h' outs' ins', Plain KI modOnce ∧ TRow KI (fun _ => rowV 2) modOnce [2, 1] vs ∧
    translate KI ⟨false, false, false, false⟩ 20 modOnce [2, 1] [0] = .ok (h', outs', ins') ∧
    TRow KI (fun _ => rowV 2) h' outs' vs' ∧ vs ≠ vs' := by
  obtain ⟨h', outs', ins', a, b⟩ := runTranslated_some (f := fun _ => rowV 2) (h := modOnce) (outputs := [2, 1]) (inputs := [0])
    (vs := [⟨10, [1, 2], [20, 23]⟩, ⟨10, [2, 2], [0, 10, 1, 11]⟩]) (by decide +kernel)
  exact ⟨[⟨10, [1, 2], [20, 23]⟩, ⟨10, [2, 2], [0, 1, 10, 11]⟩], _, h', outs', ins', plainB_spec (by decide +kernel),
    tevals_row (k := 20) (by decide +kernel), a, b, by decide⟩

/-- `x · yᵀ` of two inputs -/
def modDynB : TArena (Arr Int) (ConvPar Int) :=
  [⟨.param "x" none, []⟩, ⟨.param "y" none, []⟩, ⟨.const (sc 0), []⟩, ⟨.gemm (sc 1) (sc 0) false true true, [0, 1, 2]⟩]

/-- A Gemm whose right factor is to be transposed and is not a constant becomes a product without transposition: for
square matrices the program computes `x · y` instead of `x · yᵀ`. -/
theorem C47_dynamic_gemm_false : ∃ (f : String → Arr Int) (vs vs' : List (Arr Int)) (h' : TArena (Arr Int) (ConvPar Int))
    (outs' ins' : List Nat), TRow KI f modDynB [3] vs ∧
    translate KI ⟨false, false, false, false⟩ 20 modDynB [3] [0, 1] = .ok (h', outs', ins') ∧
    TRow KI f h' outs' vs' ∧ vs ≠ vs' := by
  obtain ⟨h', outs', ins', a, b⟩ := runTranslated_some (f := fun s => if s = "x" then rowV 2 else tab 2 2) (h := modDynB)
    (outputs := [3]) (inputs := [0, 1]) (vs := [⟨10, [1, 2], [20, 23]⟩]) (by decide +kernel)
  exact ⟨_, [⟨10, [1, 2], [2, 32]⟩], _, h', outs', ins',
    tevals_row (k := 20) (by decide +kernel), a, b, by decide⟩

/-- a Gemm that leaves its parameters at their defaults (`alpha = beta = 1`, nothing transposed) -/
def modDefault : TArena (Arr Int) (ConvPar Int) :=
  [⟨.param "x" none, []⟩, ⟨.const (tab 2 2), []⟩, ⟨.const (sc 0), []⟩, ⟨.gemm (sc 1) (sc 1) false false false, [0, 1, 2]⟩]

/-- Such a module has a value but cannot be compiled with packing: the option reads the optional parameters without
looking whether they are set. -/
theorem C47_default_gemm_false : ∃ vs, Plain KI modDefault ∧ TRow KI (fun _ => rowV 2) modDefault [3] vs ∧
    ∀ fuel, translate KI ⟨false, false, false, false⟩ (fuel + 1) modDefault [3] [0] = .err := by
  refine ⟨[⟨10, [1, 2], [20, 23]⟩], plainB_spec (by decide +kernel), tevals_row (k := 20) (by decide +kernel), ?_⟩
  intro fuel
  simp [translate, transInputs, transNode, packOption, modDefault, F.bind]

/-- The declared type of an input is lost, so the compiled program does not convert what it is fed. -/
theorem C47_declared_type_false : ∃ h' outs' c, modA[0]? = some ⟨.param "x" (some 10), []⟩ ∧
    translate KI ⟨false, false, false, false⟩ 20 modA [5] [0] = .ok (h', outs', [c]) ∧
    h'[c]? = some ⟨.param "x" none, []⟩ := by
  have e : ∃ vs, TRow KI (fun _ => rowV 2) modA [5] vs ∧ runTranslated (fun _ => rowV 2) modA [5] [0] = some vs :=
    ⟨[⟨10, [1, 10], [3998, 12640, 21282, 29924, 38566, 47208, 55850, 64492, 73134, 81776]⟩],
      tevals_row (k := 20) (by decide +kernel), by decide +kernel⟩
  obtain ⟨vs, e1, e2⟩ := e
  obtain ⟨h', outs', ins', a, -⟩ := runTranslated_some e2
  obtain ⟨-, c2, c3⟩ := C47_translate_preserves_meaning_partial KI
    (arrKern_sound _ (by simp) (by simp) (by simp) _) _ 20 modA h' [5] [0] outs' ins' modA_plain modA_unshared
    (by intro i hi; simp at hi; subst hi; exact ⟨"x", some 10, rfl⟩) a _ vs e1
  match ins', c2, c3, a with
  | [c], _, c3, a => exact ⟨h', outs', c, rfl, a, c3 0 0 c "x" (some 10) [] rfl rfl rfl⟩

end Verif.Props
