import Verif.Compiler.TranslateInit
/-! The translated arena is well formed, and its meaning as the compiler sees it (helpers for C47). -/
namespace Verif.Compiler
open Verif.Runtime
open Verif.Module.Fusion (F)

variable {V C : Type} {K : Kern V C}

/-- every reference stays in the arena and parameters have no inputs -/
def TWf (h : TArena V C) : Prop := ∀ (n : Nat) (r : TRec V C), h[n]? = some r →
  (∀ m ∈ r.inputs, m < h.length) ∧ ∀ (s : String) (d : Option Nat), r.op = .param s d → r.inputs = []

theorem TWf.append {h new : TArena V C} (hw : TWf h)
    (hn : ∀ r ∈ new, (∀ m ∈ r.inputs, m < h.length + new.length) ∧
      ∀ (s : String) (d : Option Nat), r.op = .param s d → r.inputs = []) : TWf (h ++ new) := by
  intro n r hr
  rw [List.length_append]
  by_cases hlt : n < h.length
  · rw [List.getElem?_append_left hlt] at hr
    obtain ⟨a, b⟩ := hw n r hr
    exact ⟨fun m hm => by have := a m hm; omega, b⟩
  · rw [List.getElem?_append_right (by omega)] at hr
    exact hn r (List.mem_of_getElem? hr)

theorem TWf.set {h : TArena V C} (hw : TWf h) {w : Nat} {r : TRec V C}
    (h1 : ∀ m ∈ r.inputs, m < h.length) (h2 : ∀ (s : String) (d : Option Nat), r.op = .param s d → r.inputs = []) :
    TWf (h.set w r) := by
  intro n r' hr
  rw [List.length_set]
  rw [List.getElem?_set] at hr
  split at hr
  · rename_i e
    split at hr
    · cases hr; exact ⟨h1, h2⟩
    · cases hr
  · exact hw n r' hr

theorem TWf.setVal {h : TArena V C} (hw : TWf h) (w : Nat) (p : V) : TWf (setVal h w p) := by
  unfold Verif.Compiler.setVal
  cases hr : h[w]? with
  | none => exact hw
  | some r =>
    simp only
    exact hw.set (hw w r hr).1 (by intro s d e; cases e)

theorem transConst_wf {h h' : TArena V C} {n : Nat} {t : Bool} (hw : TWf h) (e : transConst K h n t = .ok h') :
    TWf h' ∧ h'.length = h.length := by
  unfold transConst at e
  split at e
  · split at e
    · split at e
      · cases e; exact ⟨hw.setVal _ _, setVal_length _ _ _⟩
      · cases e
    · cases e; exact ⟨hw, rfl⟩
  · cases e; exact ⟨hw, rfl⟩

theorem option_wf {s : Skip} {h h' : TArena V C} {n z : Nat} (hw : TWf h) (e : packOption K s h n = .ok (h', z)) :
    TWf h' ∧ h.length ≤ z ∧ z < h'.length := by
  have hcopy : ∀ r, h[n]? = some r → copyOf h r = .ok (h', z) → TWf h' ∧ h.length ≤ z ∧ z < h'.length := by
    intro r hr e
    unfold copyOf at e
    cases e
    refine ⟨hw.append ?_, Nat.le_refl _, by simp⟩
    intro r' hr'
    have hr' : r' = r := by simpa using hr'
    rw [hr']
    exact ⟨fun m hm => by have := (hw n r hr).1 m hm; simp; omega, (hw n r hr).2⟩
  have hpack : ∀ (r : TRec V C) (w : Nat) (p : Option V) (op : TOp V C) (is : List Nat), h[n]? = some r → (∀ i ∈ is, i ∈ r.inputs) → (∀ s d, op ≠ TOp.param s d) →
      packedCopy h w p op is = .ok (h', z) → TWf h' ∧ h.length ≤ z ∧ z < h'.length := by
    intro r w p op is hr hsub hop e
    unfold packedCopy at e
    split at e
    · cases e
    · cases e
      refine ⟨(hw.setVal _ _).append ?_, Nat.le_refl _, by simp [setVal_length]⟩
      intro r' hr'
      simp at hr'; subst hr'
      refine ⟨?_, fun s d e => absurd e (hop s d)⟩
      intro m hm
      have := (hw n r hr).1 m (hsub m hm)
      simp [setVal_length]; omega
  unfold packOption at e
  split at e
  · cases e
  · rename_i r hr
    split at e
    · cases e
      refine ⟨hw.append ?_, Nat.le_refl _, by simp⟩
      intro r' hr'
      simp at hr'; subst hr'
      simp
    · cases e
      refine ⟨hw.append ?_, Nat.le_refl _, by simp⟩
      intro r' hr'
      simp at hr'; subst hr'
      simp
    · split at e
      · exact hcopy r hr e
      · split at e
        · rename_i a b c rest hi
          split at e
          · cases e
          · split at e
            · exact hcopy r hr e
            · obtain ⟨h1, e1, e⟩ := F.bind_ok e
              obtain ⟨h2, e2, e⟩ := F.bind_ok e
              obtain ⟨w1, l1⟩ := transConst_wf hw e1
              obtain ⟨w2, l2⟩ := transConst_wf w1 e2
              have hin := (hw n r hr).1
              have ha := hin a (by simp [hi])
              have hb := hin b (by simp [hi])
              have hc := hin c (by simp [hi])
              rename_i al be tA tB ex hop _ _ _
              simp only [gemmNodes] at e
              split at e <;> split at e <;> simp only [F.ok.injEq, Prod.mk.injEq] at e <;> obtain ⟨rfl, rfl⟩ := e <;>
                (refine ⟨w2.append ?_, by omega, by simp [l2, l1]⟩
                 intro r' hr'
                 simp only [List.mem_cons, List.mem_append, List.not_mem_nil, or_false, or_assoc] at hr'
                 rcases hr' with rfl | rfl | rfl | rfl | rfl | rfl | rfl | rfl <;> simp [l2, l1, hop] <;> omega)
        · cases e
    · split at e
      · exact hcopy r hr e
      · split at e
        · rename_i hi
          split at e
          · exact hcopy r hr e
          · exact hpack r _ _ _ _ hr (by intro i hi'; rw [hi]; simp at hi' ⊢; tauto) (by intro s d e; cases e) e
        · cases e
    · rename_i c v2 pk hop
      cases v2 with
      | false =>
        simp only [Bool.false_eq_true, if_false] at e
        split at e
        · exact hcopy r hr e
        · split at e
          · rename_i hi
            split at e
            · exact hcopy r hr e
            · exact hpack r _ _ _ _ hr (by intro i hi'; rw [hi]; simp at hi' ⊢; tauto) (by intro s d e; cases e) e
          · rename_i hf _; cases hf
          · cases e
      | true =>
        simp only [if_true] at e
        split at e
        · exact hcopy r hr e
        · split at e
          · rename_i hf _; cases hf
          · rename_i hi
            split at e
            · exact hcopy r hr e
            · exact hpack r _ _ _ _ hr (by intro i hi'; rw [hi]; simp at hi' ⊢; tauto) (by intro s d e; cases e) e
          · cases e
    · exact hcopy r hr e

/-- nothing becomes a parameter -/
def NoNew (h h' : TArena V C) : Prop := ∀ (i : Nat) (r' : TRec V C) (s : String) (d : Option Nat), i < h.length →
  h'[i]? = some r' → r'.op = .param s d → ∃ r, h[i]? = some r ∧ r.op = .param s d

theorem NoNew.refl (h : TArena V C) : NoNew h h := fun _ r' _ _ _ e e' => ⟨r', e, e'⟩

theorem NoNew.trans {a b c : TArena V C} (h1 : NoNew a b) (hl : a.length ≤ b.length) (h2 : NoNew b c) : NoNew a c := by
  intro i r' s d hi e e'
  obtain ⟨r, h3, h4⟩ := h2 i r' s d (by omega) e e'
  exact h1 i r s d hi h3 h4

theorem NoNew.append (h new : TArena V C) : NoNew h (h ++ new) := by
  intro i r' s d hi e e'
  rw [List.getElem?_append_left hi] at e
  exact ⟨r', e, e'⟩

theorem NoNew.setVal (h : TArena V C) (w : Nat) (p : V) : NoNew h (Verif.Compiler.setVal h w p) := by
  intro i r' s d hi e e'
  by_cases hw : i = w
  · subst hw
    cases hr : h[i]? with
    | none => rw [List.getElem?_eq_none_iff] at hr; omega
    | some r => rw [setVal_self hr] at e; cases e; cases e'
  · rw [setVal_get _ _ _ _ hw] at e; exact ⟨r', e, e'⟩

theorem NoNew.relink (h : TArena V C) (z : Nat) (cs : List Nat) : NoNew h (Verif.Compiler.relink h z cs) := by
  intro i r' s d hi e e'
  unfold Verif.Compiler.relink at e
  split at e
  · rename_i r hr
    rw [List.getElem?_set] at e
    split at e
    · rename_i hz
      subst hz
      rw [if_pos hi] at e
      cases e; exact ⟨r, hr, e'⟩
    · exact ⟨r', e, e'⟩
  · exact ⟨r', e, e'⟩

theorem transConst_noNew {h h' : TArena V C} {n : Nat} {t : Bool} (e : transConst K h n t = .ok h') : NoNew h h' := by
  unfold transConst at e
  split at e
  · split at e
    · split at e
      · cases e; exact .setVal _ _ _
      · cases e
    · cases e; exact .refl _
  · cases e; exact .refl _

theorem option_noNew {s : Skip} {h h' : TArena V C} {n z : Nat} (hw : TWf h) (e : packOption K s h n = .ok (h', z)) :
    NoNew h h' := by
  have hcopy : ∀ r, copyOf h r = .ok (h', z) → NoNew h h' := by
    intro r e
    unfold copyOf at e
    cases e
    exact .append _ _
  have hpack : ∀ (w : Nat) (p : Option V) (op : TOp V C) (is : List Nat),
      packedCopy h w p op is = .ok (h', z) → NoNew h h' := by
    intro w p op is e
    unfold packedCopy at e
    split at e
    · cases e
    · cases e
      exact NoNew.trans (.setVal _ _ _) (by rw [setVal_length]) (.append _ _)
  unfold packOption at e
  split at e
  · cases e
  · rename_i r hr
    split at e
    · cases e; exact .append _ _
    · cases e; exact .append _ _
    · split at e
      · exact hcopy r e
      · split at e
        · split at e
          · cases e
          · split at e
            · exact hcopy r e
            · obtain ⟨h1, e1, e⟩ := F.bind_ok e
              obtain ⟨h2, e2, e⟩ := F.bind_ok e
              obtain ⟨w1, l1⟩ := transConst_wf hw e1
              obtain ⟨w2, l2⟩ := transConst_wf w1 e2
              simp only [F.ok.injEq, Prod.mk.injEq] at e
              obtain ⟨rfl, -⟩ := e
              exact (transConst_noNew e1).trans (by omega) ((transConst_noNew e2).trans (by omega) (.append _ _))
        · cases e
    · split at e
      · exact hcopy r e
      · split at e
        · split at e
          · exact hcopy r e
          · exact hpack _ _ _ _ e
        · cases e
    · rename_i c v2 pk hop
      cases v2 with
      | false =>
        simp only [Bool.false_eq_true, if_false] at e
        split at e
        · exact hcopy r e
        · split at e
          · split at e
            · exact hcopy r e
            · exact hpack _ _ _ _ e
          · rename_i hf _; cases hf
          · cases e
      | true =>
        simp only [if_true] at e
        split at e
        · exact hcopy r e
        · split at e
          · rename_i hf _; cases hf
          · split at e
            · exact hcopy r e
            · exact hpack _ _ _ _ e
          · cases e
    · exact hcopy r e

/-- well formed state -/
def SWf (st : TSt V C) : Prop := TWf st.heap ∧ ∀ n z, st.ready n = some z → z < st.heap.length

theorem transInputs_wf {recur : TSt V C → Nat → F (TSt V C × Nat)}
    (hr : ∀ st n st' z, SWf st → recur st n = .ok (st', z) → SWf st' ∧ NoNew st.heap st'.heap ∧ st.heap.length ≤ st'.heap.length ∧ z < st'.heap.length) :
    ∀ (is : List Nat) (st st' : TSt V C) (cs : List Nat), SWf st → transInputs recur st is = .ok (st', cs) →
      SWf st' ∧ NoNew st.heap st'.heap ∧ st.heap.length ≤ st'.heap.length ∧ ∀ c ∈ cs, c < st'.heap.length := by
  intro is
  induction is with
  | nil =>
    intro st st' cs hw e
    simp only [transInputs, F.ok.injEq, Prod.mk.injEq] at e
    obtain ⟨rfl, rfl⟩ := e
    exact ⟨hw, .refl _, Nat.le_refl _, by simp⟩
  | cons i is ih =>
    intro st st' cs hw e
    simp only [transInputs] at e
    obtain ⟨⟨st1, c⟩, e1, e⟩ := F.bind_ok e
    obtain ⟨⟨st2, cs2⟩, e2, e⟩ := F.bind_ok e
    simp only [F.ok.injEq, Prod.mk.injEq] at e
    obtain ⟨rfl, rfl⟩ := e
    obtain ⟨a1, a0, a2, a3⟩ := hr _ _ _ _ hw e1
    obtain ⟨b1, b0, b2, b3⟩ := ih _ _ _ a1 e2
    refine ⟨b1, a0.trans a2 b0, by omega, ?_⟩
    intro x hx
    simp at hx
    rcases hx with rfl | hx
    · omega
    · exact b3 x hx

theorem transNode_wf (s : Skip) : ∀ (fuel : Nat) (st : TSt V C) (n : Nat) (st' : TSt V C) (z : Nat), SWf st →
    transNode K s fuel st n = .ok (st', z) → SWf st' ∧ NoNew st.heap st'.heap ∧ st.heap.length ≤ st'.heap.length ∧ z < st'.heap.length := by
  intro fuel
  induction fuel with
  | zero => intro st n st' z _ e; simp [transNode] at e
  | succ k ih =>
    intro st n st' z hw e
    simp only [transNode] at e
    split at e
    · rename_i z0 hz0
      simp only [F.ok.injEq, Prod.mk.injEq] at e
      obtain ⟨rfl, rfl⟩ := e
      exact ⟨hw, .refl _, Nat.le_refl _, hw.2 n _ hz0⟩
    · obtain ⟨⟨h1, z1⟩, e1, e⟩ := F.bind_ok e
      obtain ⟨a1, a2, a3⟩ := option_wf hw.1 e1
      simp only at e
      split at e
      · cases e
      · rename_i r hr
        obtain ⟨⟨st1, cs⟩, e2, e⟩ := F.bind_ok e
        simp only [F.ok.injEq, Prod.mk.injEq] at e
        obtain ⟨rfl, rfl⟩ := e
        obtain ⟨b1, b0, b2, b3⟩ := transInputs_wf ih r.inputs { st with heap := h1 } st1 cs ⟨a1, fun n z hz => by
          have := hw.2 n z hz
          simp only
          omega⟩ e2
        simp only at b2 b0
        have hcs0 : r.inputs = [] → cs = [] := by
          intro h0
          rw [h0] at e2
          simp only [transInputs, F.ok.injEq, Prod.mk.injEq] at e2
          exact e2.2.symm
        have hl : (relink st1.heap z1 cs).length = st1.heap.length := by
          unfold relink; split <;> simp
        have hlen : h1.length ≥ st.heap.length := by omega
        refine ⟨⟨?_, ?_⟩, ?_, ?_, ?_⟩
        · unfold relink
          split
          · rename_i r1 hr1
            refine b1.1.set b3 ?_
            intro s d hop
            obtain ⟨r0, hr0, hop0⟩ := b0 z1 r1 s d a3 hr1 hop
            rw [hr] at hr0; cases hr0
            exact hcs0 ((a1 z1 r hr).2 s d hop0)
          · exact b1.1
        · intro m y hy
          simp only at hy ⊢
          rw [hl]
          unfold ins at hy
          cases hm : st1.ready n with
          | some q => rw [hm] at hy; exact b1.2 m y hy
          | none =>
            rw [hm] at hy
            simp only at hy
            split at hy
            · cases hy; omega
            · exact b1.2 m y hy
        · exact (option_noNew hw.1 e1).trans hlen (b0.trans b2 (.relink _ _ _))
        · simp only; omega
        · simp only; omega

theorem translate_wf {s : Skip} {fuel : Nat} {h h' : TArena V C} {outputs inputs outs' ins' : List Nat} (hw : TWf h)
    (e : translate K s fuel h outputs inputs = .ok (h', outs', ins')) :
    TWf h' ∧ (∀ n ∈ outs', n < h'.length) ∧ ∀ n ∈ ins', n < h'.length := by
  unfold translate at e
  obtain ⟨⟨st1, outs⟩, e1, e⟩ := F.bind_ok e
  obtain ⟨⟨st2, ins⟩, e2, e⟩ := F.bind_ok e
  simp only [F.ok.injEq, Prod.mk.injEq] at e
  obtain ⟨rfl, rfl, rfl⟩ := e
  obtain ⟨a1, a0, a2, a3⟩ := transInputs_wf (transNode_wf (K := K) s fuel) _ _ _ _ ⟨hw, by simp⟩ e1
  obtain ⟨b1, b0, b2, b3⟩ := transInputs_wf (transNode_wf (K := K) s fuel) _ _ _ _ a1 e2
  exact ⟨b1.1, fun n hn => by have := a3 n hn; omega, b3⟩

/-! ## the compiler's view -/
variable [Inhabited V]

theorem TWf.closed {h : TArena V C} (hw : TWf h) :
    Closed (h.map (TRec.toRec K)) ∧ ParamLeaf (h.map (TRec.toRec K)) := by
  constructor
  · intro n r hr m hm
    rw [List.getElem?_map, Option.map_eq_some_iff] at hr
    obtain ⟨r0, h0, rfl⟩ := hr
    rw [List.length_map]
    exact (hw n r0 h0).1 m hm
  · intro n r hr hk
    rw [List.getElem?_map, Option.map_eq_some_iff] at hr
    obtain ⟨r0, h0, rfl⟩ := hr
    obtain ⟨op, is⟩ := r0
    cases op <;> simp [TRec.toRec, TOp.kind] at hk ⊢
    exact (hw n _ h0).2 _ _ rfl

/-- the values of the parameters, by name -/
def envOf (f : String → V) (h : TArena V C) (n : Nat) : Option V :=
  match h[n]? with
  | some ⟨.param s _, _⟩ => some (f s)
  | _ => none

/-- the two specifications agree: what a node means to the translator it means to the compiler -/
theorem tden_iff_den {P : PackOps V} {f : String → V} {h : TArena V C} {n : Nat} {v : V} :
    TDen K f h n v ↔ Den (graphOf (h.map (TRec.toRec K))) P (envOf f h) n v := by
  have hget : ∀ {n : Nat} {r : TRec V C}, h[n]? = some r → (h.map (TRec.toRec K))[n]? = some (r.toRec K) := by
    intro n r hr; rw [List.getElem?_map, hr]; rfl
  constructor
  · intro hd
    induction hd with
    | param hn => exact .param (by rw [(graphOf_get (hget hn)).1]; rfl) (by simp [envOf, hn])
    | @const n v is hn =>
      have e : (graphOf (h.map (TRec.toRec K))).value n = v := by rw [(graphOf_get (hget hn)).2.2.1]; rfl
      have := Den.const (G := graphOf (h.map (TRec.toRec K))) (P := P) (env := envOf f h) (n := n)
        (by rw [(graphOf_get (hget hn)).1]; rfl)
      rwa [e] at this
    | @node n r vs v hn hl hi hs ih =>
      obtain ⟨g1, g2, g3, g4⟩ := graphOf_get (hget hn)
      have gi : (graphOf (h.map (TRec.toRec K))).inputs n = r.inputs := g2
      refine .node (vs := vs) (by rw [gi]; exact hl) ?_ ?_
      · intro i h1 h2
        have h1' : i < r.inputs.length := by rw [← gi]; exact h1
        have : ((graphOf (h.map (TRec.toRec K))).inputs n)[i] = r.inputs[i] := by simp only [gi]
        rw [this]
        exact ih i h1' h2
      · unfold Graph.apply
        rw [g1, g4]
        obtain ⟨op, is⟩ := r
        cases op <;> simp_all [TRec.toRec, TOp.kind, TOp.sem]
  · intro hd
    induction hd with
    | @param n v hk he =>
      unfold envOf at he
      split at he
      · rename_i s d is hn; cases he; exact .param hn
      · cases he
    | @const n hk =>
      cases hn : h[n]? with
      | none => simp [graphOf, hn] at hk
      | some r =>
        obtain ⟨g1, g2, g3, g4⟩ := graphOf_get (hget hn)
        rw [g1] at hk
        rw [g3]
        obtain ⟨op, is⟩ := r
        cases op <;> simp [TRec.toRec, TOp.kind] at hk
        exact .const hn
    | @node n vs v hl hi ha ih =>
      cases hn : h[n]? with
      | none => simp [graphOf, hn, Graph.apply] at ha
      | some r =>
        obtain ⟨g1, g2, g3, g4⟩ := graphOf_get (hget hn)
        have gi : (graphOf (h.map (TRec.toRec K))).inputs n = r.inputs := g2
        refine .node (vs := vs) hn (by rw [← gi]; exact hl) ?_ ?_
        · intro i h1 h2
          have h1' : i < ((graphOf (h.map (TRec.toRec K))).inputs n).length := by rw [gi]; exact h1
          have : ((graphOf (h.map (TRec.toRec K))).inputs n)[i] = r.inputs[i] := by simp only [gi]
          rw [← this]
          exact ih i h1' h2
        · unfold Graph.apply at ha
          rw [g1, g4] at ha
          obtain ⟨op, is⟩ := r
          cases op <;> simp_all [TRec.toRec, TOp.kind, TOp.sem]

end Verif.Compiler
