import Verif.Runtime.Filter
import Verif.Compiler.HeapPasses
import Verif.Module.LoadLemmas
/-! Helper lemmas for C67: the graphs filters build are chains. -/
namespace Verif.Runtime.Filter
open Verif.Compiler Verif.Module

variable {α V : Type} [Inhabited V]

/-- the graph of a sequence of operators, each with the previous value and possibly a constant as operands -/
inductive Chain : List (Nd α V) → List (Layer α × List V) → Prop where
  | base : Chain [.param] []
  | one {ns it} (l : Layer α) (h : Chain ns it) : Chain (ns ++ [.op l [ns.length - 1]]) (it ++ [(l, [])])
  | two {ns it} (l : Layer α) (v : V) (h : Chain ns it) :
      Chain (ns ++ [.data v, .op l [ns.length - 1, ns.length]]) (it ++ [(l, [v])])

def NonData (ns : List (Nd α V)) (m : Nat) : Prop := m < ns.length ∧ ∀ v, ns[m]? ≠ some (.data v)

/-- what stands at position `n` -/
def Local (ns : List (Nd α V)) (n : Nat) (x : Nd α V) : Prop :=
  (n = 0 ∧ x = .param) ∨ (0 < n ∧ ∃ v, x = .data v) ∨ (∃ l m, x = .op l [m] ∧ m < n ∧ NonData ns m) ∨
  ∃ l m c v, x = .op l [m, c] ∧ m < n ∧ c < n ∧ NonData ns m ∧ ns[c]? = some (.data v)

theorem NonData.append {ns : List (Nd α V)} {m : Nat} (h : NonData ns m) (e : List (Nd α V)) : NonData (ns ++ e) m := by
  refine ⟨by have := h.1; simp; omega, fun v => ?_⟩
  rw [List.getElem?_append_left h.1]; exact h.2 v

theorem Local.append {ns : List (Nd α V)} {n : Nat} {x : Nd α V} (h : Local ns n x) (e : List (Nd α V)) :
    Local (ns ++ e) n x := by
  rcases h with h | h | ⟨l, m, a, b, c⟩ | ⟨l, m, c, v, a, b, d, f, g⟩
  · exact .inl h
  · exact .inr (.inl h)
  · exact .inr (.inr (.inl ⟨l, m, a, b, c.append e⟩))
  · refine .inr (.inr (.inr ⟨l, m, c, v, a, b, d, f.append e, ?_⟩))
    have : c < ns.length := by
      rcases Nat.lt_or_ge c ns.length with h | h
      · exact h
      · rw [List.getElem?_eq_none h] at g; cases g
    rw [List.getElem?_append_left this]; exact g

theorem chain_pos {ns : List (Nd α V)} {it} (h : Chain ns it) : 0 < ns.length := by
  cases h <;> simp

theorem chain_last {ns : List (Nd α V)} {it} (h : Chain ns it) : NonData ns (ns.length - 1) := by
  cases h with
  | base => exact ⟨by simp, by simp⟩
  | one l h => exact ⟨by simp, by simp⟩
  | @two ns it l v h => 
    refine ⟨by simp, fun w => ?_⟩
    rw [show (ns ++ [Nd.data v, Nd.op l [ns.length - 1, ns.length]]).length - 1 = ns.length + 1 by simp,
      List.getElem?_append_right (by omega)]
    simp

theorem chain_local {ns : List (Nd α V)} {it} (h : Chain ns it) : ∀ (n : Nat) (x : Nd α V), ns[n]? = some x →
    Local ns n x := by
  induction h with
  | base =>
    intro n x hx
    match n with
    | 0 => simp at hx; exact .inl ⟨rfl, hx.symm⟩
    | n + 1 => simp at hx
  | @one ns it l h ih =>
    intro n x hx
    rcases Nat.lt_or_ge n ns.length with hn | hn
    · rw [List.getElem?_append_left hn] at hx
      exact (ih n x hx).append _
    · rw [List.getElem?_append_right hn] at hx
      have hp := chain_pos h
      have : n = ns.length := by
        have := List.getElem?_eq_some_iff.1 hx
        obtain ⟨a, -⟩ := this
        simp at a; omega
      subst this
      simp at hx
      exact .inr (.inr (.inl ⟨l, ns.length - 1, hx.symm, by omega, (chain_last h).append _⟩))
  | @two ns it l v h ih =>
    intro n x hx
    rcases Nat.lt_or_ge n ns.length with hn | hn
    · rw [List.getElem?_append_left hn] at hx
      exact (ih n x hx).append _
    · rw [List.getElem?_append_right hn] at hx
      have hp := chain_pos h
      have : n = ns.length ∨ n = ns.length + 1 := by
        have := List.getElem?_eq_some_iff.1 hx
        obtain ⟨a, -⟩ := this
        simp at a; omega
      rcases this with rfl | rfl
      · simp at hx
        exact .inr (.inl ⟨hp, v, hx.symm⟩)
      · simp at hx
        exact .inr (.inr (.inr ⟨l, ns.length - 1, ns.length, v, hx.symm, by omega, by omega, (chain_last h).append _, by simp⟩))

theorem arena_get (L : Lib α V) (ns : List (Nd α V)) (n : Nat) : (arena L ns)[n]? = (ns[n]?).map (Nd.toRec L) := by
  simp [arena]

theorem arena_length (L : Lib α V) (ns : List (Nd α V)) : (arena L ns).length = ns.length := by simp [arena]

theorem arena_append (L : Lib α V) (a b : List (Nd α V)) : arena L (a ++ b) = arena L a ++ arena L b := by simp [arena]

theorem arena_some {L : Lib α V} {ns : List (Nd α V)} {n : Nat} {r : NodeRec V} (h : (arena L ns)[n]? = some r) :
    ∃ x, ns[n]? = some x ∧ r = x.toRec L := by
  rw [arena_get] at h
  cases hx : ns[n]? with
  | none => rw [hx] at h; cases h
  | some x => rw [hx] at h; exact ⟨x, rfl, by simpa using h.symm⟩

theorem chain_below {L : Lib α V} {ns : List (Nd α V)} {it} (h : Chain ns it) {n m : Nat} {r : NodeRec V}
    (hr : (arena L ns)[n]? = some r) (hm : m ∈ r.inputs) : m < n := by
  obtain ⟨x, hx, rfl⟩ := arena_some hr
  rcases chain_local h n x hx with ⟨-, rfl⟩ | ⟨-, v, rfl⟩ | ⟨l, k, rfl, a, -⟩ | ⟨l, k, c, v, rfl, a, b, -, -⟩
  · simp [Nd.toRec] at hm
  · simp [Nd.toRec] at hm
  · simp [Nd.toRec] at hm; omega
  · simp [Nd.toRec] at hm; omega

theorem chain_lt {L : Lib α V} {ns : List (Nd α V)} {n : Nat} {r : NodeRec V}
    (hr : (arena L ns)[n]? = some r) : n < ns.length := by
  obtain ⟨a, -⟩ := List.getElem?_eq_some_iff.1 hr
  simpa [arena] using a

theorem chain_closed {L : Lib α V} {ns : List (Nd α V)} {it} (h : Chain ns it) : Closed (arena L ns) := by
  intro n r hr m hm
  have := chain_below h hr hm
  have := chain_lt hr
  rw [arena_length]; omega

theorem chain_leaf {L : Lib α V} {ns : List (Nd α V)} : ParamLeaf (arena L ns) := by
  intro n r hr hk
  obtain ⟨x, hx, rfl⟩ := arena_some hr
  cases x <;> simp [Nd.toRec] at hk ⊢

theorem chain_ranked {L : Lib α V} {ns : List (Nd α V)} {it} (h : Chain ns it) : Ranked (graphOf (arena L ns)) id := by
  intro n m hm
  simp only [graphOf] at hm
  cases hr : (arena L ns)[n]? with
  | none => rw [hr] at hm; simp at hm
  | some r => rw [hr] at hm; exact chain_below h hr hm

theorem chain_param {L : Lib α V} {ns : List (Nd α V)} {it} (h : Chain ns it) {n : Nat}
    (hk : (graphOf (arena L ns)).kind n = .param) : n = 0 := by
  simp only [graphOf] at hk
  cases hr : (arena L ns)[n]? with
  | none => rw [hr] at hk; simp at hk
  | some r =>
    rw [hr] at hk
    obtain ⟨x, hx, rfl⟩ := arena_some hr
    rcases chain_local h n x hx with ⟨e, rfl⟩ | ⟨-, v, rfl⟩ | ⟨l, k, rfl, a, -⟩ | ⟨l, k, c, v, rfl, a, b, -, -⟩
    · exact e
    all_goals simp [Nd.toRec] at hk

theorem chain_zero {L : Lib α V} {ns : List (Nd α V)} {it} (h : Chain ns it) : (graphOf (arena L ns)).kind 0 = .param := by
  have : ns[0]? = some .param := by
    have hp := chain_pos h
    have hx := List.getElem?_eq_getElem hp
    rcases chain_local h 0 _ hx with ⟨-, e⟩ | ⟨a, -⟩ | ⟨l, k, -, a, -⟩ | ⟨l, k, c, v, -, a, -⟩
    · rw [hx, e]
    all_goals omega
  simp [graphOf, arena_get, this, Nd.toRec]

theorem needs_lift {h e : Arena V} {roots : List Nat} {n : Nat} (hn : Needs (graphOf h) roots n) :
    Needs (graphOf (h ++ e)) roots n := by
  induction hn with
  | root hr => exact .root hr
  | @input m k _ hp hc hi ih =>
    have hm : m < h.length := by
      rcases Nat.lt_or_ge m h.length with hl | hl
      · exact hl
      · simp [graphOf, List.getElem?_eq_none hl] at hi
    have hg := graphOf_append h e m hm
    exact .input ih (by rw [hg.1]; exact hp) (by rw [hg.1]; exact hc) (by rw [hg.2.1]; exact hi)

theorem chain_needed {L : Lib α V} {ns : List (Nd α V)} {it} (h : Chain ns it) : ∀ (n : Nat), n < ns.length →
    Needs (graphOf (arena L ns)) [ns.length - 1] n := by
  have lift : ∀ (ns e : List (Nd α V)) (it), Chain ns it →
      (∀ n, n < ns.length → Needs (graphOf (arena L ns)) [ns.length - 1] n) → ∀ root,
      Needs (graphOf (arena L (ns ++ e))) [root] (ns.length - 1) →
      ∀ n, n < ns.length → Needs (graphOf (arena L (ns ++ e))) [root] n := by
    intro ns e it h ih root hl n hn
    have hp := chain_pos h
    have h1 := needs_lift (e := arena L e) (ih n hn)
    rw [← arena_append] at h1
    refine h1.mono ?_
    intro k hk
    simp at hk
    subst hk
    exact hl
  induction h with
  | base => 
    intro n hn
    simp at hn
    subst hn
    exact .root (by simp)
  | @one ns it l h ih =>
    intro n hn
    have e : (ns ++ [Nd.op l [ns.length - 1]] : List (Nd α V)).length - 1 = ns.length := by simp
    rw [e]
    rcases Nat.lt_or_ge n ns.length with hlt | hge
    · refine lift ns _ it h ih _ ?_ n hlt
      refine .input (m := ns.length) (.root (by simp)) ?_ ?_ ?_
      all_goals simp [graphOf, arena_get, Nd.toRec]
    · have : n = ns.length := by simp at hn; omega
      subst this
      exact .root (by simp)
  | @two ns it l v h ih =>
    intro n hn
    have e : (ns ++ [Nd.data v, Nd.op l [ns.length - 1, ns.length]]).length - 1 = ns.length + 1 := by simp
    rw [e]
    have root : Needs (graphOf (arena L (ns ++ [.data v, .op l [ns.length - 1, ns.length]]))) [ns.length + 1] (ns.length + 1) :=
      .root (by simp)
    have hg : (ns ++ [Nd.data v, Nd.op l [ns.length - 1, ns.length]])[ns.length + 1]? = some (.op l [ns.length - 1, ns.length]) := by
      rw [List.getElem?_append_right (by omega)]; simp
    rcases Nat.lt_or_ge n ns.length with hlt | hge
    · refine lift ns _ it h ih _ ?_ n hlt
      refine .input (m := ns.length + 1) root ?_ ?_ ?_
      all_goals simp [graphOf, arena_get, hg, Nd.toRec]
    · have : n = ns.length ∨ n = ns.length + 1 := by simp at hn; omega
      rcases this with rfl | rfl
      · refine .input (m := ns.length + 1) root ?_ ?_ ?_
        all_goals simp [graphOf, arena_get, hg, Nd.toRec]
      · exact root

theorem chain_sinks {L : Lib α V} {ns : List (Nd α V)} {it} (h : Chain ns it) : sinks (arena L ns) = [ns.length - 1] := by
  have hp := chain_pos h
  unfold sinks
  rw [arena_length, show ns.length = (ns.length - 1) + 1 by omega, List.range_succ, List.filter_append]
  have h1 : ∀ n, n < ns.length - 1 → ((arena L ns).any fun r => r.inputs.contains n) = true := by
    intro n hn
    have := chain_needed (L := L) h n (by omega)
    cases this with
    | root hr => simp at hr; omega
    | @input m _ hm _ _ hi =>
      simp only [graphOf] at hi
      cases hr : (arena L ns)[m]? with
      | none => rw [hr] at hi; simp at hi
      | some r =>
        rw [hr] at hi
        exact List.any_eq_true.2 ⟨r, List.mem_of_getElem? hr, by simpa using hi⟩
  have h2 : ((arena L ns).any fun r => r.inputs.contains (ns.length - 1)) = false := by
    rw [Bool.eq_false_iff]
    intro hh
    obtain ⟨r, hr, hi⟩ := List.any_eq_true.1 hh
    obtain ⟨k, hk⟩ := List.getElem?_of_mem hr
    have := chain_below h hk (by simpa using hi)
    have := chain_lt hk
    omega
  rw [List.filter_eq_nil_iff.2 (by
    intro n hn
    rw [h1 n (by simpa using hn)]; simp)]
  rw [List.filter_cons, h2]
  simp

/-! ## folding changes nothing -/

/-- the memo tables map nodes to themselves -/
def StId (L : Lib α V) (ns : List (Nd α V)) (st : FSt V) : Prop :=
  st.heap = arena L ns ∧ (∀ k c, st.rn k = some c → c = k ∧ NonData ns k) ∧
  ∀ k c, st.rc k = some c → c = k ∧ ∃ v, ns[k]? = some (.data v)

def isData (ns : List (Nd α V)) (n : Nat) : Bool := match ns[n]? with
  | some (.data _) => true
  | _ => false

theorem isData_true {ns : List (Nd α V)} {n : Nat} {v : V} (h : ns[n]? = some (.data v)) : isData ns n = true := by
  simp [isData, h]

theorem isData_false {ns : List (Nd α V)} {n : Nat} (h : NonData ns n) : isData ns n = false := by
  unfold isData
  split
  · rename_i v e; exact absurd e (h.2 v)
  · rfl

def FoldId (L : Lib α V) (ns : List (Nd α V)) (n : Nat) (r : R (FSt V × Nat × Bool)) : Prop :=
  r = .fuel ∨ ∃ st', r = .ok (st', n, isData ns n) ∧ StId L ns st'

theorem stId_rn {L : Lib α V} {ns : List (Nd α V)} {st : FSt V} (h : StId L ns st) {n : Nat} (hn : NonData ns n) :
    StId L ns { st with rn := ins st.rn n n } := by
  refine ⟨h.1, ?_, h.2.2⟩
  intro k c hk
  rcases ins_spec hk with hk | ⟨rfl, rfl⟩
  · exact h.2.1 k c hk
  · exact ⟨rfl, hn⟩

theorem stId_rc {L : Lib α V} {ns : List (Nd α V)} {st : FSt V} (h : StId L ns st) {n : Nat} {v : V}
    (hn : ns[n]? = some (.data v)) : StId L ns { st with rc := ins st.rc n n } := by
  refine ⟨h.1, h.2.1, ?_⟩
  intro k c hk
  rcases ins_spec hk with hk | ⟨rfl, rfl⟩
  · exact h.2.2 k c hk
  · exact ⟨rfl, v, hn⟩

theorem fold_node {L : Lib α V} {ns : List (Nd α V)} {it} (h : Chain ns it) (fuel : Nat) :
    ∀ (root : Bool) (st : FSt V) (n : Nat), StId L ns st → n < ns.length →
      FoldId L ns n (foldNode fuel root st n) := by
  induction fuel with
  | zero => intro root st n _ _; exact .inl rfl
  | succ k ih =>
    intro root st n hst hn
    simp only [foldNode]
    cases hrn : st.rn n with
    | some c =>
      obtain ⟨rfl, hd⟩ := hst.2.1 n c hrn
      exact .inr ⟨st, by rw [isData_false hd], hst⟩
    | none =>
    simp only
    cases hrc : st.rc n with
    | some c =>
      obtain ⟨rfl, v, hd⟩ := hst.2.2 n c hrc
      exact .inr ⟨st, by rw [isData_true hd], hst⟩
    | none =>
    simp only
    have hx := List.getElem?_eq_getElem hn
    generalize ns[n] = x at hx
    have hr : st.heap[n]? = some (x.toRec L) := by rw [hst.1, arena_get, hx]; rfl
    rw [hr]
    simp only
    rcases chain_local h n x hx with ⟨rfl, rfl⟩ | ⟨-, v, rfl⟩ | ⟨l, m, rfl, a, b⟩ | ⟨l, m, c, v, rfl, a, b, d, e⟩
    · have hd : NonData ns 0 := ⟨hn, by rw [hx]; simp⟩
      exact .inr ⟨_, by simp only [Nd.toRec]; rw [isData_false hd], stId_rn hst hd⟩
    · exact .inr ⟨_, by simp only [Nd.toRec]; rw [isData_true hx], stId_rc hst hx⟩
    · simp only [Nd.toRec, foldInputs]
      have hd : NonData ns n := ⟨hn, by rw [hx]; simp⟩
      rcases ih false st m hst (by omega) with hf | ⟨st1, hf, hs1⟩
      · rw [hf]; exact .inl rfl
      · rw [hf]
        simp only [R.bind, isData_false b, foldFinish]
        exact .inr ⟨_, by simp only [Bool.false_and, Bool.false_eq_true, if_false, if_true]; rw [isData_false hd], stId_rn hs1 hd⟩
    · simp only [Nd.toRec, foldInputs]
      have hd : NonData ns n := ⟨hn, by rw [hx]; simp⟩
      rcases ih false st m hst (by omega) with hf | ⟨st1, hf, hs1⟩
      · rw [hf]; exact .inl rfl
      · rw [hf]
        simp only [R.bind, isData_false d]
        rcases ih false st1 c hs1 (by omega) with hf2 | ⟨st2, hf2, hs2⟩
        · rw [hf2]; exact .inl rfl
        · rw [hf2]
          simp only [isData_true e, foldFinish]
          exact .inr ⟨_, by simp only [Bool.false_and, Bool.false_eq_true, if_false, if_true]; rw [isData_false hd], stId_rn hs2 hd⟩

theorem fold_chain {L : Lib α V} {ns : List (Nd α V)} {it} (h : Chain ns it) (fuel : Nat) :
    constFold fuel (arena L ns) [ns.length - 1] = .fuel ∨
    constFold fuel (arena L ns) [ns.length - 1] = .ok (arena L ns, [ns.length - 1]) := by
  have hp := chain_pos h
  simp only [constFold, foldRoots]
  rcases fold_node (L := L) h fuel true ⟨arena L ns, fun _ => none, fun _ => none⟩ (ns.length - 1)
    ⟨rfl, by simp, by simp⟩ (by omega) with hf | ⟨st, hf, hs⟩
  · rw [hf]; exact .inl rfl
  · rw [hf]
    right
    simp only [R.bind, hs.1]

/-! ## the value of a chain -/

/-- apply the operators in order -/
def applyItems (L : Lib α V) (it : List (Layer α × List V)) (x : V) : Option V :=
  it.foldlM (fun y p => L.op p.1 (y :: p.2)) x

theorem applyItems_snoc (L : Lib α V) (it : List (Layer α × List V)) (p : Layer α × List V) (x : V) :
    applyItems L (it ++ [p]) x = (applyItems L it x).bind fun y => L.op p.1 (y :: p.2) := by
  simp [applyItems, List.foldlM_append]

theorem chain_den {L : Lib α V} {P : PackOps V} {env : Nat → Option V} {x : V} (he : env 0 = some x)
    {ns : List (Nd α V)} {it} (h : Chain ns it) : ∀ (v : V),
    Den (graphOf (arena L ns)) P env (ns.length - 1) v ↔ applyItems L it x = some v := by
  induction h with
  | base =>
    intro v
    constructor
    · intro hd
      cases hd with
      | param hk hv => simp at hv; rw [he] at hv; simpa [applyItems] using hv
      | const hk => simp [graphOf, arena, Nd.toRec] at hk
      | node _ _ ha => simp [Graph.apply, graphOf, arena, Nd.toRec] at ha
    · intro hv
      simp [applyItems] at hv
      subst hv
      exact .param (by simp [graphOf, arena, Nd.toRec]) (by simpa using he)
  | @one ns it l h ih =>
    intro v
    have hp := chain_pos h
    have hg : (ns ++ [Nd.op l [ns.length - 1]] : List (Nd α V))[ns.length]? = some (.op l [ns.length - 1]) := by simp
    have e : (ns ++ [.op l [ns.length - 1]] : List (Nd α V)).length - 1 = ns.length := by simp
    rw [e, den_node_iff (by simp [graphOf, arena_get, hg, Nd.toRec]) (by simp [graphOf, arena_get, hg, Nd.toRec]),
      applyItems_snoc]
    have hi : (graphOf (arena L (ns ++ [.op l [ns.length - 1]]))).inputs ns.length = [ns.length - 1] := by
      simp [graphOf, arena_get, hg, Nd.toRec]
    have ha : ∀ vs, (graphOf (arena L (ns ++ [.op l [ns.length - 1]]))).apply P ns.length vs = L.op l vs := by
      intro vs; simp [Graph.apply, graphOf, arena_get, hg, Nd.toRec]
    have hold : ∀ w, Den (graphOf (arena L (ns ++ [.op l [ns.length - 1]]))) P env (ns.length - 1) w ↔
        applyItems L it x = some w := by
      intro w
      rw [arena_append, den_append_iff (chain_closed h) (by rw [arena_length]; omega)]
      exact ih w
    constructor
    · rintro ⟨vs, ⟨hl, hr⟩, hap⟩
      rw [hi] at hl
      match vs, hl with
      | [w], _ =>
        have := hr 0 (by simp [hi]) (by simp)
        simp only [hi, List.getElem_cons_zero] at this
        rw [(hold w).1 this]
        rw [ha] at hap
        exact hap
    · intro hv
      cases hy : applyItems L it x with
      | none => rw [hy] at hv; cases hv
      | some y =>
        rw [hy] at hv
        refine ⟨[y], ⟨by simp [hi], ?_⟩, by rw [ha]; exact hv⟩
        intro i h1 h2
        match i, h2 with
        | 0, _ => simp only [hi, List.getElem_cons_zero]; exact (hold y).2 hy
  | @two ns it l c h ih =>
    intro v
    have hp := chain_pos h
    have hg : (ns ++ [Nd.data c, Nd.op l [ns.length - 1, ns.length]] : List (Nd α V))[ns.length + 1]? =
        some (.op l [ns.length - 1, ns.length]) := by
      rw [List.getElem?_append_right (by omega)]; simp
    have hg0 : (ns ++ [Nd.data c, Nd.op l [ns.length - 1, ns.length]] : List (Nd α V))[ns.length]? = some (.data c) := by simp
    have e : (ns ++ [Nd.data c, Nd.op l [ns.length - 1, ns.length]] : List (Nd α V)).length - 1 = ns.length + 1 := by simp
    generalize hG : ns ++ [Nd.data c, Nd.op l [ns.length - 1, ns.length]] = ms at *
    rw [e, den_node_iff (by simp [graphOf, arena_get, hg, Nd.toRec]) (by simp [graphOf, arena_get, hg, Nd.toRec]),
      applyItems_snoc]
    have hi : (graphOf (arena L ms)).inputs (ns.length + 1) = [ns.length - 1, ns.length] := by
      simp [graphOf, arena_get, hg, Nd.toRec]
    have ha : ∀ vs, (graphOf (arena L ms)).apply P (ns.length + 1) vs = L.op l vs := by
      intro vs; simp [Graph.apply, graphOf, arena_get, hg, Nd.toRec]
    have hold : ∀ w, Den (graphOf (arena L ms)) P env (ns.length - 1) w ↔ applyItems L it x = some w := by
      intro w
      rw [← hG, arena_append, den_append_iff (chain_closed h) (by rw [arena_length]; omega)]
      exact ih w
    have hk0 : (graphOf (arena L ms)).kind ns.length = .const ∧ (graphOf (arena L ms)).value ns.length = c := by
      simp [graphOf, arena_get, hg0, Nd.toRec]
    have hcd : Den (graphOf (arena L ms)) P env ns.length c := by
      have := Den.const (P := P) (env := env) hk0.1
      rwa [hk0.2] at this
    constructor
    · rintro ⟨vs, ⟨hl, hr⟩, hap⟩
      rw [hi] at hl
      match vs, hl with
      | [w, d], _ =>
        have := hr 0 (by simp [hi]) (by simp)
        simp only [hi, List.getElem_cons_zero] at this
        rw [(hold w).1 this]
        have h1 := hr 1 (by simp [hi]) (by simp)
        simp only [hi, List.getElem_cons_succ, List.getElem_cons_zero] at h1
        rw [ha, h1.det hcd] at hap
        exact hap
    · intro hv
      cases hy : applyItems L it x with
      | none => rw [hy] at hv; cases hv
      | some y =>
        rw [hy] at hv
        refine ⟨[y, c], ⟨by simp [hi], ?_⟩, by rw [ha]; exact hv⟩
        intro i h1 h2
        match i, h2 with
        | 0, _ => simp only [hi, List.getElem_cons_zero]; exact (hold y).2 hy
        | 1, _ => simp only [hi, List.getElem_cons_succ, List.getElem_cons_zero]; exact hcd

end Verif.Runtime.Filter
