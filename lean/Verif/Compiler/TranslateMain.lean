import Verif.Compiler.TranslateGemm
import Verif.Compiler.HeapPasses
/-! Translation of nodes and of whole graphs (helpers for C47). -/
namespace Verif.Compiler
open Verif.Runtime
open Verif.Module.Fusion (F)

variable {V C : Type} {K : Kern V C} {f : String → V} {stk : List Nat} {st : TSt V C} {S : Nat → Prop} {g : Gh V}

theorem F.bind_ok {α β : Type} {x : F α} {k : α → F β} {b : β} (h : x.bind k = .ok b) : ∃ a, x = .ok a ∧ k a = .ok b := by
  cases x <;> simp [F.bind] at h
  exact ⟨_, rfl, h⟩

theorem map_two {val : Nat → Option V} {is : List Nat} {vs : List V} (h : is.map val = vs.map some) (hl : vs.length = 2) :
    ∃ x w a b, is = [x, w] ∧ vs = [a, b] ∧ val x = some a ∧ val w = some b := by
  match vs, hl with
  | [a, b], _ =>
    match is, h with
    | [x, w], h => simp at h; exact ⟨x, w, a, b, rfl, rfl, h.1, h.2⟩
    | [], h => simp at h
    | [_], h => simp at h
    | _ :: _ :: _ :: _, h => simp at h

theorem map_three {val : Nat → Option V} {is : List Nat} {vs : List V} (h : is.map val = vs.map some) (hl : vs.length = 3) :
    ∃ x y w a b c, is = [x, y, w] ∧ vs = [a, b, c] ∧ val x = some a ∧ val y = some b ∧ val w = some c := by
  match vs, hl with
  | [a, b, c], _ =>
    match is, h with
    | [x, y, w], h => simp at h; exact ⟨x, y, w, a, b, c, rfl, rfl, h.1, h.2.1, h.2.2⟩
    | [], h => simp at h
    | [_], h => simp at h
    | [_, _], h => simp at h
    | _ :: _ :: _ :: _ :: _, h => simp at h

theorem option_post (hK : K.Sound) (s : Skip) (hJ : J K f stk st S g) {n : Nat} {v : V} (hv : g.val n = some v)
    (hr : st.ready n = none) (hstk : ∀ m ∈ stk, g.rank n < g.rank m) {h1 : TArena V C} {z : Nat}
    (h : packOption K s st.heap n = .ok (h1, z)) : OptPost K f stk st S g n v h1 z := by
  have hs : n ∉ stk := not_stk hstk (Nat.le_refl _)
  obtain ⟨r, hn, hvals, hrank, hpk⟩ := hJ.pend n v hv hr hs
  have hcopy : (copyOf st.heap r = .ok (h1, z)) → r.op.kind ≠ .param → OptPost K f stk st S g n v h1 z := by
    intro hc hp
    simp only [copyOf, F.ok.injEq, Prod.mk.injEq] at hc
    obtain ⟨rfl, rfl⟩ := hc
    refine copy_post hJ hv hr hs hn hrank (fun _ h => h) hvals ?_
    intro s d is e
    subst e; exact absurd rfl hp
  have hready : ∀ w, g.owner w = some n → st.ready w = none := by
    intro w ho
    by_contra hne
    rcases hJ.ownReady w n ho hne with h | h
    · exact hs h
    · exact h hr
  have hconst : ∀ w y x, w ∈ r.inputs → g.owner w = some n → constVal st.heap w = some y → g.val w = some x → x = y := by
    intro w y x hw ho hc hx
    refine const_val hJ hc hx (hready w ho) ?_
    intro hm
    have := hstk w hm; have := hrank w hw; omega
  unfold packOption at h
  simp only [hn] at h
  obtain ⟨op, is⟩ := r
  cases op with
  | param nm d =>
    simp only [F.ok.injEq, Prod.mk.injEq] at h
    obtain ⟨rfl, rfl⟩ := h
    refine copy_post hJ hv hr hs hn hrank (by simp) ⟨rfl, hvals.2⟩ ?_
    intro s d is e
    cases e; rfl
  | const c =>
    simp only [F.ok.injEq, Prod.mk.injEq] at h
    obtain ⟨rfl, rfl⟩ := h
    refine copy_post hJ hv hr hs hn hrank (by simp) ⟨rfl, hvals.2⟩ ?_
    intro s d is e
    cases e
  | mul => exact hcopy h (by simp [TOp.kind])
  | add => exact hcopy h (by simp [TOp.kind])
  | other sem => exact hcopy h (by simp [TOp.kind])
  | inner t p =>
    simp only at h
    split at h
    · exact hcopy h (by simp [TOp.kind])
    · obtain ⟨vs, hmap, hsem⟩ := hvals
      obtain ⟨x, w, a, b, rfl, rfl, hxa, hwb⟩ := map_two hmap (hK.innerArity _ _ _ _ hsem)
      simp only at h
      cases hcv : constVal st.heap w with
      | none => rw [hcv] at h; exact hcopy h (by simp [TOp.kind])
      | some kv =>
        rw [hcv] at h
        simp only [packedCopy] at h
        cases hp : K.packB t kv with
        | none => rw [hp] at h; simp at h
        | some q =>
          rw [hp] at h
          simp only [F.ok.injEq, Prod.mk.injEq] at h
          obtain ⟨rfl, rfl⟩ := h
          obtain ⟨hpf, hpo⟩ := hpk
          obtain ⟨ho, hne⟩ := hpo x w [] rfl (by rw [hcv]; simp)
          have hb := hconst w kv b (by simp) ho hcv hwb
          subst hb
          subst hpf
          refine packed_post hJ hv hr hs hn hrank hstk (fun _ h => h) (by simp) ho (by rw [hcv]; simp) hwb ?_ (by simp [TOp.kind])
          exact ⟨[a, q], by simp [setAt, hne, hxa], hK.packB t a b q v hp hsem⟩
  | conv c v2 p =>
    simp only at h
    by_cases hsk : (if v2 = true then s.convV2 else s.conv) = true
    · rw [if_pos hsk] at h; exact hcopy h (by simp [TOp.kind])
    · rw [if_neg hsk] at h
      obtain ⟨vs, hmap, hsem⟩ := hvals
      obtain ⟨hpf, hpo1, hpo2⟩ := hpk
      subst hpf
      cases v2 with
      | false =>
        obtain ⟨x, w, a, b, rfl, rfl, hxa, hwb⟩ := map_two hmap (by simpa using hK.convArity _ _ _ _ _ hsem)
        simp only at h
        cases hcv : constVal st.heap w with
        | none => rw [hcv] at h; exact hcopy h (by simp [TOp.kind])
        | some kv =>
          rw [hcv] at h
          simp only [packedCopy] at h
          cases hp : K.packA kv with
          | none => rw [hp] at h; simp at h
          | some q =>
            rw [hp] at h
            simp only [F.ok.injEq, Prod.mk.injEq] at h
            obtain ⟨rfl, rfl⟩ := h
            obtain ⟨ho, hne⟩ := hpo1 rfl x w [] rfl (by rw [hcv]; simp)
            have hb := hconst w kv b (by simp) ho hcv hwb
            subst hb
            refine packed_post hJ hv hr hs hn hrank hstk (fun _ h => h) (by simp) ho (by rw [hcv]; simp) hwb ?_ (by simp [TOp.kind])
            exact ⟨[a, q], by simp [setAt, hne, hxa], hK.packA c a b q v hp hsem⟩
      | true =>
        obtain ⟨x, y, w, a, a2, b, rfl, rfl, hxa, hya, hwb⟩ := map_three hmap (by simpa using hK.convArity _ _ _ _ _ hsem)
        simp only at h
        cases hcv : constVal st.heap w with
        | none => rw [hcv] at h; exact hcopy h (by simp [TOp.kind])
        | some kv =>
          rw [hcv] at h
          simp only [packedCopy] at h
          cases hp : K.packA kv with
          | none => rw [hp] at h; simp at h
          | some q =>
            rw [hp] at h
            simp only [F.ok.injEq, Prod.mk.injEq] at h
            obtain ⟨rfl, rfl⟩ := h
            obtain ⟨ho, hne, hne2⟩ := hpo2 rfl x y w [] rfl (by rw [hcv]; simp)
            have hb := hconst w kv b (by simp) ho hcv hwb
            subst hb
            refine packed_post hJ hv hr hs hn hrank hstk (fun _ h => h) (by simp) ho (by rw [hcv]; simp) hwb ?_ (by simp [TOp.kind])
            exact ⟨[a, a2, q], by simp [setAt, hne, hne2, hxa, hya], hK.packA2 c a a2 b q v hp hsem⟩
  | gemm al be tA tB ex =>
    simp only at h
    split at h
    · exact hcopy h (by simp [TOp.kind])
    · obtain ⟨vs, hmap, hsem⟩ := hvals
      obtain ⟨a, b, c, A, B, Cc, rfl, rfl, ha, hb, hc⟩ := map_three hmap (hK.gemmArity _ _ _ _ _ _ hsem)
      simp only at h
      split at h
      · cases h
      · split at h
        · exact hcopy h (by simp [TOp.kind])
        · rename_i hnt
          obtain ⟨x1, e1, h⟩ := F.bind_ok h
          obtain ⟨x2, e2, h⟩ := F.bind_ok h
          simp only [F.ok.injEq, Prod.mk.injEq] at h
          obtain ⟨rfl, rfl⟩ := h
          refine gemm_post hK hJ hv hr hs hn hrank hstk ha hb hc hsem hpk ?_ e1 e2
          intro htA hca
          exact hnt ⟨by rw [hca]; rfl, htA⟩

theorem Ext.weaken {st' : TSt V C} {S' : Nat → Prop} {g' : Gh V} {n : Nat} (h : Ext (n :: stk) st S g st' S' g')
    (hn : ∀ k, k = n → st'.ready k ≠ none) : Ext stk st S g st' S' g' where
  len := h.len
  keep := h.keep
  mono := h.mono
  fresh := h.fresh
  none_ := h.none_
  prot i hp := by
    obtain ⟨x, hx, ho⟩ := hp
    obtain ⟨⟨y, hy, ho'⟩, e⟩ := h.prot i ⟨x, hx, fun m hm => (ho m hm).imp (fun h => by simp [h]) id⟩
    refine ⟨⟨y, hy, ?_⟩, e⟩
    intro m hm
    rcases ho' m hm with h | h
    · rcases List.mem_cons.1 h with h | h
      · exact .inr (hn m h)
      · exact .inl h
    · exact .inr h
  rank := h.rank
  ready := h.ready
  params := h.params

/-- what a translated node satisfies -/
def NodePost (K : Kern V C) (f : String → V) (stk : List Nat) (st : TSt V C) (S : Nat → Prop) (g : Gh V) (n : Nat) (v : V)
    (st' : TSt V C) (z : Nat) : Prop :=
  ∃ S' g', J K f stk st' S' g' ∧ Ext stk st S g st' S' g' ∧ S' z ∧ TDen K f st'.heap z v ∧
    ∀ (s : String) (d : Option Nat) (is : List Nat), st.heap[n]? = some ⟨.param s d, is⟩ → st'.heap[z]? = some ⟨.param s none, []⟩

theorem transInputs_post (recur : TSt V C → Nat → F (TSt V C × Nat))
    (hrec : ∀ (st : TSt V C) (S : Nat → Prop) (g : Gh V) (n : Nat) (v : V) (st' : TSt V C) (z : Nat),
      (∀ m ∈ stk, m < st.heap.length) → J K f stk st S g → Prot stk st g n → (∀ m ∈ stk, g.rank n < g.rank m) → g.val n = some v → recur st n = .ok (st', z) →
      NodePost K f stk st S g n v st' z)
    (is : List Nat) : ∀ (st : TSt V C) (S : Nat → Prop) (g : Gh V) (vs : List V) (st' : TSt V C) (cs : List Nat),
      J K f stk st S g → (∀ i ∈ is, Prot stk st g i ∧ ∀ m ∈ stk, g.rank i < g.rank m) → (∀ m ∈ stk, m < st.heap.length) →
      is.map g.val = vs.map some → transInputs recur st is = .ok (st', cs) →
      ∃ S' g', J K f stk st' S' g' ∧ Ext stk st S g st' S' g' ∧ cs.length = is.length ∧ (∀ c ∈ cs, S' c) ∧
        (∀ (j : Nat) (h1 : j < cs.length) (h2 : j < vs.length), TDen K f st'.heap cs[j] vs[j]) ∧
        ∀ (j i c : Nat) (s : String) (d : Option Nat) (js : List Nat), is[j]? = some i → cs[j]? = some c →
          st.heap[i]? = some ⟨.param s d, js⟩ → st'.heap[c]? = some ⟨.param s none, []⟩ := by
  induction is with
  | nil =>
    intro st S g vs st' cs hJ _ _ hm h
    simp only [transInputs, F.ok.injEq, Prod.mk.injEq] at h
    obtain ⟨rfl, rfl⟩ := h
    exact ⟨S, g, hJ, Ext.refl _ _ _ _, rfl, by simp, by intro j h1; simp at h1, by simp⟩
  | cons i is ih =>
    intro st S g vs st' cs hJ hp hlt hm h
    simp only [transInputs] at h
    obtain ⟨⟨st1, c⟩, e1, h⟩ := F.bind_ok h
    obtain ⟨⟨st2, cs2⟩, e2, h⟩ := F.bind_ok h
    simp only [F.ok.injEq, Prod.mk.injEq] at h
    obtain ⟨rfl, rfl⟩ := h
    cases vs with
    | nil => simp at hm
    | cons v vs =>
      simp only [List.map_cons, List.cons.injEq] at hm
      obtain ⟨hv, hm⟩ := hm
      obtain ⟨hp1, hp2⟩ := hp i (by simp)
      obtain ⟨S1, g1, j1, x1, s1, d1, n1⟩ := hrec st S g i v st1 c hlt hJ hp1 hp2 hv e1
      have hm1 : is.map g1.val = vs.map some := by
        rw [← hm]
        apply List.map_congr_left
        intro k hk
        exact (x1.prot k (hp k (by simp [hk])).1).2
      obtain ⟨S2, g2, j2, x2, l2, s2, d2, n2⟩ := ih st1 S1 g1 vs st2 cs2 j1 (by
        intro k hk
        obtain ⟨a, b⟩ := hp k (by simp [hk])
        refine ⟨(x1.prot k a).1, ?_⟩
        intro m hm
        obtain ⟨y, hy, -⟩ := a
        rw [x1.rank k (hJ.lt k y hy), x1.rank m (hlt m hm)]
        exact b m hm) (fun m hm => Nat.lt_of_lt_of_le (hlt m hm) x1.len) hm1 e2
      refine ⟨S2, g2, j2, x1.trans x2, by simp [l2], ?_, ?_, ?_⟩
      · intro k hk
        rcases List.mem_cons.1 hk with rfl | hk
        · exact x2.mono _ s1
        · exact s2 k hk
      · intro j h1 h2
        cases j with
        | zero =>
          simp only [List.getElem_cons_zero]
          exact tden_agree (S := S1) (fun z hz => (j1.closed z hz).2)
            (fun z hz => x2.keep z (j1.closed z hz).1 (j1.apart z hz)) d1 s1
        | succ j => simp only [List.getElem_cons_succ]; exact d2 j _ _
      · intro j k c' s d js hk hc hs
        cases j with
        | zero =>
          simp at hk hc
          subst hk hc
          have := n1 s d js hs
          rw [x2.keep c (j1.closed c s1).1 (j1.apart c s1)]
          exact this
        | succ j =>
          simp at hk hc
          have hkm : k ∈ is := List.mem_of_getElem? hk
          obtain ⟨⟨y, hy, -⟩, -⟩ := hp k (by simp [hkm])
          -- a parameter is never replaced
          exact n2 j k c' s d js hk hc ((x1.params k s d js (hJ.lt k y hy)).2 hs)

/-! ### finishing a node -/

theorem relink_get {h : TArena V C} {z : Nat} {r : TRec V C} (hz : h[z]? = some r) (cs : List Nat) :
    (relink h z cs)[z]? = some { r with inputs := cs } := by
  have : z < h.length := by
    by_contra hc; rw [List.getElem?_eq_none (by omega)] at hz; cases hz
  unfold relink
  simp only [hz]
  rw [List.getElem?_set_self this]

theorem relink_ne {h : TArena V C} {z i : Nat} (hi : i ≠ z) (cs : List Nat) : (relink h z cs)[i]? = h[i]? := by
  unfold relink
  cases h[z]? with
  | none => rfl
  | some r => simp [Ne.symm hi]

theorem relink_length (h : TArena V C) (z : Nat) (cs : List Nat) : (relink h z cs).length = h.length := by
  unfold relink
  cases h[z]? <;> simp

theorem relink_constVal (h : TArena V C) (z : Nat) (cs : List Nat) (i : Nat) : constVal (relink h z cs) i = constVal h i := by
  by_cases hi : i = z
  · subst hi
    cases hr : h[i]? with
    | none => unfold relink; rw [hr]
    | some r =>
      obtain ⟨op, is⟩ := r
      unfold constVal
      rw [relink_get hr, hr]
      cases op <;> rfl
  · unfold constVal
    rw [relink_ne hi]

theorem ins_none {f : Nat → Option Nat} {k x m : Nat} (h : ins f k x m = none) : f m = none ∧ m ≠ k := by
  unfold ins at h
  cases hf : f k with
  | some y =>
    rw [hf] at h
    simp only at h
    refine ⟨h, ?_⟩
    rintro rfl; rw [hf] at h; cases h
  | none =>
    rw [hf] at h
    simp only at h
    split at h
    · cases h
    · exact ⟨h, by assumption⟩

theorem ins_self (f : Nat → Option Nat) (k x : Nat) : ins f k x k ≠ none := by
  intro h; exact (ins_none h).2 rfl

theorem transNode_post (hK : K.Sound) (s : Skip) (fuel : Nat) : ∀ (stk : List Nat) (st : TSt V C) (S : Nat → Prop) (g : Gh V)
    (n : Nat) (v : V) (st' : TSt V C) (z : Nat), (∀ m ∈ stk, m < st.heap.length) → J K f stk st S g → Prot stk st g n →
    (∀ m ∈ stk, g.rank n < g.rank m) → g.val n = some v → transNode K s fuel st n = .ok (st', z) →
    NodePost K f stk st S g n v st' z := by
  induction fuel with
  | zero => intro _ _ _ _ _ _ _ _ _ _ _ _ _ h; simp [transNode] at h
  | succ k ih =>
    intro stk st S g n v st' z hlt hJ hprot hstk hv h
    simp only [transNode] at h
    cases hrd : st.ready n with
    | some z0 =>
      simp only [hrd, F.ok.injEq, Prod.mk.injEq] at h
      obtain ⟨rfl, rfl⟩ := h
      obtain ⟨a, v', b, c⟩ := hJ.ready n z0 hrd
      rw [hv] at b; cases b
      exact ⟨S, g, hJ, Ext.refl _ _ _ _, a, c, fun s d is hn => hJ.names n z0 s d is hn hrd⟩
    | none =>
    simp only [hrd] at h
    obtain ⟨⟨h1, z0⟩, ho, h⟩ := F.bind_ok h
    simp only at h
    obtain ⟨g1, r, j1, x1, hr, vz, hzl, hvals, vn, hins, hname⟩ := option_post hK s hJ hv hrd hstk ho
    simp only [hr] at h
    obtain ⟨⟨st1, cs⟩, hti, h⟩ := F.bind_ok h
    simp only [F.ok.injEq, Prod.mk.injEq] at h
    obtain ⟨rfl, rfl⟩ := h
    have ln := hJ.lt n v hv
    have hlt1 : ∀ m ∈ n :: stk, m < h1.length := by
      intro m hm
      have := x1.len
      simp only at this
      rcases List.mem_cons.1 hm with rfl | hm
      · omega
      · have := hlt m hm; omega
    have hrk1 : ∀ i ∈ r.inputs, ∀ m ∈ n :: stk, g1.rank i < g1.rank m := by
      intro i hi m hm
      have h0 := (hins i hi).2
      rcases List.mem_cons.1 hm with rfl | hm
      · exact h0
      · have := hstk m hm
        rw [x1.rank m (hlt m hm)]
        rw [x1.rank n ln] at h0
        omega
    have hinv : ∀ i ∈ r.inputs, ∃ x, g1.val i = some x := vals_inputs hvals
    have hvs : ∃ vs : List V, r.inputs.map g1.val = vs.map some := by
      have : ∀ l : List Nat, (∀ i ∈ l, ∃ x, g1.val i = some x) → ∃ vs : List V, l.map g1.val = vs.map some := by
        intro l
        induction l with
        | nil => intro _; exact ⟨[], rfl⟩
        | cons i l ihl =>
          intro hl
          obtain ⟨x, hx⟩ := hl i (by simp)
          obtain ⟨vs, hvs⟩ := ihl (fun j hj => hl j (by simp [hj]))
          exact ⟨x :: vs, by simp [hx, hvs]⟩
      exact this _ hinv
    obtain ⟨vs, hvs⟩ := hvs
    obtain ⟨S1, g2, j2, x2, l2, s2, d2, n2⟩ := transInputs_post (stk := n :: stk) (transNode K s k)
      (fun st S g i x st' z a b c d e w => ih (n :: stk) st S g i x st' z a b c d e w) r.inputs ⟨h1, st.ready⟩ S g1 vs st1 cs j1
      (fun i hi => ⟨(hins i hi).1, hrk1 i hi⟩) hlt1 hvs hti
    have hzlt : z0 < h1.length := by
      by_contra hc; rw [List.getElem?_eq_none (by omega)] at hr; cases hr
    have hz1 : st1.heap[z0]? = some r := (x2.keep z0 hzlt vz).trans hr
    have vz2 : g2.val z0 = none := x2.none_ z0 hzlt vz
    have hzS1 : ¬ S1 z0 := by
      intro hS
      rcases x2.fresh z0 hS with h | h
      · have := (hJ.closed z0 h).1; omega
      · simp only at h; omega
    have hag : ∀ i, S1 i → (relink st1.heap z0 cs)[i]? = st1.heap[i]? := fun i hi =>
      relink_ne (by rintro rfl; exact hzS1 hi) cs
    have hcl1 : ∀ i, S1 i → ∀ r, st1.heap[i]? = some r → ∀ j ∈ r.inputs, S1 j := fun i hi => (j2.closed i hi).2
    have hden : TDen K f (relink st1.heap z0 cs) z0 v := by
      have hz2 := relink_get hz1 cs
      obtain ⟨op, is⟩ := r
      have hnode : (∃ ws : List V, is.map g1.val = ws.map some ∧ op.sem K ws = some v) →
          TDen K f (relink st1.heap z0 cs) z0 v := by
        rintro ⟨ws, hws, hsem⟩
        have : ws = vs := by
          have := hws.symm.trans hvs
          exact (List.map_inj_right (fun _ _ h => Option.some.inj h)).1 this
        subst this
        have hlen : ws.length = is.length := by
          have := congrArg List.length hws; simpa using this.symm
        simp only at l2
        refine .node hz2 (by simp only; omega) ?_ hsem
        intro j h1' h2'
        exact tden_agree hcl1 hag (d2 j h1' h2') (s2 _ (List.getElem_mem h1'))
      unfold Vals at hvals
      cases op with
      | param nm d =>
        simp only at hvals hz2
        obtain ⟨-, rfl⟩ := hvals
        exact .param hz2
      | const c =>
        simp only at hvals hz2
        obtain ⟨-, rfl⟩ := hvals
        exact .const hz2
      | _ => exact hnode hvals
    -- what has changed
    have x3 : Ext stk st S g ⟨relink st1.heap z0 cs, ins st1.ready n z0⟩ (fun i => S1 i ∨ i = z0) g2 := by
      refine ⟨?_, ?_, fun i hi => .inl (x2.mono i (x1.mono i hi)), ?_, ?_, ?_, ?_, ?_, ?_⟩
      · simp only [relink_length]; exact x1.len.trans x2.len
      · intro i hi hvi
        simp only
        rw [relink_ne (by omega)]
        exact (x2.keep i (by have := x1.len; simp only at this ⊢; omega) (x1.none_ i hi hvi)).trans (x1.keep i hi hvi)
      · rintro i (hi | rfl)
        · rcases x2.fresh i hi with h | h
          · exact .inl h
          · right; have := x1.len; simp only at this h; omega
        · exact .inr hzl
      · intro i hi hvi
        exact x2.none_ i (by have := x1.len; simp only at this ⊢; omega) (x1.none_ i hi hvi)
      · intro i hp
        obtain ⟨p1, q1⟩ := x1.prot i hp
        obtain ⟨y, hy, ho⟩ := p1
        obtain ⟨p2, q2⟩ := x2.prot i ⟨y, hy, fun m hm => (ho m hm).imp (fun h => by simp [h]) id⟩
        obtain ⟨w, hw, ho2⟩ := p2
        refine ⟨⟨w, hw, ?_⟩, q2.trans q1⟩
        intro m hm
        rcases ho2 m hm with h | h
        · rcases List.mem_cons.1 h with rfl | h
          · right; exact ins_self _ _ _
          · exact .inl h
        · right
          intro h0
          exact h (ins_none h0).1
      · intro i hi
        exact (x2.rank i (by have := x1.len; simp only at this ⊢; omega)).trans (x1.rank i hi)
      · intro m w hm
        exact ins_keep _ _ _ _ _ (x2.ready m w (x1.ready m w hm))
      · intro m s d is hm
        simp only
        rw [relink_ne (by omega)]
        exact (x2.params m s d is (by have := x1.len; simp only at this ⊢; omega)).trans (x1.params m s d is hm)
    have hprot3 := (x3.prot n hprot).1
    have hv3 : g2.val n = some v := (x3.prot n hprot).2.trans hv
    have hnz : n ≠ z0 := by omega
    have hne : ∀ m y, g2.val m = some y → m ≠ z0 := by
      rintro m y hm rfl
      rw [vz2] at hm; cases hm
    have hnm : ∀ m, m ∉ stk → m ≠ n → m ∉ n :: stk := by
      intro m h1 h2 h3
      rcases List.mem_cons.1 h3 with h | h
      · exact h2 h
      · exact h1 h
    refine ⟨_, g2, ?_, x3, .inr rfl, hden, ?_⟩
    · refine ⟨?_, ?_, ?_, ?_, j2.ownVal, ?_, ?_, ?_, ?_⟩
      · intro m y hm
        simp only [relink_length]; exact j2.lt m y hm
      · intro m y hm hr' hs'
        obtain ⟨q1, q2⟩ := ins_none hr'
        obtain ⟨rm, e1, e2, e3, e4⟩ := j2.pend m y hm q1 (hnm m hs' q2)
        refine ⟨rm, by simp only; rw [relink_ne (hne m y hm)]; exact e1, e2, e3, ?_⟩
        exact packOk_heap (fun i _ => by simp only; rw [relink_constVal]) e4
      · intro w m ho' k' y rk hk hr' hs' hrk hi
        obtain ⟨q1, q2⟩ := ins_none hr'
        simp only at hrk
        rw [relink_ne (hne k' y hk)] at hrk
        exact j2.own w m ho' k' y rk hk q1 (hnm k' hs' q2) hrk hi
      · intro w m ho' hw
        simp only at hw ⊢
        by_cases hwn : w = n
        · subst hwn
          obtain ⟨-, -, hp⟩ := hprot3
          exact hp m ho'
        · have hw1 : st1.ready w ≠ none := by
            intro h0
            apply hw
            unfold ins
            cases hf : st1.ready n with
            | some y => exact h0
            | none => simp [hwn, h0]
          rcases j2.ownReady w m ho' hw1 with h | h
          · rcases List.mem_cons.1 h with rfl | h
            · exact .inr (ins_self _ _ _)
            · exact .inl h
          · right
            intro h0
            exact h (ins_none h0).1
      · intro m z' hm
        simp only at hm
        rcases ins_spec hm with h | ⟨rfl, rfl⟩
        · obtain ⟨a, y, b, c⟩ := j2.ready m z' h
          exact ⟨.inl a, y, b, tden_agree hcl1 hag c a⟩
        · exact ⟨.inr rfl, v, hv3, hden⟩
      · rintro i (hi | rfl)
        · refine ⟨by simp only [relink_length]; exact (j2.closed i hi).1, ?_⟩
          intro r' hr'
          simp only at hr'
          rw [hag i hi] at hr'
          intro j hj
          exact .inl (hcl1 i hi r' hr' j hj)
        · refine ⟨?_, ?_⟩
          · simp only [relink_length]
            have := x2.len
            simp only at this; omega
          · intro r' hr'
            simp only at hr'
            rw [relink_get hz1] at hr'
            cases hr'
            intro j hj
            exact .inl (s2 j hj)
      · rintro i (hi | rfl)
        · exact j2.apart i hi
        · exact vz2
      · intro m z' s' d is hm hmr
        simp only at hm hmr ⊢
        rcases ins_spec hmr with h | ⟨rfl, rfl⟩
        · obtain ⟨a, y, b, -⟩ := j2.ready m z' h
          rw [relink_ne (hne m y b)] at hm
          rw [hag z' a]
          exact j2.names m z' s' d is hm h
        · have h0 := (x3.params m s' d is ln).1 hm
          have hrp := hname s' d is h0
          rw [relink_get hz1, hrp]
          rw [hrp] at l2
          simp at l2
          simp [l2]
    · intro s' d is h0
      have hrp := hname s' d is h0
      simp only
      rw [relink_get hz1, hrp]
      rw [hrp] at l2
      simp at l2
      simp [l2]

end Verif.Compiler
