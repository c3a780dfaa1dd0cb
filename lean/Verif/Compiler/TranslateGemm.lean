import Verif.Compiler.TranslatePost
/-! Rewriting a Gemm (helper for C47). -/
namespace Verif.Compiler
open Verif.Runtime
open Verif.Module.Fusion (F)

variable {V C : Type} {K : Kern V C} {f : String → V} {stk : List Nat} {st : TSt V C} {S : Nat → Prop} {g : Gh V}

/-- the six nodes made for every rewritten Gemm -/
def sixNodes (r : TRec V C) (alpha beta : V) (a b c base : Nat) : List (TRec V C) :=
  [⟨r.op, []⟩, ⟨.inner false false, [a, b]⟩, ⟨.const alpha, []⟩, ⟨.mul, [base + 2, base + 1]⟩,
   ⟨.const beta, []⟩, ⟨.mul, [base + 4, c]⟩]

theorem gemmNodes_eq (K : Kern V C) (r : TRec V C) (alpha beta : V) (a b c base : Nat) :
    gemmNodes K r alpha beta a b c base =
      if K.nearZero beta then
        if K.nearOne alpha then (sixNodes r alpha beta a b c base, base + 1) else (sixNodes r alpha beta a b c base, base + 3)
      else if K.nearOne alpha then (sixNodes r alpha beta a b c base ++ [⟨.add, [base + 1, base + 5]⟩], base + 6)
      else (sixNodes r alpha beta a b c base ++ [⟨.add, [base + 3, base + 5]⟩], base + 6) := rfl

theorem six_get (h : TArena V C) (r : TRec V C) (alpha beta : V) (a b c base : Nat) (tl : List (TRec V C))
    (hl : h.length = base) :
    (h ++ (sixNodes r alpha beta a b c base ++ tl))[base + 1]? = some ⟨.inner false false, [a, b]⟩ ∧
    (h ++ (sixNodes r alpha beta a b c base ++ tl))[base + 2]? = some ⟨.const alpha, []⟩ ∧
    (h ++ (sixNodes r alpha beta a b c base ++ tl))[base + 3]? = some ⟨.mul, [base + 2, base + 1]⟩ ∧
    (h ++ (sixNodes r alpha beta a b c base ++ tl))[base + 4]? = some ⟨.const beta, []⟩ ∧
    (h ++ (sixNodes r alpha beta a b c base ++ tl))[base + 5]? = some ⟨.mul, [base + 4, c]⟩ ∧
    (h ++ (sixNodes r alpha beta a b c base ++ tl))[base + 6]? = tl[0]? := by
  subst hl
  refine ⟨?_, ?_, ?_, ?_, ?_, ?_⟩ <;>
  · rw [List.getElem?_append_right (by omega)]
    simp [sixNodes]

theorem gemm_post (hK : K.Sound) (hJ : J K f stk st S g) {n a b c : Nat} {v al be A B Cc : V} {tA tB ex : Bool}
    {h1 h2 : TArena V C} (hv : g.val n = some v) (hr : st.ready n = none) (hs : n ∉ stk)
    (hn : st.heap[n]? = some ⟨.gemm al be tA tB ex, [a, b, c]⟩)
    (hrank : ∀ i ∈ [a, b, c], g.rank i < g.rank n) (hstk : ∀ m ∈ stk, g.rank n < g.rank m)
    (hA : g.val a = some A) (hB : g.val b = some B) (hC : g.val c = some Cc) (hsem : K.gemm al be tA tB [A, B, Cc] = some v)
    (hpk : PackOk st.heap g n ⟨.gemm al be tA tB ex, [a, b, c]⟩) (htA : tA = true → constVal st.heap a ≠ none)
    (e1 : transConst K st.heap a tA = .ok h1) (e2 : transConst K h1 b tB = .ok h2) :
    OptPost K f stk st S g n v
      (h2 ++ (gemmNodes K ⟨.gemm al be tA tB ex, [a, b, c]⟩ al be a b c st.heap.length).1)
      (gemmNodes K ⟨.gemm al be tA tB ex, [a, b, c]⟩ al be a b c st.heap.length).2 := by
  obtain ⟨pa, pb, pc, ptB, prk⟩ := hpk a b c [] rfl
  have hown : ∀ i ∈ [a, b, c], ∀ m, g.owner i = some m → m = n := fun i hi m hm => input_owner hJ hv hr hs hn hi hm
  have hreadyOwn : ∀ i, g.owner i = some n → st.ready i = none := by
    intro i ho
    by_contra hne
    rcases hJ.ownReady i n ho hne with h | h
    · exact hs h
    · exact h hr
  have hnstk : ∀ i ∈ [a, b, c], i ∉ n :: stk := by
    intro i hi h
    have h0 := hrank i hi
    rcases List.mem_cons.1 h with h | h
    · subst h; omega
    · have := hstk i h; omega
  have hJ0 := hJ.push n
  obtain ⟨A', hA', hJ1, l1, k1, c1, n1⟩ := transConst_post (t := tA) hJ0 (n := n) (a := a) (by simp) hA
    (fun hc => ⟨(pa hc).1, hreadyOwn _ (pa hc).1, hnstk a (by simp)⟩) htA e1
  -- `A` and `B` are the same node only when neither is replaced
  have hab : a = b → A' = A ∧ tB = false := by
    intro hab
    have ha : constVal st.heap a = none := by
      by_contra hne; exact (pa hne).2 hab
    have : tA = false := by
      cases htA' : tA with
      | false => rfl
      | true => exact absurd ha (htA htA')
    have htb : tB = false := by
      cases htB' : tB with
      | false => rfl
      | true => exact absurd (hab ▸ ha) (ptB htB')
    rw [this] at hA'
    exact ⟨by simpa using hA', htb⟩
  have hB1 : setAt g.val a (some A') b = some B := by
    simp only [setAt]
    split
    · rename_i hba
      obtain ⟨h, -⟩ := hab hba.symm
      rw [hba, hA] at hB
      rw [h]; exact hB
    · exact hB
  obtain ⟨B', hB', hJ2, l2, k2, c2, n2⟩ := transConst_post (t := tB) hJ1 (n := n) (a := b) (by simp) hB1
    (fun hc => ⟨(pb ((c1 b).1 hc)).1, hreadyOwn _ (pb ((c1 b).1 hc)).1, hnstk b (by simp)⟩)
    (fun ht => (c1 b).2 (ptB ht)) e2
  simp only at l1 l2 k1 k2 c2 n1 n2
  have hlen : h2.length = st.heap.length := l2.trans l1
  have hcon : ∀ i, constVal h2 i ≠ none ↔ constVal st.heap i ≠ none := fun i => (c2 i).trans (c1 i)
  have hkeep : ∀ i, g.val i = none → h2[i]? = st.heap[i]? := by
    intro i hi
    rw [k2 i, k1 i hi]
    simp only [setAt]
    rw [if_neg]
    · exact hi
    · rintro rfl; rw [hA] at hi; cases hi
  generalize hval2 : setAt (setAt g.val a (some A')) b (some B') = val2 at hJ2
  have va : val2 a = some A' := by
    rw [← hval2]; simp only [setAt]
    split
    · rename_i h
      obtain ⟨q1, q2⟩ := hab h
      rw [q2] at hB'
      have : B' = B := by simpa using hB'
      rw [← h, hA] at hB
      rw [this, q1]; exact hB.symm
    · simp
  have vb : val2 b = some B' := by rw [← hval2]; simp [setAt]
  have hAsame : constVal st.heap a = none → A' = A := by
    intro ha
    have : tA = false := by
      cases htA' : tA with
      | false => rfl
      | true => exact absurd ha (htA htA')
    rw [this] at hA'; simpa using hA'
  have hBsame : constVal st.heap b = none → B' = B := by
    intro ha
    have : tB = false := by
      cases htB' : tB with
      | false => rfl
      | true => exact absurd ha (ptB htB')
    rw [this] at hB'; simpa using hB'
  -- a node not owned by `n` keeps its value
  have vsame : ∀ i, g.owner i ≠ some n → val2 i = g.val i := by
    intro i ho
    rw [← hval2]; simp only [setAt]
    split
    · rename_i h
      subst h
      rw [hBsame, hB]
      by_contra hne; exact ho (pb hne).1
    · split
      · rename_i h
        subst h
        rw [hAsame, hA]
        by_contra hne; exact ho (pa hne).1
      · rfl
  have vc : val2 c = some Cc := by rw [vsame c (by rw [pc]; simp)]; exact hC
  have hna : n ≠ a := by rintro rfl; exact Nat.lt_irrefl _ (hrank n (by simp))
  have hnb : n ≠ b := by rintro rfl; exact Nat.lt_irrefl _ (hrank n (by simp))
  have vn : val2 n = some v := by
    rw [← hval2]; simp only [setAt]; rw [if_neg hnb, if_neg hna]; exact hv
  have vnone : ∀ i, g.val i = none → val2 i = none := by
    intro i hi
    rw [← hval2]; simp only [setAt]
    rw [if_neg, if_neg]
    · exact hi
    · rintro rfl; rw [hA] at hi; cases hi
    · rintro rfl; rw [hB] at hi; cases hi
  have la := hJ.lt a A hA
  have lb := hJ.lt b B hB
  have lc := hJ.lt c Cc hC
  have ln := hJ.lt n v hv
  have rka := prk a (by simp)
  have rkb := prk b (by simp)
  have rkc := prk c (by simp)
  obtain ⟨m, hm, hz0, hz1⟩ := hK.gemm al be tA tB A B Cc v A' B' hsem hA' hB'
  have hSf : ∀ i, st.heap.length ≤ i → ¬ S i := by
    intro i hi h
    have := (hJ.closed i h).1
    omega
  have extOf : ∀ (gF : Gh V) (new : TArena V C), (∀ i, i < st.heap.length → gF.val i = val2 i) →
      (∀ i, i < st.heap.length → gF.rank i = g.rank i) → (∀ i, gF.owner i = g.owner i ∨ g.owner i = some n) →
      Ext stk st S g ⟨h2 ++ new, st.ready⟩ S gF := by
    intro gF new q1 q2 q3
    refine ⟨by simp [hlen], ?_, fun _ h => h, fun _ h => .inl h, ?_, ?_, q2, fun _ _ h => h,
      fun i s d is h => by simp only; rw [List.getElem?_append_left (by omega)]; exact (n2 i s d is).trans (n1 i s d is)⟩
    · intro i hi hvi
      simp only
      rw [List.getElem?_append_left (by omega)]
      exact hkeep i hvi
    · intro i hi hvi
      rw [q1 i hi]; exact vnone i hvi
    · rintro i ⟨x, hx, hpo⟩
      have hno : g.owner i ≠ some n := by
        intro ho
        rcases hpo n ho with h | h
        · exact hs h
        · exact h hr
      have e : gF.val i = g.val i := (q1 i (hJ.lt i x hx)).trans (vsame i hno)
      refine ⟨⟨x, e.trans hx, ?_⟩, e⟩
      intro k hk
      rcases q3 i with h | h
      · exact hpo k (h ▸ hk)
      · exact absurd h hno
  -- the inner product and the two scalars become source nodes
  let L := st.heap.length
  have hL : st.heap.length = L := rfl
  let own5 : Nat → Option Nat := fun i => if (i = a ∨ i = b) ∧ g.owner i = some n then some (L + 1) else g.owner i
  let val5 := setAt (setAt (setAt val2 (L + 1) (some m)) (L + 2) (some al)) (L + 4) (some be)
  let rank5 := setAt (setAt (setAt g.rank (L + 1) (g.rank n - 2)) (L + 2) 0) (L + 4) 0
  have o5 : ∀ i, L ≤ i → own5 i = none := by
    intro i hi
    have h0 := owner_fresh hJ (val_fresh hJ (i := i) (by omega))
    simp [own5, h0]
  have v2f : ∀ i, L ≤ i → val2 i = none := fun i hi => vnone i (val_fresh hJ hi)
  have common : ∀ tl, J K f (n :: stk)
      ⟨h2 ++ (sixNodes ⟨.gemm al be tA tB ex, [a, b, c]⟩ al be a b c st.heap.length ++ tl), st.ready⟩ S
      ⟨val5, rank5, own5⟩ := by
    intro tl
    obtain ⟨g1, g2, -, g4, -⟩ := six_get h2 ⟨.gemm al be tA tB ex, [a, b, c]⟩ al be a b c st.heap.length tl hlen
    have hJ3 := hJ2.append (sixNodes ⟨.gemm al be tA tB ex, [a, b, c]⟩ al be a b c st.heap.length ++ tl)
    have hJ4 : J K f (n :: stk)
        ⟨h2 ++ (sixNodes ⟨.gemm al be tA tB ex, [a, b, c]⟩ al be a b c st.heap.length ++ tl), st.ready⟩ S
        ⟨setAt val2 (L + 1) (some m), setAt g.rank (L + 1) (g.rank n - 2), own5⟩ := by
      refine hJ3.adopt (n := n) g1 (hSf _ (by omega)) (ready_fresh hJ (by omega)) (v2f _ (by omega)) (by simp) rfl
        (fun i hi => by simp only [setAt]; exact if_neg hi) ?_ ⟨[A', B'], by simp [va, vb], hm⟩ ?_ ?_ ?_
      · intro i
        simp only [own5]
        by_cases hc : (i = a ∨ i = b) ∧ g.owner i = some n
        · right
          exact ⟨if_pos hc, hc.2, hreadyOwn i hc.2⟩
        · left; exact if_neg hc
      · intro i hi
        simp only [setAt, List.mem_cons, List.not_mem_nil, or_false] at hi ⊢
        rw [if_pos (by trivial)]
        rcases hi with rfl | rfl
        · exact ⟨by omega, by omega⟩
        · exact ⟨by omega, by omega⟩
      · refine ⟨rfl, ?_⟩
        intro x w rest hi hw
        simp only [List.cons.injEq] at hi
        obtain ⟨rfl, rfl, -⟩ := hi
        simp only at hw
        rw [constVal_append _ _ _ (by omega)] at hw
        obtain ⟨q1, q2⟩ := pb ((hcon b).1 hw)
        exact ⟨if_pos ⟨.inr rfl, q1⟩, q2⟩
      · intro i hi
        simp only [List.mem_cons, List.not_mem_nil, or_false] at hi
        by_cases ho : g.owner i = some n
        · left; exact if_pos ⟨hi, ho⟩
        · right
          simp only [own5]
          rw [if_neg (fun h => ho h.2)]
          cases hoi : g.owner i with
          | none => rfl
          | some k =>
            exfalso
            have : i ∈ [a, b, c] := by rcases hi with rfl | rfl <;> simp
            rw [hown i this k hoi] at hoi; exact ho hoi
    have hJ5 := hJ4.adoptPlain (n := n) (x := al) 0 g2 (hSf _ (by omega)) (ready_fresh hJ (by omega))
      (by simp only [setAt]; rw [if_neg (by omega)]; exact v2f _ (by omega)) (by simp) ⟨rfl, rfl⟩ (by simp) (.inl ⟨al, rfl⟩) (by simp)
    exact hJ5.adoptPlain (n := n) (x := be) 0 g4 (hSf _ (by omega)) (ready_fresh hJ (by omega))
      (by simp only [setAt]; rw [if_neg (by omega), if_neg (by omega)]; exact v2f _ (by omega)) (by simp) ⟨rfl, rfl⟩ (by simp)
      (.inl ⟨be, rfl⟩) (by simp)
  have v5old : ∀ i, i < L → val5 i = val2 i := by
    intro i hi
    simp only [val5, setAt]
    rw [if_neg (by omega), if_neg (by omega), if_neg (by omega)]
  have r5old : ∀ i, i < L → rank5 i = g.rank i := by
    intro i hi
    simp only [rank5, setAt]
    rw [if_neg (by omega), if_neg (by omega), if_neg (by omega)]
  have o5old : ∀ i, own5 i = g.owner i ∨ g.owner i = some n := by
    intro i
    by_cases hc : (i = a ∨ i = b) ∧ g.owner i = some n
    · exact .inr hc.2
    · exact .inl (if_neg hc)
  have v51 : val5 (L + 1) = some m := by simp [val5, setAt]
  have v52 : val5 (L + 2) = some al := by simp [val5, setAt]
  have v54 : val5 (L + 4) = some be := by simp [val5, setAt]
  have v53 : val5 (L + 3) = none := by simp [val5, setAt]; exact v2f _ (by omega)
  have v55 : val5 (L + 5) = none := by simp [val5, setAt]; exact v2f _ (by omega)
  have v56 : val5 (L + 6) = none := by simp [val5, setAt]; exact v2f _ (by omega)
  have r51 : rank5 (L + 1) = g.rank n - 2 := by simp [rank5, setAt]
  have r52 : rank5 (L + 2) = 0 := by simp [rank5, setAt]
  have r54 : rank5 (L + 4) = 0 := by simp [rank5, setAt]
  have o5c : own5 c = none := by simp [own5, pc]
  -- a node without an owner is final
  have protOf : ∀ (h : TArena V C) (gF : Gh V) (i : Nat) (x : V), gF.val i = some x → gF.owner i = none →
      Prot (n :: stk) ⟨h, st.ready⟩ gF i := by
    intro h gF i x h1 h2
    exact ⟨x, h1, fun k hk => by rw [h2] at hk; cases hk⟩
  have hnp : ∀ (r : TRec V C) (s : String) (d : Option Nat) (is : List Nat), st.heap[n]? = some ⟨.param s d, is⟩ →
      r = ⟨.param s none, []⟩ := by
    intro r s d is hp
    rw [hn] at hp; cases hp
  rw [gemmNodes_eq]
  by_cases hze : K.nearZero be = true
  · rw [if_pos hze]
    by_cases hon : K.nearOne al = true
    · -- the inner product itself
      rw [if_pos hon]
      have hmv := (hz0 hze).1 hon
      subst hmv
      obtain ⟨g1, -⟩ := six_get h2 ⟨.gemm al be tA tB ex, [a, b, c]⟩ al be a b c st.heap.length [] hlen
      rw [List.append_nil] at g1
      refine ⟨_, _, hJ2.append _, extOf _ _ (fun _ _ => rfl) (fun _ _ => rfl) (fun _ => .inl rfl), g1, ?_, by omega, ?_, vn, ?_, hnp _⟩
      · exact vnone _ (val_fresh hJ (by omega))
      · exact ⟨[A', B'], by simp [va, vb], hm⟩
      · intro i hi
        have hi' : i ∈ [a, b, c] := by simp at hi ⊢; rcases hi with h | h <;> simp [h]
        refine ⟨?_, hrank i hi'⟩
        have hval : ∃ x, val2 i = some x := by
          simp at hi; rcases hi with rfl | rfl
          · exact ⟨_, va⟩
          · exact ⟨_, vb⟩
        obtain ⟨x, hx⟩ := hval
        refine ⟨x, hx, ?_⟩
        intro k hk
        left; rw [hown i hi' k hk]; simp
    · -- alpha times the inner product
      rw [if_neg hon]
      have hav := (hz0 hze).2 (by simpa using hon)
      have hJ5 := common []
      rw [List.append_nil] at hJ5
      obtain ⟨-, -, g3, -⟩ := six_get h2 ⟨.gemm al be tA tB ex, [a, b, c]⟩ al be a b c st.heap.length [] hlen
      rw [List.append_nil] at g3
      refine ⟨_, _, hJ5, extOf _ _ v5old r5old o5old, g3, v53, by omega, ⟨[al, m], ?_, hav⟩, (v5old n ln).trans vn, ?_, hnp _⟩
      · simp only [List.map_cons, List.map_nil]; rw [v52, v51]
      · intro i hi
        simp only [List.mem_cons, List.not_mem_nil, or_false] at hi
        simp only
        rw [r5old n ln]
        rcases hi with rfl | rfl
        · exact ⟨protOf _ _ _ _ v52 (o5 _ (by omega)), by rw [r52]; omega⟩
        · exact ⟨protOf _ _ _ _ v51 (o5 _ (by omega)), by rw [r51]; omega⟩
  · rw [if_neg hze]
    obtain ⟨q, hq, hq1, hq2⟩ := hz1 (by simpa using hze)
    have hrn5 := r5old n ln
    have hrc5 := r5old c lc
    by_cases hon : K.nearOne al = true
    · rw [if_pos hon]
      have hsum := hq1 hon
      have hJ5 := common [⟨.add, [st.heap.length + 1, st.heap.length + 5]⟩]
      obtain ⟨-, -, -, -, g5, g6⟩ := six_get h2 ⟨.gemm al be tA tB ex, [a, b, c]⟩ al be a b c st.heap.length
        [⟨.add, [st.heap.length + 1, st.heap.length + 5]⟩] hlen
      have hJ6 := hJ5.adoptPlain (n := n) (x := q) (g.rank n - 1) g5 (hSf _ (by omega)) (ready_fresh hJ (by omega)) v55
        (by simp) ⟨[be, Cc], by simp only [List.map_cons, List.map_nil]; rw [v54, v5old c lc, vc], hq⟩
        (by
          intro i hi
          simp only [List.mem_cons, List.not_mem_nil, or_false] at hi
          simp only
          rcases hi with rfl | rfl
          · rw [r54]; omega
          · omega)
        (.inr rfl)
        (by
          intro i hi
          simp only [List.mem_cons, List.not_mem_nil, or_false] at hi
          simp only
          rcases hi with rfl | rfl
          · exact o5 _ (by omega)
          · exact o5c)
      refine ⟨_, ⟨.add, [st.heap.length + 1, st.heap.length + 5]⟩, hJ6, extOf _ _ ?_ ?_ o5old, by rw [g6]; rfl, ?_, by omega, ⟨[m, q], ?_, hsum⟩, ?_, ?_, hnp _⟩
      · intro i hi; simp only [setAt]; rw [if_neg (by omega)]; exact v5old i hi
      · intro i hi; simp only [setAt]; rw [if_neg (by omega)]; exact r5old i hi
      · simp only [setAt]; rw [if_neg (by omega)]; exact v56
      · simp only [List.map_cons, List.map_nil, setAt]; rw [if_neg (by omega), if_pos (by trivial), v51]
      · simp only [setAt]; rw [if_neg (by omega), v5old n ln]; exact vn
      · intro i hi
        simp only [List.mem_cons, List.not_mem_nil, or_false] at hi
        rcases hi with rfl | rfl
        · refine ⟨protOf _ _ _ m ?_ (o5 _ (by omega)), ?_⟩
          · simp only [setAt]; rw [if_neg (by omega)]; exact v51
          · simp only [setAt]; rw [if_neg (by omega), if_neg (by omega), r51, hrn5]; omega
        · refine ⟨protOf _ _ _ q ?_ (o5 _ (by omega)), ?_⟩
          · simp only [setAt]; rw [if_pos (by trivial)]
          · simp only [setAt]; rw [if_pos (by trivial), if_neg (by omega), hrn5]; omega
    · rw [if_neg hon]
      obtain ⟨am, ham, hsum⟩ := hq2 (by simpa using hon)
      have hJ5 := common [⟨.add, [st.heap.length + 3, st.heap.length + 5]⟩]
      obtain ⟨-, -, g3, -, g5, g6⟩ := six_get h2 ⟨.gemm al be tA tB ex, [a, b, c]⟩ al be a b c st.heap.length
        [⟨.add, [st.heap.length + 3, st.heap.length + 5]⟩] hlen
      have hJ6 := hJ5.adoptPlain (n := n) (x := q) (g.rank n - 1) g5 (hSf _ (by omega)) (ready_fresh hJ (by omega)) v55
        (by simp) ⟨[be, Cc], by simp only [List.map_cons, List.map_nil]; rw [v54, v5old c lc, vc], hq⟩
        (by
          intro i hi
          simp only [List.mem_cons, List.not_mem_nil, or_false] at hi
          simp only
          rcases hi with rfl | rfl
          · rw [r54]; omega
          · omega)
        (.inr rfl)
        (by
          intro i hi
          simp only [List.mem_cons, List.not_mem_nil, or_false] at hi
          simp only
          rcases hi with rfl | rfl
          · exact o5 _ (by omega)
          · exact o5c)
      have hJ7 := hJ6.adoptPlain (n := n) (x := am) (g.rank n - 1) g3 (hSf _ (by omega)) (ready_fresh hJ (by omega))
        (by simp only [setAt]; rw [if_neg (by omega)]; exact v53) (by simp)
        ⟨[al, m], by
          simp only [List.map_cons, List.map_nil, setAt]
          rw [if_neg (by omega), if_neg (by omega), v52, v51], ham⟩
        (by
          intro i hi
          simp only [List.mem_cons, List.not_mem_nil, or_false] at hi
          simp only [setAt]
          rcases hi with rfl | rfl
          · rw [if_neg (by omega), r52]; omega
          · rw [if_neg (by omega), r51]; omega)
        (.inr rfl)
        (by
          intro i hi
          simp only [List.mem_cons, List.not_mem_nil, or_false] at hi
          simp only
          rcases hi with rfl | rfl
          · exact o5 _ (by omega)
          · exact o5 _ (by omega))
      refine ⟨_, ⟨.add, [st.heap.length + 3, st.heap.length + 5]⟩, hJ7, extOf _ _ ?_ ?_ o5old, by rw [g6]; rfl, ?_, by omega, ⟨[am, q], ?_, hsum⟩, ?_, ?_, hnp _⟩
      · intro i hi; simp only [setAt]; rw [if_neg (by omega), if_neg (by omega)]; exact v5old i hi
      · intro i hi; simp only [setAt]; rw [if_neg (by omega), if_neg (by omega)]; exact r5old i hi
      · simp only [setAt]; rw [if_neg (by omega), if_neg (by omega)]; exact v56
      · simp only [List.map_cons, List.map_nil, setAt]; rw [if_pos (by trivial), if_neg (by omega), if_pos (by trivial)]
      · simp only [setAt]; rw [if_neg (by omega), if_neg (by omega), v5old n ln]; exact vn
      · intro i hi
        simp only [List.mem_cons, List.not_mem_nil, or_false] at hi
        rcases hi with rfl | rfl
        · refine ⟨protOf _ _ _ am ?_ (o5 _ (by omega)), ?_⟩
          · simp only [setAt]; rw [if_pos (by trivial)]
          · simp only [setAt]; rw [if_pos (by trivial), if_neg (by omega), if_neg (by omega), hrn5]; omega
        · refine ⟨protOf _ _ _ q ?_ (o5 _ (by omega)), ?_⟩
          · simp only [setAt]; rw [if_neg (by omega), if_pos (by trivial)]
          · simp only [setAt]; rw [if_neg (by omega), if_pos (by trivial), if_neg (by omega), if_neg (by omega), hrn5]; omega

end Verif.Compiler
