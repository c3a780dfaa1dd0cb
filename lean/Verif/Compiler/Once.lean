import Verif.Compiler.Terminate
/-! Every needed node is computed exactly once (helper lemmas for C41). -/
namespace Verif.Compiler
open Verif.Runtime Verif.Runtime.Stk
variable {N V : Type} [DecidableEq N]

/-- an instruction that computes a node (as opposed to moving tensors around) -/
def isCompute : Instr V → Bool
  | .op .. => true
  | .field .. => true
  | .pack .. => true
  | _ => false

/-- the working index of every simulator node exists and is at most every occurrence -/
def WInv (st : CSt N V) : Prop := ∀ i n, st.sim[i]? = some n → ∃ j, j ≤ i ∧ st.working n = some j

theorem winv_push {G : Graph N V} {st : CSt N V} (h : WInv st) (n : N) : WInv (simPush G st n) := by
  intro i m hi
  simp only [simPush] at hi ⊢
  have hcase : st.sim[i]? = some m ∨ (i = st.sim.length ∧ m = n) := by
    rcases Nat.lt_or_ge i st.sim.length with hlt | hge
    · left; rw [List.getElem?_append_left hlt] at hi; exact hi
    · right
      obtain ⟨hl, he⟩ := getElem?_lt hi
      simp at hl
      have : i = st.sim.length := by omega
      subst this
      simp at he; exact ⟨rfl, he.symm⟩
  have hw : ∀ m j, st.working m = some j → ∃ j', j' ≤ j ∧
      (match st.working n with
      | none => upd st.working n (some st.sim.length)
      | some w => if st.sim.length < w then upd st.working n (some st.sim.length) else st.working) m = some j' := by
    intro m j hj
    cases hwn : st.working n with
    | none =>
      have : m ≠ n := by rintro rfl; rw [hwn] at hj; cases hj
      exact ⟨j, Nat.le_refl _, by simp [upd, this, hj]⟩
    | some w =>
      simp only
      split
      · rename_i hlt
        by_cases hmn : m = n
        · subst hmn; rw [hwn] at hj; cases hj
          exact ⟨st.sim.length, by omega, by simp [upd]⟩
        · exact ⟨j, Nat.le_refl _, by simp [upd, hmn, hj]⟩
      · exact ⟨j, Nat.le_refl _, hj⟩
  rcases hcase with hc | ⟨rfl, rfl⟩
  · obtain ⟨j, hj1, hj2⟩ := h i m hc
    obtain ⟨j', h1, h2⟩ := hw m j hj2
    exact ⟨j', by omega, h2⟩
  · cases hwn : st.working m with
    | none => exact ⟨st.sim.length, Nat.le_refl _, by simp [upd]⟩
    | some w =>
      simp only
      split
      · exact ⟨st.sim.length, Nat.le_refl _, by simp [upd]⟩
      · exact ⟨w, by omega, hwn⟩

theorem winv_pushes {G : Graph N V} {st : CSt N V} (h : WInv st) (ns : List N) :
    WInv (ns.foldl (simPush G) st) := by
  induction ns generalizing st with
  | nil => exact h
  | cons n ns ih => exact ih (winv_push h n)

theorem winv_pop {G : Graph N V} {st : CSt N V} (h : WInv st) (n : N) (rest : List N)
    (hs : st.sim = rest ++ [n]) : WInv (simPop G st n) := by
  intro i m hi
  simp only [simPop, hs, List.dropLast_concat, List.length_append, List.length_singleton,
    Nat.add_sub_cancel] at hi ⊢
  obtain ⟨hl, he⟩ := getElem?_lt hi
  obtain ⟨j, hj1, hj2⟩ := h i m (by rw [hs, List.getElem?_append_left hl]; exact hi)
  refine ⟨j, hj1, ?_⟩
  split
  · rename_i hc
    have : m ≠ n := by
      rintro rfl
      rw [hj2] at hc; cases hc; omega
    simp [upd, this, hj2]
  · exact hj2

theorem winv_swap {G : Graph N V} {st : CSt N V} (hI : Inv G st) (h : WInv st) (i j : Nat)
    (hi : i < st.sim.length) (hj : j < st.sim.length) (htop : i + 1 = st.sim.length)
    (huniq : ∀ w, st.working st.sim[i] = some w → i ≤ w)
    (hlast : ∀ k (hk : k < st.sim.length), j < k → st.sim[k] ≠ st.sim[j]) :
    WInv (simSwap st i j st.sim[i] st.sim[j]) := by
  by_cases hij : i = j
  · subst hij
    have : (simSwap st i i st.sim[i] st.sim[i]) = st := by
      have hw : ∀ w : N → Option Nat, (if w st.sim[i] = some i then upd w st.sim[i] (some i) else w) = w := by
        intro w
        split
        · rename_i hc
          funext m; simp only [upd]; split
          · rename_i he; rw [he, hc]
          · rfl
        · rfl
      simp only [simSwap, hw]
      cases st; simp
    rw [this]; exact h
  have hji : j < i := by omega
  -- the top node occurs only at the top
  have hu : ∀ k (hk : k < st.sim.length), k ≠ i → st.sim[k] ≠ st.sim[i] := by
    intro k hk hne he
    obtain ⟨w, hw1, hw2⟩ := h k st.sim[i] (by rw [List.getElem?_eq_getElem hk, he])
    have := huniq w hw2
    omega
  have hne : st.sim[i] ≠ st.sim[j] := fun he => hu j hj (Ne.symm hij) he.symm
  have hwi : st.working st.sim[i] = some i := by
    obtain ⟨w, hw1, hw2⟩ := h i st.sim[i] (List.getElem?_eq_getElem hi)
    have := huniq w hw2
    rw [hw2]; congr 1; omega
  intro k m hk
  simp only [simSwap, hwi, if_true] at hk ⊢
  obtain ⟨hkl, hke⟩ := getElem?_lt hk
  simp only [List.length_set] at hkl
  have hjw : upd st.working st.sim[i] (some j) st.sim[j] = st.working st.sim[j] := by
    simp [upd, Ne.symm hne]
  rw [hjw]
  simp only [List.getElem_set] at hke
  by_cases e1 : j = k
  · simp only [e1, if_true] at hke
    subst hke
    refine ⟨j, by omega, ?_⟩
    split <;> simp [upd, hne]
  · simp only [e1, if_false] at hke
    by_cases e2 : i = k
    · simp only [e2, if_true] at hke
      subst hke
      obtain ⟨w, hw1, hw2⟩ := h j st.sim[j] (List.getElem?_eq_getElem hj)
      by_cases hc : st.working st.sim[j] = some j
      · rw [if_pos hc]; exact ⟨i, by omega, by simp [upd]⟩
      · rw [if_neg hc]; refine ⟨w, by omega, ?_⟩
        simp [upd, Ne.symm hne, hw2]
    · simp only [e2, if_false] at hke
      subst hke
      obtain ⟨w, hw1, hw2⟩ := h k st.sim[k] (List.getElem?_eq_getElem hkl)
      have hki := hu k hkl (Ne.symm e2)
      by_cases hc : st.working st.sim[j] = some j
      · rw [if_pos hc]
        have hkj : st.sim[k] ≠ st.sim[j] := by
          intro he
          rcases Nat.lt_or_ge j k with hlt | hge
          · exact hlast k hkl hlt he
          · rw [he, hc] at hw2; cases hw2; omega
        exact ⟨w, hw1, by simp [upd, hkj, hki, hw2]⟩
      · rw [if_neg hc]
        exact ⟨w, hw1, by simp [upd, hki, hw2]⟩

/-- a node computed by an instruction of its own -/
def Computed (G : Graph N V) (n : N) : Prop :=
  G.kind n ≠ .param ∧ G.kind n ≠ .const

/-- ghost history: `done` are the nodes computed by the code so far, in execution order; no node comes before one it needs -/
structure OnceD (G : Graph N V) (ops : OpTable N V) (outputs : List N) (st : CSt N V) (done : List N) : Prop where
  winv : WInv st
  nd : done.Nodup
  code : st.code.filter isCompute = done.flatMap (fun n => (convertOp G ops n).getD [])
  inn : ∀ n ∈ done, Needs G outputs n ∧ Computed G n ∧ ¬ Needs G st.sim n
  cov : ∀ n, Needs G outputs n → Computed G n → n ∈ done ∨ Needs G st.sim n
  ord : done.Pairwise fun a b => ¬ Needs G [a] b

theorem init_onceD (G : Graph N V) (ops : OpTable N V) (outputs : List N) : OnceD G ops outputs (initSt G outputs) [] := by
  obtain ⟨h1, h2, h3⟩ := init_sim G outputs
  refine ⟨?_, by simp, by simp [h2], by simp, ?_, by simp⟩
  · exact winv_pushes (by intro i n h; simp at h) outputs
  · intro n hn _; right; rw [h1]; exact hn

theorem winv_emit {st : CSt N V} (h : WInv st) (is) : WInv (emit st is) := h

theorem winv_data {G : Graph N V} {st : CSt N V} (hI : Inv G st) (h : WInv st) (n : N) :
    WInv (pushData G st n).1 := by
  have := inv_data hI n
  unfold WInv
  rw [this.2.2.1, this.2.2.2.2.1]; exact h

theorem convert_count {G : Graph N V} {ops : OpTable N V} {n : N} {is : List (Instr V)}
    (h : convertOp G ops n = some is) : is.filter isCompute = is ∧ Computed G n := by
  unfold convertOp at h
  split at h
  · rename_i hk
    split at h
    · cases h; simp [isCompute, Computed, hk]
    · cases h
  · rename_i hk; cases h; simp [isCompute, Computed, hk]
  · rename_i hk
    cases ho : ops n with
    | none => simp [ho] at h
    | some f => simp only [ho, Option.map_some, Option.some.injEq] at h; subst h; simp [isCompute, Computed, hk]
  · cases h

theorem move_onceD {G : Graph N V} {ops : OpTable N V} {refs : N → N → Bool} {st st' : CSt N V}
    {outputs : List N} (hrefs : ∀ m n, Needs G outputs m → DependsOn G m n → refs m n = true)
    (hI : Inv G st) (hR : Reach G outputs st) {done : List N} (hO : OnceD G ops outputs st done)
    (h : Move G ops refs st st') :
    ∃ pre, OnceD G ops outputs st' (pre ++ done) ∧ (pre = [] ∨ ∃ n, st.sim.getLast? = some n ∧ pre = [n]) := by
  obtain ⟨hW, hnd, hcnt, hin, hcov, hord⟩ := hO
  have same : (∀ m, m ∈ st'.sim → m ∈ st.sim) → (∀ n, Computed G n → Needs G st.sim n → Needs G st'.sim n) →
      st'.code.filter isCompute = st.code.filter isCompute → WInv st' →
      ∃ pre, OnceD G ops outputs st' (pre ++ done) ∧ (pre = [] ∨ ∃ n, st.sim.getLast? = some n ∧ pre = [n]) := by
    intro h1 h2 h3 h4
    refine ⟨[], ⟨h4, hnd, by rw [h3, hcnt]; rfl, ?_, ?_, hord⟩, .inl rfl⟩
    · intro n hn
      obtain ⟨a, b, c⟩ := hin n hn
      exact ⟨a, b, fun hh => c (hh.mono fun m hm => .root (h1 m hm))⟩
    · intro n hn hc
      rcases hcov n hn hc with h | h
      · exact .inl h
      · exact .inr (h2 n hc h)
  cases h with
  | dup rest n w hs hw hlt =>
    have hs' : (simPop G (emit st [.push w]) n).sim = rest := by simp [simPop, emit, hs]
    have hmem : n ∈ rest := by
      have hn := hI.work n w hw
      rw [hs, List.getElem?_append_left hlt] at hn
      exact List.mem_of_getElem? hn
    refine same ?_ ?_ (by simp [simPop, emit, isCompute]) (winv_pop (winv_emit hW _) n rest hs)
    · intro m hm; rw [hs'] at hm; simp [hs, hm]
    · intro m _ hm
      refine hm.mono fun k hk => .root ?_
      rw [hs']; rw [hs] at hk
      rcases List.mem_append.mp hk with hk | hk
      · exact hk
      · simp at hk; subst hk; exact hmem
  | const rest n hs hk hw =>
    have hd := inv_data hI n
    have hs' : (simPop G (emit (pushData G st n).1 [.dataSeg (pushData G st n).2]) n).sim = rest := by
      simp [simPop, emit, hd.2.2.1, hs]
    refine same ?_ ?_ (by simp [simPop, emit, isCompute, hd.2.2.2.1])
      (winv_pop (winv_emit (winv_data hI hW n) _) n rest (by simp [emit, hd.2.2.1, hs]))
    · intro m hm; rw [hs'] at hm; simp [hs, hm]
    · intro m hc hm
      rw [hs']
      rcases hm.cases_root with h | ⟨r, hr, h1, h2, h3⟩
      · rw [hs] at h
        rcases List.mem_append.mp h with h | h
        · exact .root h
        · simp at h; subst h; exact absurd hk hc.2
      · rw [hs] at hr
        rcases List.mem_append.mp hr with h | h
        · exact h3.mono fun k hk => .input (.root h) h1 h2 hk
        · simp at h; subst h; exact absurd hk h2
  | swapP rest n j hs hk hw hj hf hi =>
    have hsi : st.sim[rest.length] = n := by simp [hs]
    refine same (fun m => (mem_swap hi hj).mp) (fun m _ hm => hm.mono fun k hk => .root ((mem_swap hi hj).mpr hk))
      (by simp [simSwap, emit, isCompute]) ?_
    refine winv_swap (inv_emit hI _) (winv_emit hW _) _ _ hi hj (by simp [emit, hs]) ?_ ?_
    · intro w h; exact hw w (by rw [← hsi]; exact h)
    · intro k hk' hlt he
      have hk' : k < st.sim.length := hk'
      have h1 := findLast_last _ _ _ _ hf k hlt hk' _ (List.getElem?_eq_getElem hk')
      obtain ⟨nj, hj1, hj2, hj3⟩ := findLast_spec _ _ _ _ hf
      obtain ⟨hjl, hje⟩ := getElem?_lt hj2
      have he' : st.sim[k] = st.sim[j] := he
      rw [he', hje, hj3] at h1; cases h1
  | swapR rest n j hs hk hw hj hf hi =>
    have hsi : st.sim[rest.length] = n := by simp [hs]
    refine same (fun m => (mem_swap hi hj).mp) (fun m _ hm => hm.mono fun k hk => .root ((mem_swap hi hj).mpr hk))
      (by simp [simSwap, emit, isCompute]) ?_
    refine winv_swap (inv_emit hI _) (winv_emit hW _) _ _ hi hj (by simp [emit, hs]) ?_ ?_
    · intro w h; exact hw w (by rw [← hsi]; exact h)
    · intro k hk' hlt he
      have hk' : k < st.sim.length := hk'
      have h1 := findLast_last _ _ _ _ hf k hlt hk' _ (List.getElem?_eq_getElem hk')
      obtain ⟨nj, hj1, hj2, hj3⟩ := findLast_spec _ _ _ _ hf
      obtain ⟨hjl, hje⟩ := getElem?_lt hj2
      have he' : st.sim[k] = st.sim[j] := he
      rw [he', hje, hj3] at h1; cases h1
  | op rest n is hs hc hw hf =>
    obtain ⟨hcount, hcomp⟩ := convert_count hc
    obtain ⟨e1, e2, e3⟩ := pushes_sim G (simPop G (emit st is) n) (G.inputs n)
    have hs' : ((G.inputs n).foldl (simPush G) (simPop G (emit st is) n)).sim = rest ++ G.inputs n := by
      rw [e1]; simp [simPop, emit, hs]
    have hnsim : n ∈ st.sim := by simp [hs]
    have hnN : Needs G outputs n := hR.sub n hnsim
    -- the computed node is not needed any more
    have hnot : n ∉ rest := by
      intro hn
      obtain ⟨i, hi, hie⟩ := List.getElem_of_mem hn
      obtain ⟨w, hw1, hw2⟩ := hW i n (by rw [hs, List.getElem?_append_left hi, List.getElem?_eq_getElem hi, hie])
      have := hw w hw2
      omega
    have hdep : ∀ m ∈ st.sim, ¬ DependsOn G m n := by
      intro m hm hd
      have := hf m hm
      rw [hrefs m n (hR.sub m hm) hd] at this; cases this
    have needs_dep : ∀ (l : List N) p, Needs G l p → p ∈ l ∨ ∃ r ∈ l, DependsOn G r p := by
      intro l p hp
      induction hp with
      | root h => exact .inl h
      | @input a b _ _ _ hi ih =>
        right
        rcases ih with h | ⟨r, hr, hd⟩
        · exact ⟨a, h, .direct hi⟩
        · refine ⟨r, hr, ?_⟩
          exact hd.tail (.direct hi)
    have hself : ¬ Needs G (rest ++ G.inputs n) n := by
      intro hN
      rcases needs_dep _ _ hN with h | ⟨r, hr, hd⟩
      · rcases List.mem_append.mp h with h | h
        · exact hnot h
        · exact hdep n hnsim (.direct h)
      · rcases List.mem_append.mp hr with h | h
        · exact hdep r (by simp [hs, h]) hd
        · exact hdep n hnsim (.trans h hd)
    have hback : ∀ m, Needs G (rest ++ G.inputs n) m → Needs G st.sim m := by
      intro m hm
      refine hm.mono fun k hk => ?_
      rcases List.mem_append.mp hk with h | h
      · exact .root (by simp [hs, h])
      · exact .input (.root hnsim) hcomp.1 hcomp.2 h
    refine ⟨[n], ⟨winv_pushes (winv_pop (winv_emit hW _) n rest hs) _, ?_, ?_, ?_, ?_, ?_⟩, .inr ⟨n, by simp [hs], rfl⟩⟩
    · show (n :: done).Nodup
      rw [List.nodup_cons]
      refine ⟨fun hn => ?_, hnd⟩
      exact (hin n hn).2.2 (.root hnsim)
    · rw [e2]; simp only [simPop, emit, List.filter_append, hcount, hcnt, List.flatMap_cons, hc, Option.getD_some,
        List.singleton_append]
    · intro m hm
      rw [hs']
      simp at hm
      rcases hm with rfl | hm
      · exact ⟨hnN, hcomp, hself⟩
      · obtain ⟨a, b, c⟩ := hin m hm
        exact ⟨a, b, fun hh => c (hback m hh)⟩
    · intro m hm hcm
      rcases hcov m hm hcm with h | h
      · left; simp [h]
      · rcases h.cases_root with h | ⟨r, hr, h1, h2, h3⟩
        · rw [hs] at h
          rcases List.mem_append.mp h with h | h
          · right; rw [hs']; exact .root (by simp [h])
          · simp at h; subst h; left; simp
        · right
          rw [hs'] 
          rw [hs] at hr
          rcases List.mem_append.mp hr with h | h
          · exact h3.mono fun k hk => .input (.root (by simp [h])) h1 h2 hk
          · simp at h; subst h; exact h3.mono fun k hk => .root (by simp [hk])
    · show (n :: done).Pairwise _
      rw [List.pairwise_cons]
      refine ⟨fun m hm hN => (hin m hm).2.2 (hN.mono fun k hk => ?_), hord⟩
      simp only [List.mem_singleton] at hk
      subst hk; exact .root hnsim

theorem move_once {G : Graph N V} {ops : OpTable N V} {refs : N → N → Bool} {st st' : CSt N V}
    {outputs : List N} (hrefs : ∀ m n, Needs G outputs m → DependsOn G m n → refs m n = true)
    (hI : Inv G st) (hR : Reach G outputs st) (hO : ∃ done, OnceD G ops outputs st done)
    (h : Move G ops refs st st') : ∃ done, OnceD G ops outputs st' done := by
  obtain ⟨done, hO⟩ := hO
  obtain ⟨pre, hp, -⟩ := move_onceD hrefs hI hR hO h
  exact ⟨_, hp⟩

/-! ### the data segment -/

/-- the data segment holds the value of each constant used so far once -/
def DataOnce (G : Graph N V) (outputs : List N) (st : CSt N V) : Prop :=
  ∃ cs : List N, cs.Nodup ∧ st.data = cs.map G.value ∧ (∀ n ∈ cs, G.kind n = .const ∧ Needs G outputs n) ∧
    (∀ n, st.dataIdx n = none ↔ n ∉ cs) ∧
    ∀ n, Needs G outputs n → G.kind n = .const → n ∈ cs ∨ Needs G st.sim n

theorem pushes_data (G : Graph N V) (st : CSt N V) (ns : List N) :
    (ns.foldl (simPush G) st).dataIdx = st.dataIdx := by
  induction ns generalizing st with
  | nil => rfl
  | cons n ns ih => rw [List.foldl_cons, ih]; rfl

theorem init_dataOnce (G : Graph N V) (outputs : List N) : DataOnce G outputs (initSt G outputs) := by
  obtain ⟨h1, h2, h3⟩ := init_sim G outputs
  refine ⟨[], by simp, by simp [h3], by simp, ?_, ?_⟩
  · intro n; simp [initSt, pushes_data]
  · intro n hn _; right; rw [h1]; exact hn

theorem move_dataOnce {G : Graph N V} {ops : OpTable N V} {refs : N → N → Bool} {st st' : CSt N V}
    {outputs : List N} (hI : Inv G st) (hR : Reach G outputs st) (hO : DataOnce G outputs st)
    (h : Move G ops refs st st') : DataOnce G outputs st' := by
  obtain ⟨cs, hnd, hdat, hin, hidx, hcov⟩ := hO
  have same : st'.data = st.data → st'.dataIdx = st.dataIdx →
      (∀ n, G.kind n = .const → Needs G st.sim n → Needs G st'.sim n) → DataOnce G outputs st' := by
    intro h1 h2 h3
    refine ⟨cs, hnd, by rw [h1, hdat], hin, by rw [h2]; exact hidx, ?_⟩
    intro n hn hk
    exact (hcov n hn hk).imp id (h3 n hk)
  cases h with
  | dup rest n w hs hw hlt =>
    have hmem : n ∈ rest := by
      have hn := hI.work n w hw
      rw [hs, List.getElem?_append_left hlt] at hn
      exact List.mem_of_getElem? hn
    refine same rfl rfl ?_
    intro m _ hm
    refine hm.mono fun k hk => .root ?_
    simp only [simPop, emit, hs, List.dropLast_concat]
    rw [hs] at hk
    rcases List.mem_append.mp hk with hk | hk
    · exact hk
    · simp at hk; subst hk; exact hmem
  | const rest n hs hk hw =>
    have hnN : Needs G outputs n := hR.sub n (by simp [hs])
    have hd := inv_data hI n
    have hs' : (simPop G (emit (pushData G st n).1 [.dataSeg (pushData G st n).2]) n).sim = rest := by
      simp [simPop, emit, hd.2.2.1, hs]
    have hrest : ∀ m, Needs G st.sim m → m = n ∨ Needs G rest m := by
      intro m hm
      rcases hm.cases_root with h | ⟨r, hr, h1, h2, h3⟩
      · rw [hs] at h
        rcases List.mem_append.mp h with h | h
        · exact .inr (.root h)
        · exact .inl (by simpa using h)
      · rw [hs] at hr
        rcases List.mem_append.mp hr with h | h
        · exact .inr (h3.mono fun k hk => .input (.root h) h1 h2 hk)
        · simp at h; subst h; exact absurd hk h2
    cases hdi : st.dataIdx n with
    | some k =>
      have hncs : n ∈ cs := by
        apply Classical.byContradiction; intro h; rw [(hidx n).mpr h] at hdi; cases hdi
      have hpd : pushData G st n = (st, k) := by simp [pushData, hdi]
      refine ⟨cs, hnd, by simp [simPop, emit, hpd, hdat], hin, ?_, ?_⟩
      · intro m; simp only [simPop, emit, hpd]; exact hidx m
      · intro m hm hmk
        rw [hs']
        rcases hcov m hm hmk with h | h
        · exact .inl h
        · rcases hrest m h with rfl | h
          · exact .inl hncs
          · exact .inr h
    | none =>
      have hncs : n ∉ cs := (hidx n).mp hdi
      have hpd : pushData G st n = (⟨st.sim, st.working, st.unsolved, st.data ++ [G.value n],
          upd st.dataIdx n (some st.data.length), st.code⟩, st.data.length) := by
        simp [pushData, hdi]
      refine ⟨cs ++ [n], ?_, by simp [simPop, emit, hpd, hdat], ?_, ?_, ?_⟩
      · rw [List.nodup_append]
        refine ⟨hnd, by simp, ?_⟩
        intro a ha b hb
        simp at hb; subst hb
        rintro rfl; exact hncs ha
      · intro m hm
        rcases List.mem_append.mp hm with h | h
        · exact hin m h
        · simp at h; subst h; exact ⟨hk, hnN⟩
      · intro m
        simp only [simPop, emit, hpd, upd]
        by_cases hmn : m = n
        · simp [hmn]
        · simp [hmn, hidx m]
      · intro m hm hmk
        rw [hs']
        rcases hcov m hm hmk with h | h
        · exact .inl (by simp [h])
        · rcases hrest m h with rfl | h
          · exact .inl (by simp)
          · exact .inr h
  | swapP rest n j hs hk hw hj hf hi =>
    exact same rfl rfl (fun m _ hm => hm.mono fun k hk => .root ((mem_swap hi hj).mpr hk))
  | swapR rest n j hs hk hw hj hf hi =>
    exact same rfl rfl (fun m _ hm => hm.mono fun k hk => .root ((mem_swap hi hj).mpr hk))
  | op rest n is hs hc hw hf =>
    obtain ⟨e1, e2, e3⟩ := pushes_sim G (simPop G (emit st is) n) (G.inputs n)
    have hs' : ((G.inputs n).foldl (simPush G) (simPop G (emit st is) n)).sim = rest ++ G.inputs n := by
      rw [e1]; simp [simPop, emit, hs]
    refine same (by rw [e3]; rfl) (by rw [pushes_data]; rfl) ?_
    intro m hmk hm
    rw [hs']
    rcases hm.cases_root with h | ⟨r, hr, h1, h2, h3⟩
    · rw [hs] at h
      rcases List.mem_append.mp h with h | h
      · exact .root (by simp [h])
      · simp at h; subst h
        simp [convertOp, hmk] at hc
    · rw [hs] at hr
      rcases List.mem_append.mp hr with h | h
      · exact h3.mono fun k hk => .input (.root (by simp [h])) h1 h2 hk
      · simp at h; subst h; exact h3.mono fun k hk => .root (by simp [hk])

end Verif.Compiler
