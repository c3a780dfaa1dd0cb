import Verif.Compiler.Schedule
import Verif.Compiler.Terminate
/-! Helper lemmas for C07. -/
namespace Verif.Compiler
variable {N V : Type} [DecidableEq N]

/-- **Specification**: `n` is one of the roots or a transitive input of one. -/
def Reaches (G : Graph N V) (roots : List N) (n : N) : Prop := n ∈ roots ∨ ∃ r ∈ roots, DependsOn G r n

/-- bookkeeping -/
structure LInv (G : Graph N V) (roots : List N) (st : LSt N) : Prop where
  nodup : st.keys.Nodup
  keys : ∀ n, n ∈ st.keys ↔ ∃ d, st.depth n = some d
  reach : ∀ n ∈ st.keys, Reaches G roots n
  queue : ∀ n ∈ st.queue, n ∈ st.keys

theorem visit_inv {G : Graph N V} {roots : List N} {st : LSt N} (h : LInv G roots st) (d : Nat) (m : N)
    (hm : Reaches G roots m) : LInv G roots (visit d st m) := by
  obtain ⟨h1, h2, h3, h4⟩ := h
  unfold visit
  cases hd : st.depth m with
  | none =>
    have hnk : m ∉ st.keys := by intro hk; obtain ⟨e, he⟩ := (h2 m).mp hk; rw [hd] at he; cases he
    refine ⟨?_, ?_, ?_, ?_⟩
    · simp only
      rw [List.nodup_append]
      refine ⟨h1, by simp, ?_⟩
      intro a ha b hb; simp at hb; subst hb; rintro rfl; exact hnk ha
    · intro n
      simp only [List.mem_append, List.mem_singleton, setD]
      constructor
      · rintro (hn | rfl)
        · obtain ⟨e, he⟩ := (h2 n).mp hn
          split
          · exact ⟨_, rfl⟩
          · exact ⟨e, he⟩
        · simp
      · rintro ⟨e, he⟩
        split at he
        · right; assumption
        · left; exact (h2 n).mpr ⟨e, he⟩
    · intro n hn
      simp at hn
      rcases hn with hn | rfl
      · exact h3 n hn
      · exact hm
    · intro n hn
      simp at hn ⊢
      rcases hn with hn | rfl
      · left; exact h4 n hn
      · right; rfl
  | some e =>
    simp only
    split
    · have hk : m ∈ st.keys := (h2 m).mpr ⟨e, hd⟩
      refine ⟨h1, ?_, h3, ?_⟩
      · intro n
        simp only [setD]
        constructor
        · intro hn
          obtain ⟨e', he⟩ := (h2 n).mp hn
          split
          · exact ⟨_, rfl⟩
          · exact ⟨e', he⟩
        · rintro ⟨e', he⟩
          split at he
          · rename_i h; subst h; exact hk
          · exact (h2 n).mpr ⟨e', he⟩
      · intro n hn
        simp at hn
        rcases hn with hn | rfl
        · exact h4 n hn
        · exact hk
    · exact ⟨h1, h2, h3, h4⟩

theorem visits_inv {G : Graph N V} {roots : List N} (d : Nat) (ms : List N)
    (hm : ∀ m ∈ ms, Reaches G roots m) {st : LSt N} (h : LInv G roots st) :
    LInv G roots (ms.foldl (visit d) st) := by
  induction ms generalizing st with
  | nil => exact h
  | cons m ms ih =>
    exact ih (fun k hk => hm k (by simp [hk])) (visit_inv h d m (hm m (by simp)))

/-- one visit: depths only grow, `m` is deep enough, changed nodes are queued -/
theorem visit_mono (d : Nat) (st : LSt N) (m : N) :
    (∀ n e, st.depth n = some e → ∃ e', e ≤ e' ∧ (visit d st m).depth n = some e' ∧
      (e' = e ∨ n ∈ (visit d st m).queue)) ∧
    (∀ n e', (visit d st m).depth n = some e' → st.depth n = some e' ∨ n ∈ (visit d st m).queue) ∧
    (∃ e, d + 1 ≤ e ∧ (visit d st m).depth m = some e) ∧
    (∀ n ∈ st.queue, n ∈ (visit d st m).queue) := by
  unfold visit
  cases hd : st.depth m with
  | none =>
    refine ⟨?_, ?_, ⟨d + 1, by omega, by simp [setD]⟩, by simp +contextual⟩
    · intro n e he
      have hne : n ≠ m := by rintro rfl; rw [hd] at he; cases he
      exact ⟨e, by omega, by simp [setD, hne, he], by simp⟩
    · intro n e' he
      simp only [setD] at he
      split at he
      · rename_i h; subst h; right; simp
      · left; exact he
  | some e =>
    simp only
    split
    · rename_i hlt
      refine ⟨?_, ?_, ⟨d + 1, by omega, by simp [setD]⟩, by simp +contextual⟩
      · intro n e' he
        by_cases hne : n = m
        · subst hne; rw [hd] at he; cases he
          exact ⟨d + 1, by omega, by simp [setD], by simp⟩
        · exact ⟨e', by omega, by simp [setD, hne, he], by simp⟩
      · intro n e' he
        simp only [setD] at he
        split at he
        · rename_i h; subst h; right; simp
        · left; exact he
    · refine ⟨fun n e' he => ⟨e', by omega, he, .inl rfl⟩, fun n e' he => .inl he, ⟨e, by omega, hd⟩, fun n h => h⟩

theorem visits_mono (d : Nat) (ms : List N) (st : LSt N) :
    (∀ n e, st.depth n = some e → ∃ e', e ≤ e' ∧ (ms.foldl (visit d) st).depth n = some e' ∧
      (e' = e ∨ n ∈ (ms.foldl (visit d) st).queue)) ∧
    (∀ n e', (ms.foldl (visit d) st).depth n = some e' → st.depth n = some e' ∨
      n ∈ (ms.foldl (visit d) st).queue) ∧
    (∀ m ∈ ms, ∃ e, d + 1 ≤ e ∧ (ms.foldl (visit d) st).depth m = some e) ∧
    (∀ n ∈ st.queue, n ∈ (ms.foldl (visit d) st).queue) := by
  induction ms generalizing st with
  | nil =>
    exact ⟨fun n e he => ⟨e, by omega, he, .inl rfl⟩, fun n e' he => .inl he, by simp, fun n h => h⟩
  | cons m ms ih =>
    obtain ⟨a1, a2, a3, a4⟩ := visit_mono d st m
    obtain ⟨b1, b2, b3, b4⟩ := ih (visit d st m)
    simp only [List.foldl_cons]
    refine ⟨?_, ?_, ?_, fun n h => b4 n (a4 n h)⟩
    · intro n e he
      obtain ⟨e', h1, h2, h3⟩ := a1 n e he
      obtain ⟨e'', h4, h5, h6⟩ := b1 n e' h2
      refine ⟨e'', by omega, h5, ?_⟩
      rcases h6 with h6 | h6
      · rcases h3 with h3 | h3
        · left; omega
        · right; exact b4 n h3
      · right; exact h6
    · intro n e' he
      rcases b2 n e' he with h | h
      · rcases a2 n e' h with h | h
        · exact .inl h
        · exact .inr (b4 n h)
      · exact .inr h
    · intro k hk
      simp at hk
      rcases hk with rfl | hk
      · obtain ⟨e, h1, h2⟩ := a3
        obtain ⟨e', h3, h4, -⟩ := b1 k e h2
        exact ⟨e', by omega, h4⟩
      · exact b3 k hk

/-- relaxed edges: every edge is relaxed or its source is still queued -/
def Relaxed (G : Graph N V) (st : LSt N) : Prop :=
  ∀ n d, st.depth n = some d → n ∈ st.queue ∨ ∀ m ∈ G.inputs n, ∃ e, d + 1 ≤ e ∧ st.depth m = some e

theorem walk_step_relaxed {G : Graph N V} {st : LSt N} {n : N} {q : List N} (hq : st.queue = n :: q)
    (hr : Relaxed G st) (hk : ∃ d, st.depth n = some d) :
    Relaxed G ((G.inputs n).foldl (visit ((st.depth n).getD 0)) { st with queue := q }) := by
  obtain ⟨d, hd⟩ := hk
  simp only [hd, Option.getD_some]
  obtain ⟨h1, h2, h3, h4⟩ := visits_mono d (G.inputs n) { st with queue := q }
  intro k e he
  rcases h2 k e he with h | h
  · simp only at h
    by_cases hkn : k = n
    · subst hkn
      rw [hd] at h; cases h
      exact .inr h3
    · rcases hr k e h with h' | h'
      · left; apply h4; rw [hq] at h'; simp at h'; rcases h' with h' | h'
        · exact absurd h' hkn
        · exact h'
      · right
        intro m hm
        obtain ⟨e', he', hm'⟩ := h' m hm
        obtain ⟨e'', h5, h6, -⟩ := h1 m e' hm'
        exact ⟨e'', by omega, h6⟩
  · exact .inl h

theorem init_linv (G : Graph N V) (roots : List N) :
    LInv G roots (walkInit roots) ∧ (∀ r ∈ roots, r ∈ (walkInit roots).keys) ∧
    Relaxed G (walkInit roots) ∧ (∀ n d, (walkInit roots).depth n = some d → d = 1 ∧ n ∈ roots) := by
  have gen : ∀ (rs : List N) (st : LSt N), (∀ r ∈ rs, r ∈ roots) → LInv G roots st →
      (∀ n d, st.depth n = some d → n ∈ st.queue ∧ d = 1 ∧ n ∈ roots) →
      LInv G roots (rs.foldl addRoot st) ∧
      (∀ n d, (rs.foldl addRoot st).depth n = some d → n ∈ (rs.foldl addRoot st).queue ∧ d = 1 ∧ n ∈ roots) ∧
      (∀ r ∈ rs, r ∈ (rs.foldl addRoot st).keys) ∧ (∀ k ∈ st.keys, k ∈ (rs.foldl addRoot st).keys) := by
    intro rs
    induction rs with
    | nil => intro st _ h h'; exact ⟨h, h', by simp, fun k h => h⟩
    | cons r rs ih =>
      intro st hrs h h'
      simp only [List.foldl_cons]
      cases hd : st.depth r with
      | some e =>
        have : addRoot st r = st := by simp [addRoot, hd]
        rw [this]
        obtain ⟨a, b, c, d⟩ := ih st (fun k hk => hrs k (by simp [hk])) h h'
        refine ⟨a, b, ?_, d⟩
        intro k hk; simp at hk; rcases hk with rfl | hk
        · exact d _ ((h.keys k).mpr ⟨e, hd⟩)
        · exact c k hk
      | none =>
        have hv : addRoot st r = visit 0 st r := by simp [addRoot, visit, hd]
        have hI := visit_inv h 0 r (.inl (hrs r (by simp)))
        rw [hv]
        obtain ⟨a, b, c, d⟩ := ih (visit 0 st r) (fun k hk => hrs k (by simp [hk])) hI (by
          intro n d hn
          simp only [visit, hd, setD] at hn ⊢
          split at hn
          · rename_i he; subst he; cases hn; exact ⟨by simp, rfl, hrs _ (by simp)⟩
          · obtain ⟨h1, h2, h3⟩ := h' n d hn
            exact ⟨by simp [h1], h2, h3⟩)
        refine ⟨a, b, ?_, fun k hk => d k (by simp [visit, hd, hk])⟩
        intro k hk; simp at hk; rcases hk with rfl | hk
        · exact d _ (by simp [visit, hd])
        · exact c k hk
  obtain ⟨a, b, c, -⟩ := gen roots ⟨fun _ => none, [], []⟩ (fun r h => h)
    ⟨by simp, by simp, by simp, by simp⟩ (by simp)
  exact ⟨a, c, fun n d hn => .inl (b n d hn).1, fun n d hn => (b n d hn).2⟩

theorem Reaches.input {G : Graph N V} {roots : List N} {n m : N} (h : Reaches G roots n)
    (hm : m ∈ G.inputs n) : Reaches G roots m := by
  rcases h with h | ⟨r, hr, hd⟩
  · exact .inr ⟨n, h, .direct hm⟩
  · exact .inr ⟨r, hr, hd.tail (.direct hm)⟩

theorem walk_correct {G : Graph N V} {roots : List N} (fuel : Nat) (st st' : LSt N)
    (hI : LInv G roots st) (hr : Relaxed G st) (hroots : ∀ r ∈ roots, r ∈ st.keys)
    (h : walk G fuel st = some st') :
    LInv G roots st' ∧ Relaxed G st' ∧ st'.queue = [] ∧ ∀ r ∈ roots, r ∈ st'.keys := by
  induction fuel generalizing st with
  | zero => simp [walk] at h
  | succ k ih =>
    simp only [walk] at h
    cases hq : st.queue with
    | nil => rw [hq] at h; simp at h; subst h; exact ⟨hI, hr, hq, hroots⟩
    | cons n q =>
      rw [hq] at h
      simp only at h
      have hnk : n ∈ st.keys := hI.queue n (by simp [hq])
      have hI' : LInv G roots { st with queue := q } :=
        ⟨hI.nodup, hI.keys, hI.reach, fun m hm => hI.queue m (by simp [hq, hm])⟩
      have hin : ∀ m ∈ G.inputs n, Reaches G roots m := fun m hm => (hI.reach n hnk).input hm
      have hI'' := visits_inv ((st.depth n).getD 0) (G.inputs n) hin hI'
      refine ih _ hI'' (walk_step_relaxed hq hr ((hI.keys n).mp hnk)) ?_ h
      intro r hrr
      rw [hI''.keys]
      obtain ⟨d, hd⟩ := (hI.keys r).mp (hroots r hrr)
      obtain ⟨e, -, he, -⟩ := (visits_mono ((st.depth n).getD 0) (G.inputs n) { st with queue := q }).1 r d hd
      exact ⟨e, he⟩

theorem walk_final {G : Graph N V} {roots : List N} (fuel : Nat) (st' : LSt N)
    (h : walk G fuel (walkInit roots) = some st') :
    st'.keys.Nodup ∧ (∀ n, n ∈ st'.keys ↔ Reaches G roots n) ∧
    ∀ n ∈ st'.keys, ∀ m ∈ G.inputs n, (st'.depth n).getD 0 < (st'.depth m).getD 0 ∧ m ∈ st'.keys := by
  obtain ⟨h1, h2, h3, -⟩ := init_linv G roots
  obtain ⟨a, b, c, d⟩ := walk_correct fuel _ st' h1 h3 h2 h
  have hedge : ∀ n ∈ st'.keys, ∀ m ∈ G.inputs n,
      (st'.depth n).getD 0 < (st'.depth m).getD 0 ∧ m ∈ st'.keys := by
    intro n hn m hm
    obtain ⟨e, he⟩ := (a.keys n).mp hn
    rcases b n e he with h | h
    · rw [c] at h; simp at h
    · obtain ⟨e', h1, h2⟩ := h m hm
      refine ⟨by simp [he, h2]; omega, (a.keys m).mpr ⟨e', h2⟩⟩
  refine ⟨a.nodup, fun n => ⟨a.reach n, ?_⟩, hedge⟩
  have hdep : ∀ r k, DependsOn G r k → r ∈ st'.keys → k ∈ st'.keys := by
    intro r k hd
    induction hd with
    | direct h => intro hr; exact (hedge _ hr _ h).2
    | trans h _ ih => intro hr; exact ih (hedge _ hr _ h).2
  rintro (h | ⟨r, hr, hd⟩)
  · exact d n h
  · exact hdep r n hd (d r hr)

/-! ### termination -/

/-- remaining room for depth increases -/
def room (nodes : List N) (B : Nat) (st : LSt N) : Nat := (nodes.map fun n => B + 1 - (st.depth n).getD 0).sum

theorem sum_lt (nodes : List N) (f g : N → Nat) (hle : ∀ n, f n ≤ g n) (m : N) (hm : m ∈ nodes)
    (hlt : f m < g m) : (nodes.map f).sum < (nodes.map g).sum := by
  have hle' : ∀ l : List N, (l.map f).sum ≤ (l.map g).sum := by
    intro l; induction l with
    | nil => simp
    | cons a l ih => have := hle a; simp; omega
  induction nodes with
  | nil => simp at hm
  | cons a l ih =>
    simp at hm
    rcases hm with rfl | hm
    · have := hle' l; simp; omega
    · have := ih hm; have := hle a; simp; omega

theorem visit_room (nodes : List N) (B d : Nat) (st : LSt N) (m : N) (hall : m ∈ nodes)
    (hB : d + 1 ≤ B) :
    2 * room nodes B (visit d st m) + (visit d st m).queue.length ≤ 2 * room nodes B st + st.queue.length := by
  have key : ∀ st' : LSt N, st'.depth = setD st.depth m (d + 1) → (st.depth m).getD 0 < d + 1 →
      room nodes B st' < room nodes B st := by
    intro st' h hlt
    refine sum_lt nodes _ _ ?_ m hall ?_
    · intro n; rw [h]; simp only [setD]
      split
      · rename_i he; subst he; simp; omega
      · exact Nat.le_refl _
    · rw [h]; simp only [setD, if_true, Option.getD_some]; omega
  unfold visit
  cases hd : st.depth m with
  | none =>
    have := key ⟨setD st.depth m (d + 1), st.keys ++ [m], st.queue ++ [m]⟩ rfl (by simp [hd])
    simp only [List.length_append, List.length_singleton]; omega
  | some e =>
    simp only
    split
    · rename_i hlt
      have := key ⟨setD st.depth m (d + 1), st.keys, st.queue ++ [m]⟩ rfl (by simp [hd]; omega)
      simp only [List.length_append, List.length_singleton]; omega
    · exact Nat.le_refl _

theorem visits_room (nodes : List N) (B d : Nat) (ms : List N) (hall : ∀ n ∈ ms, n ∈ nodes) (st : LSt N)
    (hB : ms ≠ [] → d + 1 ≤ B) :
    2 * room nodes B (ms.foldl (visit d) st) + (ms.foldl (visit d) st).queue.length ≤
      2 * room nodes B st + st.queue.length := by
  induction ms generalizing st with
  | nil => exact Nat.le_refl _
  | cons m ms ih =>
    have h1 := visit_room nodes B d st m (hall m (by simp)) (hB (by simp))
    have h2 := ih (fun n hn => hall n (by simp [hn])) (visit d st m) (fun _ => hB (by simp))
    simp only [List.foldl_cons]; omega

/-- depths are bounded by the rank from above -/
def Bounded (rank : N → Nat) (B : Nat) (st : LSt N) : Prop := ∀ n d, st.depth n = some d → d + rank n ≤ B

theorem visits_bounded {G : Graph N V} {rank : N → Nat} (hR : Ranked G rank) (B d : Nat) (n : N)
    (hd : d + rank n ≤ B) (ms : List N) (hms : ∀ m ∈ ms, m ∈ G.inputs n) (st : LSt N)
    (h : Bounded rank B st) : Bounded rank B (ms.foldl (visit d) st) := by
  induction ms generalizing st with
  | nil => exact h
  | cons m ms ih =>
    refine ih (fun k hk => hms k (by simp [hk])) _ ?_
    intro k e he
    have hlt := hR n m (hms m (by simp))
    unfold visit at he
    cases hm : st.depth m with
    | none =>
      simp only [hm, setD] at he
      split at he
      · rename_i h; subst h; cases he; omega
      · exact h k e he
    | some e' =>
      simp only [hm] at he
      split at he
      · simp only [setD] at he
        split at he
        · rename_i h; subst h; cases he; omega
        · exact h k e he
      · exact h k e he

theorem walk_terminates {G : Graph N V} {rank : N → Nat} (hR : Ranked G rank) (nodes : List N)
    (hall : ∀ n m, m ∈ G.inputs n → m ∈ nodes) (roots : List N) (B : Nat) :
    ∀ (a : Nat) (st : LSt N), 2 * room nodes B st + st.queue.length = a → Bounded rank B st →
      LInv G roots st → ∀ fuel, a < fuel → ∃ st', walk G fuel st = some st' := by
  intro a
  induction a using Nat.strongRecOn with
  | _ a ih =>
    intro st ha hb hI fuel hf
    cases fuel with
    | zero => omega
    | succ k =>
      simp only [walk]
      cases hq : st.queue with
      | nil => exact ⟨st, rfl⟩
      | cons n q =>
        simp only
        have hnk : n ∈ st.keys := hI.queue n (by simp [hq])
        obtain ⟨d, hdn⟩ := (hI.keys n).mp hnk
        have hd := hb n d hdn
        simp only [hdn, Option.getD_some]
        have hI' : LInv G roots { st with queue := q } :=
          ⟨hI.nodup, hI.keys, hI.reach, fun m hm => hI.queue m (by simp [hq, hm])⟩
        have hin : ∀ m ∈ G.inputs n, Reaches G roots m := fun m hm => (hI.reach n hnk).input hm
        have hI'' := visits_inv d (G.inputs n) hin hI'
        have hroom := visits_room nodes B d (G.inputs n) (fun m hm => hall n m hm) { st with queue := q } (fun hne => by
          obtain ⟨m, hm⟩ := List.exists_mem_of_ne_nil _ hne
          have hlt := hR n m hm
          omega)
        have e1 : room nodes B { st with queue := q } = room nodes B st := rfl
        rw [e1] at hroom
        simp only at hroom
        refine ih _ ?_ _ rfl (visits_bounded hR B d n hd _ (fun _ h => h) { st with queue := q } hb) hI'' k ?_
        · rw [hq] at ha; simp at ha; omega
        · rw [hq] at ha; simp at ha; omega

theorem walk_total {G : Graph N V} {rank : N → Nat} (hR : Ranked G rank) (nodes : List N)
    (hall : ∀ n m, m ∈ G.inputs n → m ∈ nodes) (roots : List N) : ∃ fuel st', walk G fuel (walkInit roots) = some st' := by
  obtain ⟨h1, -, -, h4⟩ := init_linv G roots
  obtain ⟨st', h⟩ := walk_terminates hR nodes hall roots (1 + (roots.map rank).sum) _ (walkInit roots) rfl
    (by
      intro n d hn
      obtain ⟨rfl, hnr⟩ := h4 n d hn
      have := le_sum_of_mem rank roots n hnr
      omega) h1 _ (Nat.lt_succ_self _)
  exact ⟨_, st', h⟩

/-! ### reference sets -/

/-- the inputs of a node whose entries are all present -/
theorem refInputs_spec (ms : List N) (tbl : N → Option (List N)) (acc : List N)
    (h : ∀ m ∈ ms, ∃ s, tbl m = some s) :
    (ms.foldl refInput (tbl, acc)).1 = tbl ∧
    ∀ k, k ∈ (ms.foldl refInput (tbl, acc)).2 ↔ k ∈ acc ∨ ∃ m ∈ ms, k = m ∨ k ∈ (tbl m).getD [] := by
  induction ms generalizing acc with
  | nil => simp
  | cons m ms ih =>
    obtain ⟨s, hs⟩ := h m (by simp)
    have e : refInput (tbl, acc) m = (tbl, acc ++ m :: s) := by simp [refInput, hs]
    simp only [List.foldl_cons, e]
    obtain ⟨h1, h2⟩ := ih (acc ++ m :: s) (fun k hk => h k (by simp [hk]))
    refine ⟨h1, fun k => ?_⟩
    rw [h2 k]
    simp [hs]
    constructor
    · rintro ((h | h | h) | h)
      · exact .inl h
      · exact .inr (.inl (.inl h))
      · exact .inr (.inl (.inr h))
      · exact .inr (.inr h)
    · rintro (h | (h | h) | h)
      · exact .inl (.inl h)
      · exact .inl (.inr (.inl h))
      · exact .inl (.inr (.inr h))
      · exact .inr h

theorem dependsOn_iff {G : Graph N V} {n k : N} :
    DependsOn G n k ↔ ∃ m ∈ G.inputs n, k = m ∨ DependsOn G m k := by
  constructor
  · intro h
    cases h with
    | direct h => exact ⟨k, h, .inl rfl⟩
    | trans h h' => exact ⟨_, h, .inr h'⟩
  · rintro ⟨m, hm, rfl | h⟩
    · exact .direct hm
    · exact .trans hm h

theorem buildRefs_spec (G : Graph N V) (todo : List N) (tbl : N → Option (List N)) (seen : List N)
    (hnd : (seen ++ todo).Nodup)
    (htbl : ∀ n, (n ∈ seen → ∃ s, tbl n = some s ∧ ∀ k, k ∈ s ↔ DependsOn G n k) ∧ (n ∉ seen → tbl n = none))
    (htopo : ∀ a n b, todo = a ++ n :: b → ∀ m ∈ G.inputs n, m ∈ seen ++ a) :
    ∀ n, (n ∈ seen ++ todo → ∃ s, (todo.foldl (refNode G) tbl) n = some s ∧ ∀ k, k ∈ s ↔ DependsOn G n k) ∧
      (n ∉ seen ++ todo → (todo.foldl (refNode G) tbl) n = none) := by
  induction todo generalizing tbl seen with
  | nil => simpa using htbl
  | cons x xs ih =>
    have hin : ∀ m ∈ G.inputs x, m ∈ seen := by
      intro m hm; simpa using htopo [] x xs rfl m hm
    obtain ⟨h1, h2⟩ := refInputs_spec (G.inputs x) tbl [] (fun m hm => by
      obtain ⟨s, hs, -⟩ := (htbl m).1 (hin m hm); exact ⟨s, hs⟩)
    have hx : x ∉ seen := by
      intro hx
      rw [List.nodup_append] at hnd
      exact hnd.2.2 x hx x (by simp) rfl
    have e : refNode G tbl x = fun k => if k = x then some ((G.inputs x).foldl refInput (tbl, [])).2 else tbl k := by
      simp only [refNode, h1, (htbl x).2 hx]
    simp only [List.foldl_cons]
    rw [e]
    have := ih (fun k => if k = x then some ((G.inputs x).foldl refInput (tbl, [])).2 else tbl k) (seen ++ [x])
      (by simpa using hnd) ?_ ?_
    · simpa using this
    · intro n
      by_cases hnx : n = x
      · subst hnx
        refine ⟨fun _ => ⟨_, if_pos rfl, fun k => ?_⟩, fun h => by simp at h⟩
        rw [h2 k, dependsOn_iff]
        simp only [List.not_mem_nil, false_or]
        constructor
        · rintro ⟨m, hm, h | h⟩
          · exact ⟨m, hm, .inl h⟩
          · obtain ⟨s, hs, hsk⟩ := (htbl m).1 (hin m hm)
            rw [hs] at h
            exact ⟨m, hm, .inr ((hsk k).mp h)⟩
        · rintro ⟨m, hm, h | h⟩
          · exact ⟨m, hm, .inl h⟩
          · obtain ⟨s, hs, hsk⟩ := (htbl m).1 (hin m hm)
            exact ⟨m, hm, .inr (by rw [hs]; exact (hsk k).mpr h)⟩
      · simp only [List.mem_append, List.mem_singleton, hnx, or_false, if_false]
        exact htbl n
    · intro a n b hab m hm
      have := htopo (x :: a) n b (by simp [hab]) m hm
      simpa using this

/-- a schedule lists inputs before their users -/
theorem schedule_topo {G : Graph N V} {roots : List N} {fuel : Nat} {st : LSt N}
    (h : walk G fuel (walkInit roots) = some st) {l : List (N × Nat)} (hl : IsSchedule st l) :
    (l.map Prod.fst).Nodup ∧ (∀ n, n ∈ l.map Prod.fst ↔ Reaches G roots n) ∧
    ∀ a n b, l.map Prod.fst = a ++ n :: b → ∀ m ∈ G.inputs n, m ∈ a := by
  obtain ⟨h1, h2, h3⟩ := walk_final fuel st h
  obtain ⟨hp, hs⟩ := hl
  have hp' : (l.map Prod.fst).Perm st.keys := by
    have := hp.map Prod.fst
    simpa [List.map_map, Function.comp_def] using this
  refine ⟨hp'.nodup_iff.mpr h1, fun n => (hp'.mem_iff).trans (h2 n), ?_⟩
  intro a n b hab m hm
  have hnk : n ∈ st.keys := hp'.mem_iff.mp (by rw [hab]; simp)
  obtain ⟨hlt, hmk⟩ := h3 n hnk m hm
  have hml : m ∈ l.map Prod.fst := hp'.mem_iff.mpr hmk
  rw [hab] at hml
  have hdep : ∀ p ∈ l, p.2 = (st.depth p.1).getD 0 := by
    intro p hpm
    have := hp.mem_iff.mp hpm
    simp at this
    obtain ⟨k, -, rfl⟩ := this
    rfl
  have hsort : (l.map Prod.fst).Pairwise (fun x y => (st.depth x).getD 0 ≥ (st.depth y).getD 0) := by
    rw [List.pairwise_map]
    refine hs.imp_of_mem ?_
    intro x y hx hy hxy
    rw [← hdep x hx, ← hdep y hy]; exact hxy
  rw [hab] at hsort
  rcases List.mem_append.mp hml with h | h
  · exact h
  · exfalso
    simp at h
    rcases h with rfl | h
    · omega
    · rw [List.pairwise_append] at hsort
      have := (List.pairwise_cons.mp hsort.2.1).1 m h
      omega

end Verif.Compiler
