import Verif.Compiler.Correct
/-! Termination of the main loop (helper lemmas for C02). -/
namespace Verif.Compiler
open Verif.Runtime Verif.Runtime.Stk
variable {N V : Type} [DecidableEq N]

theorem DependsOn.tail {G : Graph N V} {a b c : N} (h : DependsOn G a b) (h' : DependsOn G b c) :
    DependsOn G a c := by
  induction h with
  | direct h => exact .trans h h'
  | trans h _ ih => exact .trans h (ih h')

/-- every finite acyclic graph is ranked -/
theorem exists_rank {G : Graph N V} (nodes : List N) (hall : ∀ n m, m ∈ G.inputs n → m ∈ nodes)
    (hacyc : ∀ n, ¬ DependsOn G n n) : ∃ rank, Ranked G rank := by
  classical
  refine ⟨fun n => nodes.countP (fun m => decide (DependsOn G n m)), ?_⟩
  intro n m hm
  have hle : ∀ (l : List N), l.countP (fun k => decide (DependsOn G m k)) ≤
      l.countP (fun k => decide (DependsOn G n k)) := by
    intro l
    apply List.countP_mono_left
    intro k _ hk
    simp only [decide_eq_true_eq] at hk ⊢
    exact .trans hm hk
  obtain ⟨a, b, hab⟩ := List.append_of_mem (hall n m hm)
  simp only [hab, List.countP_append, List.countP_cons]
  have h1 : decide (DependsOn G m m) = false := by simpa using hacyc m
  have h2 : decide (DependsOn G n m) = true := by simpa using DependsOn.direct hm
  simp only [h1, h2, if_true]
  have := hle a
  have := hle b
  simp
  omega

theorem dep_rank {G : Graph N V} {rank : N → Nat} (hR : Ranked G rank) {a b : N} (h : DependsOn G a b) :
    rank b < rank a := by
  induction h with
  | direct h => exact hR _ _ h
  | trans h _ ih => have := hR _ _ h; omega

/-- size of the unfolding of a node -/
def weight (G : Graph N V) (rank : N → Nat) (hR : Ranked G rank) (n : N) : Nat :=
  1 + ((G.inputs n).attach.map (fun m => weight G rank hR m.1)).sum
termination_by rank n
decreasing_by exact hR _ _ m.2

theorem weight_eq (G : Graph N V) (rank : N → Nat) (hR : Ranked G rank) (n : N) :
    weight G rank hR n = 1 + ((G.inputs n).map (weight G rank hR)).sum := by
  rw [weight]
  congr 2
  exact List.attach_map_val (f := weight G rank hR)

theorem sum_swap (f : N → Nat) (l : List N) (i j : Nat) (hi : i < l.length) (hj : j < l.length) :
    (((l.set i l[j]).set j l[i]).map f).sum = (l.map f).sum := by
  have hset : ∀ (l : List Nat) (i : Nat) (a : Nat) (h : i < l.length), (l.set i a).sum + l[i] = l.sum + a := by
    intro l
    induction l with
    | nil => intro i a h; simp at h
    | cons b l ih =>
      intro i a h
      cases i with
      | zero => simp; omega
      | succ i => have := ih i a (by simpa using h); simp; omega
  rw [List.map_set, List.map_set]
  have e1 := hset (l.map f) i (f l[j]) (by simpa using hi)
  have e2 := hset ((l.map f).set i (f l[j])) j (f l[i]) (by simpa using hj)
  simp only [List.getElem_set, List.getElem_map] at e1 e2
  split at e2
  · rename_i h; subst h; omega
  · omega

/-- secondary measure: where the top of the simulator is on its way up -/
def mu2 (G : Graph N V) (rank : N → Nat) (l : List N) : Nat :=
  match l.getLast? with
  | none => 0
  | some n => if G.kind n = .param then (l.map rank).sum + 1 else (l.map rank).sum - rank n

theorem le_sum_of_mem (f : N → Nat) (l : List N) (n : N) (h : n ∈ l) : f n ≤ (l.map f).sum := by
  induction l with
  | nil => simp at h
  | cons a l ih =>
    simp at h
    rcases h with rfl | h
    · simp
    · have := ih h; simp; omega

theorem getLast_swap (l : List N) (i j : Nat) (hi : i < l.length) (hj : j < l.length)
    (htop : i + 1 = l.length) :
    ((l.set i l[j]).set j l[i]).getLast? = some l[j] := by
  rw [List.getLast?_eq_getElem?]
  simp only [List.length_set]
  have : l.length - 1 = i := by omega
  rw [this, List.getElem?_eq_getElem (by simpa using hi)]
  simp only [List.getElem_set]
  split
  · rename_i h; subst h; rfl
  · simp

theorem move_decreases {G : Graph N V} {ops : OpTable N V} {refs : N → N → Bool} {st st' : CSt N V}
    {rank : N → Nat} (hR : Ranked G rank) (hrefs : ∀ m n, refs m n = true → DependsOn G m n)
    (hpar : ∀ p, G.kind p = .param → G.inputs p = [])
    (hI : Inv G st) (h : Move G ops refs st st') :
    (st'.sim.map (weight G rank hR)).sum < (st.sim.map (weight G rank hR)).sum ∨
    ((st'.sim.map (weight G rank hR)).sum = (st.sim.map (weight G rank hR)).sum ∧
      mu2 G rank st'.sim < mu2 G rank st.sim) := by
  have wpos : ∀ n, 0 < weight G rank hR n := by intro n; rw [weight_eq]; omega
  cases h with
  | dup rest n w hs hw hlt =>
    left
    have : (simPop G (emit st [.push w]) n).sim = rest := by simp [simPop, emit, hs]
    rw [this, hs]; simp [wpos]
  | const rest n hs hk hw =>
    left
    have : (simPop G (emit (pushData G st n).1 [.dataSeg (pushData G st n).2]) n).sim = rest := by
      simp [simPop, emit, (inv_data hI n).2.2.1, hs]
    rw [this, hs]; simp [wpos]
  | op rest n is hs hc hw hf =>
    left
    have : ((G.inputs n).foldl (simPush G) (simPop G (emit st is) n)).sim = rest ++ G.inputs n := by
      rw [(pushes_sim _ _ _).1]; simp [simPop, emit, hs]
    rw [this, hs]; simp only [List.map_append, List.sum_append, List.map_cons, List.map_nil,
      List.sum_cons, List.sum_nil]
    have := weight_eq G rank hR n
    omega
  | swapP rest n j hs hk hw hj hf hi =>
    right
    obtain ⟨nj, hj1, hj2, hj3⟩ := findLast_spec _ _ _ _ hf
    obtain ⟨hjl, hje⟩ := getElem?_lt hj2
    have hsim : (simSwap (emit st [.swap rest.length j]) rest.length j st.sim[rest.length] st.sim[j]).sim =
      (st.sim.set rest.length st.sim[j]).set j st.sim[rest.length] := rfl
    rw [hsim]
    refine ⟨sum_swap _ _ _ _ hi hj, ?_⟩
    have e1 := getLast_swap st.sim rest.length j hi hj (by simp [hs])
    have e2 : st.sim.getLast? = some n := by simp [hs]
    have hk' : G.kind nj ≠ .param := by simpa using hj3
    unfold mu2
    rw [e1, e2, hje]
    simp only [hk, if_true, hk', if_false]
    have := sum_swap rank st.sim rest.length j hi hj
    rw [hje] at this
    rw [this]; omega
  | swapR rest n j hs hk hw hj hf hi =>
    right
    obtain ⟨nj, hj1, hj2, hj3⟩ := findLast_spec _ _ _ _ hf
    obtain ⟨hjl, hje⟩ := getElem?_lt hj2
    have hsim : (simSwap (emit st [.swap rest.length j]) rest.length j st.sim[rest.length] st.sim[j]).sim =
      (st.sim.set rest.length st.sim[j]).set j st.sim[rest.length] := rfl
    rw [hsim]
    refine ⟨sum_swap _ _ _ _ hi hj, ?_⟩
    have e1 := getLast_swap st.sim rest.length j hi hj (by simp [hs])
    have e2 : st.sim.getLast? = some n := by simp [hs]
    have hdep := hrefs _ _ hj3
    have hk' : G.kind nj ≠ .param := by
      intro hp
      have := hpar _ hp
      cases hdep with
      | direct h => rw [this] at h; simp at h
      | trans h _ => rw [this] at h; simp at h
    have hlt := dep_rank hR hdep
    unfold mu2
    rw [e1, e2, hje]
    simp only [hk, hk', if_false]
    have := sum_swap rank st.sim rest.length j hi hj
    rw [hje] at this
    rw [this]
    have : rank nj ≤ (st.sim.map rank).sum := le_sum_of_mem rank _ _ (hje ▸ List.getElem_mem hjl)
    omega

theorem loop_terminates {G : Graph N V} {ops : OpTable N V} {refs : N → N → Bool}
    {rank : N → Nat} (hR : Ranked G rank) (hrefs : ∀ m n, refs m n = true → DependsOn G m n)
    (hpar : ∀ p, G.kind p = .param → G.inputs p = []) :
    ∀ (a b : Nat) (st : CSt N V), Inv G st → (st.sim.map (weight G rank hR)).sum = a →
      mu2 G rank st.sim = b → ∃ fuel, loop G ops refs fuel st ≠ none := by
  intro a
  induction a using Nat.strongRecOn with
  | _ a iha =>
    intro b
    induction b using Nat.strongRecOn with
    | _ b ihb =>
      intro st hI ha hb
      have hc := step_cases (ops := ops) (refs := refs) hI
      cases hs : step G ops refs st with
      | done => exact ⟨1, by simp [loop, hs]⟩
      | error => exact ⟨1, by simp [loop, hs]⟩
      | next st' =>
        rw [hs] at hc
        have hI' := move_inv hI hc
        have : ∃ fuel, loop G ops refs fuel st' ≠ none := by
          rcases move_decreases hR hrefs hpar hI hc with h | ⟨h1, h2⟩
          · exact iha _ (ha ▸ h) _ st' hI' rfl rfl
          · exact ihb _ (hb ▸ h2) st' hI' (h1.trans ha) rfl
        obtain ⟨k, hk⟩ := this
        exact ⟨k + 1, by simp only [loop, hs]; exact hk⟩

end Verif.Compiler
