import Verif.Compiler.SoundStep
/-! Loop and final phase (helper lemmas for C01). -/
namespace Verif.Compiler
open Verif.Runtime Verif.Runtime.Stk
variable {N V : Type} [DecidableEq N]

/-- reachability part of the invariant -/
structure Reach (G : Graph N V) (outputs : List N) (st : CSt N V) : Prop where
  sub : ∀ n ∈ st.sim, Needs G outputs n
  par : ∀ p, G.kind p = .param → Needs G outputs p → Needs G st.sim p

theorem Needs.mono {G : Graph N V} {a b : List N} (h : ∀ n ∈ a, Needs G b n) {p : N}
    (hp : Needs G a p) : Needs G b p := by
  induction hp with
  | root h' => exact h _ h'
  | input _ h1 h2 h3 ih => exact .input ih h1 h2 h3

/-- what can be shown of a param needed from a row -/
theorem Needs.cases_root {G : Graph N V} {roots : List N} {p : N} (h : Needs G roots p) :
    p ∈ roots ∨ ∃ r ∈ roots, G.kind r ≠ .param ∧ G.kind r ≠ .const ∧ Needs G (G.inputs r) p := by
  induction h with
  | root h => exact .inl h
  | @input m n hm hp hc hi ih =>
    rcases ih with h | ⟨r, hr, h1, h2, h3⟩
    · exact .inr ⟨m, h, hp, hc, .root hi⟩
    · exact .inr ⟨r, hr, h1, h2, .input h3 hp hc hi⟩

theorem findLast_spec (p : N → Bool) (l : List N) (k j : Nat) (h : findLast p l k = some j) :
    ∃ n, j < k ∧ l[j]? = some n ∧ p n = true := by
  induction k with
  | zero => simp [findLast] at h
  | succ k ih =>
    simp only [findLast] at h
    split at h
    · rename_i n hn
      split at h
      · rename_i hp; cases h; exact ⟨n, by omega, hn, hp⟩
      · obtain ⟨n, h1, h2, h3⟩ := ih h; exact ⟨n, by omega, h2, h3⟩
    · obtain ⟨n, h1, h2, h3⟩ := ih h; exact ⟨n, by omega, h2, h3⟩

theorem findLast_none (p : N → Bool) (l : List N) (k : Nat) (h : findLast p l k = none) (j : Nat)
    (hj : j < k) (n : N) (hn : l[j]? = some n) : p n = false := by
  induction k with
  | zero => omega
  | succ k ih =>
    simp only [findLast] at h
    split at h
    · rename_i m hm
      split at h
      · cases h
      · rename_i hp
        by_cases hjk : j = k
        · subst hjk; rw [hm] at hn; cases hn; simpa using hp
        · exact ih h (by omega)
    · rename_i hm
      by_cases hjk : j = k
      · subst hjk; rw [hm] at hn; cases hn
      · exact ih h (by omega)

theorem findLast_last (p : N → Bool) (l : List N) (k j : Nat) (h : findLast p l k = some j) (i : Nat)
    (hj : j < i) (hk : i < k) (n : N) (hn : l[i]? = some n) : p n = false := by
  induction k with
  | zero => omega
  | succ k ih =>
    simp only [findLast] at h
    split at h
    · rename_i m hm
      split at h
      · cases h; omega
      · rename_i hp
        by_cases hjk : i = k
        · subst hjk; rw [hm] at hn; cases hn; simpa using hp
        · exact ih h (by omega)
    · rename_i hm
      by_cases hjk : i = k
      · subst hjk; rw [hm] at hn; cases hn
      · exact ih h (by omega)

theorem getElem?_lt {α : Type} {l : List α} {j : Nat} {n : α} (h : l[j]? = some n) :
    ∃ hj : j < l.length, l[j] = n := by
  rcases Nat.lt_or_ge j l.length with hj | hj
  · rw [List.getElem?_eq_getElem hj] at h; exact ⟨hj, Option.some.inj h⟩
  · rw [List.getElem?_eq_none hj] at h; cases h

/-- The five ways a step can continue, as a relation. -/
inductive Move (G : Graph N V) (ops : OpTable N V) (refs : N → N → Bool) (st : CSt N V) : CSt N V → Prop where
  | dup (rest n w) (hs : st.sim = rest ++ [n]) (hw : st.working n = some w) (hlt : w < rest.length) :
      Move G ops refs st (simPop G (emit st [.push w]) n)
  | const (rest n) (hs : st.sim = rest ++ [n]) (hk : G.kind n = .const)
      (hw : ∀ w, st.working n = some w → rest.length ≤ w) :
      Move G ops refs st (simPop G (emit (pushData G st n).1 [.dataSeg (pushData G st n).2]) n)
  | swapP (rest n j) (hs : st.sim = rest ++ [n]) (hk : G.kind n = .param)
      (hw : ∀ w, st.working n = some w → rest.length ≤ w)
      (hj : j < st.sim.length) (hf : findLast (fun m => decide (G.kind m ≠ .param)) st.sim st.sim.length = some j)
      (hi : rest.length < st.sim.length) :
      Move G ops refs st (simSwap (emit st [.swap rest.length j]) rest.length j st.sim[rest.length] st.sim[j])
  | swapR (rest n j) (hs : st.sim = rest ++ [n]) (hk : G.kind n ≠ .param)
      (hw : ∀ w, st.working n = some w → rest.length ≤ w)
      (hj : j < st.sim.length) (hf : findLast (fun m => refs m n) st.sim st.sim.length = some j)
      (hi : rest.length < st.sim.length) :
      Move G ops refs st (simSwap (emit st [.swap rest.length j]) rest.length j st.sim[rest.length] st.sim[j])
  | op (rest n is) (hs : st.sim = rest ++ [n]) (hc : convertOp G ops n = some is)
      (hw : ∀ w, st.working n = some w → rest.length ≤ w)
      (hf : ∀ m ∈ st.sim, refs m n = false) :
      Move G ops refs st ((G.inputs n).foldl (simPush G) (simPop G (emit st is) n))

/-- needed nodes are supported by the device: known operators, no Variable, well formed fields -/
def Supported (G : Graph N V) (ops : OpTable N V) (n : N) : Prop :=
  match G.kind n with
  | .variable => False
  | .field k => (G.inputs n).length = 1 ∧ 0 ≤ k
  | .oper => ∃ f, ops n = some f
  | _ => True

theorem step_cases {G : Graph N V} {ops : OpTable N V} {refs : N → N → Bool} {st : CSt N V} (hI : Inv G st) :
    match step G ops refs st with
    | .done => ∀ n ∈ st.sim, G.kind n = .param
    | .error => ∃ n ∈ st.sim, ¬ Supported G ops n
    | .next st' => Move G ops refs st st' := by
  unfold step
  by_cases h0 : st.unsolved = 0
  · simp only [h0, if_true]
    intro n hn
    have := hI.cnt
    rw [h0] at this
    have := List.countP_eq_zero.mp this.symm n hn
    simpa using this
  · simp only [h0, if_false]
    rcases List.eq_nil_or_concat st.sim with hnil | ⟨rest, n, hs⟩
    · exfalso; apply h0; rw [hI.cnt, hnil]; rfl
    rw [List.concat_eq_append] at hs
    have hlast : st.sim.getLast? = some n := by rw [hs]; simp
    have hlen : st.sim.length - 1 = rest.length := by rw [hs]; simp
    have hil : rest.length < st.sim.length := by rw [hs]; simp
    have hsi : st.sim[rest.length] = n := by simp [hs]
    have hmem : n ∈ st.sim := by rw [hs]; simp
    simp only [hlast, hlen]
    cases hw : (st.working n).filter (· < rest.length) with
    | some w =>
      simp only
      rw [Option.filter_eq_some_iff] at hw
      exact .dup rest n w hs hw.1 (by simpa using hw.2)
    | none =>
      simp only
      have hw' : ∀ w, st.working n = some w → rest.length ≤ w := by
        intro w h; rw [h] at hw; simp [Option.filter] at hw; omega
      have tail : G.kind n ≠ .param →
          (G.kind n ≠ .const) → (G.kind n ≠ .variable) →
          match (match findLast (fun m => refs m n) st.sim st.sim.length with
          | some j => match st.sim[j]? with
            | none => StepRes.error
            | some nj => .next (simSwap (emit st [.swap rest.length j]) rest.length j n nj)
          | none =>
            match convertOp G ops n with
            | none => .error
            | some is => .next ((G.inputs n).foldl (simPush G) (simPop G (emit st is) n))) with
          | .done => ∀ n ∈ st.sim, G.kind n = .param
          | .error => ∃ n ∈ st.sim, ¬ Supported G ops n
          | .next st' => Move G ops refs st st' := by
        intro hp hcst hvar
        cases hf : findLast (fun m => refs m n) st.sim st.sim.length with
        | some j =>
          obtain ⟨nj, hj1, hj2, hj3⟩ := findLast_spec _ _ _ _ hf
          obtain ⟨hjl, hje⟩ := getElem?_lt hj2
          simp only [hj2]
          have := Move.swapR (ops := ops) rest n j hs hp hw' hjl hf hil
          rw [hsi, hje] at this
          exact this
        | none =>
          simp only
          cases hc : convertOp G ops n with
          | none =>
            simp only
            refine ⟨n, hmem, ?_⟩
            intro hsup
            simp only [Supported] at hsup
            cases hk : G.kind n with
            | param => exact hp hk
            | const => exact hcst hk
            | «variable» => exact hvar hk
            | field k => simp [convertOp, hk] at hc; rw [hk] at hsup; simp at hsup; have := hc hsup.1; omega
            | pack => simp [convertOp, hk] at hc
            | oper =>
              rw [hk] at hsup; obtain ⟨f, hf⟩ := hsup
              simp [convertOp, hk, hf] at hc
          | some is =>
            simp only
            refine .op rest n is hs hc hw' ?_
            intro m hm
            obtain ⟨i, hi, rfl⟩ := List.getElem_of_mem hm
            exact findLast_none _ _ _ hf i hi _ (List.getElem?_eq_getElem hi)
      cases hk : G.kind n with
      | const => exact .const rest n hs hk hw'
      | «variable» => exact ⟨n, hmem, by simp [Supported, hk]⟩
      | param =>
        simp only
        cases hf : findLast (fun m => decide (G.kind m ≠ .param)) st.sim st.sim.length with
        | none =>
          exfalso; apply h0
          rw [hI.cnt]
          rw [List.countP_eq_zero]
          intro m hm
          obtain ⟨i, hi, rfl⟩ := List.getElem_of_mem hm
          have := findLast_none _ _ _ hf i hi _ (List.getElem?_eq_getElem hi)
          rw [this]; simp
        | some j =>
          obtain ⟨nj, hj1, hj2, hj3⟩ := findLast_spec _ _ _ _ hf
          obtain ⟨hjl, hje⟩ := getElem?_lt hj2
          simp only [hj2]
          have := Move.swapP (ops := ops) (refs := refs) rest n j hs hk hw' hjl hf hil
          rw [hsi, hje] at this
          exact this
      | field k => exact tail (by simp [hk]) (by simp [hk]) (by simp [hk])
      | pack => exact tail (by simp [hk]) (by simp [hk]) (by simp [hk])
      | oper => exact tail (by simp [hk]) (by simp [hk]) (by simp [hk])

theorem inv_emit {G : Graph N V} {st : CSt N V} (h : Inv G st) (is) : Inv G (emit st is) :=
  ⟨h.work, h.cnt, h.dat⟩

theorem move_inv {G : Graph N V} {ops : OpTable N V} {refs : N → N → Bool} {st st' : CSt N V}
    (hI : Inv G st) (h : Move G ops refs st st') : Inv G st' := by
  cases h with
  | dup rest n w hs hw hlt => exact inv_pop (inv_emit hI _) n rest hs
  | const rest n hs hk hw =>
    have hd := inv_data hI n
    exact inv_pop (inv_emit hd.1 _) n rest (by simp [emit, hd.2.2.1, hs])
  | swapP rest n j hs hk hw hj hf hi =>
    exact inv_swap (inv_emit hI _) _ _ _ _ (List.getElem?_eq_getElem hi) (List.getElem?_eq_getElem hj)
  | swapR rest n j hs hk hw hj hf hi =>
    exact inv_swap (inv_emit hI _) _ _ _ _ (List.getElem?_eq_getElem hi) (List.getElem?_eq_getElem hj)
  | op rest n is hs hc hw hf => exact inv_pushes (inv_pop (inv_emit hI _) n rest hs) _

theorem mem_swap {α : Type} {l : List α} {i j : Nat} (hi : i < l.length) (hj : j < l.length) {m : α} :
    m ∈ (l.set i l[j]).set j l[i] ↔ m ∈ l := by
  constructor
  · intro h
    rcases List.mem_or_eq_of_mem_set h with h | h
    · rcases List.mem_or_eq_of_mem_set h with h | h
      · exact h
      · rw [h]; exact List.getElem_mem hj
    · rw [h]; exact List.getElem_mem hi
  · intro h
    obtain ⟨k, hk, rfl⟩ := List.getElem_of_mem h
    by_cases e1 : k = i
    · subst e1
      exact List.mem_set (by simpa using hj) _
    · by_cases e2 : k = j
      · subst e2
        rw [List.set_comm _ _ (Ne.symm e1)]
        exact List.mem_set (by simpa using hi) _
      · rw [List.mem_iff_getElem]
        refine ⟨k, by simpa using hk, ?_⟩
        simp [List.getElem_set, Ne.symm e1, Ne.symm e2]

theorem move_sim {G : Graph N V} {ops : OpTable N V} {refs : N → N → Bool} {st st' : CSt N V}
    (hI : Inv G st) (h : Move G ops refs st st') :
    (∃ rest n, st.sim = rest ++ [n] ∧ n ∈ rest ∧ st'.sim = rest) ∨
    (∃ rest n, st.sim = rest ++ [n] ∧ G.kind n = .const ∧ st'.sim = rest) ∨
    (∀ m, m ∈ st'.sim ↔ m ∈ st.sim) ∨
    (∃ rest n, st.sim = rest ++ [n] ∧ G.kind n ≠ .const ∧ G.kind n ≠ .param ∧ st'.sim = rest ++ G.inputs n) := by
  cases h with
  | dup rest n w hs hw hlt =>
    left
    refine ⟨rest, n, hs, ?_, by simp [simPop, emit, hs]⟩
    have hn := hI.work n w hw
    rw [hs, List.getElem?_append_left hlt] at hn
    exact List.mem_of_getElem? hn
  | const rest n hs hk hw =>
    right; left
    refine ⟨rest, n, hs, hk, by simp [simPop, emit, (inv_data hI n).2.2.1, hs]⟩
  | swapP rest n j hs hk hw hj hf hi =>
    right; right; left
    intro m; exact mem_swap hi hj
  | swapR rest n j hs hk hw hj hf hi =>
    right; right; left
    intro m; exact mem_swap hi hj
  | op rest n is hs hc hw hf =>
    right; right; right
    refine ⟨rest, n, hs, ?_, ?_, by rw [(pushes_sim _ _ _).1]; simp [simPop, emit, hs]⟩
    · intro hk; simp [convertOp, hk] at hc
    · intro hk; simp [convertOp, hk] at hc

theorem move_reach {G : Graph N V} {ops : OpTable N V} {refs : N → N → Bool} {st st' : CSt N V}
    {outputs : List N} (hI : Inv G st) (hR : Reach G outputs st) (h : Move G ops refs st st') :
    Reach G outputs st' := by
  obtain ⟨hsub, hpar⟩ := hR
  rcases move_sim hI h with ⟨rest, n, hs, hn, hs'⟩ | ⟨rest, n, hs, hk, hs'⟩ | hm | ⟨rest, n, hs, hc, hp, hs'⟩
  · refine ⟨fun m hm => hsub m (by rw [hs, ← hs']; simp [hm]), fun p hp hnp => ?_⟩
    refine (hpar p hp hnp).mono ?_
    intro m hm
    rw [hs] at hm
    rcases List.mem_append.mp hm with h | h
    · exact .root (hs' ▸ h)
    · simp at h; subst h; exact .root (hs' ▸ hn)
  · refine ⟨fun m hm => hsub m (by rw [hs, ← hs']; simp [hm]), fun p hp hnp => ?_⟩
    rcases (hpar p hp hnp).cases_root with h | ⟨r, hr, h1, h2, h3⟩
    · rw [hs] at h
      rcases List.mem_append.mp h with h | h
      · exact .root (hs' ▸ h)
      · simp at h; subst h; rw [hk] at hp; cases hp
    · rw [hs] at hr
      rcases List.mem_append.mp hr with h | h
      · refine h3.mono fun m hm => .input (.root (hs' ▸ h)) h1 h2 hm
      · simp at h; subst h; exact absurd hk h2
  · refine ⟨fun m h => hsub m ((hm m).mp h), fun p hp hnp => ?_⟩
    exact (hpar p hp hnp).mono fun m h => .root ((hm m).mpr h)
  · have hnN : Needs G outputs n := hsub n (by simp [hs])
    refine ⟨fun m hm => ?_, fun p hp' hnp => ?_⟩
    · rw [hs'] at hm
      rcases List.mem_append.mp hm with h | h
      · exact hsub m (by simp [hs, h])
      · exact .input hnN hp hc h
    · rcases (hpar p hp' hnp).cases_root with h | ⟨r, hr, h1, h2, h3⟩
      · rw [hs] at h
        rcases List.mem_append.mp h with h | h
        · exact .root (by simp [hs', h])
        · simp at h; subst h; exact absurd hp' hp
      · rw [hs] at hr
        rcases List.mem_append.mp hr with h | h
        · refine h3.mono fun m hm => .input (.root (by simp [hs', h])) h1 h2 hm
        · simp at h; subst h
          exact h3.mono fun m hm => .root (by simp [hs', hm])

theorem move_good {G : Graph N V} {ops : OpTable N V} {refs : N → N → Bool} {st st' : CSt N V}
    {outputs : List N} {P : PackOps V} {env : N → Option V}
    (ho : OpsOk G ops outputs) (hI : Inv G st) (hR : Reach G outputs st) (hG : Good G P env outputs st)
    (h : Move G ops refs st st') : Good G P env outputs st' := by
  cases h with
  | dup rest n w hs hw hlt => exact good_push hG hI rest n hs w hw hlt
  | const rest n hs hk hw => exact good_const hG hI rest n hs hk
  | swapP rest n j hs hk hw hj hf hi => exact good_swap hG _ _ hi hj
  | swapR rest n j hs hk hw hj hf hi => exact good_swap hG _ _ hi hj
  | op rest n is hs hc hw hf => exact good_op ho hG rest n hs (hR.sub n (by simp [hs])) is hc

theorem init_inv (G : Graph N V) (outputs : List N) : Inv G (initSt G outputs) :=
  inv_pushes ⟨by simp, by simp, by simp⟩ _

theorem init_sim (G : Graph N V) (outputs : List N) : (initSt G outputs).sim = outputs ∧
    (initSt G outputs).code = [] ∧ (initSt G outputs).data = [] := by
  have := pushes_sim G (V := V) ⟨[], fun _ => none, 0, [], fun _ => none, []⟩ outputs
  simpa [initSt] using this

theorem init_reach (G : Graph N V) (outputs : List N) : Reach G outputs (initSt G outputs) := by
  obtain ⟨h, -, -⟩ := init_sim G outputs
  exact ⟨fun n hn => .root (h ▸ hn), fun p _ hp => by rw [h]; exact hp⟩

theorem init_good (G : Graph N V) (P : PackOps V) (env : N → Option V) (outputs : List N) :
    Good G P env outputs (initSt G outputs) := by
  obtain ⟨h1, h2, h3⟩ := init_sim G outputs
  refine ⟨?_, fun h => by rw [h1]; exact h⟩
  intro ext lo bs vs hvs
  rw [h1] at hvs
  left
  refine ⟨vs, hvs, ?_⟩
  rw [h2]; rfl

theorem loop_reaches {G : Graph N V} {ops : OpTable N V} {refs : N → N → Bool} {outputs : List N}
    {fuel : Nat} {st : CSt N V} (hI : Inv G st) (hR : Reach G outputs st)
    (C : CSt N V → Prop) (hC : C st)
    (hstep : ∀ st st', Inv G st → Reach G outputs st → C st → Move G ops refs st st' → C st') :
    match loop G ops refs fuel st with
    | none => True
    | some none => ∃ n, Needs G outputs n ∧ ¬ Supported G ops n
    | some (some st') => Inv G st' ∧ Reach G outputs st' ∧ C st' ∧ ∀ n ∈ st'.sim, G.kind n = .param := by
  induction fuel generalizing st with
  | zero => simp [loop]
  | succ k ih =>
    have := step_cases (ops := ops) (refs := refs) hI
    simp only [loop]
    cases hs : step G ops refs st with
    | done => rw [hs] at this; exact ⟨hI, hR, hC, this⟩
    | error => rw [hs] at this; obtain ⟨n, hn, h⟩ := this; exact ⟨n, hR.sub n hn, h⟩
    | next st' =>
      rw [hs] at this
      exact ih (move_inv hI this) (move_reach hI hR this) (hstep _ _ hI hR hC this)

end Verif.Compiler
