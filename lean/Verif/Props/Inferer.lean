import Verif.Runtime.Inferer
/-!
# C45, the graph part: caching and folding in the static inference

**Specification.** `meaning` answers for a node from scratch: it has no cache and no attributes, and asks the inputs
again for every consumer. An answer is a failure, `VOID`, or a prototype together with the value known statically, if
any.
-/
namespace Verif.Props
open Verif.Runtime.Infer

/-- what the inference has to say about a node -/
inductive Ans (P V : Type) where
  | fails (e : Fault)
  | void
  | ok (proto : P) (value : Option V)

/-- what it has to say about a row of nodes -/
inductive Row (P V : Type) where
  | fails (e : Fault)
  | void
  | ok (l : List (P × Option V))

variable {N P V : Type}

/-- Answers of a row from the left; the first failure or `VOID` is the answer of the row. -/
def collect (rec : N → Option (Ans P V)) : List N → Option (Row P V)
  | [] => some (.ok [])
  | n :: ns =>
    match rec n with
    | none => none
    | some (.fails e) => some (.fails e)
    | some .void => some .void
    | some (.ok p v) =>
      match collect rec ns with
      | none => none
      | some (.fails e) => some (.fails e)
      | some .void => some .void
      | some (.ok l) => some (.ok ((p, v) :: l))

/-- The value known for a node whose inputs' values are `ks`: the constant, else what the rule says, else the result of
the operator if all inputs are known. -/
def knownValue (env : Env N P V) (n : N) (stored : Option V) (ks : List (Option V)) : Option V :=
  match env.const? n with
  | some v => some v
  | none =>
    match stored with
    | some v => some v
    | none => if env.isEnd n then none else (allValues ks).bind (env.run n)

/-- The answer for a node from the answers for its inputs. -/
def conclude (env : Env N P V) (n : N) (l : List (P × Option V)) : Ans P V :=
  match env.rule n with
  | none => .void
  | some r =>
    match r (l.map Prod.fst) (l.map Prod.snd) with
    | .fails e => .fails e
    | .void => .void
    | .ok p stored => .ok p (knownValue env n stored (l.map Prod.snd))

/-- **Specification**: the answer for a node; `none` if the recursion is deeper than the bound. -/
def meaning (env : Env N P V) : Nat → N → Option (Ans P V)
  | 0, _ => none
  | d + 1, n =>
    match collect (meaning env d) (env.inputs n) with
    | none => none
    | some (.fails e) => some (.fails e)
    | some .void => some .void
    | some (.ok l) => some (conclude env n l)

/-- **Specification**: the answer for a node, whatever the depth. -/
def Answer (env : Env N P V) (n : N) (a : Ans P V) : Prop := ∃ d, meaning env d n = some a

theorem collect_mono {r r' : N → Option (Ans P V)} (h : ∀ n a, r n = some a → r' n = some a) (ns : List N)
    (x : Row P V) (hx : collect r ns = some x) : collect r' ns = some x := by
  induction ns generalizing x with
  | nil => exact hx
  | cons n ns ih =>
    simp only [collect] at hx ⊢
    cases hn : r n with
    | none => rw [hn] at hx; cases hx
    | some a =>
      rw [hn] at hx
      rw [h n a hn]
      cases a with
      | fails e => exact hx
      | void => exact hx
      | ok p v =>
        simp only at hx ⊢
        cases hc : collect r ns with
        | none => rw [hc] at hx; cases hx
        | some y => rw [ih y hc]; rw [hc] at hx; exact hx

theorem meaning_succ (env : Env N P V) (d : Nat) (n : N) (a : Ans P V) (h : meaning env d n = some a) :
    meaning env (d + 1) n = some a := by
  induction d generalizing n a with
  | zero => cases h
  | succ d ih =>
    simp only [meaning] at h
    rw [meaning]
    cases hc : collect (meaning env d) (env.inputs n) with
    | none => rw [hc] at h; cases h
    | some x =>
      rw [collect_mono (fun m b hb => ih m b hb) _ x hc]
      rw [hc] at h
      exact h

theorem meaning_mono (env : Env N P V) {d e : Nat} (hde : d ≤ e) (n : N) (a : Ans P V) (h : meaning env d n = some a) :
    meaning env e n = some a := by
  induction e with
  | zero => have : d = 0 := by omega
            subst this; exact h
  | succ e ih =>
    by_cases hd : d = e + 1
    · subst hd; exact h
    · exact meaning_succ env e n a (ih (by omega))

/-- There is at most one answer. -/
theorem answer_unique {env : Env N P V} {n : N} {a b : Ans P V} (ha : Answer env n a) (hb : Answer env n b) : a = b := by
  obtain ⟨d, hd⟩ := ha
  obtain ⟨e, he⟩ := hb
  have h1 := meaning_mono env (Nat.le_max_left d e) n a hd
  have h2 := meaning_mono env (Nat.le_max_right d e) n b he
  rw [h1] at h2
  exact Option.some.inj h2

/-- answers of a row, whatever the depth -/
def RowAnswer (env : Env N P V) (ns : List N) (x : Row P V) : Prop := ∃ d, collect (meaning env d) ns = some x

theorem answer_of_row {env : Env N P V} {n : N} {x : Row P V} (h : RowAnswer env (env.inputs n) x) :
    Answer env n (match x with | .fails e => .fails e | .void => .void | .ok l => conclude env n l) := by
  obtain ⟨d, hd⟩ := h
  refine ⟨d + 1, ?_⟩
  simp only [meaning, hd]
  cases x <;> rfl

theorem row_throws {env : Env N P V} {n : N} {ns : List N} {e : Fault} (h : Answer env n (.fails e)) :
    RowAnswer env (n :: ns) (.fails e) := by
  obtain ⟨d, hd⟩ := h
  exact ⟨d, by simp [collect, hd]⟩

theorem row_void {env : Env N P V} {n : N} {ns : List N} (h : Answer env n .void) : RowAnswer env (n :: ns) .void := by
  obtain ⟨d, hd⟩ := h
  exact ⟨d, by simp [collect, hd]⟩

theorem row_ok {env : Env N P V} {n : N} {ns : List N} {p : P} {v : Option V} {x : Row P V}
    (h : Answer env n (.ok p v)) (hx : RowAnswer env ns x) :
    RowAnswer env (n :: ns) (match x with | .fails e => .fails e | .void => .void | .ok l => .ok ((p, v) :: l)) := by
  obtain ⟨d, hd⟩ := h
  obtain ⟨e, he⟩ := hx
  refine ⟨max d e, ?_⟩
  have h1 := meaning_mono env (Nat.le_max_left d e) _ _ hd
  have h2 := collect_mono (r' := meaning env (max d e)) (fun m b hb => meaning_mono env (Nat.le_max_right d e) m b hb) ns x he
  simp only [collect, h1, h2]
  cases x <;> rfl

section
variable [DecidableEq N]

/-- **Specification**: the cache and the attributes say nothing but the answers. A graph on which nothing was inferred
is consistent with the empty cache. -/
structure Consistent (env : Env N P V) (st : St N P V) : Prop where
  ok : ∀ n p, st.cache n = some (some p) → Answer env n (.ok p (getValue env st n))
  void : ∀ n, st.cache n = some none → Answer env n .void
  unset : ∀ n, st.cache n = none → st.vals n = none

theorem consistent_fresh (env : Env N P V) : Consistent env (St.fresh : St N P V) :=
  ⟨fun _ _ h => (nomatch h), fun _ h => (nomatch h), fun _ _ => rfl⟩

/-- what the outcome of a call has to be -/
def NodeAgrees (env : Env N P V) (n : N) (st : St N P V) : Outcome P → Prop
  | .error e => Answer env n (.fails e)
  | .ok none => Answer env n .void ∧ st.cache n = some none
  | .ok (some p) => Answer env n (.ok p (getValue env st n)) ∧ st.cache n = some (some p)

/-- nothing is forgotten -/
def Extends (st st' : St N P V) : Prop := ∀ m p, st.cache m = some p → st'.cache m = some p

theorem getValue_other {env : Env N P V} {st : St N P V} {n m : N} {v : V} (h : m ≠ n) :
    getValue env (st.setVal n v) m = getValue env st m := by
  unfold getValue St.setVal upd
  cases env.const? m <;> simp [h]

theorem put_void {env : Env N P V} {st : St N P V} {n : N} (hst : Consistent env st) (h : Answer env n .void) :
    Consistent env (st.put n none) := by
  refine ⟨?_, ?_, ?_⟩
  · intro m p hm
    simp only [St.put, upd] at hm
    split at hm
    · cases hm
    · exact hst.ok m p hm
  · intro m hm
    simp only [St.put, upd] at hm
    split at hm
    · rename_i e; subst e; exact h
    · exact hst.void m hm
  · intro m hm
    simp only [St.put, upd] at hm
    split at hm
    · cases hm
    · exact hst.unset m hm

theorem put_ok {env : Env N P V} {st st' : St N P V} {n : N} {p : P} (hst : Consistent env st)
    (hc : st'.cache = st.cache) (hv : ∀ m, m ≠ n → st'.vals m = st.vals m)
    (h : Answer env n (.ok p (getValue env st' n))) :
    Consistent env (st'.put n (some p)) := by
  have gv : ∀ m, m ≠ n → getValue env st' m = getValue env st m := by
    intro m hm; unfold getValue; rw [hv m hm]
  refine ⟨?_, ?_, ?_⟩
  · intro m q hm
    simp only [St.put, upd] at hm
    split at hm
    · rename_i e; subst e
      cases hm
      exact h
    · rename_i e
      rw [hc] at hm
      have := hst.ok m q hm
      rw [← gv m e] at this
      exact this
  · intro m hm
    simp only [St.put, upd] at hm
    split at hm
    · cases hm
    · rw [hc] at hm; exact hst.void m hm
  · intro m hm
    simp only [St.put, upd] at hm
    split at hm
    · cases hm
    · rename_i e; rw [hc] at hm
      show st'.vals m = none
      rw [hv m e]; exact hst.unset m hm

theorem map_snd_zip {α β : Type} (a : List α) (b : List β) (h : a.length = b.length) : (a.zip b).map Prod.snd = b := by
  induction a generalizing b with
  | nil => cases b <;> simp_all
  | cons x a ih => cases b <;> simp_all

theorem map_fst_zip {α β : Type} (a : List α) (b : List β) (h : a.length = b.length) : (a.zip b).map Prod.fst = a := by
  induction a generalizing b with
  | nil => cases b <;> simp_all
  | cons x a ih => cases b <;> simp_all

/-- what the outcome of the loop over a row has to be -/
def RowAgrees (env : Env N P V) (ns : List N) (st' : St N P V) (acc : List P) : Except Fault (Option (List P)) → Prop
  | .error e => RowAnswer env ns (.fails e)
  | .ok none => RowAnswer env ns .void
  | .ok (some ps) => ∃ qs, ps = acc ++ qs ∧ qs.length = ns.length ∧
      RowAnswer env ns (.ok (qs.zip (ns.map (getValue env st'))))

theorem inputs_agree (env : Env N P V) (rec : N → St N P V → Option (St N P V × Outcome P))
    (ih : ∀ n st st' r, Consistent env st → rec n st = some (st', r) →
      Consistent env st' ∧ Extends st st' ∧ NodeAgrees env n st' r)
    (ns : List N) (st st' : St N P V) (acc : List P) (r : Except Fault (Option (List P))) (hst : Consistent env st)
    (h : inferInputs rec ns st acc = some (st', r)) :
    Consistent env st' ∧ Extends st st' ∧ RowAgrees env ns st' acc r := by
  induction ns generalizing st acc with
  | nil =>
    simp only [inferInputs, Option.some.injEq, Prod.mk.injEq] at h
    obtain ⟨h1, h2⟩ := h
    subst h1; subst h2
    exact ⟨hst, fun _ _ h => h, [], by simp, rfl, 0, rfl⟩
  | cons n ns ihn =>
    simp only [inferInputs] at h
    cases hr : rec n st with
    | none => rw [hr] at h; cases h
    | some w =>
      obtain ⟨st1, o⟩ := w
      rw [hr] at h
      obtain ⟨c1, e1, a1⟩ := ih n st st1 o hst hr
      match o, h, a1 with
      | .error e, h, a1 =>
        simp only [Option.some.injEq, Prod.mk.injEq] at h
        obtain ⟨h1, h2⟩ := h; subst h1; subst h2
        exact ⟨c1, e1, row_throws a1⟩
      | .ok none, h, a1 =>
        simp only [Option.some.injEq, Prod.mk.injEq] at h
        obtain ⟨h1, h2⟩ := h; subst h1; subst h2
        exact ⟨c1, e1, row_void a1.1⟩
      | .ok (some p), h, a1 =>
        simp only at h
        obtain ⟨c2, e2, a2⟩ := ihn st1 (acc ++ [p]) c1 h
        refine ⟨c2, fun m q hq => e2 m q (e1 m q hq), ?_⟩
        have hn : Answer env n (.ok p (getValue env st' n)) := c2.ok n p (e2 n _ a1.2)
        match r, a2 with
        | .error _, a2 => exact row_ok hn a2
        | .ok none, a2 => exact row_ok hn a2
        | .ok (some ps), a2 =>
          obtain ⟨qs, q1, q2, q3⟩ := a2
          refine ⟨p :: qs, by simp [q1], by simp [q2], ?_⟩
          exact row_ok hn q3

/-- what `infer_value` does to the value of the node it is called for -/
theorem getValue_inferValue (env : Env N P V) (n : N) (st : St N P V) :
    (∀ m, m ≠ n → (inferValue env n st).vals m = st.vals m) ∧ (inferValue env n st).cache = st.cache ∧
    getValue env (inferValue env n st) n =
      match knownValue env n none ((env.inputs n).map (getValue env st)) with
      | some v => some v
      | none => st.vals n := by
  unfold inferValue knownValue
  by_cases he : env.isEnd n
  · rw [if_pos he]
    refine ⟨fun _ _ => rfl, rfl, ?_⟩
    unfold getValue
    cases env.const? n <;> simp [he]
  · rw [if_neg he]
    cases ha : allValues ((env.inputs n).map (getValue env st)) with
    | none =>
      refine ⟨fun _ _ => rfl, rfl, ?_⟩
      unfold getValue
      cases env.const? n <;> simp
    | some vs =>
      simp only
      cases hr : env.run n vs with
      | none =>
        refine ⟨fun _ _ => rfl, rfl, ?_⟩
        unfold getValue
        cases env.const? n <;> simp [hr]
      | some v =>
        refine ⟨fun m hm => by simp [St.setVal, upd, hm], rfl, ?_⟩
        unfold getValue
        cases env.const? n <;> simp [hr, he, St.setVal, upd]

theorem node_agrees (env : Env N P V) (d : Nat) (n : N) (st st' : St N P V) (r : Outcome P) (hst : Consistent env st)
    (h : inferNode env d n st = some (st', r)) : Consistent env st' ∧ Extends st st' ∧ NodeAgrees env n st' r := by
  induction d generalizing n st st' r with
  | zero => cases h
  | succ d ih =>
    simp only [inferNode] at h
    cases hc : st.cache n with
    | some p =>
      rw [hc] at h
      simp only [Option.some.injEq, Prod.mk.injEq] at h
      obtain ⟨h1, h2⟩ := h; subst h1; subst h2
      refine ⟨hst, fun _ _ h => h, ?_⟩
      cases p with
      | none => exact ⟨hst.void n hc, hc⟩
      | some p => exact ⟨hst.ok n p hc, hc⟩
    | none =>
      rw [hc] at h
      cases hi : inferInputs (inferNode env d) (env.inputs n) st [] with
      | none => rw [hi] at h; cases h
      | some w =>
        obtain ⟨s1, o⟩ := w
        rw [hi] at h
        obtain ⟨c1, e1, a1⟩ := inputs_agree env (inferNode env d) ih (env.inputs n) st s1 [] o hst hi
        have ext : ∀ (s : St N P V) (p : Option P), s.cache = s1.cache → Extends st (s.put n p) := by
          intro s p hs m q hq
          simp only [St.put, upd]
          split
          · rename_i e; subst e; rw [hc] at hq; cases hq
          · rw [hs]; exact e1 m q hq
        have putc : ∀ (s : St N P V) (p : Option P), (s.put n p).cache n = some p := by
          intro s p; simp [St.put, upd]
        match o, h, a1 with
        | .error e, h, a1 =>
          simp only [Option.some.injEq, Prod.mk.injEq] at h
          obtain ⟨h1, h2⟩ := h; subst h1; subst h2
          exact ⟨c1, e1, answer_of_row a1⟩
        | .ok none, h, a1 =>
          simp only [Option.some.injEq, Prod.mk.injEq] at h
          obtain ⟨h1, h2⟩ := h; subst h1; subst h2
          exact ⟨put_void c1 (answer_of_row a1), ext s1 none rfl, answer_of_row a1, putc _ _⟩
        | .ok (some ps), h, a1 =>
          obtain ⟨qs, q1, q2, q3⟩ := a1
          have q1 : ps = qs := by simpa using q1
          subst q1
          have hans := answer_of_row q3
          simp only at hans h
          unfold conclude at hans
          have hl : ps.length = ((env.inputs n).map (getValue env s1)).length := by simpa using q2
          rw [map_fst_zip _ _ hl, map_snd_zip _ _ hl] at hans
          cases hrule : env.rule n with
          | none =>
            rw [hrule] at h hans
            simp only [Option.some.injEq, Prod.mk.injEq] at h hans
            obtain ⟨h1, h2⟩ := h; subst h1; subst h2
            exact ⟨put_void c1 hans, ext s1 none rfl, hans, putc _ _⟩
          | some ru =>
            rw [hrule] at h hans
            simp only at h hans
            cases hru : ru ps ((env.inputs n).map (getValue env s1)) with
            | fails e =>
              rw [hru] at h hans
              simp only [Option.some.injEq, Prod.mk.injEq] at h hans
              obtain ⟨h1, h2⟩ := h; subst h1; subst h2
              exact ⟨c1, e1, hans⟩
            | void =>
              rw [hru] at h hans
              simp only [Option.some.injEq, Prod.mk.injEq] at h hans
              obtain ⟨h1, h2⟩ := h; subst h1; subst h2
              exact ⟨put_void c1 hans, ext s1 none rfl, hans, putc _ _⟩
            | ok p sv =>
              rw [hru] at h hans
              cases sv with
              | some v =>
                simp only [Option.some.injEq, Prod.mk.injEq] at h hans
                obtain ⟨h1, h2⟩ := h; subst h1; subst h2
                have hv : getValue env (s1.setVal n v) n = knownValue env n (some v) ((env.inputs n).map (getValue env s1)) := by
                  unfold getValue knownValue
                  cases env.const? n <;> simp [St.setVal, upd]
                rw [← hv] at hans
                refine ⟨put_ok c1 rfl (fun m hm => by simp [St.setVal, upd, hm]) hans, ext _ _ rfl, hans, putc _ _⟩
              | none =>
                simp only [Option.some.injEq, Prod.mk.injEq] at h hans
                obtain ⟨h1, h2⟩ := h; subst h1; subst h2
                obtain ⟨v1, v2, v3⟩ := getValue_inferValue env n s1
                have hv : getValue env (inferValue env n s1) n =
                    knownValue env n none ((env.inputs n).map (getValue env s1)) := by
                  rw [v3]
                  cases hk : knownValue env n none ((env.inputs n).map (getValue env s1)) with
                  | some v => rfl
                  | none =>
                    simp only
                    rw [hk] at hans
                    cases hs1 : s1.cache n with
                    | none => exact c1.unset n hs1
                    | some q =>
                      cases q with
                      | none => have := answer_unique (c1.void n hs1) hans; cases this
                      | some q =>
                        have := answer_unique (c1.ok n q hs1) hans
                        simp only [Ans.ok.injEq] at this
                        have h2 := this.2
                        unfold getValue at h2
                        cases hcst : env.const? n with
                        | none => rw [hcst] at h2; exact h2
                        | some v => rw [hcst] at h2; cases h2
                rw [← hv] at hans
                exact ⟨put_ok c1 v2 v1 hans, ext _ _ v2, hans, putc _ _⟩

/-- **C45 (caching).** Whatever was inferred before with the same cache, and in whatever order, a query returns the
answer of the specification: failure, `VOID` or prototype; the value folded into the node is the specified one; and
the cache stays usable for further queries. -/
theorem C45_cache_transparent (env : Env N P V) (d : Nat) (n : N) (st st' : St N P V) (r : Outcome P)
    (hst : Consistent env st) (h : inferNode env d n st = some (st', r)) :
    Consistent env st' ∧
    (∀ e, r = .error e → Answer env n (.fails e)) ∧
    (r = .ok none → Answer env n .void) ∧
    (∀ p, r = .ok (some p) → Answer env n (.ok p (getValue env st' n))) := by
  obtain ⟨h1, _, h3⟩ := node_agrees env d n st st' r hst h
  refine ⟨h1, ?_, ?_, ?_⟩
  · intro e he; subst he; exact h3
  · intro he; subst he; exact h3.1
  · intro p he; subst he; exact h3.1

/-- **C45 (caching), the form with several outputs.** -/
theorem C45_cache_transparent_list (env : Env N P V) (d : Nat) (ns : List N) (st st' : St N P V)
    (r : Except Fault (List (Option P))) (hst : Consistent env st) (h : inferList env d ns st = some (st', r)) :
    Consistent env st' ∧
    (∀ e, r = .error e → ∃ n ∈ ns, Answer env n (.fails e)) ∧
    (∀ ps, r = .ok ps → ps.length = ns.length ∧
      (∀ x ∈ ns.zip ps, (x.2 = none → Answer env x.1 .void) ∧
        ∀ p, x.2 = some p → ∃ v, Answer env x.1 (.ok p v))) := by
  induction ns generalizing st r with
  | nil =>
    simp only [inferList, Option.some.injEq, Prod.mk.injEq] at h
    obtain ⟨h1, h2⟩ := h; subst h1; subst h2
    exact ⟨hst, fun _ h => (nomatch h), fun ps h => by cases h; simp⟩
  | cons n ns ih =>
    simp only [inferList] at h
    cases hn : inferNode env d n st with
    | none => rw [hn] at h; cases h
    | some w =>
      obtain ⟨s1, o⟩ := w
      rw [hn] at h
      obtain ⟨c1, a1, a2, a3⟩ := C45_cache_transparent env d n st s1 o hst hn
      cases o with
      | error e =>
        simp only [Option.some.injEq, Prod.mk.injEq] at h
        obtain ⟨h1, h2⟩ := h; subst h1; subst h2
        exact ⟨c1, fun _ h => by cases h; exact ⟨n, by simp, a1 e rfl⟩, fun _ h => (nomatch h)⟩
      | ok p =>
        simp only at h
        cases hl : inferList env d ns s1 with
        | none => rw [hl] at h; cases h
        | some w2 =>
          obtain ⟨s2, o2⟩ := w2
          rw [hl] at h
          cases o2 with
          | error e =>
            simp only [Option.some.injEq, Prod.mk.injEq] at h
            obtain ⟨h1, h2⟩ := h; subst h1; subst h2
            obtain ⟨c2, b1, b2⟩ := ih s1 _ c1 hl
            refine ⟨c2, fun _ h => ?_, fun _ h => (nomatch h)⟩
            cases h
            obtain ⟨m, hm, ha⟩ := b1 e rfl
            exact ⟨m, by simp [hm], ha⟩
          | ok ps =>
            simp only [Option.some.injEq, Prod.mk.injEq] at h
            obtain ⟨h1, h2⟩ := h; subst h1; subst h2
            obtain ⟨c2, b1, b2⟩ := ih s1 _ c1 hl
            obtain ⟨l1, l2⟩ := b2 ps rfl
            refine ⟨c2, fun _ h => (nomatch h), ?_⟩
            intro qs hqs
            cases hqs
            refine ⟨by simp [l1], ?_⟩
            intro x hx
            simp only [List.zip_cons_cons, List.mem_cons] at hx
            rcases hx with hx | hx
            · subst hx
              refine ⟨fun h => ?_, fun q h => ?_⟩
              · simp only at h; subst h; exact a2 rfl
              · simp only at h; subst h; exact ⟨_, a3 q rfl⟩
            · exact l2 x hx

theorem inferInputs_isSome (rec : N → St N P V → Option (St N P V × Outcome P)) (ns : List N)
    (h : ∀ n ∈ ns, ∀ st, (rec n st).isSome) (st : St N P V) (acc : List P) : (inferInputs rec ns st acc).isSome := by
  induction ns generalizing st acc with
  | nil => rfl
  | cons n ns ih =>
    simp only [inferInputs]
    have h1 := h n (by simp) st
    cases hr : rec n st with
    | none => rw [hr] at h1; cases h1
    | some w =>
      obtain ⟨s, o⟩ := w
      cases o with
      | error e => rfl
      | ok o =>
        cases o with
        | none => rfl
        | some p => exact ih (fun m hm => h m (by simp [hm])) s _

/-- **C45 (termination).** On a graph without cycles every query returns, whatever the cache holds. -/
theorem C45_terminates (env : Env N P V) (rank : N → Nat) (hr : ∀ n, ∀ m ∈ env.inputs n, rank m < rank n) (n : N)
    (st : St N P V) : ∃ d st' r, inferNode env d n st = some (st', r) := by
  have key : ∀ d n st, rank n < d → (inferNode env d n st).isSome := by
    intro d
    induction d with
    | zero => intro n st h; omega
    | succ d ih =>
      intro n st h
      simp only [inferNode]
      cases st.cache n with
      | some p => rfl
      | none =>
        simp only
        have h1 := inferInputs_isSome (inferNode env d) (env.inputs n)
          (fun m hm s => ih m s (by have := hr n m hm; omega)) st []
        cases hi : inferInputs (inferNode env d) (env.inputs n) st [] with
        | none => rw [hi] at h1; cases h1
        | some w =>
          obtain ⟨s, o⟩ := w
          cases o with
          | error e => rfl
          | ok o =>
            cases o with
            | none => rfl
            | some ps =>
              simp only
              cases env.rule n with
              | none => rfl
              | some ru =>
                simp only
                cases ru ps ((env.inputs n).map (getValue env s)) with
                | fails e => rfl
                | void => rfl
                | ok p sv => cases sv <;> rfl
  have := key (rank n + 1) n st (by omega)
  cases h : inferNode env (rank n + 1) n st with
  | none => rw [h] at this; cases this
  | some w => exact ⟨_, w.1, w.2, h⟩
end

/-! ## Agreement with execution -/

/-- **Specification**: `ex` gives every node the value it has in one execution of the graph: constants have their value,
operators compute theirs from their inputs' values. -/
structure Executes (env : Env N P V) (ex : N → V) : Prop where
  const : ∀ n v, env.const? n = some v → ex n = v
  op : ∀ n, env.isEnd n = false → env.run n ((env.inputs n).map ex) = some (ex n)

/-- rows of equal length related position by position -/
def Rows {α β : Type} (R : α → β → Prop) (a : List α) (b : List β) : Prop :=
  a.length = b.length ∧ ∀ (i : Nat) x y, a[i]? = some x → b[i]? = some y → R x y

/-- **Specification**: what is asked of one operator. `fits p v`: the prototype `p` describes the value `v`. If the
prototypes describe the inputs of an execution and the known input values are the executed ones, then the prototype the
rule returns describes the result, and a value it stores is the result. `cond` restricts the prototypes and known
values for which this is asked. -/
def RuleSound (env : Env N P V) (fits : P → V → Prop) (ex : N → V) (cond : N → List P → List (Option V) → Prop)
    (n : N) : Prop :=
  ∀ ru ps ks p sv, env.rule n = some ru → cond n ps ks → Rows fits ps ((env.inputs n).map ex) →
    Rows (fun k v => ∀ w, k = some w → w = v) ks ((env.inputs n).map ex) →
    ru ps ks = .ok p sv → fits p (ex n) ∧ ∀ w, sv = some w → w = ex n

theorem allValues_eq (ks : List (Option V)) (vs ws : List V)
    (h : Rows (fun k v => ∀ w, k = some w → w = v) ks vs) (ha : allValues ks = some ws) : ws = vs := by
  induction ks generalizing vs ws with
  | nil =>
    cases vs with
    | nil => simpa [allValues] using ha.symm
    | cons v vs => exact absurd h.1 (by simp)
  | cons k ks ih =>
    cases vs with
    | nil => exact absurd h.1 (by simp)
    | cons v vs =>
      have h0 := h.2 0 k v rfl rfl
      have ht : Rows (fun k v => ∀ w, k = some w → w = v) ks vs :=
        ⟨by simpa using h.1, fun i x y hx hy => h.2 (i + 1) x y (by simpa using hx) (by simpa using hy)⟩
      cases k with
      | none => cases ha
      | some k =>
        simp only [allValues, Option.map_eq_some_iff] at ha
        obtain ⟨a, ha, hw⟩ := ha
        rw [← hw, ih vs a ht ha, h0 k rfl]

/-- **C45 (composition).** If the rule of every node is sound for the operator of that node (and the declared prototypes
of parameters describe what is fed) under a condition on the prototypes inferred for its inputs, and these conditions
hold, then every inferred prototype describes the executed value of its node, and every
value folded during inference is the executed value. -/
theorem C45_sound (env : Env N P V) (fits : P → V → Prop) (ex : N → V) (hex : Executes env ex)
    (cond : N → List P → List (Option V) → Prop) (hs : ∀ n, RuleSound env fits ex cond n)
    (hcond : ∀ n l, RowAnswer env (env.inputs n) (.ok l) → cond n (l.map Prod.fst) (l.map Prod.snd))
    (n : N) (p : P) (v : Option V) (h : Answer env n (.ok p v)) :
    fits p (ex n) ∧ ∀ w, v = some w → w = ex n := by
  obtain ⟨d, h⟩ := h
  induction d generalizing n p v with
  | zero => cases h
  | succ d ih =>
    simp only [meaning] at h
    have hrow : ∀ ns l, collect (meaning env d) ns = some (.ok l) →
        Rows fits (l.map Prod.fst) (ns.map ex) ∧
        Rows (fun k v => ∀ w, k = some w → w = v) (l.map Prod.snd) (ns.map ex) := by
      intro ns
      induction ns with
      | nil =>
        intro l hl
        simp only [collect, Option.some.injEq, Row.ok.injEq] at hl
        subst hl
        exact ⟨⟨rfl, fun i x y hx => by simp at hx⟩, ⟨rfl, fun i x y hx => by simp at hx⟩⟩
      | cons m ms ihm =>
        intro l hl
        simp only [collect] at hl
        cases hm : meaning env d m with
        | none => rw [hm] at hl; cases hl
        | some a =>
          rw [hm] at hl
          cases a with
          | fails e => cases hl
          | void => cases hl
          | ok q w =>
            simp only at hl
            cases hc : collect (meaning env d) ms with
            | none => rw [hc] at hl; cases hl
            | some x =>
              rw [hc] at hl
              cases x with
              | fails e => cases hl
              | void => cases hl
              | ok l' =>
                simp only [Option.some.injEq, Row.ok.injEq] at hl
                subst hl
                obtain ⟨a1, a2⟩ := ihm l' hc
                obtain ⟨b1, b2⟩ := ih m q w hm
                refine ⟨⟨by simpa using a1.1, ?_⟩, ⟨by simpa using a2.1, ?_⟩⟩
                · intro i x y hx hy
                  cases i with
                  | zero => simp at hx hy; subst hx; subst hy; exact b1
                  | succ i => exact a1.2 i x y (by simpa using hx) (by simpa using hy)
                · intro i x y hx hy
                  cases i with
                  | zero => simp at hx hy; subst hx; subst hy; exact b2
                  | succ i => exact a2.2 i x y (by simpa using hx) (by simpa using hy)
    cases hc : collect (meaning env d) (env.inputs n) with
    | none => rw [hc] at h; cases h
    | some x =>
      rw [hc] at h
      cases x with
      | fails e => cases h
      | void => cases h
      | ok l =>
        obtain ⟨r1, r2⟩ := hrow _ _ hc
        simp only [Option.some.injEq] at h
        unfold conclude at h
        cases hru : env.rule n with
        | none => rw [hru] at h; cases h
        | some ru =>
          rw [hru] at h
          simp only at h
          cases ho : ru (l.map Prod.fst) (l.map Prod.snd) with
          | fails e => rw [ho] at h; cases h
          | void => rw [ho] at h; cases h
          | ok q sv =>
            rw [ho] at h
            simp only [Ans.ok.injEq] at h
            obtain ⟨h1, h2⟩ := h
            subst h1
            obtain ⟨f1, f2⟩ := hs n ru _ _ _ _ hru (hcond n l ⟨d, hc⟩) r1 r2 ho
            refine ⟨f1, ?_⟩
            intro w hw
            subst hw
            unfold knownValue at h2
            cases hcst : env.const? n with
            | some c =>
              rw [hcst] at h2
              simp only [Option.some.injEq] at h2
              rw [← h2, hex.const n c hcst]
            | none =>
              rw [hcst] at h2
              cases sv with
              | some u =>
                simp only [Option.some.injEq] at h2
                subst h2
                exact f2 u rfl
              | none =>
                simp only at h2
                cases he : env.isEnd n with
                | true => rw [he] at h2; cases h2
                | false =>
                  rw [he] at h2
                  simp only [Bool.false_eq_true, ↓reduceIte, Option.bind_eq_some_iff] at h2
                  obtain ⟨vs, hv1, hv2⟩ := h2
                  have := allValues_eq _ _ _ r2 hv1
                  rw [this, hex.op n he] at hv2
                  exact (Option.some.inj hv2).symm

end Verif.Props
