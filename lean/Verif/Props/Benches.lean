import Verif.Runtime.Benches
import Verif.Props.Clone
import Verif.Props.Bench
/-!
# C108: a cloned workbench answers like its original and lives on its own
-/
namespace Verif.Props.Benches
open Verif.Runtime Verif.Runtime.Clone Verif.Runtime.Benches
variable {α V : Type}

section
variable (P : PackOps V) (adj : Adjust V) (nil : V) (nameOf : PMap α → String)

/-! ## specification -/

/-- give the inputs from slot `k` on -/
def feed (w : W α V) (i : Nat) : Nat → List V → Option (W α V)
  | _, [] => some w
  | k, a :: as => match step P adj nil nameOf w (.inSlot i k a) with
    | none => none
    | some (w, _) => feed w i (k + 1) as

/-- what a user gets who gives all the inputs and runs: undefined, an exception, or the outputs -/
inductive Answer (V : Type) where
  | undefined
  | exception
  | outputs (l : List V)
  deriving DecidableEq

/-- ask workbench `i` -/
def ask (w : W α V) (i : Nat) (args : List V) : Answer V :=
  match feed P adj nil nameOf w i 0 args with
  | none => .undefined
  | some w => match step P adj nil nameOf w (.run i) with
    | none => .undefined
    | some (_, false) => .exception
    | some (w, true) => match w.bs[i]? with
      | none => .undefined
      | some b => .outputs b.outs

/-- the program of workbench `i` has depth-checked code and operators that keep to their frame (C01, C03) -/
def Sound (w : W α V) (i : Nat) : Prop := ∀ b p, w.bs[i]? = some b → w.program b = some p → Checked (p.den w.w.heap)

/-- the states that calls lead to, programs being sound when they are run -/
inductive Reach : W α V → Prop where
  | start : Reach start
  | call {w w' a f} : Reach w → (∀ i, a = .run i → Sound w i) → step P adj nil nameOf w a = some (w', f) → Reach w'

/-- the call is directed at workbench `j`, or changes a program to which it points -/
def Concerns (w : W α V) (j : Nat) : Do α V → Prop
  | .prog a => ∃ k b, changes a = some k ∧ w.bs[j]? = some b ∧ b.prog = some k
  | .new _ => False
  | .setup i _ => i = j
  | .inSlot i _ _ => i = j
  | .inName i _ _ => i = j
  | .run i => i = j
  | .setThreads i _ => i = j
  | .setParam i _ _ _ => ∃ k b c, w.bs[i]? = some b ∧ w.bs[j]? = some c ∧ b.prog = some k ∧ c.prog = some k
  | .bindFilter i _ _ => ∃ k b c, w.bs[i]? = some b ∧ w.bs[j]? = some c ∧ b.prog = some k ∧ c.prog = some k
  | .clone _ => False

/-! ## proofs -/

theorem desk_prog (w : W α V) (b : Bn V) (p : Program V) : (p.desk w.w.heap fun _ => []).prog = p.den w.w.heap := rfl

/-- what a run of a workbench gives -/
def runOf (w : W α V) (b : Bn V) (args : List V) : Answer V :=
  match w.program b with
  | none => .exception
  | some p => match launchOffline P adj (p.den w.w.heap) args b.stack with
    | .ok _ outs => .outputs outs
    | .err _ => .exception
    | .ub => .undefined

theorem get_put {w : W α V} {i : Nat} {b c : Bn V} (h : w.bs[i]? = some b) : (w.put i c).bs[i]? = some c := by
  unfold W.put
  have : i < w.bs.length := (List.getElem?_eq_some_iff.mp h).1
  simp [List.getElem?_set_self, this]

theorem feed_ok {i : Nat} : ∀ (args : List V) (k : Nat) (w : W α V) (b : Bn V), w.bs[i]? = some b → k + args.length = b.ins.length →
    ∃ w', feed P adj nil nameOf w i k args = some w' ∧ w'.w = w.w ∧ w'.bs[i]? = some { b with ins := b.ins.take k ++ args }
  | [], k, w, b, hb, hl => by
    refine ⟨w, rfl, rfl, ?_⟩
    rw [List.append_nil, List.take_of_length_le (by simp at hl; omega)]; exact hb
  | a :: as, k, w, b, hb, hl => by
    simp only [List.length_cons] at hl
    have hs : step P adj nil nameOf w (.inSlot i k a) = some (w.put i { b with ins := b.ins.set k a }, true) := by
      simp only [step, hb]
      have e : (w.bench b).inputSlot k a = .ok { w.bench b with inputs := b.ins.set k a } () := by
        unfold Bench.inputSlot
        rw [if_neg (show ¬ ((k : Int) < 0 ∨ ((w.bench b).inputs.length : Int) ≤ k) by
          show ¬ ((k : Int) < 0 ∨ (b.ins.length : Int) ≤ k); omega)]
        rfl
      rw [e]; rfl
    rw [feed, hs]
    obtain ⟨w', h1, h2, h3⟩ := feed_ok as (k + 1) (w.put i { b with ins := b.ins.set k a }) { b with ins := b.ins.set k a } (get_put hb) (by simp; omega)
    refine ⟨w', h1, h2, ?_⟩
    rw [h3]
    simp only
    congr 2
    rw [List.take_succ, List.take_set_of_le (Nat.le_refl k), List.getElem?_set_self (by omega)]
    simp

theorem bench_run {w : W α V} {c : Bn V} {p : Program V} (hq : w.program c = some p) :
    (w.bench c).run P adj = match launchOffline P adj (p.den w.w.heap) c.ins c.stack with
        | .ok s outs => .ok ⟨some (p.desk w.w.heap fun _ => []), c.ins, outs, fun _ => none, s⟩ ()
        | .err s => .err ⟨some (p.desk w.w.heap fun _ => []), c.ins, c.outs, fun _ => none, s⟩
        | .ub => .ub := by
  unfold Bench.run Bench.runWith W.bench
  rw [hq]
  rfl

theorem inputSlot_cases (B : Bench V) (slot : Int) (v : V) : B.inputSlot slot v = .err B ∨ ∃ l, B.inputSlot slot v = .ok { B with inputs := l } () := by
  unfold Bench.inputSlot
  split
  · exact .inl rfl
  · exact .inr ⟨_, rfl⟩

theorem inputName_cases (B : Bench V) (name : String) (v : V) : B.inputName name v = .err B ∨ ∃ l, B.inputName name v = .ok { B with inputs := l } () := by
  unfold Bench.inputName
  split
  · exact .inl rfl
  · split
    · exact .inl rfl
    · exact inputSlot_cases B _ v

theorem ask_eq {w : W α V} {i : Nat} {b : Bn V} (hb : w.bs[i]? = some b) {args : List V} (hl : args.length = b.ins.length) :
    ask P adj nil nameOf w i args = runOf P adj w b args := by
  obtain ⟨w', h1, h2, h3⟩ := feed_ok P adj nil nameOf args 0 w b hb (by omega)
  unfold ask
  rw [h1]
  rw [List.take_zero, List.nil_append] at h3
  generalize hc : ({ b with ins := args } : Bn V) = c at h3
  have c1 : c.prog = b.prog := by rw [← hc]
  have c2 : c.ins = args := by rw [← hc]
  have c3 : c.stack = b.stack := by rw [← hc]
  have hp : w'.program c = w.program b := by unfold W.program; rw [c1, h2]
  simp only [step, h3]
  unfold runOf
  cases hq : w.program b with
  | none =>
    have e : (w'.bench c).run P adj = .err (w'.bench c) := by
      unfold Bench.run Bench.runWith
      rw [show (w'.bench c).desktop = none by unfold W.bench; rw [hp, hq]; rfl]
    rw [e]; rfl
  | some p =>
    have e := bench_run P adj (w := w') (c := c) (hp.trans hq)
    rw [h2, c2, c3] at e
    rw [e]
    simp only
    cases launchOffline P adj (p.den w.w.heap) args b.stack with
    | ok s outs =>
      simp only [W.after]
      rw [get_put h3]
    | err s => rfl
    | ub => rfl

/-- what holds in every state -/
structure Inv (nameOf : PMap α → String) (w : W α V) : Prop where
  hist : ∃ as, w.w = world nameOf as
  idle : ∀ (i : Nat) (b : Bn V), w.bs[i]? = some b → b.stack = rest
  valid : ∀ (i : Nat) (b : Bn V) (k : Nat), w.bs[i]? = some b → b.prog = some k → k < w.w.progs.length

theorem act_length (w : Clone.World α V) (a : Act α V) : w.progs.length ≤ (act nameOf w a).progs.length := by
  cases a with
  | compile code ins outs data cast => simp only [act]; split <;> simp
  | clone k =>
    simp only [act]
    split
    · simp
    · split <;> simp
  | setParam k name param v => simp only [act]; split <;> simp
  | filter code ins outs data cast => simp only [act]; split <;> simp
  | bindFilter k i f =>
    simp only [act]
    split
    · simp
    · split
      · simp
      · split
        · simp
        · split
          · simp
          · split <;> simp

theorem world_snoc (as : List (Act α V)) (a : Act α V) : world nameOf (as ++ [a]) = act nameOf (world nameOf as) a := by simp [world]

theorem inv_act {w : W α V} (h : Inv nameOf w) (a : Act α V) : Inv nameOf { w with w := act nameOf w.w a } := by
  obtain ⟨⟨as, e⟩, h2, h3⟩ := h
  refine ⟨⟨as ++ [a], by rw [world_snoc, ← e]⟩, h2, fun i b k hb hk => ?_⟩
  have := h3 i b k hb hk
  have := act_length nameOf w.w a
  simp only
  omega

theorem get_set {w : W α V} {i j : Nat} {b c : Bn V} (h : (w.put i c).bs[j]? = some b) : (i = j ∧ b = c) ∨ (i ≠ j ∧ w.bs[j]? = some b) := by
  unfold W.put at h
  simp only at h
  by_cases e : i = j
  · subst e
    left
    refine ⟨rfl, ?_⟩
    rw [List.getElem?_set] at h
    simp at h
    exact h.2.symm
  · rw [List.getElem?_set_ne e] at h; exact .inr ⟨e, h⟩

theorem inv_put {w : W α V} (h : Inv nameOf w) (i : Nat) (c : Bn V) (hs : c.stack = rest) (hp : ∀ k, c.prog = some k → k < w.w.progs.length) :
    Inv nameOf (w.put i c) := by
  refine ⟨h.hist, fun j b hb => ?_, fun j b k hb hk => ?_⟩
  · rcases get_set hb with ⟨-, rfl⟩ | ⟨-, hb⟩
    · exact hs
    · exact h.idle j b hb
  · rcases get_set hb with ⟨-, rfl⟩ | ⟨-, hb⟩
    · exact hp k hk
    · exact h.valid j b k hb hk

theorem inv_add {w : W α V} (h : Inv nameOf w) (c : Bn V) (hs : c.stack = rest) (hp : ∀ k, c.prog = some k → k < w.w.progs.length) :
    Inv nameOf { w with bs := w.bs ++ [c] } := by
  have key : ∀ (j : Nat) (b : Bn V), (w.bs ++ [c])[j]? = some b → w.bs[j]? = some b ∨ b = c := by
    intro j b hb
    rw [List.getElem?_append] at hb
    split at hb
    · exact .inl hb
    · right
      rw [List.getElem?_singleton] at hb
      split at hb
      · exact (Option.some.inj hb).symm
      · cases hb
  refine ⟨h.hist, fun j b hb => ?_, fun j b k hb hk => ?_⟩
  · rcases key j b hb with hb | rfl
    · exact h.idle j b hb
    · exact hs
  · rcases key j b hb with hb | rfl
    · exact h.valid j b k hb hk
    · exact hp k hk

theorem rest_wf : (rest : Stk V).Wf := by
  simp [rest, Stk.Wf]

/-- the effect of a sound run -/
theorem run_spec {w : W α V} (h : Inv nameOf w) {i : Nat} {b : Bn V} (hb : w.bs[i]? = some b) (hs : Sound w i) :
    ∃ outs f, step P adj nil nameOf w (.run i) = some (w.put i { b with outs := outs }, f) := by
  simp only [step, hb]
  cases hq : w.program b with
  | none =>
    have e : (w.bench b).run P adj = .err (w.bench b) := by
      unfold Bench.run Bench.runWith
      rw [show (w.bench b).desktop = none by unfold W.bench; rw [hq]; rfl]
    rw [e]
    exact ⟨b.outs, false, rfl⟩
  | some p =>
    have e := h.idle i b hb
    have e2 := bench_run P adj hq
    rw [e2, e]
    rcases C04_launch_restores_stack P adj (p.den w.w.heap) (hs b p hb hq) b.ins rest rest_wf with ⟨r, hr⟩ | hr
    · rw [hr]; refine ⟨r, true, ?_⟩; simp only [W.after, ← e]
    · rw [hr]; refine ⟨b.outs, false, ?_⟩; simp only [W.after, ← e]

theorem clone_act {w : W α V} {k : Nat} {p p' : Program V} {h : List (Obj α V)} (hk : w.w.progs[k]? = some p) (hc : Clone.clone w.w.heap p = some (h, p')) :
    ({ w.w with heap := h, progs := w.w.progs ++ [p'] } : Clone.World α V) = act nameOf w.w (.clone k) := by
  simp only [act, hk, hc]

/-- every call keeps the invariant and is defined -/
theorem step_inv {w : W α V} (h : Inv nameOf w) (a : Do α V) (hs : ∀ i, a = .run i → Sound w i) :
    ∃ w' f, step P adj nil nameOf w a = some (w', f) ∧ Inv nameOf w' := by
  cases a with
  | prog a => exact ⟨_, _, rfl, inv_act nameOf h a⟩
  | new n => exact ⟨_, _, rfl, inv_add nameOf h _ rfl (by simp)⟩
  | setup i k =>
    cases hb : w.bs[i]? with
    | none => exact ⟨w, true, by simp [step, hb], h⟩
    | some b =>
      cases k with
      | none => refine ⟨_, _, by simp only [step, hb]; rfl, ?_⟩; exact inv_put nameOf h i _ (h.idle i b hb) (by simp)
      | some k =>
        cases hk : w.w.progs[k]? with
        | none => exact ⟨w, true, by simp [step, hb, hk], h⟩
        | some p =>
          refine ⟨_, _, by simp only [step, hb, hk]; rfl, ?_⟩
          refine inv_put nameOf h i _ (h.idle i b hb) ?_
          intro j hj
          simp only [Option.some.injEq] at hj
          subst hj
          exact (List.getElem?_eq_some_iff.mp hk).1
  | inSlot i slot v =>
    cases hb : w.bs[i]? with
    | none => exact ⟨w, true, by simp [step, hb], h⟩
    | some b =>
      simp only [step, hb]
      rcases inputSlot_cases (w.bench b) slot v with e | ⟨l, e⟩
      · rw [e]; refine ⟨_, _, rfl, ?_⟩; exact inv_put nameOf h i _ (h.idle i b hb) (fun k hk => h.valid i b k hb hk)
      · rw [e]; refine ⟨_, _, rfl, ?_⟩; exact inv_put nameOf h i _ (h.idle i b hb) (fun k hk => h.valid i b k hb hk)
  | inName i name v =>
    cases hb : w.bs[i]? with
    | none => exact ⟨w, true, by simp [step, hb], h⟩
    | some b =>
      simp only [step, hb]
      rcases inputName_cases (w.bench b) name v with e | ⟨l, e⟩
      · rw [e]; refine ⟨_, _, rfl, ?_⟩; exact inv_put nameOf h i _ (h.idle i b hb) (fun k hk => h.valid i b k hb hk)
      · rw [e]; refine ⟨_, _, rfl, ?_⟩; exact inv_put nameOf h i _ (h.idle i b hb) (fun k hk => h.valid i b k hb hk)
  | run i =>
    cases hb : w.bs[i]? with
    | none => exact ⟨w, true, by simp [step, hb], h⟩
    | some b =>
      obtain ⟨outs, f, e⟩ := run_spec P adj nil nameOf h hb (hs i rfl)
      refine ⟨_, f, e, ?_⟩; exact inv_put nameOf h i _ (h.idle i b hb) (fun k hk => h.valid i b k hb hk)
  | setThreads i n =>
    cases hb : w.bs[i]? with
    | none => exact ⟨w, true, by simp [step, hb], h⟩
    | some b => refine ⟨_, _, by simp only [step, hb]; rfl, ?_⟩; exact inv_put nameOf h i _ (h.idle i b hb) (fun k hk => h.valid i b k hb hk)
  | setParam i name param v =>
    cases hb : w.bs[i]? with
    | none => exact ⟨w, true, by simp [step, hb], h⟩
    | some b =>
      cases hk : b.prog with
      | none => exact ⟨w, true, by simp [step, hb, hk], h⟩
      | some k => exact ⟨_, _, by simp only [step, hb, hk]; rfl, inv_act nameOf h _⟩
  | bindFilter i slot f =>
    cases hb : w.bs[i]? with
    | none => exact ⟨w, true, by simp [step, hb], h⟩
    | some b =>
      cases hk : b.prog with
      | none => exact ⟨w, false, by simp [step, hb, hk], h⟩
      | some k => exact ⟨_, _, by simp only [step, hb, hk]; rfl, inv_act nameOf h _⟩
  | clone i =>
    cases hb : w.bs[i]? with
    | none => exact ⟨w, true, by simp [step, hb], h⟩
    | some b =>
      cases hp : w.program b with
      | none => exact ⟨_, _, by simp only [step, hb, hp]; rfl, inv_add nameOf h _ rfl (by simp)⟩
      | some p =>
        cases hc : Clone.clone w.w.heap p with
        | none => exact ⟨w, false, by simp [step, hb, hp, hc], h⟩
        | some r =>
          obtain ⟨h', p'⟩ := r
          refine ⟨_, _, by simp only [step, hb, hp, hc]; rfl, ?_⟩
          have hk : ∃ k, b.prog = some k ∧ w.w.progs[k]? = some p := by
            unfold W.program at hp
            cases e : b.prog with
            | none => rw [e] at hp; simp at hp
            | some k => rw [e] at hp; exact ⟨k, rfl, hp⟩
          obtain ⟨k, -, hk⟩ := hk
          rw [clone_act nameOf hk hc]
          have h2 := inv_act nameOf h (.clone k)
          refine inv_add nameOf h2 _ rfl ?_
          intro j hj
          simp only [Option.some.injEq] at hj
          subst hj
          simp only
          rw [← clone_act nameOf hk hc]
          simp

theorem reach_inv {w : W α V} (h : Reach P adj nil nameOf w) : Inv nameOf w := by
  induction h with
  | start => exact ⟨⟨[], rfl⟩, fun i b hb => by simp [Benches.start] at hb, fun i b k hb => by simp [Benches.start] at hb⟩
  | call _ hs e ih =>
    obtain ⟨w', f, e', hw⟩ := step_inv P adj nil nameOf ih _ hs
    rw [e] at e'
    cases e'
    exact hw

theorem program_act {w : W α V} (h : Inv nameOf w) (a : Act α V) {j : Nat} {b : Bn V} (hb : w.bs[j]? = some b) (ha : ∀ k, b.prog = some k → changes a ≠ some k) :
    (∀ args, runOf P adj { w with w := act nameOf w.w a } b args = runOf P adj w b args) := by
  intro args
  unfold runOf W.program
  cases hk : b.prog with
  | none => rfl
  | some k =>
    obtain ⟨as, e⟩ := h.hist
    have hlt := h.valid j b k hb hk
    have hp : w.w.progs[k]? = some w.w.progs[k] := List.getElem?_eq_getElem hlt
    have := C37_independent nameOf as a k w.w.progs[k] (by rw [← e]; exact hp) (ha k hk)
    rw [world_snoc, ← e] at this
    simp only [Option.bind_some, hp, this.1, this.2]

/-- the same program elsewhere -/
theorem runOf_bs (w : W α V) (bs : List (Bn V)) (b : Bn V) (args : List V) : runOf P adj { w with bs := bs } b args = runOf P adj w b args := rfl

/-- a call that does not concern workbench `j` leaves it and what it gives -/
theorem step_other {w w' : W α V} (h : Inv nameOf w) (a : Do α V) {f : Bool} (hs : step P adj nil nameOf w a = some (w', f)) {j : Nat} {b : Bn V}
    (hb : w.bs[j]? = some b) (hj : ¬ Concerns w j a) : w'.bs[j]? = some b ∧ ∀ args, runOf P adj w' b args = runOf P adj w b args := by
  have hput : ∀ (i : Nat) (c : Bn V), i ≠ j → (w.put i c).bs[j]? = some b ∧ ∀ args, runOf P adj (w.put i c) b args = runOf P adj w b args := by
    intro i c hi
    refine ⟨?_, fun args => rfl⟩
    unfold W.put
    simp only
    rw [List.getElem?_set_ne hi]; exact hb
  have hafter : ∀ (i : Nat) (c : Bn V) o, i ≠ j → w.after i c o = some (w', f) → w'.bs[j]? = some b ∧ ∀ args, runOf P adj w' b args = runOf P adj w b args := by
    intro i c o hi ho
    cases o with
    | ok x _ => simp only [W.after, Option.some.injEq, Prod.mk.injEq] at ho; rw [← ho.1]; exact hput i _ hi
    | err x => simp only [W.after, Option.some.injEq, Prod.mk.injEq] at ho; rw [← ho.1]; exact hput i _ hi
    | ub => simp [W.after] at ho
  have hsame : w' = w → w'.bs[j]? = some b ∧ ∀ args, runOf P adj w' b args = runOf P adj w b args := by
    rintro rfl; exact ⟨hb, fun _ => rfl⟩
  have hlt : j < w.bs.length := (List.getElem?_eq_some_iff.mp hb).1
  cases a with
  | prog a =>
    simp only [step, Option.some.injEq, Prod.mk.injEq] at hs
    rw [← hs.1]
    exact ⟨hb, program_act P adj nameOf h a hb fun k hk hc => hj ⟨k, b, hc, hb, hk⟩⟩
  | new n =>
    simp only [step, Option.some.injEq, Prod.mk.injEq] at hs
    rw [← hs.1]
    exact ⟨by simp only; rw [List.getElem?_append_left hlt]; exact hb, fun _ => rfl⟩
  | setup i k =>
    simp only [step] at hs
    split at hs
    · simp only [Option.some.injEq, Prod.mk.injEq] at hs; exact hsame hs.1.symm
    · split at hs
      · simp only [Option.some.injEq, Prod.mk.injEq] at hs; rw [← hs.1]; exact hput i _ hj
      · split at hs
        · simp only [Option.some.injEq, Prod.mk.injEq] at hs; exact hsame hs.1.symm
        · simp only [Option.some.injEq, Prod.mk.injEq] at hs; rw [← hs.1]; exact hput i _ hj
  | inSlot i slot v =>
    simp only [step] at hs
    split at hs
    · simp only [Option.some.injEq, Prod.mk.injEq] at hs; exact hsame hs.1.symm
    · exact hafter i _ _ hj hs
  | inName i name v =>
    simp only [step] at hs
    split at hs
    · simp only [Option.some.injEq, Prod.mk.injEq] at hs; exact hsame hs.1.symm
    · exact hafter i _ _ hj hs
  | run i =>
    simp only [step] at hs
    split at hs
    · simp only [Option.some.injEq, Prod.mk.injEq] at hs; exact hsame hs.1.symm
    · exact hafter i _ _ hj hs
  | setThreads i n =>
    simp only [step] at hs
    split at hs
    · simp only [Option.some.injEq, Prod.mk.injEq] at hs; exact hsame hs.1.symm
    · simp only [Option.some.injEq, Prod.mk.injEq] at hs; rw [← hs.1]; exact hput i _ hj
  | setParam i name param v =>
    simp only [step] at hs
    split at hs
    · simp only [Option.some.injEq, Prod.mk.injEq] at hs; exact hsame hs.1.symm
    · rename_i c hc
      split at hs
      · simp only [Option.some.injEq, Prod.mk.injEq] at hs; exact hsame hs.1.symm
      · rename_i k hk
        simp only [Option.some.injEq, Prod.mk.injEq] at hs
        rw [← hs.1]
        refine ⟨hb, program_act P adj nameOf h _ hb fun k' hk' e => hj ⟨k, c, b, hc, hb, hk, ?_⟩⟩
        simp only [changes, Option.some.injEq] at e
        rw [hk', e]
  | bindFilter i slot f =>
    simp only [step] at hs
    split at hs
    · simp only [Option.some.injEq, Prod.mk.injEq] at hs; exact hsame hs.1.symm
    · rename_i c hc
      split at hs
      · simp only [Option.some.injEq, Prod.mk.injEq] at hs; exact hsame hs.1.symm
      · rename_i k hk
        simp only [Option.some.injEq, Prod.mk.injEq] at hs
        rw [← hs.1]
        refine ⟨hb, program_act P adj nameOf h _ hb fun k' hk' e => hj ⟨k, c, b, hc, hb, hk, ?_⟩⟩
        simp only [changes, Option.some.injEq] at e
        rw [hk', e]
  | clone i =>
    simp only [step] at hs
    split at hs
    · simp only [Option.some.injEq, Prod.mk.injEq] at hs; exact hsame hs.1.symm
    · rename_i c hc
      split at hs
      · simp only [Option.some.injEq, Prod.mk.injEq] at hs
        rw [← hs.1]
        exact ⟨by simp only; rw [List.getElem?_append_left hlt]; exact hb, fun _ => rfl⟩
      · rename_i p hp
        split at hs
        · simp only [Option.some.injEq, Prod.mk.injEq] at hs; exact hsame hs.1.symm
        · rename_i h' p' hcl
          simp only [Option.some.injEq, Prod.mk.injEq] at hs
          obtain ⟨k, hk⟩ : ∃ k, w.w.progs[k]? = some p := by
            unfold W.program at hp
            cases e : c.prog with
            | none => rw [e] at hp; simp at hp
            | some k => rw [e] at hp; exact ⟨k, hp⟩
          rw [← hs.1, clone_act nameOf hk hcl]
          refine ⟨by simp only; rw [List.getElem?_append_left hlt]; exact hb, fun args => ?_⟩
          exact program_act P adj nameOf h (.clone k) hb (by simp [changes]) args

/-! ## C108 -/

/-- **C108, defined.** In every state that calls lead to, every call is defined, if the program to be run is sound. -/
theorem C108_defined {w : W α V} (h : Reach P adj nil nameOf w) (a : Do α V) (hs : ∀ i, a = .run i → Sound w i) :
    step P adj nil nameOf w a ≠ none := by
  obtain ⟨w', f, e, -⟩ := step_inv P adj nil nameOf (reach_inv P adj nil nameOf h) a hs
  rw [e]; simp

/-- **C108, clones.** In every state that calls lead to, cloning a workbench either throws and changes nothing, or makes one more workbench: with as many input and
output slots, all of them empty, as many threads, a program of its own, and the same answer to all inputs; and all workbenches that there were stay as they were,
with the same answers. -/
theorem C108_clone {w w' : W α V} (h : Reach P adj nil nameOf w) {i : Nat} {b : Bn V} (hb : w.bs[i]? = some b) {f : Bool}
    (hs : step P adj nil nameOf w (.clone i) = some (w', f)) :
    (f = false → w' = w) ∧
    (f = true → ∃ c, w'.bs = w.bs ++ [c] ∧ c.ins = List.replicate b.ins.length nil ∧ c.outs = List.replicate b.outs.length nil ∧ c.threads = b.threads ∧
      (∀ k, c.prog = some k → ∀ d ∈ w.bs, d.prog ≠ some k) ∧ (c.prog = none ↔ b.prog = none) ∧
      (∀ args, args.length = b.ins.length → ask P adj nil nameOf w' w.bs.length args = ask P adj nil nameOf w i args) ∧
      ∀ j d args, w.bs[j]? = some d → args.length = d.ins.length → ask P adj nil nameOf w' j args = ask P adj nil nameOf w j args) := by
  have hinv := reach_inv P adj nil nameOf h
  have hothers : ∀ j d args, w.bs[j]? = some d → args.length = d.ins.length → ask P adj nil nameOf w' j args = ask P adj nil nameOf w j args := by
    intro j d args hd hl
    obtain ⟨h1, h2⟩ := step_other P adj nil nameOf hinv _ hs hd (by simp [Concerns])
    rw [ask_eq P adj nil nameOf h1 hl, ask_eq P adj nil nameOf hd hl, h2]
  have hlen : ∀ c : Bn V, (w.bs ++ [c])[w.bs.length]? = some c := by intro c; simp
  simp only [step, hb] at hs
  cases hp : w.program b with
  | none =>
    rw [hp] at hs
    simp only [Option.some.injEq, Prod.mk.injEq] at hs
    obtain ⟨rfl, rfl⟩ := hs
    have hbp : b.prog = none := by
      cases hk : b.prog with
      | none => rfl
      | some k =>
        unfold W.program at hp
        rw [hk, Option.bind_some, List.getElem?_eq_getElem (hinv.valid i b k hb hk)] at hp
        cases hp
    refine ⟨by simp, fun _ => ⟨_, rfl, rfl, rfl, rfl, by simp, by simp [hbp], fun args hl => ?_, hothers⟩⟩
    rw [ask_eq P adj nil nameOf (hlen _) (by simp [hl]), ask_eq P adj nil nameOf hb hl]
    unfold runOf
    rw [hp]
    rfl
  | some p =>
    rw [hp] at hs
    simp only at hs
    cases hc : Clone.clone w.w.heap p with
    | none =>
      rw [hc] at hs
      simp only [Option.some.injEq, Prod.mk.injEq] at hs
      obtain ⟨rfl, rfl⟩ := hs
      exact ⟨fun _ => rfl, by simp⟩
    | some r =>
      obtain ⟨h', p'⟩ := r
      rw [hc] at hs
      simp only [Option.some.injEq, Prod.mk.injEq] at hs
      obtain ⟨hw, rfl⟩ := hs
      obtain ⟨k, hbk, hk⟩ : ∃ k, b.prog = some k ∧ w.w.progs[k]? = some p := by
        unfold W.program at hp
        cases e : b.prog with
        | none => rw [e] at hp; simp at hp
        | some k => rw [e] at hp; exact ⟨k, rfl, hp⟩
      obtain ⟨as, e⟩ := hinv.hist
      have heq := (C37_clone_equivalent nameOf as k p h' p' (by rw [← e]; exact hk) (by rw [← e]; exact hc)).2.1
      rw [← e] at heq
      refine ⟨by simp, fun _ => ⟨{ prog := some w.w.progs.length, ins := List.replicate b.ins.length nil, outs := List.replicate b.outs.length nil, stack := rest, threads := b.threads }, by rw [← hw], rfl, rfl, rfl, ?_, by simp [hbk], fun args hl => ?_, hothers⟩⟩
      · intro k' hk' d hd e'
        simp only [Option.some.injEq] at hk'
        obtain ⟨j, hj⟩ := List.getElem?_of_mem hd
        have := hinv.valid j d k' hj e'
        omega
      · have hl' : w'.bs[w.bs.length]? = some { prog := some w.w.progs.length, ins := List.replicate b.ins.length nil, outs := List.replicate b.outs.length nil, stack := rest, threads := b.threads } := by
          rw [← hw]; simp
        rw [ask_eq P adj nil nameOf hl' (by simp [hl]), ask_eq P adj nil nameOf hb hl]
        unfold runOf
        rw [hp]
        have : w'.program { prog := some w.w.progs.length, ins := List.replicate b.ins.length nil, outs := List.replicate b.outs.length nil, stack := rest, threads := b.threads } = some p' := by
          unfold W.program; rw [← hw]; simp
        rw [this]
        simp only
        rw [show w'.w.heap = h' by rw [← hw], heq, hinv.idle i b hb]

/-! ## the slots of workbenches -/

theorem clone_nin {h h' : List (Obj α V)} {p p' : Program V} (hc : Clone.clone h p = some (h', p')) : p'.body.nin = p.body.nin ∧ p'.body.nout = p.body.nout := by
  unfold Clone.clone at hc
  split at hc
  · cases hc
  · split at hc
    · cases hc
    · rename_i hb
      simp only [Option.some.injEq, Prod.mk.injEq] at hc
      obtain ⟨-, rfl⟩ := hc
      unfold cloneBody at hb
      obtain ⟨r, -, hr⟩ := Option.map_eq_some_iff.1 hb
      simp only [Prod.mk.injEq] at hr
      obtain ⟨-, rfl⟩ := hr
      exact ⟨rfl, rfl⟩

/-- programs keep their numbers of inputs and outputs -/
theorem act_nin (w : Clone.World α V) (a : Act α V) {k : Nat} {p p' : Program V} (hk : w.progs[k]? = some p) (hk' : (act nameOf w a).progs[k]? = some p') :
    p'.body.nin = p.body.nin ∧ p'.body.nout = p.body.nout := by
  have hlt := (List.getElem?_eq_some_iff.mp hk).1
  have same : w.progs[k]? = some p' → p'.body.nin = p.body.nin ∧ p'.body.nout = p.body.nout := by
    intro e; rw [hk] at e; cases e; exact ⟨rfl, rfl⟩
  have more : ∀ q, (w.progs ++ [q])[k]? = some p' → p'.body.nin = p.body.nin ∧ p'.body.nout = p.body.nout := by
    intro q e; rw [List.getElem?_append_left hlt] at e; exact same e
  have setf : ∀ (j : Nat) (q : Program V) (l : List (Option (Body V))), w.progs[j]? = some q → (w.progs.set j { q with filters := l })[k]? = some p' →
      p'.body.nin = p.body.nin ∧ p'.body.nout = p.body.nout := by
    intro j q l hq e
    by_cases ej : j = k
    · subst ej
      rw [hk] at hq; cases hq
      rw [List.getElem?_set_self hlt] at e
      cases e
      exact ⟨rfl, rfl⟩
    · rw [List.getElem?_set_ne ej] at e; exact same e
  cases a with
  | compile code ins outs data cast => simp only [act] at hk'; split at hk'; exacts [same hk', more _ hk']
  | clone j =>
    simp only [act] at hk'
    split at hk'
    · exact same hk'
    · split at hk'
      · exact same hk'
      · exact more _ hk'
  | setParam j name param v => simp only [act] at hk'; split at hk' <;> exact same hk'
  | filter code ins outs data cast => simp only [act] at hk'; split at hk' <;> exact same hk'
  | bindFilter j i f =>
    simp only [act] at hk'
    split at hk'
    · exact same hk'
    · rename_i hq
      split at hk'
      · exact same hk'
      · split at hk'
        · exact setf j _ _ hq hk'
        · split at hk'
          · exact same hk'
          · split at hk'
            · exact same hk'
            · exact setf j _ _ hq hk'

/-- **Specification**: a workbench without a program has no slots, one with a program has one input slot for each of its inputs -/
def Fit (w : W α V) (b : Bn V) : Prop :=
  (b.prog = none → b.ins = [] ∧ b.outs = []) ∧ ∀ k p, b.prog = some k → w.w.progs[k]? = some p → b.ins.length = p.body.nin

theorem fit_act {w : W α V} (h : Inv nameOf w) (a : Act α V) (hf : ∀ b ∈ w.bs, Fit w b) : ∀ b ∈ w.bs, Fit { w with w := act nameOf w.w a } b := by
  intro b hb
  refine ⟨(hf b hb).1, fun k p' hk hp' => ?_⟩
  obtain ⟨i, hi⟩ := List.getElem?_of_mem hb
  have hp := List.getElem?_eq_getElem (h.valid i b k hi hk)
  rw [(act_nin nameOf w.w a hp hp').1]
  exact (hf b hb).2 k _ hk hp

theorem fit_put {w : W α V} (hf : ∀ b ∈ w.bs, Fit w b) (i : Nat) {c : Bn V} (hc : Fit w c) : ∀ b ∈ (w.put i c).bs, Fit (w.put i c) b := by
  intro b hb
  rcases List.mem_or_eq_of_mem_set hb with hb | rfl
  · exact hf b hb
  · exact hc

theorem resize_length (nil : V) (l : List V) (n : Nat) : (Bench.resize nil l n).length = n := by
  unfold Bench.resize
  simp
  omega

theorem inputSlot_length (B : Bench V) (slot : Int) (v : V) :
    B.inputSlot slot v = .err B ∨ ∃ l, B.inputSlot slot v = .ok { B with inputs := l } () ∧ l.length = B.inputs.length := by
  unfold Bench.inputSlot
  split
  · exact .inl rfl
  · exact .inr ⟨_, rfl, by simp⟩

theorem inputName_length (B : Bench V) (name : String) (v : V) :
    B.inputName name v = .err B ∨ ∃ l, B.inputName name v = .ok { B with inputs := l } () ∧ l.length = B.inputs.length := by
  unfold Bench.inputName
  split
  · exact .inl rfl
  · split
    · exact .inl rfl
    · exact inputSlot_length B _ v

theorem step_fit {w w' : W α V} (h : Inv nameOf w) (hf : ∀ b ∈ w.bs, Fit w b) (a : Do α V) {f : Bool} (hs : step P adj nil nameOf w a = some (w', f)) :
    ∀ b ∈ w'.bs, Fit w' b := by
  have keep : ∀ {r : Bool} {x : W α V}, some (x, r) = some (w', f) → (∀ b ∈ x.bs, Fit x b) → ∀ b ∈ w'.bs, Fit w' b := by
    intro r x e hx; cases e; exact hx
  cases a with
  | prog a => exact keep hs (fit_act nameOf h a hf)
  | new n =>
    refine keep hs fun b hb => ?_
    rcases List.mem_append.1 hb with hb | hb
    · exact hf b hb
    · rw [List.mem_singleton.1 hb]; exact ⟨fun _ => ⟨rfl, rfl⟩, by simp⟩
  | setup i k =>
    cases hb : w.bs[i]? with
    | none => simp only [step, hb] at hs; exact keep hs hf
    | some b =>
      cases k with
      | none => simp only [step, hb] at hs; exact keep hs (fit_put hf i ⟨fun _ => ⟨rfl, rfl⟩, by simp⟩)
      | some k =>
        cases hk : w.w.progs[k]? with
        | none => simp only [step, hb, hk] at hs; exact keep hs hf
        | some p =>
          simp only [step, hb, hk] at hs
          refine keep hs (fit_put hf i ⟨by simp, fun j q hj hq => ?_⟩)
          simp only [Option.some.injEq] at hj
          subst hj
          rw [hk] at hq
          cases hq
          exact resize_length nil b.ins _
  | inSlot i slot v =>
    cases hb : w.bs[i]? with
    | none => simp only [step, hb] at hs; exact keep hs hf
    | some b =>
      have hfb := hf b (List.mem_of_getElem? hb)
      simp only [step, hb] at hs
      rcases inputSlot_length (w.bench b) slot v with e | ⟨l, e, hl⟩
      · rw [e] at hs; exact keep hs (fit_put hf i hfb)
      · rw [e] at hs
        refine keep hs (fit_put hf i ⟨fun hn => ⟨?_, (hfb.1 hn).2⟩, fun k p hk hp => ?_⟩)
        · rw [← List.length_eq_zero_iff]; exact hl.trans (by rw [show (w.bench b).inputs = b.ins from rfl, (hfb.1 hn).1]; rfl)
        · exact hl.trans (hfb.2 k p hk hp)
  | inName i name v =>
    cases hb : w.bs[i]? with
    | none => simp only [step, hb] at hs; exact keep hs hf
    | some b =>
      have hfb := hf b (List.mem_of_getElem? hb)
      simp only [step, hb] at hs
      rcases inputName_length (w.bench b) name v with e | ⟨l, e, hl⟩
      · rw [e] at hs; exact keep hs (fit_put hf i hfb)
      · rw [e] at hs
        refine keep hs (fit_put hf i ⟨fun hn => ⟨?_, (hfb.1 hn).2⟩, fun k p hk hp => ?_⟩)
        · rw [← List.length_eq_zero_iff]; exact hl.trans (by rw [show (w.bench b).inputs = b.ins from rfl, (hfb.1 hn).1]; rfl)
        · exact hl.trans (hfb.2 k p hk hp)
  | run i =>
    cases hb : w.bs[i]? with
    | none => simp only [step, hb] at hs; exact keep hs hf
    | some b =>
      have hfb := hf b (List.mem_of_getElem? hb)
      simp only [step, hb] at hs
      cases hp : w.program b with
      | none =>
        have e : (w.bench b).run P adj = .err (w.bench b) := by
          unfold Bench.run Bench.runWith W.bench; rw [hp]; rfl
        rw [e] at hs
        exact keep hs (fit_put hf i hfb)
      | some p =>
        have hn : b.prog ≠ none := by
          intro e; unfold W.program at hp; rw [e] at hp; cases hp
        rw [bench_run P adj hp] at hs
        cases hl : launchOffline P adj (p.den w.w.heap) b.ins b.stack with
        | ub => rw [hl] at hs; cases hs
        | ok s o => rw [hl] at hs; exact keep hs (fit_put hf i ⟨fun e => (hn e).elim, hfb.2⟩)
        | err s => rw [hl] at hs; exact keep hs (fit_put hf i ⟨fun e => (hn e).elim, hfb.2⟩)
  | setThreads i n =>
    cases hb : w.bs[i]? with
    | none => simp only [step, hb] at hs; exact keep hs hf
    | some b => simp only [step, hb] at hs; exact keep hs (fit_put hf i (hf b (List.mem_of_getElem? hb)))
  | setParam i name param v =>
    cases hb : w.bs[i]? with
    | none => simp only [step, hb] at hs; exact keep hs hf
    | some b =>
      cases hk : b.prog with
      | none => simp only [step, hb, hk] at hs; exact keep hs hf
      | some k => simp only [step, hb, hk] at hs; exact keep hs (fit_act nameOf h _ hf)
  | bindFilter i slot g =>
    cases hb : w.bs[i]? with
    | none => simp only [step, hb] at hs; exact keep hs hf
    | some b =>
      cases hk : b.prog with
      | none => simp only [step, hb, hk] at hs; exact keep hs hf
      | some k => simp only [step, hb, hk] at hs; exact keep hs (fit_act nameOf h _ hf)
  | clone i =>
    cases hb : w.bs[i]? with
    | none => simp only [step, hb] at hs; exact keep hs hf
    | some b =>
      have hfb := hf b (List.mem_of_getElem? hb)
      simp only [step, hb] at hs
      cases hp : w.program b with
      | none =>
        rw [hp] at hs
        have hbp : b.prog = none := by
          cases hk : b.prog with
          | none => rfl
          | some k =>
            unfold W.program at hp
            rw [hk, Option.bind_some, List.getElem?_eq_getElem (h.valid i b k hb hk)] at hp
            cases hp
        refine keep hs fun c hc => ?_
        rcases List.mem_append.1 hc with hc | hc
        · exact hf c hc
        · rw [List.mem_singleton.1 hc]
          exact ⟨fun _ => ⟨by simp [(hfb.1 hbp).1], by simp [(hfb.1 hbp).2]⟩, by simp⟩
      | some p =>
        rw [hp] at hs
        simp only at hs
        cases hc : Clone.clone w.w.heap p with
        | none => rw [hc] at hs; exact keep hs hf
        | some r =>
          obtain ⟨h', p'⟩ := r
          rw [hc] at hs
          obtain ⟨k, hbk, hk⟩ : ∃ k, b.prog = some k ∧ w.w.progs[k]? = some p := by
            unfold W.program at hp
            cases e : b.prog with
            | none => rw [e] at hp; simp at hp
            | some k => rw [e] at hp; exact ⟨k, rfl, hp⟩
          refine keep hs fun c hc' => ?_
          rcases List.mem_append.1 hc' with hc' | hc'
          · refine ⟨(hf c hc').1, fun j q hj hq => ?_⟩
            obtain ⟨m, hm⟩ := List.getElem?_of_mem hc'
            have hlt := h.valid m c j hm hj
            rw [List.getElem?_append_left hlt] at hq
            exact (hf c hc').2 j q hj hq
          · rw [List.mem_singleton.1 hc']
            refine ⟨by simp, fun j q hj hq => ?_⟩
            simp only [Option.some.injEq] at hj
            subst hj
            rw [List.getElem?_append_right (Nat.le_refl _)] at hq
            simp only [Nat.sub_self, List.getElem?_cons_zero, Option.some.injEq] at hq
            subst hq
            rw [(clone_nin hc).1]
            simpa using hfb.2 k p hbk hk

/-- **C108, slots.** In every state that calls lead to, a workbench has a slot for each input of its program, and no slots if it has no program. -/
theorem C108_slots {w : W α V} (h : Reach P adj nil nameOf w) {b : Bn V} (hb : b ∈ w.bs) : Fit w b := by
  suffices ∀ b ∈ w.bs, Fit w b from this b hb
  clear hb
  induction h with
  | start => simp [Benches.start]
  | call h hs e ih => exact step_fit P adj nil nameOf (reach_inv P adj nil nameOf h) ih _ e

/-- **C108, setup.** Setting a workbench up with a program keeps the values of the slots that stay, makes new ones empty, and changes no other workbench. -/
theorem C108_setup {w : W α V} {i k : Nat} {b : Bn V} {p : Program V} (hb : w.bs[i]? = some b) (hk : w.w.progs[k]? = some p) :
    ∃ w' c, step P adj nil nameOf w (.setup i (some k)) = some (w', true) ∧ w'.bs[i]? = some c ∧ w'.program c = some p ∧ w'.w = w.w ∧
      c.ins.length = p.body.nin ∧ c.outs.length = p.body.nout ∧
      (∀ s, s < p.body.nin → c.ins[s]? = some ((b.ins[s]?).getD nil)) ∧ (∀ s, s < p.body.nout → c.outs[s]? = some ((b.outs[s]?).getD nil)) ∧
      ∀ j, j ≠ i → w'.bs[j]? = w.bs[j]? := by
  have get : ∀ (l : List V) (n s : Nat), s < n → (Bench.resize nil l n)[s]? = some ((l[s]?).getD nil) := by
    intro l n s hs
    unfold Bench.resize
    by_cases hl : s < l.length
    · rw [List.getElem?_append_left (by simp; omega), List.getElem?_take_of_lt hs, List.getElem?_eq_getElem hl]; rfl
    · rw [List.getElem?_append_right (by simp; omega), List.getElem?_replicate, List.getElem?_eq_none (by omega)]
      simp only [List.length_take, Option.getD_none, ite_eq_left_iff, reduceCtorEq, imp_false]
      omega
  refine ⟨_, { b with prog := some k, ins := Bench.resize nil b.ins p.body.nin, outs := Bench.resize nil b.outs p.body.nout }, by simp only [step, hb, hk], get_put hb, hk, rfl, resize_length nil _ _, resize_length nil _ _, get _ _, get _ _, fun j hj => ?_⟩
  exact List.getElem?_set_ne (Ne.symm hj)

/-- a sequence of sound calls, none of which concerns workbench `j` -/
inductive Away (j : Nat) : W α V → W α V → Prop where
  | nil (w) : Away j w w
  | cons {w w1 w2 a f} : ¬ Concerns w j a → (∀ i, a = .run i → Sound w i) → step P adj nil nameOf w a = some (w1, f) → Away j w1 w2 → Away j w w2

/-- **C108, on its own.** Whatever is done to others — inputs, runs, parameters, filters, threads, further clones — leaves a workbench's slots, threads and answers,
as long as no call is directed at it or at a program that it shares. -/
theorem C108_isolated {w w' : W α V} (h : Reach P adj nil nameOf w) {j : Nat} {b : Bn V} (hb : w.bs[j]? = some b) (ha : Away P adj nil nameOf j w w') :
    w'.bs[j]? = some b ∧ ∀ args, args.length = b.ins.length → ask P adj nil nameOf w' j args = ask P adj nil nameOf w j args := by
  induction ha with
  | nil w => exact ⟨hb, fun _ _ => rfl⟩
  | cons hc hs e _ ih =>
    obtain ⟨h1, h2⟩ := step_other P adj nil nameOf (reach_inv P adj nil nameOf h) _ e hb hc
    obtain ⟨h3, h4⟩ := ih (.call h hs e) h1
    refine ⟨h3, fun args hl => ?_⟩
    rw [h4 args hl, ask_eq P adj nil nameOf h1 hl, ask_eq P adj nil nameOf hb hl, h2]

end

/-! ### examples -/

/-- many calls -/
def many (w : W Nat Nat) : List (Do Nat Nat) → Option (W Nat Nat)
  | [] => some w
  | a :: as => match step noPack some 0 (fun _ => "") w a with
    | none => none
    | some (w, _) => many w as

/-- compile a program that pushes its parameter, two workbenches with 3 and 4 threads, both with that program, the parameter set to 5 -/
def sample : List (Do Nat Nat) :=
  [.prog (.compile [.inr (constKind, [], 1, 1)] ["x"] ["y"] [] (fun _ => none)), .new 3, .new 4, .setup 0 (some 0), .setup 1 (some 0),
   .setParam 0 "" "c" 5, .inSlot 0 0 9]

theorem reach_many : ∀ (as : List (Do Nat Nat)) (w w' : W Nat Nat), Reach noPack some 0 (fun _ => "") w → (∀ a ∈ as, ∀ i, a ≠ .run i) →
    many w as = some w' → Reach noPack some 0 (fun _ => "") w'
  | [], _, _, h, _, e => by simp only [many, Option.some.injEq] at e; subst e; exact h
  | a :: as, w, w', h, hn, e => by
    rw [many] at e
    split at e
    · cases e
    · rename_i w1 f he
      exact reach_many as w1 w' (.call h (fun i hi => absurd hi (hn a (by simp) i)) he) (fun x hx => hn x (by simp [hx])) e

/-- the workbench and its clone both answer 5; a parameter set on the clone is not seen by the original -/
example : ∃ w, many start (sample ++ [.clone 0]) = some w ∧ ask noPack some 0 (fun _ => "") w 0 [3] = .outputs [5] ∧
    ask noPack some 0 (fun _ => "") w 2 [3] = .outputs [5] ∧ ∃ b, w.bs[2]? = some b ∧ b.ins = [0] ∧ b.outs = [0] ∧ b.threads = 3 ∧ b.prog = some 1 :=
  ⟨_, rfl, by decide +kernel, by decide +kernel, _, rfl, rfl, rfl, rfl, rfl⟩

example : ∃ w, many start (sample ++ [.clone 0, .setParam 2 "" "c" 7]) = some w ∧ ask noPack some 0 (fun _ => "") w 0 [3] = .outputs [5] ∧
    ask noPack some 0 (fun _ => "") w 2 [3] = .outputs [7] :=
  ⟨_, rfl, by decide +kernel, by decide +kernel⟩

/-- the state before the clone is reached, and its program is sound -/
example : ∃ w, many start sample = some w ∧ Reach noPack some 0 (fun _ => "") w ∧ Sound w 0 ∧ ∃ b, w.bs[0]? = some b ∧ b.ins = [9] := by
  refine ⟨_, rfl, reach_many sample _ _ .start (by simp [sample]) rfl, ?_, _, rfl, rfl⟩
  intro b p hb hp
  cases hb
  cases hp
  refine ⟨⟨1, by decide⟩, ?_, fun i => ?_, ?_, by intros; contradiction⟩
  · intro i hi
    have e : i = .op (pushOp 5) 1 1 := List.mem_singleton.mp hi
    subst e
    exact ⟨pushOp_local _, by intro s _; simp [pushOp]⟩
  · cases i <;> trivial
  · intro i; cases i <;> (intros; contradiction)

/-- workbench 0 with its slot filled, set up again: the value stays; taken from its program: no slots -/
example : ∃ w w' v, many start sample = some w ∧ step noPack some 0 (fun _ => "") w (.setup 0 (some 0)) = some (w', true) ∧
    (∃ c, w'.bs[0]? = some c ∧ c.ins = [9] ∧ Fit w' c) ∧ step noPack some 0 (fun _ => "") w' (.setup 0 none) = some (v, true) ∧
    ∃ c, v.bs[0]? = some c ∧ c.ins = [] ∧ c.prog = none := by
  refine ⟨_, _, _, rfl, rfl, ⟨_, rfl, rfl, by simp, ?_⟩, rfl, _, rfl, rfl, rfl⟩
  intro k p hk hp
  cases hk
  cases hp
  rfl

/-- calls on others: a parameter and a run of the clone, an input of the second workbench -/
example : ∃ w w1 w', many start (sample ++ [.clone 0]) = some w ∧ step noPack some 0 (fun _ => "") w (.setParam 2 "" "c" 7) = some (w1, true) ∧
    Away noPack some 0 (fun _ => "") 0 w w' ∧ step noPack some 0 (fun _ => "") w1 (.inSlot 1 0 4) = some (w', true) := by
  refine ⟨_, _, _, rfl, rfl, .cons (a := .setParam 2 "" "c" 7) ?_ (fun i hi => nomatch hi) rfl (.cons (a := .inSlot 1 0 4) (by simp [Concerns]) (fun i hi => nomatch hi) rfl (.nil _)), rfl⟩
  rintro ⟨k, b, c, h1, h2, h3, h4⟩
  cases h1
  cases h2
  cases h3
  cases h4

/-- the claim that a parameter set on one workbench is not seen by another -/
def ParamClaim : Prop :=
  ∀ (w w' : W Nat Nat) (i j : Nat) (b : Bn Nat) (param : String) (v : Nat) (f : Bool) (args : List Nat), Reach noPack some 0 (fun _ => "") w → i ≠ j →
    w.bs[j]? = some b → args.length = b.ins.length → step noPack some 0 (fun _ => "") w (.setParam i "" param v) = some (w', f) →
    ask noPack some 0 (fun _ => "") w' j args = ask noPack some 0 (fun _ => "") w j args

/-- **C108, disproved** for workbenches set up with the same program instead of cloned: they share its operators, a parameter set on one changes the other. -/
theorem C108_shared_program_false : ¬ ParamClaim := by
  intro h
  obtain ⟨w, hw, w', hs, b, hb, hl, h1⟩ : ∃ w, many start sample = some w ∧ ∃ w', step noPack some 0 (fun _ => "") w (.setParam 0 "" "c" 7) = some (w', true) ∧
      ∃ b, w.bs[1]? = some b ∧ ([3] : List Nat).length = b.ins.length ∧
        ask noPack some 0 (fun _ => "") w' 1 [3] = .outputs [7] ∧ ask noPack some 0 (fun _ => "") w 1 [3] = .outputs [5] :=
    ⟨_, rfl, _, rfl, _, rfl, rfl, by decide +kernel, by decide +kernel⟩
  have := h w w' 0 1 b "c" 7 true [3] (reach_many sample _ _ .start (by simp [sample]) hw) (by omega) hb hl hs
  rw [h1.1, h1.2] at this
  cases this

end Verif.Props.Benches
