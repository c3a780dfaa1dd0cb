import Verif.Props.Compiler
import Verif.Runtime.FilterLemmas
/-!
# C67: an image filter applies exactly the steps added since it was last cleared, in order; C68: its clones

Specification: `stepSpec` (which operator a step stands for, with which constant operand), `Wanted` (the image after all steps),
`stepsOf` (the steps of a sequence of calls).
-/
namespace Verif.Props
open Verif.Compiler Verif.Module Verif.Runtime Verif.Runtime.Filter

namespace FilterSpec
variable {α V : Type}

/-- what each step does to an image `x`: the operator, and its second operand if any -/
def stepSpec (L : Lib α V) : Step α → Layer α × List V
  | .toFloat => (.toFloat, [])
  | .scale f => (.mul, [L.floats [1] [f]])
  | .subMean m => (.sub, [L.floats [1, 1, 1, m.length] m])
  | .divStd d => (.mul, [L.floats [1, 1, 1, d.length] (d.map L.recip)])
  | .resize w h t => (.resize2d t, [L.ints [4] [-1, h, w, -1]])
  | .resizeShort s t => (.scaleResize [s] t, [])
  | .centerCrop w h => (.centerCrop [w, h], [])
  | .channelSwap s => (.dimshuffle 3 s, [])
  | .prewhiten => (.prewhiten, [])
  | .toChw => (.transpose [0, 3, 1, 2], [])
  | .letterbox w h o t => (.letterbox [w, h] t o, [])
  | .divided w h p => (.divided [1, h, w, 1] p, [])
  | .forceColor => (.forceColor, [])
  | .forceGray => (.forceGray none, [])
  | .forceGrayBy s => (.forceGray (some s), [])
  | .normImage e => (.normImage e, [])

/-- the image after one step, `none` when its operator throws -/
def applyStep (L : Lib α V) (x : V) (s : Step α) : Option V := L.op (stepSpec L s).1 (x :: (stepSpec L s).2)

/-- the shape images are brought to: batch, rows, columns, channels -/
def imageShape : List Int → Option (List Int)
  | [] => none
  | [n] => some [1, n, 1, 1]
  | [h, w] => some [1, h, w, 1]
  | [h, w, c] => some [1, h, w, c]
  | n :: h :: w :: cs => some [n, h, w, cs.prod]

/-- the image after the steps `ss`: as it is without steps, else brought to image shape and sent through them in order -/
def Wanted (L : Lib α V) (ss : List (Step α)) (image : V) : Option V :=
  if ss.isEmpty then some image
  else do
    let sh ← imageShape (L.shape image)
    let x ← L.reshape image sh
    ss.foldlM (applyStep L) x

/-- the steps in force after a call -/
def stepsAfter (ss : List (Step α)) : Call α V → List (Step α)
  | .clear => []
  | .step s => ss ++ [s]
  | _ => ss

/-- the steps since the last `clear` -/
def stepsOf (cs : List (Call α V)) : List (Step α) :=
  cs.foldl stepsAfter []

/-- the device has the operators of all steps -/
def Registered (L : Lib α V) (D : Dev α V) (ss : List (Step α)) : Prop := ∀ s ∈ ss, ∃ f, D.find (stepSpec L s).1 = some f

/-- the registered operators compute what the library says, the hash set yields its elements once each, reshaping to one's own
shape changes nothing -/
structure Sound (L : Lib α V) (D : Dev α V) : Prop where
  ops : ∀ l f, D.find l = some f → ∀ k, Implements f k (L.op l)
  order : ∀ l, SetOrder l (D.order l)
  self : ∀ x, L.reshape x (L.shape x) = some x

/-- the reference sets are those of some admissible listing of the graph (C07) -/
def RefsOk [Inhabited V] (D : Dev α V) : Prop := ∀ h fuel st, walk (graphOf h) fuel (walkInit (sinks h)) = some st →
  ∃ l, IsSchedule st l ∧ D.refs h = refsOf (buildRefs (graphOf h) l)

end FilterSpec
open FilterSpec

variable {α V : Type} [Inhabited V]

theorem before_eq (s : List Int) : before s = imageShape s := by
  match s with
  | [] => rfl
  | [a] => rfl
  | [a, b] => rfl
  | [a, b, c] => rfl
  | [a, b, c, d] => simp [before, imageShape]
  | a :: b :: c :: d :: e :: r =>
    simp only [before, imageShape]
    rw [List.prod_eq_foldl]

theorem applyItems_steps (L : Lib α V) (ss : List (Step α)) (x : V) :
    applyItems L (ss.map (stepSpec L)) x = ss.foldlM (applyStep L) x := by
  simp only [applyItems, List.foldlM_map]
  rfl

theorem chain_add {L : Lib α V} {ns : List (Nd α V)} {it} (h : Chain ns it) (s : Step α) :
    Chain (ns ++ nodesOf L ns.length s) (it ++ [stepSpec L s]) := by
  cases s
  all_goals first
    | exact .one _ h
    | exact .two _ _ h

theorem chain_length {ns : List (Nd α V)} {it : List (Layer α × List V)} (h : Chain ns it) :
    ns.length > 1 ↔ it ≠ [] := by
  cases h with
  | base => simp
  | one l h => have := chain_pos h; simp; omega
  | two l v h => have := chain_pos h; simp

/-- what a successful build delivers, and when it fails -/
theorem build_spec {L : Lib α V} {D : Dev α V} (hS : Sound L D) {ns : List (Nd α V)} {ss : List (Step α)}
    (h : Chain ns (ss.map (stepSpec L))) :
    match build L D ns with
    | .fuel => True
    | .err => ¬ Registered L D ss
    | .ok b => Registered L D ss ∧ ∀ (x : V) (s : Stk V), s.Wf →
        (∃ y, ss.foldlM (applyStep L) x = some y ∧ launchOffline D.pack D.adj b.prog [x] s = .ok s [y]) ∨
        (ss.foldlM (applyStep L) x = none ∧ launchOffline D.pack D.adj b.prog [x] s = .err s) := by
  have hp := chain_pos h
  have hsup : (∀ n, Needs (graphOf (arena L ns)) [ns.length - 1] n → Supported (graphOf (arena L ns)) (tableOf D ns) n) ↔
      Registered L D ss := by
    have key : ∀ (n : Nat), n < ns.length → (Supported (graphOf (arena L ns)) (tableOf D ns) n ↔
        ∀ l is, ns[n]? = some (.op l is) → ∃ f, D.find l = some f) := by
      intro n hn
      have hx := List.getElem?_eq_getElem hn
      generalize ns[n] = x at hx
      unfold Supported
      have hk : (graphOf (arena L ns)).kind n = (x.toRec L).kind := by simp [graphOf, arena_get, hx]
      rw [hk, hx]
      cases x with
      | param => simp [Nd.toRec]
      | data v => simp [Nd.toRec]
      | op l is =>
        simp only [Nd.toRec, tableOf, hx, Option.some.injEq, Nd.op.injEq]
        constructor
        · rintro hh l' is' ⟨rfl, rfl⟩; exact hh
        · intro hh; exact hh l is ⟨rfl, rfl⟩
    have layers : ∀ (ns : List (Nd α V)) (it : List (Layer α × List V)), Chain ns it → ∀ l,
        (∃ (n : Nat) (is : List Nat), ns[n]? = some (Nd.op l is)) ↔ l ∈ it.map (·.1) := by
      intro ns it h
      induction h with
      | base =>
        intro l
        simp only [List.map_nil, List.not_mem_nil, iff_false]
        rintro ⟨n, is, hn⟩
        match n with
        | 0 => simp at hn
        | n + 1 => simp at hn
      | @one ns it l0 h ih =>
        intro l
        rw [List.map_append, List.mem_append, ← ih l]
        constructor
        · rintro ⟨n, is, hn⟩
          rcases Nat.lt_or_ge n ns.length with hl | hl
          · rw [List.getElem?_append_left hl] at hn
            exact .inl ⟨n, is, hn⟩
          · rw [List.getElem?_append_right hl] at hn
            have := List.mem_of_getElem? hn
            simp at this
            right; simp [this.1]
        · rintro (⟨n, is, hn⟩ | hl)
          · exact ⟨n, is, by
              rw [List.getElem?_append_left (List.getElem?_eq_some_iff.1 hn).1]; exact hn⟩
          · simp at hl
            subst hl
            exact ⟨ns.length, _, by simp; rfl⟩
      | @two ns it l0 v h ih =>
        intro l
        rw [List.map_append, List.mem_append, ← ih l]
        constructor
        · rintro ⟨n, is, hn⟩
          rcases Nat.lt_or_ge n ns.length with hl | hl
          · rw [List.getElem?_append_left hl] at hn
            exact .inl ⟨n, is, hn⟩
          · rw [List.getElem?_append_right hl] at hn
            have := List.mem_of_getElem? hn
            simp at this
            right; simp [this.1]
        · rintro (⟨n, is, hn⟩ | hl)
          · exact ⟨n, is, by
              rw [List.getElem?_append_left (List.getElem?_eq_some_iff.1 hn).1]; exact hn⟩
          · simp at hl
            subst hl
            exact ⟨ns.length + 1, [ns.length - 1, ns.length], by
              rw [List.getElem?_append_right (by omega)]; simp⟩
    constructor
    · intro hh s hs
      obtain ⟨n, is, hn⟩ := (layers ns _ h (stepSpec L s).1).2 (by
        rw [List.map_map]; exact List.mem_map.2 ⟨s, hs, rfl⟩)
      have hlt := (List.getElem?_eq_some_iff.1 hn).1
      exact (key n hlt).1 (hh n (chain_needed h n hlt)) _ _ hn
    · intro hh n hn
      have hlt : n < ns.length := by
        rcases Nat.lt_or_ge n ns.length with hl | hl
        · exact hl
        · exfalso
          cases hn with
          | root hr => simp at hr; omega
          | input _ _ _ hi =>
            have := closed_inputs (chain_closed h) hi
            rw [arena_length] at this
            omega
      refine (key n hlt).2 ?_
      intro l is hx
      have := (layers ns _ h l).1 ⟨n, is, hx⟩
      rw [List.map_map] at this
      obtain ⟨s, hs, rfl⟩ := List.mem_map.1 this
      exact hh s hs
  have hneed0 := chain_needed (L := L) h 0 hp
  unfold build
  rw [chain_sinks h]
  cases hw : graphWalker (graphOf (arena L ns)) (List.range ns.length) D.fuel [ns.length - 1] with
  | none => trivial
  | some r =>
    have hpost := wloop_post D.fuel _ (winit_inv (graphOf (arena L ns)) (List.range ns.length) [ns.length - 1]) r hw
    have hgood : ∀ n, Needs (graphOf (arena L ns)) [ns.length - 1] n → ¬ Bad (graphOf (arena L ns)) (List.range ns.length) n := by
      intro n hn hb
      have hlt : n < ns.length := by
        rcases Nat.lt_or_ge n ns.length with hl | hl
        · exact hl
        · exfalso
          cases hn with
          | root hr => simp at hr; omega
          | input _ _ _ hi =>
            have := closed_inputs (chain_closed h) hi
            rw [arena_length] at this
            omega
      rcases hb with hb | ⟨⟨hb1, hb2⟩, hb3⟩
      · exact hb (List.mem_range.2 hlt)
      · have hx := List.getElem?_eq_getElem hlt
        generalize ns[n] = x at hx
        simp only [graphOf, arena_get, hx, Option.map_some] at hb1 hb2 hb3
        rcases chain_local h n x hx with ⟨-, rfl⟩ | ⟨-, v, rfl⟩ | ⟨l, k, rfl, a, -⟩ | ⟨l, k, c, v, rfl, a, b, -, -⟩
        · exact hb1 rfl
        · exact hb2 rfl
        · simp [Nd.toRec] at hb3
        · simp [Nd.toRec] at hb3
    cases r with
    | none =>
      obtain ⟨n, hn, hb⟩ := hpost
      exact absurd hb (hgood n hn)
    | some found =>
      obtain ⟨hnd, hfound, -⟩ := hpost
      have hord : D.order found = [0] := by
        obtain ⟨o1, o2⟩ := hS.order found
        have hmem : ∀ n, n ∈ D.order found ↔ n = 0 := by
          intro n
          rw [o2 n, hfound n]
          constructor
          · rintro ⟨a, -⟩; exact chain_param h a
          · rintro rfl; exact ⟨chain_zero h, hneed0⟩
        generalize D.order found = l at o1 hmem
        match l, o1 with
        | [], _ => exact absurd ((hmem 0).2 rfl) (by simp)
        | [a], _ => rw [(hmem a).1 (by simp)]
        | a :: b :: t, o1 =>
          have ha := (hmem a).1 (by simp)
          have hb := (hmem b).1 (by simp)
          subst ha; subst hb
          simp at o1
      simp only [buildFrom]
      rw [chain_sinks h]
      rcases fold_chain (L := L) h D.fuel with hf | hf
      · rw [hf]; trivial
      · rw [hf]
        simp only
        rw [hord]
        cases hc : Verif.Compiler.compile (graphOf (arena L ns)) (tableOf D ns) (D.refs (arena L ns)) [0] [ns.length - 1] D.fuel with
        | none => trivial
        | some o =>
          cases o with
          | none =>
            show ¬ Registered L D ss
            have := (C01_compile_errors (graphOf (arena L ns)) (tableOf D ns) (D.refs (arena L ns)) [0] [ns.length - 1] D.fuel
              (by rw [hc]; simp)).1 hc
            intro hreg
            rcases this with ⟨n, hn, hns⟩ | ⟨p, hpk, -, hpn⟩
            · exact hns (hsup.2 hreg n hn)
            · exact hpn (by rw [chain_param h hpk]; simp)
          | some b =>
            show Registered L D ss ∧ _
            have hreg : Registered L D ss := by
              rw [← hsup]
              intro n hn
              apply Classical.byContradiction
              intro hns
              have := (C01_compile_errors (graphOf (arena L ns)) (tableOf D ns) (D.refs (arena L ns)) [0] [ns.length - 1] D.fuel
                (by rw [hc]; simp)).2 (.inl ⟨n, hn, hns⟩)
              rw [hc] at this
              simp at this
            refine ⟨hreg, ?_⟩
            have hok : OpsOk (graphOf (arena L ns)) (tableOf D ns) [ns.length - 1] := by
              constructor
              · intro n f _ hk ho
                simp only [tableOf] at ho
                cases hx : ns[n]? with
                | none => rw [hx] at ho; cases ho
                | some x =>
                  rw [hx] at ho
                  cases x with
                  | param => cases ho
                  | data v => cases ho
                  | op l is =>
                    have := hS.ops l f ho ((graphOf (arena L ns)).inputs n).length
                    simpa [graphOf, arena_get, hx, Nd.toRec] using this
              · intro n hn hk
                cases hi : (graphOf (arena L ns)).inputs n with
                | nil => exact absurd (.inr ⟨⟨by rw [hk]; simp, by rw [hk]; simp⟩, hi⟩) (hgood n hn)
                | cons a t => simp
            have hcc := C01_compile_correct_partial (graphOf (arena L ns)) D.pack (tableOf D ns) [0] [ns.length - 1] hok
              (by simp) (.inr ⟨0, chain_zero h, hneed0⟩) (D.refs (arena L ns)) D.fuel b hc
            intro x s hs
            have hrow : ∀ y, Den (graphOf (arena L ns)) D.pack (fun _ => some x) (ns.length - 1) y ↔
                ss.foldlM (applyStep L) x = some y := by
              intro y
              rw [chain_den (x := x) rfl h, applyItems_steps]
            rcases hcc.2.2 D.adj [x] (fun _ => some x) s hs rfl (by
              intro i h1 h2
              match i, h1 with
              | 0, _ => rfl) with ⟨outs, ⟨hl, hr⟩, hlaunch⟩ | ⟨hno, hlaunch⟩
            · left
              match outs, hl with
              | [y], _ =>
                exact ⟨y, (hrow y).1 (hr 0 (by simp) (by simp)), hlaunch⟩
            · right
              refine ⟨?_, hlaunch⟩
              cases hy : ss.foldlM (applyStep L) x with
              | none => rfl
              | some y =>
                exfalso
                apply hno
                refine ⟨[y], rfl, ?_⟩
                intro i h1 h2
                match i, h1 with
                | 0, _ => exact (hrow y).2 hy

/-- the graph of a sequence of steps -/
def nodesFor (L : Lib α V) (ss : List (Step α)) : List (Nd α V) :=
  ss.foldl (fun ns s => ns ++ nodesOf L ns.length s) [.param]

/-- invariant of every history -/
structure FInvar (L : Lib α V) (D : Dev α V) (f : Filt α V) (ss : List (Step α)) : Prop where
  eq : f.nodes = nodesFor L ss
  chain : Chain f.nodes (ss.map (stepSpec L))
  none : ss = [] → f.program = none
  prog : f.compiled = true → ss ≠ [] → ∃ b, f.program = some b ∧ build L D f.nodes = .ok b

theorem finvar_compile {L : Lib α V} {D : Dev α V} {f f' : Filt α V} {ss : List (Step α)} (h : FInvar L D f ss)
    (hc : f.compile L D = .ok f') : FInvar L D f' ss ∧ f'.compiled = true := by
  unfold Filt.compile at hc
  split at hc
  · rename_i hcomp; cases hc; exact ⟨h, hcomp⟩
  · split at hc
    · rename_i hl
      cases hb : build L D f.nodes with
      | err => rw [hb] at hc; cases hc
      | fuel => rw [hb] at hc; cases hc
      | ok b =>
        rw [hb] at hc
        cases hc
        have : ss ≠ [] := by
          have := (chain_length h.chain).1 hl
          rintro rfl; simp at this
        exact ⟨⟨h.eq, h.chain, fun e => absurd e this, fun _ _ => ⟨b, rfl, hb⟩⟩, rfl⟩
    · rename_i hl
      cases hc
      have : ss = [] := by
        have := mt (chain_length h.chain).2 hl
        simpa using this
      exact ⟨⟨h.eq, h.chain, h.none, fun _ e => absurd this e⟩, rfl⟩

theorem finvar_run {L : Lib α V} {D : Dev α V} {f : Filt α V} {ss : List (Step α)} (h : FInvar L D f ss) (image : V) (s : Stk V) :
    FInvar L D (f.run L D image s).1 ss := by
  unfold Filt.run
  by_cases hc : f.compiled = true
  · rw [if_pos hc]; exact h
  · rw [if_neg hc]
    cases hr : f.compile L D with
    | err => exact h
    | fuel => exact h
    | ok f' => exact (finvar_compile h hr).1

theorem finvar_exec {L : Lib α V} {D : Dev α V} {f : Filt α V} {ss : List (Step α)} (fresh : FInvar L D f ss) (c : Call α V) :
    FInvar L D (f.exec L D c) (stepsAfter ss c) := by
  cases c with
  | clear => exact ⟨rfl, .base, fun _ => rfl, fun h => by cases h⟩
  | step s =>
    refine ⟨?_, ?_, fun e => ?_, fun h => by cases h⟩
    · simp [Filt.exec, Filt.add, stepsAfter, nodesFor, fresh.eq]
    · have := chain_add (L := L) fresh.chain s
      simpa [Filt.exec, Filt.add, stepsAfter] using this
    · simp [stepsAfter] at e
  | compile =>
    simp only [Filt.exec, stepsAfter]
    cases hr : f.compile L D with
    | err => exact fresh
    | fuel => exact fresh
    | ok f' => exact (finvar_compile fresh hr).1
  | run image s => exact finvar_run fresh image s

theorem finvar_hist (L : Lib α V) (D : Dev α V) (cs : List (Call α V)) : FInvar L D (hist L D cs) (stepsOf cs) := by
  have fresh : FInvar L D (Filt.fresh : Filt α V) [] := ⟨rfl, .base, fun _ => rfl, fun h => by cases h⟩
  have main : ∀ (cs : List (Call α V)) (f : Filt α V) (ss : List (Step α)), FInvar L D f ss →
      FInvar L D (cs.foldl (Filt.exec L D) f) (cs.foldl stepsAfter ss) := by
    intro cs
    induction cs with
    | nil => intro f ss h; exact h
    | cons c cs ih =>
      intro f ss fresh
      simp only [List.foldl_cons]
      exact ih _ _ (finvar_exec fresh c)
  exact main cs _ _ fresh
theorem run_compiled_spec {L : Lib α V} {D : Dev α V} (hS : Sound L D) {f : Filt α V} {ss : List (Step α)}
    (h : FInvar L D f ss) (hc : f.compiled = true) (image : V) (s : Stk V) (hs : s.Wf) :
    Registered L D ss ∧ runCompiled L D f image s = match Wanted L ss image with
      | some y => .ok s y
      | none => .err := by
  by_cases he : ss = []
  · subst he
    refine ⟨(fun _ hm => absurd hm (by simp)), ?_⟩
    simp [runCompiled, h.none rfl, Wanted]
  · obtain ⟨b, hb1, hb2⟩ := h.prog hc he
    have hbs := build_spec hS h.chain
    rw [hb2] at hbs
    refine ⟨hbs.1, ?_⟩
    have hw : Wanted L ss image = (imageShape (L.shape image)).bind fun sh => (L.reshape image sh).bind fun x =>
        ss.foldlM (applyStep L) x := by
      unfold Wanted
      rw [if_neg (by simpa using he)]
      rfl
    rw [hw]
    simp only [runCompiled, hb1, before_eq]
    cases hsh : imageShape (L.shape image) with
    | none => rfl
    | some sh =>
      simp only [Option.bind_some]
      cases hx : L.reshape image sh with
      | none => rfl
      | some x =>
        simp only [Option.bind_some, launch1]
        rcases hbs.2 x s hs with ⟨y, e1, e2⟩ | ⟨e1, e2⟩
        · rw [e1, e2]
          simp only [hS.self y]
        · rw [e1, e2]

/-- **C67.** After any sequence of calls on an image filter (clearing, adding steps, compiling, running, also calls that threw),
running it on an image returns the image sent through exactly the steps added since the last `clear`, in the order they were
added, each with its own operands; without steps the image itself. It throws exactly when some step's operator is not registered
on the device or throws, or the image cannot be brought to the four dimensions of an image batch. The stack of the workbench is
left as it was. -/
theorem C67_run_applies_steps (L : Lib α V) (D : Dev α V) (hS : Sound L D) (cs : List (Call α V)) (image : V) (s : Stk V)
    (hs : s.Wf) :
    ((hist L D cs).run L D image s).2 = .hang ∨
    (Registered L D (stepsOf cs) ∧ ((hist L D cs).run L D image s).2 = match Wanted L (stepsOf cs) image with
      | some y => .ok s y
      | none => .err) ∨
    (¬ Registered L D (stepsOf cs) ∧ ((hist L D cs).run L D image s).2 = .err) := by
  have hI := finvar_hist L D cs
  generalize hist L D cs = f at hI
  generalize stepsOf cs = ss at hI
  unfold Filt.run
  by_cases hc : f.compiled = true
  · rw [if_pos hc]
    exact .inr (.inl (run_compiled_spec hS hI hc image s hs))
  · rw [if_neg hc]
    cases hr : f.compile L D with
    | fuel => exact .inl rfl
    | ok f' =>
      obtain ⟨h1, h2⟩ := finvar_compile hI hr
      exact .inr (.inl (run_compiled_spec hS h1 h2 image s hs))
    | err =>
      refine .inr (.inr ⟨?_, rfl⟩)
      unfold Filt.compile at hr
      rw [if_neg hc] at hr
      split at hr
      · have hbs := build_spec hS hI.chain
        cases hb : build L D f.nodes with
        | ok b => rw [hb] at hr; cases hr
        | fuel => rw [hb] at hr; cases hr
        | err => rw [hb] at hbs; exact hbs
      · cases hr

/-- **C67 (binding).** Compiling succeeds or throws like that, and afterwards the program handed to a workbench (`program()`,
`bind_filter`) is null when there are no steps, and otherwise takes an image batch through the steps. -/
theorem C67_compiled_program (L : Lib α V) (D : Dev α V) (hS : Sound L D) (cs : List (Call α V)) (f : Filt α V)
    (hc : (hist L D cs).compile L D = .ok f) :
    (stepsOf cs = [] → f.program = none) ∧
    (stepsOf cs ≠ [] → ∃ b, f.program = some b ∧ ∀ (x : V) (s : Stk V), s.Wf →
      (∃ y, (stepsOf cs).foldlM (applyStep L) x = some y ∧ launchOffline D.pack D.adj b.prog [x] s = .ok s [y]) ∨
      ((stepsOf cs).foldlM (applyStep L) x = none ∧ launchOffline D.pack D.adj b.prog [x] s = .err s)) := by
  obtain ⟨h1, h2⟩ := finvar_compile (finvar_hist L D cs) hc
  refine ⟨h1.none, fun he => ?_⟩
  obtain ⟨b, hb, hb2⟩ := h1.prog h2 he
  have hbs := build_spec hS h1.chain
  rw [hb2] at hbs
  exact ⟨b, hb, hbs.2⟩

/-! ## termination -/

theorem wloop_fuel {N V : Type} [DecidableEq N] (G : Graph N V) (nodes : List N) (k j : Nat) (st : WSt N)
    (h : wloop G nodes k st ≠ none) : wloop G nodes (k + j) st = wloop G nodes k st := by
  induction k generalizing st with
  | zero => simp [wloop] at h
  | succ k ih =>
    rw [show k + 1 + j = (k + j) + 1 by omega]
    simp only [wloop] at h ⊢
    cases hq : st.queue with
    | nil => rfl
    | cons n q =>
      simp only [hq] at h ⊢
      cases hw : wstep G nodes { st with queue := q } n with
      | none => rfl
      | some st' => simp only [hw] at h ⊢; exact ih _ h

theorem cloop_fuel {N V : Type} [DecidableEq N] (G : Graph N V) (ops : OpTable N V) (refs : N → N → Bool) (k j : Nat) (st : CSt N V)
    (h : Verif.Compiler.loop G ops refs k st ≠ none) :
    Verif.Compiler.loop G ops refs (k + j) st = Verif.Compiler.loop G ops refs k st := by
  induction k generalizing st with
  | zero => simp [Verif.Compiler.loop] at h
  | succ k ih =>
    rw [show k + 1 + j = (k + j) + 1 by omega]
    simp only [Verif.Compiler.loop] at h ⊢
    cases hw : Verif.Compiler.step G ops refs st with
    | done => rfl
    | error => rfl
    | next st' => simp only [hw] at h ⊢; exact ih _ h

theorem compile_fuel {N V : Type} [DecidableEq N] (G : Graph N V) (ops : OpTable N V) (refs : N → N → Bool) (ins outs : List N)
    (k j : Nat) (h : Verif.Compiler.compile G ops refs ins outs k ≠ none) :
    Verif.Compiler.compile G ops refs ins outs (k + j) ≠ none := by
  have hl : Verif.Compiler.loop G ops refs k (initSt G outs) ≠ none := by
    intro e; apply h; simp [Verif.Compiler.compile, e]
  unfold Verif.Compiler.compile at h ⊢
  rw [cloop_fuel G ops refs k j _ hl]
  exact h

theorem build_total {L : Lib α V} {D : Dev α V} (hS : Sound L D) (hR : RefsOk D) {ns : List (Nd α V)} {ss : List (Step α)}
    (h : Chain ns (ss.map (stepSpec L))) : ∃ k, ∀ j, k ≤ j → build L { D with fuel := j } ns ≠ .fuel := by
  have hp := chain_pos h
  obtain ⟨k1, r, hr⟩ := wloop_total (G := graphOf (arena L ns)) (nodes := List.range ns.length) (outputs := [ns.length - 1]) _ _ _
    (winit_inv (graphOf (arena L ns)) (List.range ns.length) [ns.length - 1]) rfl rfl
  have hfin : ∀ n m, m ∈ (graphOf (arena L ns)).inputs n → m ∈ List.range ns.length := by
    intro n m hm
    have := closed_inputs (chain_closed h) hm
    rw [arena_length] at this
    exact List.mem_range.2 this
  obtain ⟨k2, st, hw, hst⟩ := C02_compile_terminates_partial (graphOf (arena L ns)) (tableOf D ns) (D.order (r.getD []))
    [ns.length - 1] (List.range ns.length) hfin (acyclic_of_rank (chain_ranked h)) (by
      intro p hk
      rw [chain_param h hk]
      have := chain_leaf (L := L) (ns := ns)
      cases hx : (arena L ns)[0]? with
      | none => simp [graphOf, hx]
      | some r =>
        simp only [graphOf, hx]
        exact this 0 r hx (by have := chain_zero (L := L) h; simpa [graphOf, hx] using this))
  obtain ⟨l, hl1, hl2⟩ := hR (arena L ns) k2 st (by rw [chain_sinks h]; exact hw)
  obtain ⟨k3, hk3⟩ := hst l hl1
  refine ⟨k1 + k3 + ns.length + 1, ?_⟩
  intro j hj
  unfold build
  rw [chain_sinks h]
  have e1 : graphWalker (graphOf (arena L ns)) (List.range ns.length) j [ns.length - 1] = some r := by
    unfold graphWalker
    obtain ⟨d, rfl⟩ := Nat.exists_eq_add_of_le (show k1 ≤ j by omega)
    rw [wloop_fuel _ _ _ _ _ (by rw [hr]; simp)]
    exact hr
  simp only [e1]
  cases r with
  | none => simp
  | some found =>
    simp only [buildFrom]
    rw [chain_sinks h]
    have e2 : constFold j (arena L ns) [ns.length - 1] ≠ .fuel := by
      have := foldRoots_fuel (P := D.pack) (chain_closed (L := L) h) (chain_ranked h) j [ns.length - 1]
        (by intro n hn; simp at hn; rw [arena_length]; omega) (by intro n hn; simp at hn; simp [hn]; omega)
        ⟨arena L ns, fun _ => none, fun _ => none⟩ ⟨⟨[], by simp⟩, chain_closed h, by simp, by simp⟩
      unfold constFold
      cases hf : foldRoots j ⟨arena L ns, fun _ => none, fun _ => none⟩ [ns.length - 1] with
      | fuel => exact absurd hf this
      | err => simp [R.bind]
      | ok x => simp [R.bind]
    rcases fold_chain (L := L) h j with hf | hf
    · exact absurd hf e2
    · rw [hf]
      simp only
      have e3 : Verif.Compiler.compile (graphOf (arena L ns)) (tableOf { D with fuel := j } ns) (D.refs (arena L ns)) (D.order found)
          [ns.length - 1] j ≠ none := by
        rw [hl2]
        obtain ⟨d, rfl⟩ := Nat.exists_eq_add_of_le (show k3 ≤ j by omega)
        exact compile_fuel _ _ _ _ _ _ _ hk3
      cases hc : Verif.Compiler.compile (graphOf (arena L ns)) (tableOf { D with fuel := j } ns) (D.refs (arena L ns)) (D.order found)
          [ns.length - 1] j with
      | none => exact absurd hc e3
      | some o => cases o <;> simp

/-- **C67 (termination).** Running a filter comes back: for every sequence of calls there is a number of steps after which
compilation is over, whatever admissible order the hash containers yield. -/
theorem C67_run_returns (L : Lib α V) (D : Dev α V) (hS : Sound L D) (hR : RefsOk D) (cs : List (Call α V)) :
    ∃ k, ∀ j, k ≤ j → ∀ (image : V) (s : Stk V), s.Wf →
      ((hist L { D with fuel := j } cs).run L { D with fuel := j } image s).2 ≠ .hang := by
  obtain ⟨k, hk⟩ := build_total hS hR (finvar_hist L D cs).chain
  rw [(finvar_hist L D cs).eq] at hk
  refine ⟨k, ?_⟩
  intro j hj image s hs
  have hb := hk j hj
  have hS' : Sound L { D with fuel := j } := ⟨hS.ops, hS.order, hS.self⟩
  have hI := finvar_hist L { D with fuel := j } cs
  generalize hist L { D with fuel := j } cs = f at hI
  rw [← hI.eq] at hb
  have fin : ∀ f', FInvar L { D with fuel := j } f' (stepsOf cs) → f'.compiled = true →
      runCompiled L { D with fuel := j } f' image s ≠ .hang := by
    intro f' h1 h2
    rw [(run_compiled_spec hS' h1 h2 image s hs).2]
    cases Wanted L (stepsOf cs) image <;> simp
  unfold Filt.run
  by_cases hc : f.compiled = true
  · rw [if_pos hc]
    exact fin f hI hc
  · rw [if_neg hc]
    cases hr : f.compile L { D with fuel := j } with
    | err => simp
    | fuel =>
      exfalso
      unfold Filt.compile at hr
      rw [if_neg hc] at hr
      split at hr
      · cases hb' : build L { D with fuel := j } f.nodes with
        | ok b => rw [hb'] at hr; cases hr
        | fuel => exact hb hb'
        | err => rw [hb'] at hr; cases hr
      · cases hr
    | ok f' =>
      obtain ⟨h1, h2⟩ := finvar_compile hI hr
      exact fin f' h1 h2

/-! ## clones -/

/-- C68, full claim: at any time a filter can be cloned, and whatever is then called on the clone, it behaves like a
filter that had the original's steps from the beginning. -/
def CloneClaim (L : Lib α V) (D : Dev α V) : Prop :=
  ∀ (cs ds : List (Call α V)), ∃ f, (hist L D cs).clone = some f ∧ ∀ (image : V) (s : Stk V), s.Wf →
    ((ds.foldl (Filt.exec L D) f).run L D image s).2 = .hang ∨
    ((ds.foldl (Filt.exec L D) f).run L D image s).2 = .err ∨
    ∃ y, Wanted L (ds.foldl stepsAfter (stepsOf cs)) image = some y ∧
      ((ds.foldl (Filt.exec L D) f).run L D image s).2 = .ok s y

/-- C68 made right after a successful compilation of a filter that has steps, as long as no step is added to the
clone: it applies the original's steps. Missing: clones at other times and clones that are modified, for which the claim is false
(next theorems). -/
theorem C68_clone_partial (L : Lib α V) (D : Dev α V) (hS : Sound L D) (cs : List (Call α V)) (f : Filt α V)
    (hc : (hist L D cs).compile L D = .ok f) (hne : stepsOf cs ≠ []) :
    ∃ g, f.clone = some g ∧ ∀ (ds : List (Call α V)), (∀ d ∈ ds, d = .compile ∨ ∃ i s, d = .run i s) →
      ∀ (image : V) (s : Stk V), s.Wf →
      ((ds.foldl (Filt.exec L D) g).run L D image s).2 = match Wanted L (stepsOf cs) image with
        | some y => .ok s y
        | none => .err := by
  obtain ⟨h1, h2⟩ := finvar_compile (finvar_hist L D cs) hc
  obtain ⟨b, hb, hb2⟩ := h1.prog h2 hne
  refine ⟨_, by rw [Filt.clone, hb]; rfl, ?_⟩
  intro ds hds image s hs
  have keep : ∀ (ds : List (Call α V)), (∀ d ∈ ds, d = .compile ∨ ∃ i s, d = .run i s) → ∀ (g : Filt α V), g.compiled = true →
      ds.foldl (Filt.exec L D) g = g := by
    intro ds
    induction ds with
    | nil => intro _ g _; rfl
    | cons d ds ih =>
      intro hd g hg
      rw [List.foldl_cons]
      have : g.exec L D d = g := by
        rcases hd d (by simp) with rfl | ⟨i, s, rfl⟩
        · simp [Filt.exec, Filt.compile, hg]
        · simp [Filt.exec, Filt.run, hg]
      rw [this]
      exact ih (fun d hd' => hd d (by simp [hd'])) g hg
  rw [keep ds hds _ rfl]
  have := (run_compiled_spec hS h1 h2 image s hs).2
  rw [← this]
  simp [Filt.run, runCompiled, hb]

/-! ## a concrete library -/

/-- tensors with a shape and one number; `forceColor` does not exist on the device, `prewhiten` throws -/
def toyLib : Lib Int (List Int × Int) where
  op l vs := match l, vs with
    | .mul, [x, c] => some (x.1, x.2 * c.2)
    | .sub, [x, c] => some (x.1, x.2 - c.2)
    | .toFloat, [x] => some x
    | .centerCrop [w, h], [x] => match x.1 with
      | [n, _, _, c] => some ([n, h, w, c], x.2)
      | _ => none
    | .transpose _, [x] => match x.1 with
      | [n, h, w, c] => some ([n, c, h, w], x.2)
      | _ => none
    | _, _ => none
  floats s vs := (s, vs.sum)
  ints s vs := (s, vs.sum)
  recip x := 7 - x
  shape := Prod.fst
  reshape x s := if x.1.prod = s.prod then some (s, x.2) else none

def toyDev : Dev Int (List Int × Int) where
  pack := ⟨fun _ => ([], 0), fun _ _ => none⟩
  adj := some
  find l := if l = .forceColor then none else some (liftOp (toyLib.op l))
  refs _ _ _ := false
  order l := l.eraseDups
  fuel := 30

theorem toy_sound (D : Dev Int (List Int × Int)) (h1 : D.find = toyDev.find) (h2 : D.order = toyDev.order) : Sound toyLib D := by
  refine ⟨?_, ?_, ?_⟩
  · intro l f hf k
    rw [h1] at hf
    simp only [toyDev] at hf
    split at hf
    · cases hf
    · cases hf; exact liftOp_implements _ _
  · intro l
    rw [h2]
    exact eraseDups_nodup l
  · intro x; simp [toyLib]

/-- a history with an abandoned step, a failing compilation and a successful run before the last steps -/
def toyCalls : List (Call Int (List Int × Int)) :=
  [.step .prewhiten, .run ([4, 6, 3], 10) ⟨[], 0, []⟩, .clear, .step .forceColor, .compile, .clear,
   .step .toFloat, .step (.subMean [1, 2, 3]), .run ([4, 6, 3], 10) ⟨[], 0, []⟩, .step (.divStd [5]), .step (.centerCrop 5 2), .compile,
   .step .toChw]

/-- non-vacuity: a 4x6 image of value 10 goes through `(10 - 6) * (7 - 5)`, a crop and a transposition -/
example : Sound toyLib toyDev ∧ (⟨[], 0, []⟩ : Stk (List Int × Int)).Wf ∧ Registered toyLib toyDev (stepsOf toyCalls) ∧
    Wanted toyLib (stepsOf toyCalls) ([4, 6, 3], 10) = some ([1, 3, 2, 5], 8) ∧
    ((hist toyLib toyDev toyCalls).run toyLib toyDev ([4, 6, 3], 10) ⟨[], 0, []⟩).2 = .ok ⟨[], 0, []⟩ ([1, 3, 2, 5], 8) :=
  ⟨toy_sound _ rfl rfl, by simp [Stk.Wf], by
    intro s hs
    simp [stepsOf, toyCalls, stepsAfter] at hs
    rcases hs with rfl | rfl | rfl | rfl | rfl <;> exact ⟨_, rfl⟩, by decide +kernel, by rfl⟩

/-- and throws when a step throws, when a step has no operator, and returns the image without steps -/
example : ((hist toyLib toyDev (toyCalls ++ [.step .prewhiten])).run toyLib toyDev ([4, 6, 3], 10) ⟨[], 0, []⟩).2 = .err ∧
    ((hist toyLib toyDev (toyCalls ++ [.step .forceColor])).run toyLib toyDev ([4, 6, 3], 10) ⟨[], 0, []⟩).2 = .err ∧
    ((hist toyLib toyDev (toyCalls ++ [.clear])).run toyLib toyDev ([4, 6, 3], 10) ⟨[], 0, []⟩).2 = .ok ⟨[], 0, []⟩ ([4, 6, 3], 10) :=
  ⟨rfl, rfl, rfl⟩

/-- non-vacuity of the termination theorem: reference sets as required exist for every graph -/
example : ∃ refs, RefsOk { toyDev with refs := refs } := by
  classical
  have key : ∀ (h : Arena (List Int × Int)), ∃ r : Nat → Nat → Bool, ∀ fuel st,
      walk (graphOf h) fuel (walkInit (sinks h)) = some st → ∃ l, IsSchedule st l ∧ r = refsOf (buildRefs (graphOf h) l) := by
    intro h
    by_cases hw : ∃ fuel st, walk (graphOf h) fuel (walkInit (sinks h)) = some st
    · obtain ⟨k, st, hk⟩ := hw
      let l := (st.keys.map fun n => (n, (st.depth n).getD 0)).mergeSort (fun a b => decide (b.2 ≤ a.2))
      refine ⟨refsOf (buildRefs (graphOf h) l), ?_⟩
      intro fuel st' hs
      have : st' = st := by
        have a := walk_fuel (graphOf h) fuel k _ st' hs
        have b := walk_fuel (graphOf h) k fuel _ st hk
        rw [Nat.add_comm, b] at a
        exact (Option.some.inj a).symm
      subst this
      refine ⟨l, ⟨List.mergeSort_perm _ _, ?_⟩, rfl⟩
      have := List.pairwise_mergeSort (le := fun (a b : Nat × Nat) => decide (b.2 ≤ a.2))
        (by intro a b c h1 h2; simp at *; omega) (by intro a b; simp; omega) (st'.keys.map fun n => (n, (st'.depth n).getD 0))
      exact this.imp (by intro a b hab; simpa using hab)
    · exact ⟨fun _ _ => false, fun fuel st hs => absurd ⟨fuel, st, hs⟩ hw⟩
  exact ⟨fun h => (key h).choose, fun h => (key h).choose_spec⟩

/-- The claim about clones is false: a filter without a compiled program (no steps, or not compiled since it was made) cannot be
cloned, `other.m_program->clone()` dereferences a null pointer. -/
theorem C68_clone_uncompiled_false : ¬ CloneClaim toyLib toyDev := by
  intro h
  obtain ⟨f, hf, -⟩ := h [.step .toFloat] []
  cases hf

/-- the filter of the examples, compiled with `x * 3` -/
def tripled : List (Call Int (List Int × Int)) := [.step (.scale 3), .compile]

/-- A step added to the original after it was compiled is not in its clone, which keeps the old program and is marked compiled. -/
theorem C68_clone_stale_false : ∃ f, (hist toyLib toyDev (tripled ++ [.step (.scale 5)])).clone = some f ∧
    (f.run toyLib toyDev ([2, 2, 1], 1) ⟨[], 0, []⟩).2 = .ok ⟨[], 0, []⟩ ([1, 2, 2, 1], 3) ∧
    Wanted toyLib (stepsOf (tripled ++ [.step (.scale 5)])) ([2, 2, 1], 1) = some ([1, 2, 2, 1], 15) :=
  ⟨_, rfl, rfl, by decide +kernel⟩

/-- A step added to a clone replaces all steps of the original: the clone's graph contains only the input. -/
theorem C68_clone_forgets_false : ∃ f, (hist toyLib toyDev tripled).clone = some f ∧
    ((f.exec toyLib toyDev (.step (.scale 5))).run toyLib toyDev ([2, 2, 1], 1) ⟨[], 0, []⟩).2 = .ok ⟨[], 0, []⟩ ([1, 2, 2, 1], 5) ∧
    Wanted toyLib (stepsAfter (stepsOf tripled) (.step (.scale 5) : Call Int (List Int × Int))) ([2, 2, 1], 1) =
      some ([1, 2, 2, 1], 15) :=
  ⟨_, rfl, rfl, by decide +kernel⟩

end Verif.Props
