import Verif.Api.Tensor
import Verif.Core.ReshapeLemmas
import Mathlib.Data.List.Basic
/-!
# C73: tensors of the C interface own or share their memory

Everything is said about calls and what they return: `content s h` is what a caller reads through the handle `h` (`none` if reading is undefined), and `Reachable s`
that `s` is the state after some calls. Conversions of elements are a parameter, of which only the length of the result matters.
-/
namespace Verif.Props
open Verif.Core Verif.Api Verif.Spec

variable {α : Type}

/-- what reading all elements of a tensor gives -/
def content (s : State α) (h : Nat) : Option (List α) :=
  match s.deref (some h) with
  | .ok r => (match s.touch r with | .ok l => some l | _ => none)
  | _ => none

/-- the handle that a call is given -/
def passed : Call α → Option Nat
  | .new _ _ _ => none
  | .free h => h
  | .proto h => h
  | .read h => h
  | .write h _ _ => h
  | .clone h => h
  | .reshape h _ => h
  | .slice h _ => h
  | .slice2 h _ _ => h
  | .cast h _ => h

/-- the states that programs can reach -/
def Reachable (junk : α) (conv : Nat → Nat → List α → Res (List α)) (s : State α) : Prop := ∃ cs, runAll junk conv State.init cs = some s

/-- the tensor stays readable until its own handle is deleted, whatever else the program does -/
def Survives (junk : α) (conv : Nat → Nat → List α → Res (List α)) (s : State α) (h : Nat) : Prop :=
  ∀ cs s', runAll junk conv s cs = some s' → (∀ c ∈ cs, c ≠ .free (some h)) → ∃ l, content s' h = some l

/-- conversions keep the number of elements -/
def KeepsLength (conv : Nat → Nat → List α → Res (List α)) : Prop := ∀ a b l l', conv a b l = .ok l' → l'.length = l.length

/-! ## What a step changes -/

inductive Change (s : State α) (c : Call α) : State α → Out α → Prop
  | same (f : Bool) (o : Out α) (h : ∀ n, o ≠ .handle n) : Change s c ⟨s.blocks, s.handles, f⟩ o
  | alloc (dtype : Nat) (shape : List Int) (l : List α) (f : Bool) :
      Change s c ⟨s.blocks ++ [l], s.handles ++ [some ⟨dtype, shape, s.blocks.length, 0, l.length, true⟩], f⟩ (.handle s.handles.length)
  | share (h : Nat) (r r' : Ref) (f : Bool) (hc : passed c = some h) (hr : s.handles[h]? = some (some r)) (hb : r'.block = r.block)
      (ho : r'.owner = true → r.owner = true ∧ r'.off = r.off ∧ r'.len = r.len) :
      Change s c ⟨s.blocks, s.handles ++ [some r'], f⟩ (.handle s.handles.length)
  | free (h : Nat) (f : Bool) (hc : c = .free (some h)) : Change s c ⟨s.blocks, s.handles.set h none, f⟩ .done
  | write (h : Nat) (r : Ref) (k : Nat) (v : α) (f : Bool) (hc : passed c = some h) (hr : s.handles[h]? = some (some r)) :
      Change s c ⟨s.blocks.modify r.block (·.set (r.off + k) v), s.handles, f⟩ .done

theorem deref_ok {s : State α} {h : Option Nat} {r : Ref} (e : s.deref h = .ok r) : ∃ n, h = some n ∧ s.handles[n]? = some (some r) := by
  cases h with
  | none => cases e
  | some n =>
    refine ⟨n, rfl, ?_⟩
    simp only [State.deref] at e
    split at e
    · next r' h' => rw [h']; rw [Res.ok.inj e]
    · cases e

theorem bind_ok_inv {β γ : Type} {x : Res β} {f : β → Res γ} {c : γ} (h : (x >>= f) = .ok c) : ∃ b, x = .ok b ∧ f b = .ok c := by
  cases x with
  | ok b => exact ⟨b, rfl, h⟩
  | err => cases h
  | ub => cases h

theorem body_change (junk : α) (conv : Nat → Nat → List α → Res (List α)) (s : State α) (c : Call α) (s' : State α) (o : Out α)
    (h : body junk conv { s with failed := false } c = .ok (s', o)) : Change s c s' o := by
  cases c with
  | new dtype shape data =>
    simp only [body, newTensor] at h
    obtain ⟨sh, -, h⟩ := bind_ok_inv h
    cases data with
    | none =>
      obtain ⟨n, -, h⟩ := bind_ok_inv h
      cases h
      exact .alloc _ _ _ _
    | some d =>
      simp only at h
      split at h
      · obtain ⟨n, -, h⟩ := bind_ok_inv h
        split at h
        · cases h
        · obtain ⟨f, -, h⟩ := bind_ok_inv h
          cases h
          exact .alloc _ _ _ _
      · cases h
  | free h' =>
    cases h' with
    | none => cases h; exact .same _ _ (fun _ => by simp)
    | some n =>
      simp only [body, freeTensor] at h
      obtain ⟨r, -, h⟩ := bind_ok_inv h
      cases h
      exact .free n _ rfl
  | proto h' =>
    simp only [body] at h
    obtain ⟨r, -, h⟩ := bind_ok_inv h
    cases h
    exact .same _ _ (fun _ => by simp)
  | read h' =>
    simp only [body] at h
    obtain ⟨r, -, h⟩ := bind_ok_inv h
    obtain ⟨l, -, h⟩ := bind_ok_inv h
    cases h
    exact .same _ _ (fun _ => by simp)
  | write h' k v =>
    simp only [body, writeTensor] at h
    obtain ⟨r, hr, h⟩ := bind_ok_inv h
    obtain ⟨l, -, h⟩ := bind_ok_inv h
    obtain ⟨n, hn, hr⟩ := deref_ok hr
    split at h
    · cases h; exact .write n r k v _ hn hr
    · cases h
  | clone h' =>
    simp only [body, cloneTensor] at h
    obtain ⟨r, -, h⟩ := bind_ok_inv h
    obtain ⟨l, -, h⟩ := bind_ok_inv h
    cases h
    exact .alloc _ _ _ _
  | reshape h' shape =>
    simp only [body, reshapeTensor] at h
    obtain ⟨r, hr, h⟩ := bind_ok_inv h
    obtain ⟨_, -, h⟩ := bind_ok_inv h
    obtain ⟨f, -, h⟩ := bind_ok_inv h
    obtain ⟨n, hn, hr⟩ := deref_ok hr
    cases h
    exact .share n r _ _ hn hr rfl (fun h => ⟨h, rfl, rfl⟩)
  | slice h' i =>
    simp only [body, sliceTensor] at h
    obtain ⟨r, hr, h⟩ := bind_ok_inv h
    obtain ⟨w, -, h⟩ := bind_ok_inv h
    obtain ⟨_, -, h⟩ := bind_ok_inv h
    obtain ⟨off, -, h⟩ := bind_ok_inv h
    obtain ⟨n, hn, hr⟩ := deref_ok hr
    cases h
    exact .share n r _ _ hn hr rfl (fun h => by simp at h)
  | slice2 h' beg fin =>
    simp only [body, slice2Tensor] at h
    obtain ⟨r, hr, h⟩ := bind_ok_inv h
    obtain ⟨n, hn, hr⟩ := deref_ok hr
    split at h
    · cases h
    · obtain ⟨w, -, h⟩ := bind_ok_inv h
      obtain ⟨_, -, h⟩ := bind_ok_inv h
      obtain ⟨_, -, h⟩ := bind_ok_inv h
      obtain ⟨_, -, h⟩ := bind_ok_inv h
      obtain ⟨off, -, h⟩ := bind_ok_inv h
      cases h
      exact .share n r _ _ hn hr rfl (fun h => by simp at h)
  | cast h' dtype =>
    simp only [body, castTensor] at h
    obtain ⟨r, hr, h⟩ := bind_ok_inv h
    obtain ⟨n, hn, hr⟩ := deref_ok hr
    split at h
    · cases h
      exact .share n r _ _ hn hr rfl (fun h => ⟨h, rfl, rfl⟩)
    · obtain ⟨l, -, h⟩ := bind_ok_inv h
      obtain ⟨d, -, h⟩ := bind_ok_inv h
      cases h
      exact .alloc _ _ _ _

theorem step_change {junk : α} {conv : Nat → Nat → List α → Res (List α)} {s : State α} {c : Call α} {s' : State α} {o : Out α}
    (h : step junk conv s c = some (s', o)) : Change s c s' o := by
  unfold step at h
  split at h
  · next r hr =>
    obtain rfl := Option.some.inj h
    exact body_change junk conv s c s' o hr
  · obtain ⟨rfl, rfl⟩ := Prod.mk.inj (Option.some.inj h)
    exact .same _ _ (fun _ => by simp)
  · cases h

/-! ## The invariant -/

/-- memory of owners is there -/
def Inv (s : State α) : Prop :=
  ∀ (h : Nat) (r : Ref), s.handles[h]? = some (some r) → ∃ c, s.blocks[r.block]? = some c ∧ (r.owner = true → r.off + r.len ≤ c.length)

theorem inv_step {s s' : State α} {c : Call α} {o : Out α} (hi : Inv s) (hc : Change s c s' o) : Inv s' := by
  intro h r hr
  cases hc with
  | same => exact hi h r hr
  | alloc dtype shape l f =>
    simp only [List.getElem?_append] at hr
    split at hr
    · obtain ⟨c, h1, h2⟩ := hi h r hr
      exact ⟨c, by simp only; rw [List.getElem?_append_left (List.getElem?_eq_some_iff.1 h1).1, h1], h2⟩
    · rw [List.getElem?_singleton] at hr
      split at hr
      · obtain rfl := Option.some.inj (Option.some.inj hr)
        exact ⟨l, by simp, fun _ => by simp⟩
      · cases hr
  | share h0 r0 r' f hp hr0 hb ho =>
    simp only [List.getElem?_append] at hr
    split at hr
    · exact hi h r hr
    · rw [List.getElem?_singleton] at hr
      split at hr
      · obtain rfl := Option.some.inj (Option.some.inj hr)
        obtain ⟨c, h1, h2⟩ := hi h0 r0 hr0
        refine ⟨c, by simp only; rw [hb, h1], fun h => ?_⟩
        obtain ⟨a, b, d⟩ := ho h
        rw [b, d]; exact h2 a
      · cases hr
  | free h0 f hp =>
    simp only [List.getElem?_set] at hr
    split at hr
    · split at hr <;> cases hr
    · exact hi h r hr
  | write h0 r0 k v f hp hr0 =>
    obtain ⟨c, h1, h2⟩ := hi h r hr
    simp only [List.getElem?_modify, h1]
    refine ⟨if r0.block = r.block then c.set (r0.off + k) v else c, by split <;> rfl, fun h => ?_⟩
    split
    · rw [List.length_set]; exact h2 h
    · exact h2 h

theorem inv_run {junk : α} {conv : Nat → Nat → List α → Res (List α)} {cs : List (Call α)} {s s' : State α} (hi : Inv s)
    (h : runAll junk conv s cs = some s') : Inv s' := by
  induction cs generalizing s with
  | nil => cases h; exact hi
  | cons c cs ih =>
    simp only [runAll] at h
    split at h
    · next s1 o e => exact ih (inv_step hi (step_change e)) h
    · cases h

theorem inv_reachable {junk : α} {conv : Nat → Nat → List α → Res (List α)} {s : State α} (h : Reachable junk conv s) : Inv s := by
  obtain ⟨cs, h⟩ := h
  exact inv_run (fun h r hr => by simp [State.init] at hr) h

theorem alive_iff {s : State α} {b : Nat} : s.alive b = true ↔ ∃ (h : Nat) (r : Ref), s.handles[h]? = some (some r) ∧ r.owner = true ∧ r.block = b := by
  unfold State.alive
  rw [List.any_eq_true]
  constructor
  · rintro ⟨o, ho, h⟩
    cases o with
    | none => cases h
    | some r =>
      simp only [Bool.and_eq_true, decide_eq_true_eq] at h
      obtain ⟨n, hn⟩ := List.mem_iff_getElem?.1 ho
      exact ⟨n, r, hn, h⟩
  · rintro ⟨n, r, hn, h1, h2⟩
    exact ⟨some r, List.mem_of_getElem? hn, by simp [h1, h2]⟩

theorem content_of {s : State α} {h : Nat} {r : Ref} (hr : s.handles[h]? = some (some r)) :
    content s h = (match s.touch r with | .ok l => some l | _ => none) := by
  unfold content
  simp only [State.deref, hr]

theorem content_owner {s : State α} {h : Nat} {r : Ref} {c : List α} (hr : s.handles[h]? = some (some r)) (ho : s.alive r.block = true)
    (hc : s.blocks[r.block]? = some c) (hl : r.off + r.len ≤ c.length) : content s h = some ((c.drop r.off).take r.len) := by
  rw [content_of hr]
  unfold State.touch
  rw [if_pos ho, hc]
  simp only
  rw [if_pos hl]

/-- a handle stays as long as it is not deleted -/
theorem handle_stays {s s' : State α} {c : Call α} {o : Out α} {h : Nat} {r : Ref} (hr : s.handles[h]? = some (some r)) (hc : Change s c s' o)
    (hf : c ≠ .free (some h)) : s'.handles[h]? = some (some r) := by
  have hlt := (List.getElem?_eq_some_iff.1 hr).1
  cases hc with
  | same => exact hr
  | alloc => simp only; rw [List.getElem?_append_left hlt, hr]
  | share => simp only; rw [List.getElem?_append_left hlt, hr]
  | free h0 f hp =>
    simp only
    rw [List.getElem?_set_ne (fun e => hf (by rw [hp, e])), hr]
  | write => exact hr

theorem handle_stays_run {junk : α} {conv : Nat → Nat → List α → Res (List α)} {cs : List (Call α)} {s s' : State α} {h : Nat} {r : Ref}
    (hr : s.handles[h]? = some (some r)) (hrun : runAll junk conv s cs = some s') (hf : ∀ c ∈ cs, c ≠ .free (some h)) :
    s'.handles[h]? = some (some r) := by
  induction cs generalizing s with
  | nil => cases hrun; exact hr
  | cons c cs ih =>
    simp only [runAll] at hrun
    split at hrun
    · next s1 o e => exact ih (handle_stays hr (step_change e) (hf c (by simp))) hrun (fun c' hc => hf c' (by simp [hc]))
    · cases hrun

theorem survives_of_owner {junk : α} {conv : Nat → Nat → List α → Res (List α)} {s : State α} {h : Nat} {r : Ref} (hi : Inv s)
    (hr : s.handles[h]? = some (some r)) (ho : r.owner = true) : Survives junk conv s h := by
  intro cs s' hrun hf
  have hr' := handle_stays_run hr hrun hf
  obtain ⟨c, h1, h2⟩ := inv_run hi hrun h r hr'
  exact ⟨_, content_owner hr' (alive_iff.2 ⟨h, r, hr', ho, rfl⟩) h1 (h2 ho)⟩

/-! ## Independence -/

/-- only the handle `h` refers to its block -/
def Sole (s : State α) (h : Nat) (r : Ref) : Prop :=
  s.handles[h]? = some (some r) ∧ r.owner = true ∧ ∀ (h' : Nat) (r' : Ref), s.handles[h']? = some (some r') → r'.block = r.block → h' = h

theorem sole_step {s s' : State α} {c : Call α} {o : Out α} {h : Nat} {r : Ref} (hi : Inv s) (hs : Sole s h r) (hc : Change s c s' o)
    (hp : passed c ≠ some h) : Sole s' h r ∧ s'.blocks[r.block]? = s.blocks[r.block]? := by
  obtain ⟨hr, ho, hu⟩ := hs
  have hr' : s'.handles[h]? = some (some r) := handle_stays hr hc (fun e => hp (by rw [e]; rfl))
  obtain ⟨b, hb, -⟩ := hi h r hr
  have hblt := (List.getElem?_eq_some_iff.1 hb).1
  refine ⟨⟨hr', ho, fun h' r' hr'' hb' => ?_⟩, ?_⟩
  · cases hc with
    | same => exact hu h' r' hr'' hb'
    | alloc dtype shape l f =>
      simp only [List.getElem?_append] at hr''
      split at hr''
      · exact hu h' r' hr'' hb'
      · rw [List.getElem?_singleton] at hr''
        split at hr''
        · obtain rfl := Option.some.inj (Option.some.inj hr'')
          simp only at hb'
          omega
        · cases hr''
    | share h0 r0 r1 f hp0 hr0 hb0 ho0 =>
      simp only [List.getElem?_append] at hr''
      split at hr''
      · exact hu h' r' hr'' hb'
      · rw [List.getElem?_singleton] at hr''
        split at hr''
        · obtain rfl := Option.some.inj (Option.some.inj hr'')
          exact absurd (by rw [hp0, hu h0 r0 hr0 (by rw [← hb0, hb'])]) hp
        · cases hr''
    | free h0 f hp0 =>
      simp only [List.getElem?_set] at hr''
      split at hr''
      · split at hr'' <;> cases hr''
      · exact hu h' r' hr'' hb'
    | write h0 r0 k v f hp0 hr0 => exact hu h' r' hr'' hb'
  · cases hc with
    | same => rfl
    | alloc => simp only; rw [List.getElem?_append_left hblt]
    | share => rfl
    | free => rfl
    | write h0 r0 k v f hp0 hr0 =>
      have hne : r0.block ≠ r.block := fun e => hp (by rw [hp0, hu h0 r0 hr0 e])
      simp [List.getElem?_modify, hne]

theorem sole_run {junk : α} {conv : Nat → Nat → List α → Res (List α)} {cs : List (Call α)} {s s' : State α} {h : Nat} {r : Ref} (hi : Inv s)
    (hs : Sole s h r) (hrun : runAll junk conv s cs = some s') (hp : ∀ c ∈ cs, passed c ≠ some h) : content s' h = content s h := by
  have key : Sole s' h r ∧ s'.blocks[r.block]? = s.blocks[r.block]? := by
    induction cs generalizing s with
    | nil => cases hrun; exact ⟨hs, rfl⟩
    | cons c cs ih =>
      simp only [runAll] at hrun
      split at hrun
      · next s1 o e =>
        obtain ⟨h1, h2⟩ := sole_step hi hs (step_change e) (hp c (by simp))
        obtain ⟨h3, h4⟩ := ih (inv_step hi (step_change e)) h1 hrun (fun c' hc => hp c' (by simp [hc]))
        exact ⟨h3, h4.trans h2⟩
      · cases hrun
  obtain ⟨c, hc, hl⟩ := hi h r hs.1
  rw [content_owner key.1.1 (alive_iff.2 ⟨h, r, key.1.1, hs.2.1, rfl⟩) (key.2.trans hc) (hl hs.2.1),
    content_owner hs.1 (alive_iff.2 ⟨h, r, hs.1, hs.2.1, rfl⟩) hc (hl hs.2.1)]

/-- a tensor with memory of its own -/
theorem alloc_sole {s : State α} (hi : Inv s) (dtype : Nat) (shape : List Int) (l : List α) (f : Bool) :
    Sole ⟨s.blocks ++ [l], s.handles ++ [some ⟨dtype, shape, s.blocks.length, 0, l.length, true⟩], f⟩ s.handles.length
      ⟨dtype, shape, s.blocks.length, 0, l.length, true⟩ := by
  refine ⟨by simp, rfl, fun h' r' hr hb => ?_⟩
  simp only [List.getElem?_append] at hr
  split at hr
  · obtain ⟨c, hc, -⟩ := hi h' r' hr
    have := (List.getElem?_eq_some_iff.1 hc).1
    simp only at hb
    omega
  · rw [List.getElem?_singleton] at hr
    split at hr
    · omega
    · cases hr

theorem alloc_content {s : State α} (dtype : Nat) (shape : List Int) (l : List α) (f : Bool) :
    content (⟨s.blocks ++ [l], s.handles ++ [some ⟨dtype, shape, s.blocks.length, 0, l.length, true⟩], f⟩ : State α) s.handles.length = some l := by
  rw [content_owner (r := ⟨dtype, shape, s.blocks.length, 0, l.length, true⟩) (c := l) (by simp)
    (alive_iff.2 ⟨s.handles.length, ⟨dtype, shape, s.blocks.length, 0, l.length, true⟩, by simp, rfl, rfl⟩) (by simp) (by simp)]
  simp

/-- nothing that exists already is changed by a tensor with memory of its own -/
theorem alloc_old {s : State α} (hi : Inv s) (dtype : Nat) (shape : List Int) (l : List α) (f : Bool) (h : Nat) (hh : h < s.handles.length) :
    content (⟨s.blocks ++ [l], s.handles ++ [some ⟨dtype, shape, s.blocks.length, 0, l.length, true⟩], f⟩ : State α) h = content s h := by
  unfold content
  simp only [State.deref]
  rw [List.getElem?_append_left hh]
  rcases hr : s.handles[h]? with _ | _ | r
  · rfl
  · rfl
  · simp only
    obtain ⟨c, hc, -⟩ := hi h r hr
    have hlt := (List.getElem?_eq_some_iff.1 hc).1
    unfold State.touch
    have ha : (⟨s.blocks ++ [l], s.handles ++ [some ⟨dtype, shape, s.blocks.length, 0, l.length, true⟩], f⟩ : State α).alive r.block = s.alive r.block := by
      unfold State.alive
      simp only [List.any_append, List.any_cons, List.any_nil, Bool.or_false, Bool.true_and]
      have : decide (s.blocks.length = r.block) = false := by simp; omega
      rw [this, Bool.or_false]
    rw [ha, List.getElem?_append_left hlt]

/-! ## The property -/

/-- type and shape of a tensor -/
def protoOf (s : State α) (h : Nat) : Option (Nat × List Int) :=
  match s.deref (some h) with
  | .ok r => some (r.dtype, r.shape)
  | _ => none

/-- all tensors read as before -/
def Keeps (s s' : State α) : Prop := ∀ (h : Nat) (l : List α), content s h = some l → content s' h = some l ∧ protoOf s' h = protoOf s h

/-- whatever a program does without this handle, the tensor reads the same; and until the program uses the handle, assignments through it change no other tensor -/
def Private (junk : α) (conv : Nat → Nat → List α → Res (List α)) (s : State α) (h : Nat) : Prop :=
  ∀ cs s', runAll junk conv s cs = some s' → (∀ c ∈ cs, passed c ≠ some h) →
    content s' h = content s h ∧
    ∀ k v s'' o, step junk conv s' (.write (some h) k v) = some (s'', o) → ∀ h', h' ≠ h → content s'' h' = content s' h'

/-- whatever a program does, as long as it deletes neither of the two tensors: what one reads is a function of what the other reads -/
def Follows (junk : α) (conv : Nat → Nat → List α → Res (List α)) (s : State α) (a b : Nat) (f : List α → List α) : Prop :=
  ∀ cs s', runAll junk conv s cs = some s' → (∀ c ∈ cs, c ≠ .free (some a) ∧ c ≠ .free (some b)) → content s' b = (content s' a).map f

/-- what the result of a call with memory of its own is -/
def Fresh (junk : α) (conv : Nat → Nat → List α → Res (List α)) (s s' : State α) (n : Nat) (dtype : Nat) (shape : List Int) (l : List α) : Prop :=
  content s' n = some l ∧ protoOf s' n = some (dtype, shape) ∧ protoOf s n = none ∧ Keeps s s' ∧ s'.failed = false ∧
    Survives junk conv s' n ∧ Private junk conv s' n

theorem content_same {s s' : State α} (h1 : s'.blocks = s.blocks) (h2 : s'.handles = s.handles) (h : Nat) : content s' h = content s h := by
  unfold content State.deref State.touch State.alive
  rw [h1, h2]

theorem inv_same {s s' : State α} (h1 : s'.blocks = s.blocks) (h2 : s'.handles = s.handles) (hi : Inv s) : Inv s' := by
  unfold Inv at hi ⊢
  rw [h1, h2]; exact hi

theorem protoOf_of {s : State α} {h : Nat} {r : Ref} (hr : s.handles[h]? = some (some r)) : protoOf s h = some (r.dtype, r.shape) := by
  unfold protoOf
  simp only [State.deref, hr]

theorem content_some {s : State α} {h : Nat} {l : List α} (e : content s h = some l) :
    ∃ r c, s.handles[h]? = some (some r) ∧ s.alive r.block = true ∧ s.blocks[r.block]? = some c ∧ r.off + r.len ≤ c.length ∧
      l = (c.drop r.off).take r.len := by
  unfold content at e
  split at e
  · next r hd =>
    obtain ⟨n, hn, hr⟩ := deref_ok hd
    obtain rfl := Option.some.inj hn
    refine ⟨r, ?_⟩
    split at e
    · next l' ht =>
      obtain rfl := Option.some.inj e
      unfold State.touch at ht
      split at ht
      · next ha =>
        split at ht
        · next c hc =>
          split at ht
          · next hl => exact ⟨c, hr, ha, hc, hl, (Res.ok.inj ht).symm⟩
          · cases ht
        · cases ht
      · cases ht
    · cases e
  · cases e

theorem deref_of {s : State α} {h : Nat} {r : Ref} (hr : s.handles[h]? = some (some r)) : s.deref (some h) = .ok r := by
  simp only [State.deref, hr]

theorem touch_of {s : State α} {h : Nat} {l : List α} {r : Ref} (e : content s h = some l) (hr : s.handles[h]? = some (some r)) : s.touch r = .ok l := by
  rw [content_of hr] at e
  split at e
  · next l' ht => rw [ht, Option.some.inj e]
  · cases e

theorem write_step {junk : α} {conv : Nat → Nat → List α → Res (List α)} {s : State α} {h : Nat} {r : Ref} (hr : s.handles[h]? = some (some r))
    {k : Nat} {v : α} {s'' : State α} {o : Out α} (hw : step junk conv s (.write (some h) k v) = some (s'', o)) :
    s''.handles = s.handles ∧ s''.blocks = s.blocks.modify r.block (·.set (r.off + k) v) := by
  simp only [step, body, writeTensor, deref_of (s := { s with failed := false }) hr, Res.bind_ok] at hw
  unfold State.touch at hw
  split at hw
  · next x hok =>
    obtain rfl := Option.some.inj hw
    obtain ⟨l, -, hok⟩ := bind_ok_inv hok
    split at hok
    · have := Res.ok.inj hok
      obtain ⟨rfl, -⟩ := Prod.mk.inj this
      exact ⟨rfl, rfl⟩
    · cases hok
  · next hok =>
    exfalso
    split at hok
    · split at hok
      · split at hok
        · rw [Res.bind_ok] at hok; split at hok <;> cases hok
        · cases hok
      · cases hok
    · cases hok
  · cases hw

/-- assignments through a handle that is the only one of its block -/
theorem sole_write {junk : α} {conv : Nat → Nat → List α → Res (List α)} {s : State α} {h : Nat} {r : Ref} (hs : Sole s h r) (k : Nat) (v : α)
    (s'' : State α) (o : Out α) (hw : step junk conv s (.write (some h) k v) = some (s'', o)) (h' : Nat) (hne : h' ≠ h) :
    content s'' h' = content s h' := by
  have key : s''.handles = s.handles ∧ ∀ b, b ≠ r.block → s''.blocks[b]? = s.blocks[b]? := by
    obtain ⟨h1, h2⟩ := write_step hs.1 hw
    exact ⟨h1, fun b hb => by rw [h2]; simp [List.getElem?_modify, Ne.symm hb]⟩
  rcases hr : s.handles[h']? with _ | _ | r'
  · simp [content, State.deref, key.1, hr]
  · simp [content, State.deref, key.1, hr]
  · have hb : r'.block ≠ r.block := fun e => hne (hs.2.2 h' r' hr e)
    rw [content_of hr, content_of (s := s'') (r := r') (by rw [key.1, hr])]
    unfold State.touch State.alive
    rw [key.1, key.2 _ hb]

theorem sole_stays {junk : α} {conv : Nat → Nat → List α → Res (List α)} {cs : List (Call α)} {s s' : State α} {h : Nat} {r : Ref} (hi : Inv s)
    (hs : Sole s h r) (hrun : runAll junk conv s cs = some s') (hp : ∀ c ∈ cs, passed c ≠ some h) : Sole s' h r := by
  induction cs generalizing s with
  | nil => cases hrun; exact hs
  | cons c cs ih =>
    simp only [runAll] at hrun
    split at hrun
    · next s1 o e =>
      exact ih (inv_step hi (step_change e)) (sole_step hi hs (step_change e) (hp c (by simp))).1 hrun (fun c' hc => hp c' (by simp [hc]))
    · cases hrun

theorem private_of_sole {junk : α} {conv : Nat → Nat → List α → Res (List α)} {s : State α} {h : Nat} {r : Ref} (hi : Inv s) (hs : Sole s h r) :
    Private junk conv s h :=
  fun _ _ hrun hp => ⟨sole_run hi hs hrun hp, fun k v s'' o hw h' hne => sole_write (sole_stays hi hs hrun hp) k v s'' o hw h' hne⟩

theorem alloc_fresh {junk : α} {conv : Nat → Nat → List α → Res (List α)} {s : State α} (hi : Inv s) (dtype : Nat) (shape : List Int) (l : List α) :
    Fresh junk conv s (({ s with failed := false } : State α).alloc dtype shape l).1 s.handles.length dtype shape l := by
  have hch : Change s (.new dtype shape none) (({ s with failed := false } : State α).alloc dtype shape l).1 (.handle s.handles.length) := .alloc _ _ _ _
  have hi' := inv_step hi hch
  have hr : (({ s with failed := false } : State α).alloc dtype shape l).1.handles[s.handles.length]? =
      some (some ⟨dtype, shape, s.blocks.length, 0, l.length, true⟩) := by simp [State.alloc]
  refine ⟨alloc_content dtype shape l false, ?_, ?_, ?_, rfl, ?_, ?_⟩
  · rw [protoOf_of hr]
  · unfold protoOf State.deref; simp
  · intro h l' e
    obtain ⟨r, c, h1, -⟩ := content_some e
    have hlt := (List.getElem?_eq_some_iff.1 h1).1
    refine ⟨by rw [← e]; exact alloc_old hi dtype shape l false h hlt, ?_⟩
    unfold protoOf State.deref State.alloc
    simp only
    rw [List.getElem?_append_left hlt]
  · exact survives_of_owner hi' hr rfl
  · exact private_of_sole hi' (alloc_sole hi dtype shape l false)

theorem allocCount_ok {dtype : Nat} {e : List Nat} (ht : 0 < typeBytes dtype) (hn : NoOverflow e) (hb : prod e * typeBytes dtype ≤ 2147483647) :
    allocCount dtype (ints e) = .ok (prod e) := by
  unfold allocCount
  have := prod32_ok (acc := 1) hn.pfits
  simp only [Int.natCast_one, Nat.one_mul] at this
  rw [this, Res.bind_ok, show ((prod e : Nat) : Int) * ((typeBytes dtype : Nat) : Int) = ((prod e * typeBytes dtype : Nat) : Int) by rw [Int.natCast_mul],
    int32_ok (i32_nat hb), Res.bind_ok, if_neg (by omega), if_neg (by omega)]
  simp

/-- a new tensor reads the data that it was given, and is independent of everything else -/
theorem C73_new (junk : α) (conv : Nat → Nat → List α → Res (List α)) (s : State α) (hs : Reachable junk conv s) (dtype : Nat) (e : List Nat) (d : List α)
    (ht : dtype ∈ [1, 2, 3, 4, 5, 6, 7, 8, 10, 11, 13]) (hl : e.length ≤ 7) (hn : NoOverflow e) (hb : prod e * typeBytes dtype ≤ 2147483647)
    (hd : prod e ≤ d.length) :
    ∃ s' n, step junk conv s (.new dtype (ints e) (some d)) = some (s', .handle n) ∧ Fresh junk conv s s' n dtype (ints e) (d.take (prod e)) := by
  have hpos : 0 < typeBytes dtype := by
    simp only [List.mem_cons, List.not_mem_nil, or_false] at ht
    rcases ht with rfl | rfl | rfl | rfl | rfl | rfl | rfl | rfl | rfl | rfl | rfl <;> decide
  have hn1 : NoOverflow [prod e] := by
    have h0 := hn e.length
    rw [List.take_length] at h0
    intro k
    cases k with
    | zero => simp [prod]
    | succ k => simpa [prod] using h0
  have hr : reshapeShape [((prod e : Nat) : Int)] (ints e) = .ok (ints e) := by
    have := reshapeShape_nat hn1 hn
    rw [if_pos (by simp [prod])] at this
    exact this
  refine ⟨_, _, ?_, alloc_fresh (inv_reachable hs) dtype (ints e) (d.take (prod e))⟩
  unfold step body newTensor asShape
  simp only [ints_length, hl, if_true, Res.bind_ok]
  rw [if_pos (by unfold builtType; exact decide_eq_true ht), allocCount_ok hpos hn hb, Res.bind_ok, if_neg (by omega), hr, Res.bind_ok]
  simp [State.alloc]

/-- without data the memory is not initialised, but as private -/
theorem C73_new_empty (junk : α) (conv : Nat → Nat → List α → Res (List α)) (s : State α) (hs : Reachable junk conv s) (dtype : Nat) (e : List Nat)
    (ht : 0 < typeBytes dtype) (hl : e.length ≤ 7) (hn : NoOverflow e) (hb : prod e * typeBytes dtype ≤ 2147483647) :
    ∃ s' n, step junk conv s (.new dtype (ints e) none) = some (s', .handle n) ∧
      ∃ l, l.length = prod e ∧ Fresh junk conv s s' n dtype (ints e) l := by
  refine ⟨_, _, ?_, List.replicate (prod e) junk, by simp, alloc_fresh (inv_reachable hs) dtype (ints e) _⟩
  unfold step body newTensor asShape
  simp only [ints_length, hl, if_true, Res.bind_ok]
  rw [allocCount_ok ht hn hb, Res.bind_ok]
  simp [State.alloc]

/-- a clone reads the same and is independent -/
theorem C73_clone (junk : α) (conv : Nat → Nat → List α → Res (List α)) (s : State α) (hs : Reachable junk conv s) (h : Nat) (l : List α)
    (e : content s h = some l) :
    ∃ s' n dtype shape, step junk conv s (.clone (some h)) = some (s', .handle n) ∧ protoOf s h = some (dtype, shape) ∧
      Fresh junk conv s s' n dtype shape l := by
  obtain ⟨r, c, hr, -⟩ := content_some e
  refine ⟨_, _, _, _, ?_, protoOf_of hr, alloc_fresh (inv_reachable hs) r.dtype r.shape l⟩
  have e' : content ({ s with failed := false } : State α) h = some l := by rw [← e]; exact content_same rfl rfl h
  simp only [step, body, cloneTensor]
  rw [deref_of (s := { s with failed := false }) hr, Res.bind_ok, touch_of e' hr]
  rfl

/-- so is a tensor converted to another type -/
theorem C73_cast (junk : α) (conv : Nat → Nat → List α → Res (List α)) (s : State α) (hs : Reachable junk conv s) (h : Nat) (l l' : List α)
    (t dtype : Nat) (shape : List Int) (e : content s h = some l) (hp : protoOf s h = some (t, shape)) (hne : t ≠ dtype) (hc : conv t dtype l = .ok l') :
    ∃ s' n, step junk conv s (.cast (some h) dtype) = some (s', .handle n) ∧ Fresh junk conv s s' n dtype shape l' := by
  obtain ⟨r, c, hr, -⟩ := content_some e
  rw [protoOf_of hr] at hp
  obtain ⟨rfl, rfl⟩ := Prod.mk.inj (Option.some.inj hp)
  refine ⟨_, _, ?_, alloc_fresh (inv_reachable hs) dtype r.shape l'⟩
  have e' : content ({ s with failed := false } : State α) h = some l := by rw [← e]; exact content_same rfl rfl h
  simp only [step, body, castTensor]
  rw [deref_of (s := { s with failed := false }) hr, Res.bind_ok, if_neg hne, touch_of e' hr, Res.bind_ok, hc]
  rfl

/-! ### Views -/

/-- blocks keep their size -/
theorem block_length {s s' : State α} {c : Call α} {o : Out α} {b : Nat} {l : List α} (hl : s.blocks[b]? = some l) (hc : Change s c s' o) :
    ∃ l', s'.blocks[b]? = some l' ∧ l'.length = l.length := by
  have hlt := (List.getElem?_eq_some_iff.1 hl).1
  cases hc with
  | same => exact ⟨l, hl, rfl⟩
  | alloc => exact ⟨l, by simp only; rw [List.getElem?_append_left hlt, hl], rfl⟩
  | share => exact ⟨l, hl, rfl⟩
  | free => exact ⟨l, hl, rfl⟩
  | write h0 r0 k v f hp hr0 =>
    simp only [List.getElem?_modify, hl]
    by_cases h : r0.block = b
    · exact ⟨l.set (r0.off + k) v, by simp [h], by simp⟩
    · exact ⟨l, by simp [h], rfl⟩

theorem block_length_run {junk : α} {conv : Nat → Nat → List α → Res (List α)} {cs : List (Call α)} {s s' : State α} {b : Nat} {l : List α}
    (hl : s.blocks[b]? = some l) (hrun : runAll junk conv s cs = some s') : ∃ l', s'.blocks[b]? = some l' ∧ l'.length = l.length := by
  induction cs generalizing s l with
  | nil => cases hrun; exact ⟨l, hl, rfl⟩
  | cons c cs ih =>
    simp only [runAll] at hrun
    split at hrun
    · next s1 o e =>
      obtain ⟨l1, h1, h2⟩ := block_length hl (step_change e)
      obtain ⟨l2, h3, h4⟩ := ih h1 hrun
      exact ⟨l2, h3, h4.trans h2⟩
    · cases hrun

/-- a view reads a part of what the original reads, for ever -/
theorem follows_of {junk : α} {conv : Nat → Nat → List α → Res (List α)} {s : State α} {a b : Nat} {r r' : Ref} {l : List α} (k : Nat)
    (e : content s a = some l) (hr : s.handles[a]? = some (some r)) (hr' : s.handles[b]? = some (some r')) (hb : r'.block = r.block)
    (ho : r'.off = r.off + k) (hl : k + r'.len ≤ r.len) : Follows junk conv s a b (fun l => (l.drop k).take r'.len) := by
  intro cs s' hrun hf
  have ha := handle_stays_run hr hrun (fun c hc => (hf c hc).1)
  have hb' := handle_stays_run hr' hrun (fun c hc => (hf c hc).2)
  obtain ⟨r0, c0, h1, -, h3, h4, -⟩ := content_some e
  obtain rfl : r = r0 := Option.some.inj (Option.some.inj (hr.symm.trans h1))
  obtain ⟨c1, h5, h6⟩ := block_length_run h3 hrun
  by_cases hal : s'.alive r.block = true
  · rw [content_owner ha hal h5 (by omega), content_owner hb' (by rw [hb]; exact hal) (by rw [hb]; exact h5) (by omega)]
    simp only [Option.map_some]
    congr 1
    rw [ho, ← List.drop_drop, List.drop_take, List.take_take, Nat.min_eq_left (by omega)]
  · rw [content_of ha, content_of hb']
    unfold State.touch
    rw [hb, if_neg hal, if_neg hal]
    rfl

/-- `share` keeps what there is -/
theorem share_keeps {s : State α} (r' : Ref) (hdead : r'.owner = true → s.alive r'.block = true) (h : Nat) (hh : h < s.handles.length) :
    content (({ s with failed := false } : State α).share r').1 h = content s h ∧
    protoOf (({ s with failed := false } : State α).share r').1 h = protoOf s h := by
  have hg : (({ s with failed := false } : State α).share r').1.handles[h]? = s.handles[h]? := by
    simp only [State.share]
    rw [List.getElem?_append_left hh]
  have ha : ∀ b, (({ s with failed := false } : State α).share r').1.alive b = s.alive b := by
    intro b
    unfold State.alive State.share
    simp only [List.any_append, List.any_cons, List.any_nil, Bool.or_false]
    by_cases hx : r'.owner = true ∧ r'.block = b
    · have := hdead hx.1
      rw [hx.2] at this
      unfold State.alive at this
      rw [this, Bool.true_or]
    · have : (r'.owner && decide (r'.block = b)) = false := by
        by_cases hz : r'.owner = true
        · simp [hz]; exact fun e => hx ⟨hz, e⟩
        · simp [hz]
      rw [this, Bool.or_false]
  constructor
  · rcases hr : s.handles[h]? with _ | _ | r
    · simp [content, State.deref, hg, hr]
    · simp [content, State.deref, hg, hr]
    · rw [content_of hr, content_of (hg.trans hr)]
      unfold State.touch
      rw [ha]
      rfl
  · unfold protoOf State.deref
    simp only [hg]

/-- what the result of a call that shares the memory of `h` is: it reads `f` of what `h` reads, always -/
def View (junk : α) (conv : Nat → Nat → List α → Res (List α)) (s s' : State α) (h n : Nat) (dtype : Nat) (shape : List Int)
    (f : List α → List α) : Prop :=
  protoOf s' n = some (dtype, shape) ∧ protoOf s n = none ∧ Keeps s s' ∧ s'.failed = false ∧ Follows junk conv s' h n f

theorem alive_of_content {s : State α} {h : Nat} {l : List α} {r : Ref} (e : content s h = some l) (hr : s.handles[h]? = some (some r)) :
    s.alive r.block = true := by
  obtain ⟨r0, c0, h1, h2, -⟩ := content_some e
  obtain rfl : r = r0 := Option.some.inj (Option.some.inj (hr.symm.trans h1))
  exact h2

theorem share_view {junk : α} {conv : Nat → Nat → List α → Res (List α)} {s : State α} {h : Nat} {r r' : Ref} {l : List α} (k : Nat)
    (e : content s h = some l) (hr : s.handles[h]? = some (some r)) (hb : r'.block = r.block) (ho : r'.off = r.off + k) (hl : k + r'.len ≤ r.len) :
    View junk conv s (({ s with failed := false } : State α).share r').1 h s.handles.length r'.dtype r'.shape (fun l => (l.drop k).take r'.len) := by
  have hlt := (List.getElem?_eq_some_iff.1 hr).1
  have hal := alive_of_content e hr
  have hk := share_keeps (s := s) r' (fun _ => by rw [hb]; exact hal)
  have hn : (({ s with failed := false } : State α).share r').1.handles[s.handles.length]? = some (some r') := by simp [State.share]
  refine ⟨protoOf_of hn, by unfold protoOf State.deref; simp, ?_, rfl, ?_⟩
  · intro h' l' e'
    obtain ⟨r1, c1, h1, -⟩ := content_some e'
    have := hk h' (List.getElem?_eq_some_iff.1 h1).1
    exact ⟨this.1.trans e', this.2⟩
  · exact follows_of (l := l) k ((hk h hlt).1.trans e) (by simp only [State.share]; rw [List.getElem?_append_left hlt, hr]) hn hb ho hl

/-- the length of what is read -/
theorem content_len {s : State α} {h : Nat} {l : List α} {r : Ref} (e : content s h = some l) (hr : s.handles[h]? = some (some r)) : l.length = r.len := by
  obtain ⟨r0, c0, h1, -, -, h4, rfl⟩ := content_some e
  obtain rfl : r = r0 := Option.some.inj (Option.some.inj (hr.symm.trans h1))
  rw [List.length_take, List.length_drop]
  omega

theorem view_congr {junk : α} {conv : Nat → Nat → List α → Res (List α)} {s s' : State α} {h n dtype : Nat} {shape : List Int} {f : List α → List α}
    (hv : View junk conv s s' h n dtype shape f) : content s' n = (content s' h).map f :=
  hv.2.2.2.2 [] s' rfl (fun _ hc => by cases hc)

/-- does a tensor survive? if and only if it owns its memory -/
theorem free_others (junk : α) (conv : Nat → Nat → List α → Res (List α)) (s : State α) (h k : Nat) (hk : k ≤ s.handles.length) :
    ∃ cs s', runAll junk conv s cs = some s' ∧ (∀ c ∈ cs, c ≠ .free (some h)) ∧ s'.handles.length = s.handles.length ∧
      (∀ i, i < k → i ≠ h → s'.handles[i]? = some none) ∧ (∀ i, k ≤ i ∨ i = h → s'.handles[i]? = s.handles[i]?) := by
  induction k with
  | zero => exact ⟨[], s, rfl, fun _ hc => (by cases hc), rfl, fun i hi => (by omega), fun _ _ => rfl⟩
  | succ k ih =>
    obtain ⟨cs, s', h1, h2, h3, h4, h5⟩ := ih (by omega)
    have hlt : k < s'.handles.length := by omega
    by_cases hkh : k = h
    · refine ⟨cs, s', h1, h2, h3, fun i hi hne => h4 i (by omega) hne, fun i hi => h5 i (by omega)⟩
    · rcases hk' : s'.handles[k] with _ | r
      · refine ⟨cs, s', h1, h2, h3, fun i hi hne => ?_, fun i hi => h5 i (by omega)⟩
        by_cases hik : i = k
        · subst hik; rw [List.getElem?_eq_getElem hlt, hk']
        · exact h4 i (by omega) hne
      · have hrun : ∀ (cs : List (Call α)) (s0 : State α), runAll junk conv s0 cs = some s' →
            runAll junk conv s0 (cs ++ [.free (some k)]) = some ⟨s'.blocks, s'.handles.set k none, false⟩ := by
          intro cs
          induction cs with
          | nil =>
            intro s0 h0
            cases h0
            simp [runAll, step, body, freeTensor, State.deref, List.getElem?_eq_getElem hlt, hk']
          | cons c cs ih' =>
            intro s0 h0
            simp only [runAll, List.cons_append] at h0 ⊢
            split at h0
            · exact ih' _ h0
            · cases h0
        refine ⟨_, _, hrun cs s h1, ?_, ?_, ?_, ?_⟩
        · intro c hc
          rcases List.mem_append.1 hc with hc | hc
          · exact h2 c hc
          · rw [List.mem_singleton] at hc
            subst hc
            intro e
            exact hkh (Option.some.inj (Call.free.inj e))
        · simp [h3]
        · intro i hi hne
          by_cases hik : i = k
          · subst hik; simp [hlt]
          · simp only; rw [List.getElem?_set_ne (Ne.symm hik)]; exact h4 i (by omega) hne
        · intro i hi
          simp only
          rw [List.getElem?_set_ne (by omega)]
          exact h5 i (by omega)

theorem owner_of_survives {junk : α} {conv : Nat → Nat → List α → Res (List α)} {s : State α} {h : Nat} {r : Ref}
    (hr : s.handles[h]? = some (some r)) (hs : Survives junk conv s h) : r.owner = true := by
  obtain ⟨cs, s', h1, h2, h3, h4, h5⟩ := free_others junk conv s h s.handles.length (Nat.le_refl _)
  obtain ⟨l, hl⟩ := hs cs s' h1 h2
  have hr' : s'.handles[h]? = some (some r) := (h5 h (.inr rfl)).trans hr
  obtain ⟨i, r1, h6, h7, h8⟩ := alive_iff.1 (alive_of_content hl hr')
  by_cases hi : i = h
  · subst hi
    rw [hr'] at h6
    rw [Option.some.inj (Option.some.inj h6)]; exact h7
  · have hlt := (List.getElem?_eq_some_iff.1 h6).1
    rw [h4 i (by omega) hi] at h6
    cases h6

theorem follows_id {junk : α} {conv : Nat → Nat → List α → Res (List α)} {s : State α} {a b : Nat} {r : Ref}
    (hr : s.handles[a]? = some (some r)) (h : Follows junk conv s a b (fun l => (l.drop 0).take r.len)) : Follows junk conv s a b (fun l => l) := by
  intro cs s' hrun hf
  rw [h cs s' hrun hf]
  have ha := handle_stays_run hr hrun (fun c hc => (hf c hc).1)
  cases e : content s' a with
  | none => rfl
  | some l =>
    have := content_len e ha
    simp only [Option.map_some, List.drop_zero]
    rw [List.take_of_length_le (by omega)]

/-- a view with the same elements: it is kept alive like the original, and by itself -/
theorem share_same {junk : α} {conv : Nat → Nat → List α → Res (List α)} {s : State α} (hi : Inv s) {h : Nat} {r r' : Ref} {l : List α}
    (e : content s h = some l) (hr : s.handles[h]? = some (some r)) (hb : r'.block = r.block) (ho : r'.off = r.off) (hl : r'.len = r.len)
    (hw : r'.owner = r.owner) :
    View junk conv s (({ s with failed := false } : State α).share r').1 h s.handles.length r'.dtype r'.shape (fun l => l) ∧
    (Survives junk conv s h → Survives junk conv (({ s with failed := false } : State α).share r').1 s.handles.length) := by
  have hlt := (List.getElem?_eq_some_iff.1 hr).1
  have hv := share_view (junk := junk) (conv := conv) (r' := r') 0 e hr hb (by omega) (by omega)
  rw [hl] at hv
  have hr2 : (({ s with failed := false } : State α).share r').1.handles[h]? = some (some r) := by
    simp only [State.share]
    rw [List.getElem?_append_left hlt, hr]
  refine ⟨⟨hv.1, hv.2.1, hv.2.2.1, hv.2.2.2.1, follows_id hr2 hv.2.2.2.2⟩, fun hsv => ?_⟩
  have hown := owner_of_survives hr hsv
  have hch : Change s (.clone (some h)) (({ s with failed := false } : State α).share r').1 (.handle s.handles.length) :=
    .share h r r' false rfl hr hb (fun _ => ⟨hown, ho, hl⟩)
  exact survives_of_owner (inv_step hi hch) (r := r') (by simp [State.share]) (hw.trans hown)

/-- a reshaped tensor reads the same elements, now and after any assignment through either; it keeps the memory if the original does -/
theorem C73_reshape (junk : α) (conv : Nat → Nat → List α → Res (List α)) (s : State α) (hs : Reachable junk conv s) (h dtype : Nat) (l : List α)
    (a b : List Nat) (e : content s h = some l) (hp : protoOf s h = some (dtype, ints a)) (ha : NoOverflow a) (hb : NoOverflow b)
    (hb7 : b.length ≤ 7) (hab : prod b = prod a) :
    ∃ s' n, step junk conv s (.reshape (some h) (ints b)) = some (s', .handle n) ∧ View junk conv s s' h n dtype (ints b) (fun l => l) ∧
      (Survives junk conv s h → Survives junk conv s' n) := by
  obtain ⟨r, c, hr, -⟩ := content_some e
  rw [protoOf_of hr] at hp
  obtain ⟨rfl, hsh⟩ := Prod.mk.inj (Option.some.inj hp)
  refine ⟨_, _, ?_, share_same (inv_reachable hs) (r' := { r with shape := ints b }) e hr rfl rfl rfl rfl⟩
  unfold step body reshapeTensor asShape
  have := reshapeShape_nat ha hb
  rw [if_pos hab] at this
  simp only [deref_of (s := { s with failed := false }) hr, ints_length, hb7, if_true, Res.bind_ok, hsh, this]
  rfl

/-- so does a tensor converted to the type it has -/
theorem C73_cast_same (junk : α) (conv : Nat → Nat → List α → Res (List α)) (s : State α) (hs : Reachable junk conv s) (h dtype : Nat) (l : List α)
    (shape : List Int) (e : content s h = some l) (hp : protoOf s h = some (dtype, shape)) :
    ∃ s' n, step junk conv s (.cast (some h) dtype) = some (s', .handle n) ∧ View junk conv s s' h n dtype shape (fun l => l) ∧
      (Survives junk conv s h → Survives junk conv s' n) := by
  obtain ⟨r, c, hr, -⟩ := content_some e
  rw [protoOf_of hr] at hp
  obtain ⟨rfl, rfl⟩ := Prod.mk.inj (Option.some.inj hp)
  refine ⟨_, _, ?_, share_same (inv_reachable hs) (r' := r) e hr rfl rfl rfl rfl⟩
  unfold step body castTensor
  simp only [deref_of (s := { s with failed := false }) hr, Res.bind_ok, if_true]
  rfl

theorem rowWidth_ok {r : Ref} {x : Nat} {e : List Nat} (hsh : r.shape = ints (x :: e)) (hn : NoOverflow e)
    (hb : prod e * typeBytes r.dtype ≤ 2147483647) : rowWidth r = .ok ((prod e : Nat) : Int) := by
  unfold rowWidth
  rw [hsh]
  have := prod32_ok (acc := 1) hn.pfits
  simp only [Int.natCast_one, Nat.one_mul] at this
  simp only [ints_cons]
  rw [this, Res.bind_ok, show ((prod e : Nat) : Int) * ((typeBytes r.dtype : Nat) : Int) = ((prod e * typeBytes r.dtype : Nat) : Int) by rw [Int.natCast_mul],
    int32_ok (i32_nat hb), Res.bind_ok]

theorem point_ok {s : State α} {h : Nat} {l : List α} {r : Ref} (e : content s h = some l) (hr : s.handles[h]? = some (some r)) (n : Nat) (hn : n ≤ l.length) :
    s.point r (n : Int) = .ok (r.off + n) := by
  obtain ⟨r0, c0, h1, h2, h3, h4, h5⟩ := content_some e
  obtain rfl : r = r0 := Option.some.inj (Option.some.inj (hr.symm.trans h1))
  have := content_len e hr
  unfold State.point
  rw [if_pos h2, h3]
  simp only
  rw [if_pos (by omega)]
  congr 1

theorem mul_bytes_le {i w b n : Nat} (h : i * w ≤ n) (hn : n * b ≤ 2147483647) : i * (w * b) ≤ 2147483647 := by
  rw [← Nat.mul_assoc]
  exact Nat.le_trans (Nat.mul_le_mul_right b h) hn

theorem slice_not_owner {junk : α} {conv : Nat → Nat → List α → Res (List α)} {s : State α} {r' : Ref} (ho : r'.owner = false) :
    ¬ Survives junk conv (({ s with failed := false } : State α).share r').1 s.handles.length := by
  intro hsv
  have := owner_of_survives (r := r') (by simp [State.share]) hsv
  rw [ho] at this
  cases this

/-- a slice reads the rows of the original, now and after any assignment through either; but it does not keep the memory -/
theorem C73_slice (junk : α) (conv : Nat → Nat → List α → Res (List α)) (s : State α) (h dtype : Nat) (l : List α) (x : Nat) (e : List Nat) (i : Nat)
    (he : content s h = some l) (hp : protoOf s h = some (dtype, ints (x :: e))) (hn : NoOverflow e) (hlen : l.length = x * prod e)
    (hb : l.length * typeBytes dtype ≤ 2147483647) (hi : i < x) :
    ∃ s' n, step junk conv s (.slice (some h) (i : Int)) = some (s', .handle n) ∧
      View junk conv s s' h n dtype (ints e) (fun l => (l.drop (i * prod e)).take (prod e)) ∧ ¬ Survives junk conv s' n := by
  obtain ⟨r, c, hr, -⟩ := content_some he
  rw [protoOf_of hr] at hp
  obtain ⟨rfl, hsh⟩ := Prod.mk.inj (Option.some.inj hp)
  have hl := content_len he hr
  have h1 : (i + 1) * prod e ≤ l.length := by rw [hlen]; exact Nat.mul_le_mul_right _ hi
  rw [Nat.add_mul, Nat.one_mul] at h1
  have h2 : prod e * typeBytes r.dtype ≤ 2147483647 := Nat.le_trans (Nat.mul_le_mul_right _ (by omega)) hb
  have hv := share_view (junk := junk) (conv := conv) (r' := ⟨r.dtype, ints e, r.block, r.off + i * prod e, prod e, false⟩) (i * prod e) he hr rfl rfl
    (by simp only; omega)
  refine ⟨_, _, ?_, hv, slice_not_owner rfl⟩
  unfold step body sliceTensor
  have e' : content ({ s with failed := false } : State α) h = some l := by rw [← he]; exact content_same rfl rfl h
  simp only [deref_of (s := { s with failed := false }) hr, Res.bind_ok]
  rw [rowWidth_ok hsh hn h2, Res.bind_ok,
    show (i : Int) * (((prod e : Nat) : Int) * ((typeBytes r.dtype : Nat) : Int)) = ((i * (prod e * typeBytes r.dtype) : Nat) : Int) by push_cast; rfl,
    int32_ok (i32_nat (mul_bytes_le (by omega) hb)), Res.bind_ok, show (i : Int) * ((prod e : Nat) : Int) = ((i * prod e : Nat) : Int) by push_cast; rfl,
    point_ok e' hr _ (by omega), Res.bind_ok, hsh]
  simp [State.share, ints_cons]

/-- a range of rows -/
theorem C73_slice_range (junk : α) (conv : Nat → Nat → List α → Res (List α)) (s : State α) (h dtype : Nat) (l : List α) (x : Nat) (e : List Nat)
    (i j : Nat) (he : content s h = some l) (hp : protoOf s h = some (dtype, ints (x :: e))) (hn : NoOverflow e) (hlen : l.length = x * prod e)
    (hb : l.length * typeBytes dtype ≤ 2147483647) (hij : i < j) (hj : j ≤ x) (hx : x ≤ 2147483647) :
    ∃ s' n, step junk conv s (.slice2 (some h) (i : Int) (j : Int)) = some (s', .handle n) ∧
      View junk conv s s' h n dtype (ints ((j - i) :: e)) (fun l => (l.drop (i * prod e)).take ((j - i) * prod e)) ∧ ¬ Survives junk conv s' n := by
  obtain ⟨r, c, hr, -⟩ := content_some he
  rw [protoOf_of hr] at hp
  obtain ⟨rfl, hsh⟩ := Prod.mk.inj (Option.some.inj hp)
  have hl := content_len he hr
  obtain ⟨d, rfl⟩ : ∃ d, j = i + d := ⟨j - i, by omega⟩
  have h1 : (i + d) * prod e ≤ l.length := by rw [hlen]; exact Nat.mul_le_mul_right _ hj
  rw [Nat.add_mul] at h1
  have h3 : prod e ≤ l.length := by
    have : 1 * prod e ≤ d * prod e := Nat.mul_le_mul_right _ (by omega)
    omega
  have h2 : prod e * typeBytes r.dtype ≤ 2147483647 := Nat.le_trans (Nat.mul_le_mul_right _ h3) hb
  rw [Nat.add_sub_cancel_left]
  have hv := share_view (junk := junk) (conv := conv) (r' := ⟨r.dtype, ints (d :: e), r.block, r.off + i * prod e, d * prod e, false⟩) (i * prod e) he hr rfl rfl
    (by simp only; omega)
  refine ⟨_, _, ?_, hv, slice_not_owner rfl⟩
  unfold step body slice2Tensor
  have e' : content ({ s with failed := false } : State α) h = some l := by rw [← he]; exact content_same rfl rfl h
  simp only [deref_of (s := { s with failed := false }) hr, Res.bind_ok]
  rw [if_neg (by omega), rowWidth_ok hsh hn h2, Res.bind_ok, show ((i + d : Nat) : Int) - (i : Int) = (d : Int) by omega, int32_ok (i32_nat (by omega)), Res.bind_ok,
    show (i : Int) * (((prod e : Nat) : Int) * ((typeBytes r.dtype : Nat) : Int)) = ((i * (prod e * typeBytes r.dtype) : Nat) : Int) by push_cast; rfl,
    int32_ok (i32_nat (mul_bytes_le (by omega) hb)), Res.bind_ok,
    show (d : Int) * (((prod e : Nat) : Int) * ((typeBytes r.dtype : Nat) : Int)) = ((d * (prod e * typeBytes r.dtype) : Nat) : Int) by push_cast; rfl,
    int32_ok (i32_nat (mul_bytes_le (by omega) hb)), Res.bind_ok, show (i : Int) * ((prod e : Nat) : Int) = ((i * prod e : Nat) : Int) by push_cast; rfl,
    point_ok e' hr _ (by omega), Res.bind_ok, hsh, show (d : Int) * ((prod e : Nat) : Int) = ((d * prod e : Nat) : Int) by push_cast; rfl,
    Int.toNat_natCast]
  simp [State.share, ints_cons]

/-! ### Assignments through the pointer -/

/-- an assignment within the elements of a tensor replaces that element and nothing else of the tensor; one outside of them is undefined, even if it hits the elements of
another tensor that shares the memory -/
theorem C73_write (junk : α) (conv : Nat → Nat → List α → Res (List α)) (s : State α) (h : Nat) (l : List α) (k : Nat) (v : α) (e : content s h = some l) :
    (k < l.length → ∃ s', step junk conv s (.write (some h) k v) = some (s', .done) ∧ content s' h = some (l.set k v)) ∧
      (l.length ≤ k → step junk conv s (.write (some h) k v) = none) := by
  obtain ⟨r, c, hr, ha, hb, hl, hle⟩ := content_some e
  have hlen := content_len e hr
  have e' : content ({ s with failed := false } : State α) h = some l := by rw [← e]; exact content_same rfl rfl h
  constructor
  · intro hk
    refine ⟨⟨s.blocks.modify r.block (·.set (r.off + k) v), s.handles, false⟩, ?_, ?_⟩
    · simp only [step, body, writeTensor]
      rw [deref_of (s := { s with failed := false }) hr, Res.bind_ok, touch_of e' hr, Res.bind_ok, if_pos (by omega)]
    · have hb' : (s.blocks.modify r.block (·.set (r.off + k) v))[r.block]? = some (c.set (r.off + k) v) := by
        rw [List.getElem?_modify, hb]
        simp
      rw [content_owner (s := ⟨s.blocks.modify r.block (·.set (r.off + k) v), s.handles, false⟩) hr ha hb' (by simpa using hl), hle]
      congr 1
      apply List.ext_getElem?
      intro j
      by_cases hj : j < r.len
      · rw [List.getElem?_take_of_lt hj, List.getElem?_drop, List.getElem?_set, List.getElem?_set, List.getElem?_take_of_lt hj, List.getElem?_drop]
        by_cases hjk : k = j
        · subst hjk
          simp [show r.off + k < c.length by omega]
          omega
        · simp [hjk]
      · rw [List.getElem?_eq_none (by simp; omega), List.getElem?_eq_none (by simp; omega)]
  · intro hk
    simp only [step, body, writeTensor]
    rw [deref_of (s := { s with failed := false }) hr, Res.bind_ok, touch_of e' hr, Res.bind_ok, if_neg (by omega)]

/-! ### Deleting -/

/-- deleting a tensor: another one reads what it read, if its memory is kept; otherwise reading it may have become undefined, but does not give anything else -/
theorem C73_free (junk : α) (conv : Nat → Nat → List α → Res (List α)) (s : State α) (hs : Reachable junk conv s) (h : Nat) (l : List α)
    (e : content s h = some l) :
    ∃ s', step junk conv s (.free (some h)) = some (s', .done) ∧ protoOf s' h = none ∧ s'.failed = false ∧
      ∀ h', h' ≠ h → protoOf s' h' = protoOf s h' ∧
        (Survives junk conv s h' → content s' h' = content s h') ∧ (content s' h' = content s h' ∨ content s' h' = none) := by
  obtain ⟨r, c, hr, -⟩ := content_some e
  have hlt := (List.getElem?_eq_some_iff.1 hr).1
  refine ⟨⟨s.blocks, s.handles.set h none, false⟩, ?_, ?_, rfl, ?_⟩
  · unfold step body freeTensor
    simp only [deref_of (s := { s with failed := false }) hr, Res.bind_ok]
  · unfold protoOf State.deref; simp [hlt]
  · intro h' hne
    have hg : (⟨s.blocks, s.handles.set h none, false⟩ : State α).handles[h']? = s.handles[h']? := by
      simp only; rw [List.getElem?_set_ne (Ne.symm hne)]
    have hor : content (⟨s.blocks, s.handles.set h none, false⟩ : State α) h' = content s h' ∨
        content (⟨s.blocks, s.handles.set h none, false⟩ : State α) h' = none := by
      cases e1 : content (⟨s.blocks, s.handles.set h none, false⟩ : State α) h' with
      | none => exact .inr rfl
      | some l1 =>
        left
        obtain ⟨r1, c1, h1, h2, h3, h4, rfl⟩ := content_some e1
        rw [hg] at h1
        refine (content_owner h1 ?_ h3 h4).symm
        obtain ⟨j, r2, h5, h6, h7⟩ := alive_iff.1 h2
        refine alive_iff.2 ⟨j, r2, ?_, h6, h7⟩
        simp only [List.getElem?_set] at h5
        by_cases hj : h = j
        · subst hj; simp [hlt] at h5
        · rwa [if_neg hj] at h5
    refine ⟨?_, fun hsv => ?_, hor⟩
    · unfold protoOf State.deref
      simp only [hg]
    · rcases hor with hx | hx
      · exact hx
      · exfalso
        obtain ⟨l1, h1⟩ := hsv [.free (some h)] ⟨s.blocks, s.handles.set h none, false⟩ (by
          simp only [runAll, step, body, freeTensor, deref_of (s := { s with failed := false }) hr, Res.bind_ok]) (by
          intro c hc
          rw [List.mem_singleton] at hc
          subst hc
          intro e
          exact hne (Option.some.inj (Call.free.inj e)).symm)
        rw [hx] at h1
        cases h1

/-! ### Errors -/

/-- a call that returns NULL has changed nothing and left a message; a call that returns something has left no message -/
theorem C73_errors (junk : α) (conv : Nat → Nat → List α → Res (List α)) (s : State α) (c : Call α) (s' : State α) (o : Out α)
    (h : step junk conv s c = some (s', o)) :
    (o = .null → s'.failed = true ∧ ∀ h', content s' h' = content s h' ∧ protoOf s' h' = protoOf s h') ∧ (o ≠ .null → s'.failed = false) := by
  unfold step at h
  split at h
  · next x hok =>
    obtain rfl := Option.some.inj h
    have key : o ≠ .null ∧ s'.failed = false := by
      have hf : ∀ (c : Call α) (s' : State α) (o : Out α), body junk conv { s with failed := false } c = .ok (s', o) → o ≠ .null ∧ s'.failed = false := by
        intro c s' o h
        cases c with
        | new dtype shape data =>
          simp only [body, newTensor] at h
          obtain ⟨sh, -, h⟩ := bind_ok_inv h
          cases data with
          | none =>
            obtain ⟨n, -, h⟩ := bind_ok_inv h
            cases h
            exact ⟨fun e => (by cases e), rfl⟩
          | some d =>
            simp only at h
            split at h
            · obtain ⟨n, -, h⟩ := bind_ok_inv h
              split at h
              · cases h
              · obtain ⟨f, -, h⟩ := bind_ok_inv h
                cases h
                exact ⟨fun e => (by cases e), rfl⟩
            · cases h
        | free h' =>
          cases h' with
          | none => cases h; exact ⟨fun e => (by cases e), rfl⟩
          | some n =>
            simp only [body, freeTensor] at h
            obtain ⟨r, -, h⟩ := bind_ok_inv h
            cases h
            exact ⟨fun e => (by cases e), rfl⟩
        | proto h' =>
          simp only [body] at h
          obtain ⟨r, -, h⟩ := bind_ok_inv h
          cases h
          exact ⟨fun e => (by cases e), rfl⟩
        | read h' =>
          simp only [body] at h
          obtain ⟨r, -, h⟩ := bind_ok_inv h
          obtain ⟨l, -, h⟩ := bind_ok_inv h
          cases h
          exact ⟨fun e => (by cases e), rfl⟩
        | write h' k v =>
          simp only [body, writeTensor] at h
          obtain ⟨r, hr, h⟩ := bind_ok_inv h
          obtain ⟨l, -, h⟩ := bind_ok_inv h
          split at h
          · cases h; exact ⟨fun e => (by cases e), rfl⟩
          · cases h
        | clone h' =>
          simp only [body, cloneTensor] at h
          obtain ⟨r, -, h⟩ := bind_ok_inv h
          obtain ⟨l, -, h⟩ := bind_ok_inv h
          cases h
          exact ⟨fun e => (by cases e), rfl⟩
        | reshape h' shape =>
          simp only [body, reshapeTensor] at h
          obtain ⟨r, hr, h⟩ := bind_ok_inv h
          obtain ⟨_, -, h⟩ := bind_ok_inv h
          obtain ⟨f, -, h⟩ := bind_ok_inv h
          cases h
          exact ⟨fun e => (by cases e), rfl⟩
        | slice h' i =>
          simp only [body, sliceTensor] at h
          obtain ⟨r, hr, h⟩ := bind_ok_inv h
          obtain ⟨w, -, h⟩ := bind_ok_inv h
          obtain ⟨_, -, h⟩ := bind_ok_inv h
          obtain ⟨off, -, h⟩ := bind_ok_inv h
          cases h
          exact ⟨fun e => (by cases e), rfl⟩
        | slice2 h' beg fin =>
          simp only [body, slice2Tensor] at h
          obtain ⟨r, hr, h⟩ := bind_ok_inv h
          split at h
          · cases h
          · obtain ⟨w, -, h⟩ := bind_ok_inv h
            obtain ⟨_, -, h⟩ := bind_ok_inv h
            obtain ⟨_, -, h⟩ := bind_ok_inv h
            obtain ⟨_, -, h⟩ := bind_ok_inv h
            obtain ⟨off, -, h⟩ := bind_ok_inv h
            cases h
            exact ⟨fun e => (by cases e), rfl⟩
        | cast h' dtype =>
          simp only [body, castTensor] at h
          obtain ⟨r, hr, h⟩ := bind_ok_inv h
          split at h
          · cases h
            exact ⟨fun e => (by cases e), rfl⟩
          · obtain ⟨l, -, h⟩ := bind_ok_inv h
            obtain ⟨d, -, h⟩ := bind_ok_inv h
            cases h
            exact ⟨fun e => (by cases e), rfl⟩
      exact hf c s' o hok
    exact ⟨fun e => absurd e key.1, fun _ => key.2⟩
  · obtain ⟨rfl, rfl⟩ := Prod.mk.inj (Option.some.inj h)
    exact ⟨fun _ => ⟨rfl, fun h' => ⟨content_same rfl rfl h', rfl⟩⟩, fun h => absurd rfl h⟩
  · cases h

/-- what is refused: null pointers, a shape with another number of elements, an empty range, data of a type that cannot be copied -/
theorem C73_refuses (junk : α) (conv : Nat → Nat → List α → Res (List α)) (s : State α) :
    (∀ c : Call α, (∀ d sh l, c ≠ .new d sh l) → c ≠ .free none → passed c = none → ∃ s', step junk conv s c = some (s', .null)) ∧
    (∀ h dtype a b, protoOf s h = some (dtype, ints a) → NoOverflow a → NoOverflow b → b.length ≤ 7 → prod b ≠ prod a →
      ∃ s', step junk conv s (.reshape (some h) (ints b)) = some (s', .null)) ∧
    (∀ h p beg fin, protoOf s h = some p → fin ≤ beg → ∃ s', step junk conv s (.slice2 (some h) beg fin) = some (s', .null)) ∧
    (∀ dtype shape d, dtype ∉ [1, 2, 3, 4, 5, 6, 7, 8, 10, 11, 13] → shape.length ≤ 7 →
      ∃ s', step junk conv s (.new dtype shape (some d)) = some (s', .null)) := by
  have hd : ∀ h p, protoOf s h = some p → ∃ r, s.handles[h]? = some (some r) ∧ p = (r.dtype, r.shape) := by
    intro h p hp
    unfold protoOf at hp
    split at hp
    · next r hr =>
      obtain ⟨n, hn, hr⟩ := deref_ok hr
      obtain rfl := Option.some.inj hn
      exact ⟨r, hr, (Option.some.inj hp).symm⟩
    · cases hp
  refine ⟨fun c h1 h2 h3 => ?_, fun h dtype a b hp ha hb h7 hne => ?_, fun h p beg fin hp hle => ?_, fun dtype shape d ht hl => ?_⟩
  · cases c with
    | new d sh l => exact absurd rfl (h1 d sh l)
    | free h => obtain rfl : h = none := h3; exact absurd rfl h2
    | proto h => obtain rfl : h = none := h3; exact ⟨_, rfl⟩
    | read h => obtain rfl : h = none := h3; exact ⟨_, rfl⟩
    | write h k v => obtain rfl : h = none := h3; exact ⟨_, rfl⟩
    | clone h => obtain rfl : h = none := h3; exact ⟨_, rfl⟩
    | reshape h sh => obtain rfl : h = none := h3; exact ⟨_, rfl⟩
    | slice h i => obtain rfl : h = none := h3; exact ⟨_, rfl⟩
    | slice2 h i j => obtain rfl : h = none := h3; exact ⟨_, rfl⟩
    | cast h t => obtain rfl : h = none := h3; exact ⟨_, rfl⟩
  · obtain ⟨r, hr, hp⟩ := hd h _ hp
    have hsh := (Prod.mk.inj hp).2
    have := reshapeShape_nat ha hb
    rw [if_neg hne] at this
    unfold step body reshapeTensor asShape
    simp only [deref_of (s := { s with failed := false }) hr, ints_length, h7, if_true, Res.bind_ok, ← hsh, this]
    exact ⟨_, rfl⟩
  · obtain ⟨r, hr, -⟩ := hd h _ hp
    unfold step body slice2Tensor
    simp only [deref_of (s := { s with failed := false }) hr, Res.bind_ok, hle, if_true]
    exact ⟨_, rfl⟩
  · have hb : builtType dtype = false := decide_eq_false ht
    unfold step body newTensor asShape
    simp only [hl, if_true, Res.bind_ok, hb, Bool.false_eq_true, if_false]
    exact ⟨_, rfl⟩

/-- an index of a slice is never refused, and more than seven extents are never refused: both go on to undefined behaviour or to a tensor outside the memory -/
theorem C73_unchecked (junk : α) (conv : Nat → Nat → List α → Res (List α)) (s : State α) :
    (∀ h p i s', protoOf s h = some p → step junk conv s (.slice (some h) i) ≠ some (s', .null)) ∧
    (∀ dtype shape d, 7 < shape.length → step junk conv s (.new dtype shape d) = none) ∧
    (∀ h p shape, protoOf s h = some p → 7 < shape.length → step junk conv s (.reshape (some h) shape) = none) := by
  have hd : ∀ h p, protoOf s h = some p → ∃ r, s.handles[h]? = some (some r) := by
    intro h p hp
    unfold protoOf at hp
    split at hp
    · next r hr =>
      obtain ⟨n, hn, hr⟩ := deref_ok hr
      obtain rfl := Option.some.inj hn
      exact ⟨r, hr⟩
    · cases hp
  have h32 : ∀ x, int32 x ≠ .err := by
    intro x; unfold int32; split <;> simp
  have hprod : ∀ (l : List Int) (a : Int), prod32 a l ≠ .err := by
    intro l
    induction l with
    | nil => intro a; simp [prod32]
    | cons x l ih =>
      intro a
      unfold prod32
      cases e : int32 (a * x) with
      | ok b => rw [Res.bind_ok]; exact ih b
      | err => exact absurd e (h32 _)
      | ub => simp
  refine ⟨fun h p i s' hp => ?_, fun dtype shape d hl => ?_, fun h p shape hp hl => ?_⟩
  · obtain ⟨r, hr⟩ := hd h p hp
    unfold step body sliceTensor
    simp only [deref_of (s := { s with failed := false }) hr, Res.bind_ok]
    have hw : rowWidth r ≠ .err := by
      unfold rowWidth
      split
      · simp
      · next rest _ =>
        cases e : prod32 1 rest with
        | ok b =>
          rw [Res.bind_ok]
          cases e2 : int32 (b * typeBytes r.dtype) with
          | ok c => simp
          | err => exact absurd e2 (h32 _)
          | ub => simp
        | err => exact absurd e (hprod _ _)
        | ub => simp
    cases e : rowWidth r with
    | err => exact absurd e hw
    | ub => simp
    | ok w =>
      rw [Res.bind_ok]
      cases e2 : int32 (i * (w * typeBytes r.dtype)) with
      | err => exact absurd e2 (h32 _)
      | ub => simp
      | ok _ =>
        rw [Res.bind_ok]
        have hpt : State.point { s with failed := false } r (i * w) ≠ .err := by
          unfold State.point
          split
          · split
            · split <;> simp
            · simp
          · simp
        cases e3 : State.point { s with failed := false } r (i * w) with
        | err => exact absurd e3 hpt
        | ub => simp
        | ok _ => rw [Res.bind_ok]; simp [State.share]
  · have hn : ¬ shape.length ≤ 7 := by omega
    simp only [step, body, newTensor, asShape, hn, if_false, Res.bind_ub]
  · obtain ⟨r, hr⟩ := hd h p hp
    have hn : ¬ shape.length ≤ 7 := by omega
    simp only [step, body, reshapeTensor, asShape, deref_of (s := { s with failed := false }) hr, Res.bind_ok, hn, if_false, Res.bind_ub]

/-! ### Examples and counterexamples -/

/-- conversions that keep the elements -/
def keepConv : Nat → Nat → List Nat → Res (List Nat) := fun _ _ l => .ok l

/-- a matrix of two rows of three `float`s, handle 0 -/
def oneMatrix : State Nat := ⟨[[1, 2, 3, 4, 5, 6]], [some ⟨10, [2, 3], 0, 0, 6, true⟩], false⟩

theorem oneMatrix_reachable : Reachable 0 keepConv oneMatrix := ⟨[.new 10 [2, 3] (some [1, 2, 3, 4, 5, 6, 7])], rfl⟩

theorem oneMatrix_content : content oneMatrix 0 = some [1, 2, 3, 4, 5, 6] := rfl

example : ∃ s' n, step 0 keepConv oneMatrix (.new 10 (ints [2, 2]) (some [7, 8, 9, 10])) = some (s', .handle n) ∧
    Fresh 0 keepConv oneMatrix s' n 10 (ints [2, 2]) [7, 8, 9, 10] :=
  C73_new 0 keepConv oneMatrix oneMatrix_reachable 10 [2, 2] [7, 8, 9, 10] (by decide) (by decide) (noOverflow_of_pos (by decide) (by decide)) (by decide) (by decide)

example : ∃ s' n, step 0 keepConv oneMatrix (.new 10 (ints [2, 2]) none) = some (s', .handle n) ∧
    ∃ l, l.length = 4 ∧ Fresh 0 keepConv oneMatrix s' n 10 (ints [2, 2]) l :=
  C73_new_empty 0 keepConv oneMatrix oneMatrix_reachable 10 [2, 2] (by decide) (by decide) (noOverflow_of_pos (by decide) (by decide)) (by decide)

example : ∃ s', step 0 keepConv oneMatrix (.write (some 0) 5 9) = some (s', .done) ∧ content s' 0 = some [1, 2, 3, 4, 5, 9] :=
  (C73_write 0 keepConv oneMatrix 0 [1, 2, 3, 4, 5, 6] 5 9 rfl).1 (by decide)

example : step 0 keepConv oneMatrix (.write (some 0) 6 9) = none := (C73_write 0 keepConv oneMatrix 0 [1, 2, 3, 4, 5, 6] 6 9 rfl).2 (by decide)

example : ∃ s' n dtype shape, step 0 keepConv oneMatrix (.clone (some 0)) = some (s', .handle n) ∧ protoOf oneMatrix 0 = some (dtype, shape) ∧
    Fresh 0 keepConv oneMatrix s' n dtype shape [1, 2, 3, 4, 5, 6] :=
  C73_clone 0 keepConv oneMatrix oneMatrix_reachable 0 _ rfl

example : ∃ s' n, step 0 keepConv oneMatrix (.cast (some 0) 11) = some (s', .handle n) ∧ Fresh 0 keepConv oneMatrix s' n 11 [2, 3] [1, 2, 3, 4, 5, 6] :=
  C73_cast 0 keepConv oneMatrix oneMatrix_reachable 0 _ _ 10 11 [2, 3] rfl rfl (by decide) rfl

example : ∃ s' n, step 0 keepConv oneMatrix (.reshape (some 0) (ints [3, 2])) = some (s', .handle n) ∧
    View 0 keepConv oneMatrix s' 0 n 10 (ints [3, 2]) (fun l => l) ∧ (Survives 0 keepConv oneMatrix 0 → Survives 0 keepConv s' n) :=
  C73_reshape 0 keepConv oneMatrix oneMatrix_reachable 0 10 _ [2, 3] [3, 2] rfl rfl (noOverflow_of_pos (by decide) (by decide))
    (noOverflow_of_pos (by decide) (by decide)) (by decide) (by decide)

example : Survives 0 keepConv oneMatrix 0 := survives_of_owner (inv_reachable oneMatrix_reachable) (r := ⟨10, [2, 3], 0, 0, 6, true⟩) rfl rfl

example : ∃ s' n, step 0 keepConv oneMatrix (.cast (some 0) 10) = some (s', .handle n) ∧ View 0 keepConv oneMatrix s' 0 n 10 [2, 3] (fun l => l) ∧
    (Survives 0 keepConv oneMatrix 0 → Survives 0 keepConv s' n) :=
  C73_cast_same 0 keepConv oneMatrix oneMatrix_reachable 0 10 _ [2, 3] rfl rfl

example : ∃ s' n, step 0 keepConv oneMatrix (.slice (some 0) 1) = some (s', .handle n) ∧
    View 0 keepConv oneMatrix s' 0 n 10 (ints [3]) (fun l => (l.drop (1 * 3)).take 3) ∧ ¬ Survives 0 keepConv s' n :=
  C73_slice 0 keepConv oneMatrix 0 10 _ 2 [3] 1 rfl rfl (noOverflow_of_pos (by decide) (by decide)) (by decide) (by decide) (by decide)

example : ∃ s' n, step 0 keepConv oneMatrix (.slice2 (some 0) 0 2) = some (s', .handle n) ∧
    View 0 keepConv oneMatrix s' 0 n 10 (ints [2, 3]) (fun l => (l.drop (0 * 3)).take (2 * 3)) ∧ ¬ Survives 0 keepConv s' n :=
  C73_slice_range 0 keepConv oneMatrix 0 10 _ 2 [3] 0 2 rfl rfl (noOverflow_of_pos (by decide) (by decide)) (by decide) (by decide) (by decide) (by decide) (by decide)

example : ∃ s', step 0 keepConv oneMatrix (.free (some 0)) = some (s', .done) ∧ protoOf s' 0 = none := by
  obtain ⟨s', h1, h2, -⟩ := C73_free 0 keepConv oneMatrix oneMatrix_reachable 0 _ rfl
  exact ⟨s', h1, h2⟩

example : ∃ s', step 0 keepConv oneMatrix (.reshape (some 0) (ints [4])) = some (s', .null) :=
  (C73_refuses 0 keepConv oneMatrix).2.1 0 10 [2, 3] [4] rfl (noOverflow_of_pos (by decide) (by decide)) (noOverflow_of_pos (by decide) (by decide)) (by decide) (by decide)

example : step 0 keepConv oneMatrix (.new 10 [1, 1, 1, 1, 1, 1, 1, 1] none) = none := (C73_unchecked 0 keepConv oneMatrix).2.1 10 _ none (by decide)

/-- "a tensor that a call has returned stays readable until it is deleted" is false: of slices -/
theorem C73_survive_false : ¬ ∀ (s : State Nat), Reachable 0 keepConv s → ∀ c s' n, step 0 keepConv s c = some (s', .handle n) → Survives 0 keepConv s' n := by
  intro h
  obtain ⟨s', n, h1, -, h2⟩ := C73_slice 0 keepConv oneMatrix 0 10 _ 2 [3] 1 rfl rfl (noOverflow_of_pos (by decide) (by decide)) (by decide) (by decide) (by decide)
  exact h2 (h oneMatrix oneMatrix_reachable _ s' n h1)

/-- the shortest such program -/
theorem C73_dangling_slice : runAll 0 keepConv State.init [.new 10 [2, 3] (some [1, 2, 3, 4, 5, 6]), .slice (some 0) 1, .free (some 0), .read (some 1)] = none := rfl

/-- "an index outside the tensor is refused" is false: the slice one past the last row is returned and must not be read, and the one after that is undefined -/
theorem C73_index_false :
    (∃ s', step 0 keepConv oneMatrix (.slice (some 0) 2) = some (s', .handle 1) ∧ content s' 1 = none) ∧
    step 0 keepConv oneMatrix (.slice (some 0) 3) = none ∧ step 0 keepConv oneMatrix (.slice (some 0) (-1)) = none :=
  ⟨⟨_, rfl, rfl⟩, rfl, rfl⟩

end Verif.Props
