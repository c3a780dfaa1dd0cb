import Verif.Kernels.CropTo
import Verif.Props.Crop
/-!
# C79: crop_to cuts its first operand to the size of the second, whatever was run before

`ShiftedBy t c d` (`Props/Crop`) says that the coordinate `d` of the operand lies `t` behind the coordinate `c` of the
result. The offsets of the axes before `axis` are zero.
-/
namespace Verif.Props
open Verif.Core Verif.Spec Verif.Kernels

variable {α : Type}

/-- the shape of the result: the extents of the first operand before the axis, of the second from there on -/
def cropShape (a : Nat) (xs ys : List Nat) : List Nat := xs.take a ++ ys.drop a

/-- the offsets of all axes: zero before `a`, then the given ones, or zero if none are given -/
def cropShifts (a n : Nat) (offset : List Int) : List Int :=
  List.replicate a 0 ++ (if offset = [] then List.replicate (n - a) 0 else offset)

/-- Result `Y` of shape `o`: at every coordinate the element of `X` that lies `t` behind it, `v` where there is none. -/
def CutAt (s o : List Nat) (t : List Int) (v : α) (X Y : List Nat → α) : Prop :=
  (∀ c d, InBounds o c → InBounds s d → ShiftedBy t c d → Y c = X d) ∧
  (∀ c, InBounds o c → (∀ d, InBounds s d → ¬ ShiftedBy t c d) → Y c = v)

/-- the amounts for all axes -/
def shiftAmounts : List Int → List Nat → List Nat → List (Int × Int)
  | t :: ts, s :: ss, o :: os => (-t, (o : Int) - s + t) :: shiftAmounts ts ss os
  | _, _, _ => []

theorem shiftAmounts_fits {t : List Int} {s o : List Nat} (h1 : t.length = s.length) (h2 : o.length = s.length)
    (ht : ∀ a ∈ t, -1073741824 ≤ a ∧ a ≤ 1073741824) (hs : ∀ a ∈ s, a ≤ 1073741823) (ho : ∀ a ∈ o, 0 < a ∧ a ≤ 1073741823) :
    PadFits s (shiftAmounts t s o) o := by
  induction s generalizing t o with
  | nil => cases t <;> cases o <;> simp_all [PadFits, shiftAmounts]
  | cons s ss ih =>
    match t, o, h1, h2 with
    | t :: ts, o :: os, h1, h2 =>
      have a1 := ht t (by simp)
      have a2 := hs s (by simp)
      have a3 := ho o (by simp)
      refine ⟨by dsimp only; omega, a3.1, ?_, ?_, ?_, ?_, ih (by simpa using h1) (by simpa using h2)
        (fun a ha => ht a (by simp [ha])) (fun a ha => hs a (by simp [ha])) (fun a ha => ho a (by simp [ha]))⟩
      all_goals (unfold I32; dsimp only; omega)

theorem shiftAmounts_moved {t : List Int} {s o : List Nat} (h1 : t.length = s.length) (h2 : o.length = s.length)
    {c d : List Nat} : MovedTo (shiftAmounts t s o) d c ↔ ShiftedBy t c d := by
  induction s generalizing t o c d with
  | nil => cases t <;> cases o <;> cases c <;> cases d <;> simp_all [MovedTo, ShiftedBy, shiftAmounts]
  | cons s ss ih =>
    match t, o, h1, h2 with
    | t :: ts, o :: os, h1, h2 =>
      cases c <;> cases d <;> simp only [MovedTo, ShiftedBy, shiftAmounts]
      rw [ih (by simpa using h1) (by simpa using h2)]
      constructor <;> rintro ⟨h, h'⟩ <;> exact ⟨by omega, h'⟩

theorem cropToPads_ok {t : List Int} {s o : List Nat} (h1 : t.length = s.length) (h2 : o.length = s.length)
    (ht : ∀ a ∈ t, -1073741824 ≤ a ∧ a ≤ 1073741824) (hs : ∀ a ∈ s, a ≤ 1073741823) (ho : ∀ a ∈ o, a ≤ 1073741823) :
    cropToPads t s o = .ok (shiftAmounts t s o) := by
  induction s generalizing t o with
  | nil => cases t <;> cases o <;> simp_all [cropToPads, shiftAmounts]
  | cons s ss ih =>
    match t, o, h1, h2 with
    | t :: ts, o :: os, h1, h2 =>
      have a1 := ht t (by simp)
      have a2 := hs s (by simp)
      have a3 := ho o (by simp)
      unfold cropToPads
      rw [int32_ok (by unfold I32; omega), Res.bind_ok, int32_ok (by unfold I32; omega), Res.bind_ok,
        int32_ok (by unfold I32; omega), Res.bind_ok, ih (by simpa using h1) (by simpa using h2)
        (fun a ha => ht a (by simp [ha])) (fun a ha => hs a (by simp [ha])) (fun a ha => ho a (by simp [ha])), Res.bind_ok]
      simp [shiftAmounts]

theorem shiftAmounts_split (a : Nat) {t : List Int} {s o : List Nat} (ha : a ≤ s.length) :
    shiftAmounts (List.replicate a 0 ++ t) s (s.take a ++ o.drop a) =
      List.replicate a (0, 0) ++ shiftAmounts t (s.drop a) (o.drop a) := by
  induction a generalizing s o with
  | zero => simp
  | succ a ih =>
    match s, ha with
    | s :: ss, ha =>
      cases o with
      | nil =>
        have := ih (s := ss) (o := []) (by simpa using ha)
        simp only [List.replicate_succ, List.cons_append, List.take_succ_cons, shiftAmounts, List.drop_succ_cons,
          List.drop_nil] at this ⊢
        rw [this]; simp
      | cons o os =>
        have := ih (s := ss) (o := os) (by simpa using ha)
        simp only [List.replicate_succ, List.cons_append, List.take_succ_cons, shiftAmounts, List.drop_succ_cons] at this ⊢
        rw [this]; simp

/-- what `run` does with an axis in range -/
theorem cropToAt_ok (zero : α) (offset : List Int) (a : Nat) (x : Operand α) (ys : List Nat) (X : List Nat → α)
    (fresh : Nat → List α) (hX : Holds x.shape x.data X) (hf : ∀ n, (fresh n).length = n) (ht : plainType x.dtype)
    (hr : x.shape.length = ys.length) (ha : a < x.shape.length) (hoff : offset = [] ∨ offset.length = x.shape.length - a)
    (hb : prod x.shape ≤ 1073741823) (hs : ∀ n ∈ x.shape, 0 < n) (hy : ∀ n ∈ ys, 0 < n ∧ n ≤ 1073741823)
    (ho : ∀ t ∈ offset, -1073741824 ≤ t ∧ t ≤ 1073741824)
    (h4 : x.shape.length = 4 → a = 0 → ∀ s o, x.shape.head? = some s → ys.head? = some o →
      (offset.headD 0) ≤ 0 ∧ (s : Int) ≤ o + offset.headD 0) :
    ∃ out Y, cropToAt zero offset a x ys fresh = .ok (cropShape a x.shape ys, out) ∧
      Holds (cropShape a x.shape ys) out Y ∧
      CutAt x.shape (cropShape a x.shape ys) (cropShifts a x.shape.length offset) zero X Y := by
  obtain ⟨off, eoff, hofl, hoff', hoc⟩ : ∃ off, cropToOffset offset (x.shape.length - a) = .ok off ∧
      off.length = x.shape.length - a ∧ (∀ t ∈ off, -1073741824 ≤ t ∧ t ≤ 1073741824) ∧
      cropShifts a x.shape.length offset = List.replicate a 0 ++ off := by
    unfold cropToOffset cropShifts
    by_cases he : offset = []
    · refine ⟨List.replicate (x.shape.length - a) 0, by rw [if_pos he], by simp, ?_, by rw [if_pos he]⟩
      intro t h; rw [List.eq_of_mem_replicate h]; omega
    · have : offset.length = x.shape.length - a := by rcases hoff with h | h; exact absurd h he; exact h
      exact ⟨offset, by rw [if_neg he, if_pos this], this, ho, by rw [if_neg he]⟩
  have hhead : off.headD 0 = offset.headD 0 := by
    unfold cropToOffset at eoff
    by_cases he : offset = []
    · rw [if_pos he] at eoff
      rw [← Res.ok.inj eoff, he]
      cases h : x.shape.length - a <;> simp [List.replicate_succ]
    · rw [if_neg he] at eoff
      split at eoff
      · rw [← Res.ok.inj eoff]
      · cases eoff
  have hsm : ∀ n ∈ x.shape, n ≤ 1073741823 := fun n h => Nat.le_trans (mem_le_prod hs n h) hb
  have epads := cropToPads_ok (t := off) (s := x.shape.drop a) (o := ys.drop a) (by simp [hofl]) (by simp [hr])
    hoff' (fun n h => hsm n (List.mem_of_mem_drop h)) (fun n h => (hy n (List.mem_of_mem_drop h)).2)
  have hol : (cropShape a x.shape ys).length = x.shape.length := by simp [cropShape]; omega
  have htl : (List.replicate a (0 : Int) ++ off).length = x.shape.length := by simp [hofl]; omega
  have hsplit := shiftAmounts_split a (t := off) (s := x.shape) (o := ys) (by omega)
  have hfits : PadFits x.shape (List.replicate a (0, 0) ++ shiftAmounts off (x.shape.drop a) (ys.drop a))
      (cropShape a x.shape ys) := by
    rw [← hsplit]
    apply shiftAmounts_fits htl hol _ hsm
    · intro n h
      rcases List.mem_append.1 h with h | h
      · have := hs n (List.mem_of_mem_take h)
        exact ⟨this, hsm n (List.mem_of_mem_take h)⟩
      · exact hy n (List.mem_of_mem_drop h)
    · intro t h
      rcases List.mem_append.1 h with h | h
      · rw [List.eq_of_mem_replicate h]; omega
      · exact hoff' t h
  obtain ⟨out, Y, e, hY, y1, y2⟩ := C55_pad_partial zero x X _ _ fresh hX hs (by omega) ht hf hfits (by
    intro hl p hp
    cases a with
    | zero =>
      obtain ⟨s, ss, hss⟩ : ∃ s ss, x.shape = s :: ss := List.exists_cons_of_length_pos (by omega)
      obtain ⟨o, os, hos⟩ : ∃ o os, ys = o :: os := List.exists_cons_of_length_pos (by omega)
      obtain ⟨t, ts, hts⟩ : ∃ t ts, off = t :: ts := List.exists_cons_of_length_pos (by omega)
      have := h4 hl rfl s o (by rw [hss]; rfl) (by rw [hos]; rfl)
      rw [← hhead, hts] at this
      simp only [List.headD_cons] at this
      rw [hss, hos, hts] at hp
      simp only [List.replicate_zero, List.nil_append, List.drop_zero, shiftAmounts, List.head?_cons, Option.some.injEq] at hp
      rw [← hp]
      dsimp only
      omega
    | succ a =>
      simp only [List.replicate_succ, List.cons_append, List.head?_cons, Option.some.injEq] at hp
      rw [← hp]; simp)
  refine ⟨out, Y, ?_, hY, ?_⟩
  · unfold cropToAt
    rw [eoff, Res.bind_ok, epads, Res.bind_ok, e]
  · rw [hoc]
    rw [← hsplit] at y1 y2
    refine ⟨fun c d hc hd h => y1 d c hd hc ((shiftAmounts_moved htl hol).2 h), fun c hc h => y2 c hc fun d hd h' => ?_⟩
    exact h d hd ((shiftAmounts_moved htl hol).1 h')


/-- **C79.** With an axis in range, crop_to gives its first operand cut to the extents the second has from that axis on,
moved by the offsets and zero where the first operand has nothing; the operator object is as before.
Missing for the full claim: negative axes (`C79_negative_first_partial`, `C79_history_false`) and a cut batch axis of a
rank-4 operand (`C79_batch_false`). -/
theorem C79_crop_to_partial (zero : α) (m : CropTo) (x : Operand α) (ys : List Nat) (X : List Nat → α)
    (fresh : Nat → List α) (hX : Holds x.shape x.data X) (hf : ∀ n, (fresh n).length = n) (ht : plainType x.dtype)
    (hr : x.shape.length = ys.length) (a : Nat) (hm : m.axis = a) (ha : a < x.shape.length)
    (hoff : m.offset = [] ∨ m.offset.length = x.shape.length - a)
    (hb : prod x.shape ≤ 1073741823) (hs : ∀ n ∈ x.shape, 0 < n) (hy : ∀ n ∈ ys, 0 < n ∧ n ≤ 1073741823)
    (ho : ∀ t ∈ m.offset, -1073741824 ≤ t ∧ t ≤ 1073741824)
    (h4 : x.shape.length = 4 → a = 0 → ∀ s o, x.shape.head? = some s → ys.head? = some o →
      (m.offset.headD 0) ≤ 0 ∧ (s : Int) ≤ o + m.offset.headD 0) :
    ∃ out Y, m.run zero x ys fresh = (m, .ok (cropShape a x.shape ys, out)) ∧
      Holds (cropShape a x.shape ys) out Y ∧
      CutAt x.shape (cropShape a x.shape ys) (cropShifts a x.shape.length m.offset) zero X Y := by
  obtain ⟨out, Y, e, h⟩ := cropToAt_ok zero m.offset a x ys X fresh hX hf ht hr ha hoff hb hs hy ho h4
  refine ⟨out, Y, ?_, h⟩
  have hfix : m.fix x.shape.length = m := by unfold CropTo.fix; rw [if_pos (by omega)]
  unfold CropTo.run
  rw [if_pos hr]
  dsimp only
  rw [hfix, if_neg (by omega), show m.axis.toNat = a by omega, e]

example : ∃ (X : List Nat → Int) (out : List Int) (Y : List Nat → Int), Holds [2, 3] [1, 2, 3, 4, 5, 6] X ∧
    (CropTo.mk 1 [1]).run (0 : Int) ⟨10, [2, 3], [1, 2, 3, 4, 5, 6]⟩ [9, 4] (fun n => List.replicate n 7) =
      (CropTo.mk 1 [1], .ok ([2, 4], out)) ∧ Holds [2, 4] out Y ∧ CutAt [2, 3] [2, 4] [0, 1] (0 : Int) X Y := by
  have hX := holds_exists (s := [2, 3]) (data := [(1 : Int), 2, 3, 4, 5, 6]) rfl
  obtain ⟨out, Y, h⟩ := C79_crop_to_partial (0 : Int) ⟨1, [1]⟩ ⟨10, [2, 3], [1, 2, 3, 4, 5, 6]⟩ [9, 4] _
    (fun n => List.replicate n 7) hX (by simp) (by decide) rfl 1 rfl (by decide) (by decide) (by decide) (by decide)
    (by decide) (by decide) (by intro h; cases h)
  exact ⟨_, out, Y, hX, h⟩

/-- the elements of such a result -/
example : (CropTo.mk 1 [1]).run (0 : Int) ⟨10, [2, 3], [1, 2, 3, 4, 5, 6]⟩ [9, 4] (fun n => List.replicate n 7) =
    (CropTo.mk 1 [1], .ok ([2, 4], [2, 3, 0, 0, 5, 6, 0, 0])) := by decide +kernel

/-- **C79.** A negative axis counts from the end, the first time: the object then keeps the counted axis. -/
theorem C79_negative_first_partial (zero : α) (m : CropTo) (x : Operand α) (ys : List Nat) (fresh : Nat → List α)
    (hr : x.shape.length = ys.length) (a : Nat) (hm : m.axis + x.shape.length = a) (hn : m.axis < 0) :
    m.run zero x ys fresh = ({ m with axis := a }, (({ m with axis := (a : Int) } : CropTo).run zero x ys fresh).2) ∧
    m.infer x.shape ys = ({ m with axis := a }, (({ m with axis := (a : Int) } : CropTo).infer x.shape ys).2) := by
  have hfix : m.fix x.shape.length = { m with axis := (a : Int) } := by
    unfold CropTo.fix; rw [if_neg (by omega), hm]
  have hfix' : ({ m with axis := (a : Int) } : CropTo).fix x.shape.length = { m with axis := (a : Int) } := by
    unfold CropTo.fix; rw [if_pos (by dsimp only; omega)]
  constructor
  · unfold CropTo.run
    rw [if_pos hr, if_pos hr]
    dsimp only
    rw [hfix, hfix']
    dsimp only
    split <;> rfl
  · unfold CropTo.infer
    rw [if_pos hr, if_pos hr]
    dsimp only
    rw [hfix, hfix']
    dsimp only
    split <;> rfl

example : (CropTo.mk (-1) []).run (0 : Int) ⟨10, [1, 3], [1, 2, 3]⟩ [1, 2] (fun n => List.replicate n 7) =
    (CropTo.mk 1 [], .ok ([1, 2], [1, 2])) := by
  rw [(C79_negative_first_partial (0 : Int) (CropTo.mk (-1) []) ⟨10, [1, 3], [1, 2, 3]⟩ [1, 2] _ rfl 1 rfl (by decide)).1]
  decide +kernel

/-- **C79.** With an axis that is not negative nothing that was inferred or run before, on whatever shapes and whether it
succeeded or not, changes what the operator does. -/
theorem C79_history (m : CropTo) (hm : 0 ≤ m.axis) (h : List CropCall) : m.history h = m := by
  have hf : ∀ n, m.fix n = m := fun n => by unfold CropTo.fix; rw [if_pos hm]
  have one : ∀ c, m.after c = m := by
    intro c
    cases c with
    | infer xs ys =>
      unfold CropTo.after CropTo.infer
      dsimp only
      split
      · rw [hf]; split <;> rfl
      · rfl
    | run xs ys =>
      unfold CropTo.after CropTo.run
      dsimp only
      split
      · rw [hf]; split <;> rfl
      · rfl
  unfold CropTo.history
  induction h with
  | nil => rfl
  | cons c h ih => rw [List.foldl_cons, one]; exact ih

example : (CropTo.mk 1 [2]).history [.infer [4, 5] [4, 2], .run [4, 5, 6] [1, 1, 1], .run [3] [3]] = CropTo.mk 1 [2] :=
  C79_history _ (by decide) _

/-- What `history` records of a run does not depend on the data: the member after a run is the one after `infer` on the
same shapes. -/
theorem C79_run_member (zero : α) (m : CropTo) (x : Operand α) (ys : List Nat) (fresh : Nat → List α) :
    (m.run zero x ys fresh).1 = m.after (.run x.shape ys) ∧ m.after (.run x.shape ys) = m.after (.infer x.shape ys) := by
  unfold CropTo.after CropTo.run CropTo.infer
  dsimp only
  constructor
  · split
    · split <;> rfl
    · rfl
  · split
    · split <;> rfl
    · rfl

/-- **C79, false of the code.** With a negative axis the result depends on earlier calls: the last axis of a rank-2
operand can be cut by a fresh object, not by one that has seen a rank-3 operand; and a call refused because the axis is
out of range is accepted when repeated. -/
theorem C79_history_false :
    (∀ (x : Operand Int) ys fresh, x.shape.length = 2 → ys.length = 2 →
      (((CropTo.mk (-1) []).history [.run [1, 1, 1] [1, 1, 1]]).run 0 x ys fresh).2 = .err) ∧
    (CropTo.mk (-1) []).run (0 : Int) ⟨10, [1, 2], [3, 4]⟩ [1, 1] (fun n => List.replicate n 7) =
      (CropTo.mk 1 [], .ok ([1, 1], [3])) ∧
    ((CropTo.mk (-3) []).run (0 : Int) ⟨10, [1, 2], [3, 4]⟩ [1, 1] (fun n => List.replicate n 7)).2 = .err ∧
    (((CropTo.mk (-3) []).history [.run [1, 2] [1, 1]]).run (0 : Int) ⟨10, [1, 2], [3, 4]⟩ [1, 1]
      (fun n => List.replicate n 7)).2 = .ok ([1, 1], [3]) := by
  refine ⟨?_, by decide +kernel, by decide +kernel, by decide +kernel⟩
  intro x ys fresh hx hy
  have e : (CropTo.mk (-1) []).history [.run [1, 1, 1] [1, 1, 1]] = ⟨2, []⟩ := by decide +kernel
  rw [e]
  unfold CropTo.run
  rw [if_pos (by omega)]
  dsimp only
  have hfix : (CropTo.mk 2 []).fix x.shape.length = ⟨2, []⟩ := by unfold CropTo.fix; rw [if_pos (by decide)]
  rw [hfix, if_pos (by right; rw [hx]; decide)]

/-- **C79.** Shape inference announces the shape of the result: every run that succeeds gives a tensor of that shape. -/
theorem C79_infer (m : CropTo) (xs ys : List Nat) (hr : xs.length = ys.length) (a : Nat) (hm : m.axis = a)
    (ha : a < xs.length) : m.infer xs ys = (m, .ok (cropShape a xs ys)) := by
  have hfix : m.fix xs.length = m := by unfold CropTo.fix; rw [if_pos (by omega)]
  unfold CropTo.infer
  rw [if_pos hr]
  dsimp only
  rw [hfix, if_neg (by omega), show m.axis.toNat = a by omega]
  rfl

example : (CropTo.mk 1 []).infer [2, 3, 4] [5, 6, 7] = (CropTo.mk 1 [], .ok [2, 6, 7]) :=
  C79_infer (CropTo.mk 1 []) [2, 3, 4] [5, 6, 7] rfl 1 rfl (by decide)

/-- **C79.** Operands of different rank, an axis beyond the rank and a wrong number of offsets are refused; nothing is
read or written. -/
theorem C79_rejects (zero : α) (m : CropTo) (x : Operand α) (ys : List Nat) (fresh : Nat → List α) :
    (x.shape.length ≠ ys.length → m.run zero x ys fresh = (m, .err)) ∧
    (x.shape.length = ys.length → 0 ≤ m.axis → (x.shape.length : Int) ≤ m.axis → m.run zero x ys fresh = (m, .err)) ∧
    (x.shape.length = ys.length → 0 ≤ m.axis → m.axis < x.shape.length → m.offset ≠ [] →
      (m.offset.length : Int) ≠ x.shape.length - m.axis → m.run zero x ys fresh = (m, .err)) := by
  refine ⟨fun h => by unfold CropTo.run; rw [if_neg h], fun h h0 h1 => ?_, fun h h0 h1 h2 h3 => ?_⟩
  · have hfix : m.fix x.shape.length = m := by unfold CropTo.fix; rw [if_pos h0]
    unfold CropTo.run
    rw [if_pos h]
    dsimp only
    rw [hfix, if_pos (by omega)]
  · have hfix : m.fix x.shape.length = m := by unfold CropTo.fix; rw [if_pos h0]
    unfold CropTo.run
    rw [if_pos h]
    dsimp only
    rw [hfix, if_neg (by omega)]
    unfold cropToAt cropToOffset
    rw [if_neg h2, if_neg (by omega)]
    rfl

example : (CropTo.mk 1 [1, 1]).run (0 : Int) ⟨10, [1, 2], [3, 4]⟩ [1, 1] (fun n => List.replicate n 7) = (⟨1, [1, 1]⟩, .err) :=
  (C79_rejects 0 (CropTo.mk 1 [1, 1]) ⟨10, [1, 2], [3, 4]⟩ [1, 1] _).2.2 rfl (by decide) (by decide) (by decide) (by decide)

/-- **C79, false of the code.** Cutting the batch axis of a rank-4 operand reads and writes outside the tensors. -/
theorem C79_batch_false :
    ((CropTo.mk 0 []).run (0 : Int) ⟨10, [2, 1, 1, 1], [3, 4]⟩ [1, 1, 1, 2] (fun n => List.replicate n 7)).2 = .ub := by
  decide +kernel

end Verif.Props
