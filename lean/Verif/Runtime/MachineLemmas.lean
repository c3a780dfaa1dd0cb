import Verif.Runtime.Machine
/-! Helper lemmas about the stack machine. -/
namespace Verif.Runtime
variable {V : Type}

namespace Stk
/-- the base lies inside the deque -/
def Wf (s : Stk V) : Prop := s.base ≤ s.cells.length

/-- `s'` has the same base bookkeeping as `s` and the same cells below the base. -/
structure Below (s s' : Stk V) : Prop where
  base : s'.base = s.base
  bases : s'.bases = s.bases
  wf : s.base ≤ s'.cells.length
  cells : s'.cells.take s.base = s.cells.take s.base

theorem Below.refl {s : Stk V} (h : s.Wf) : Below s s := ⟨rfl, rfl, h, rfl⟩
theorem Below.trans {a b c : Stk V} (h1 : Below a b) (h2 : Below b c) : Below a c := by
  obtain ⟨b1, b2, b3, b4⟩ := h1
  obtain ⟨c1, c2, c3, c4⟩ := h2
  refine ⟨by rw [c1, b1], by rw [c2, b2], by rw [← b1]; exact c3, ?_⟩
  rw [b1] at c4; rw [c4, b4]
theorem Below.wf' {s s' : Stk V} (h : Below s s') : s'.Wf := by
  unfold Wf; rw [h.base]; exact h.wf

/-- The frame (cells from the base up). -/
def frame (s : Stk V) : List V := s.cells.drop s.base

theorem frame_length (s : Stk V) : s.frame.length = s.size := by simp [frame, size]

theorem decomp (s : Stk V) : s.cells = s.cells.take s.base ++ s.frame := by simp [frame]

/-- canonical form of a well formed stack -/
theorem eq_mk (s : Stk V) (h : s.Wf) :
    ∃ lo fr, lo.length = s.base ∧ s = ⟨lo ++ fr, lo.length, s.bases⟩ ∧ fr = s.frame ∧ lo = s.cells.take s.base := by
  refine ⟨s.cells.take s.base, s.frame, ?_, ?_, rfl, rfl⟩
  · simp; exact Nat.min_eq_left h
  · have : (s.cells.take s.base).length = s.base := by simp; exact Nat.min_eq_left h
    rw [this, ← decomp]

@[simp] theorem size_mk (lo fr : List V) (bs) : (Stk.mk (lo ++ fr) lo.length bs).size = fr.length := by
  simp [size]
@[simp] theorem frame_mk (lo fr : List V) (bs) : (Stk.mk (lo ++ fr) lo.length bs).frame = fr := by
  simp [frame]
theorem wf_mk (lo fr : List V) (bs) : (Stk.mk (lo ++ fr) lo.length bs).Wf := by simp [Wf]

theorem below_mk (lo fr fr' : List V) (bs) :
    Below (Stk.mk (lo ++ fr) lo.length bs) (Stk.mk (lo ++ fr') lo.length bs) :=
  ⟨rfl, rfl, by simp, by simp⟩

theorem below_elim {lo fr : List V} {bs} {s' : Stk V}
    (h : Below (Stk.mk (lo ++ fr) lo.length bs) s') : s' = ⟨lo ++ s'.frame, lo.length, bs⟩ := by
  obtain ⟨b1, b2, b3, b4⟩ := h
  simp at b1 b2 b3 b4
  cases s' with
  | mk c b bs' =>
    simp at b1 b2 b3 b4
    subst b1 b2
    have : c = lo ++ c.drop lo.length := by
      conv => lhs; rw [← List.take_append_drop lo.length c, b4]
    simp [frame, ← this]

theorem below_ex {lo fr : List V} {bs} {s' : Stk V}
    (h : Below (Stk.mk (lo ++ fr) lo.length bs) s') : ∃ fr', s' = ⟨lo ++ fr', lo.length, bs⟩ :=
  ⟨_, below_elim h⟩

theorem index_mk (lo fr : List V) (bs) (i : Nat) :
    (Stk.mk (lo ++ fr) lo.length bs).index i = fr[i]? := by
  have h : ((lo.length : Int) + (i : Int)).toNat = lo.length + i := by omega
  have h2 : (0:Int) ≤ (lo.length : Int) + (i : Int) := by omega
  simp [index, abs, h, h2]
  rw [List.getElem?_append_right (by omega)]; simp

theorem index_neg_mk (lo fr : List V) (bs) (n : Nat) (h0 : 0 < n) (h : n ≤ fr.length) :
    (Stk.mk (lo ++ fr) lo.length bs).index (-(n : Int)) = fr[fr.length - n]? := by
  have h1 : ¬ (0 : Int) ≤ -(n : Int) := by omega
  have h2 : (0:Int) ≤ ((lo ++ fr).length : Int) + -(n : Int) := by simp; omega
  have h3 : (((lo ++ fr).length : Int) + -(n : Int)).toNat = lo.length + (fr.length - n) := by
    simp; omega
  simp only [index, abs, if_neg h1, if_pos h2, h3]
  rw [List.getElem?_append_right (by omega)]; simp

theorem assign_mk (lo fr : List V) (bs) (i : Nat) (v : V) (h : i < fr.length) :
    (Stk.mk (lo ++ fr) lo.length bs).assign i v = some ⟨lo ++ fr.set i v, lo.length, bs⟩ := by
  have h1 : ((lo.length : Int) + (i : Int)).toNat = lo.length + i := by omega
  have h2 : (0:Int) ≤ (lo.length : Int) + (i : Int) := by omega
  simp [assign, abs, h1, h2, h, List.set_append]

theorem erase_prefix_mk (lo fr : List V) (bs) (n : Nat) (h : n ≤ fr.length) :
    (Stk.mk (lo ++ fr) lo.length bs).erase 0 n = some ⟨lo ++ fr.drop n, lo.length, bs⟩ := by
  have h1 : ((lo.length : Int) + (n : Int)).toNat = lo.length + n := by omega
  have h2 : (lo.length : Int) + (n : Int) ≤ ((lo ++ fr).length : Int) := by simp; omega
  have h3 : (lo.length : Int) ≤ (lo.length : Int) + (n:Int) := by omega
  have h4 : ((0:Int)) ≤ (lo.length : Int) := by omega
  have h5 : (lo.length : Int) + (n : Int) ≤ (lo.length : Int) + (fr.length : Int) := by omega
  simp [erase, abs, h1, h3, h]

theorem erase_keep_mk (lo fr : List V) (bs) (n : Nat) (h0 : 0 < n) (h : n ≤ fr.length) :
    (Stk.mk (lo ++ fr) lo.length bs).erase 0 (-(n : Int)) =
      some ⟨lo ++ fr.drop (fr.length - n), lo.length, bs⟩ := by
  have h1 : ¬ (0 : Int) ≤ -(n : Int) := by omega
  have h3 : (((lo ++ fr).length : Int) + -(n : Int)).toNat = lo.length + (fr.length - n) := by
    simp; omega
  have h4 : (lo.length : Int) ≤ ((lo ++ fr).length : Int) + -(n:Int) := by simp; omega
  have h5 : ((lo ++ fr).length : Int) + -(n:Int) ≤ ((lo ++ fr).length : Int) := by omega
  have h6 : (0:Int) ≤ (lo.length : Int) := by omega
  simp only [erase, abs, if_neg h1, h3, h4, h5, Int.le_refl, if_true, Int.add_zero, h6, and_self, and_true]
  simp

theorem clear_mk (lo fr : List V) (bs) :
    (Stk.mk (lo ++ fr) lo.length bs).clear = ⟨lo, lo.length, bs⟩ := by
  simp only [clear, size_mk]
  rw [erase_prefix_mk _ _ _ _ (Nat.le_refl _)]
  simp

theorem pushBase_neg_mk (lo rest args : List V) (bs) (h : 0 < args.length) :
    (Stk.mk (lo ++ (rest ++ args)) lo.length bs).pushBase (-(args.length : Int)) =
      ⟨(lo ++ rest) ++ args, (lo ++ rest).length, lo.length :: bs⟩ := by
  have h1 : ¬ (0 : Int) ≤ -(args.length : Int) := by omega
  have h2 : (((lo ++ (rest ++ args)).length : Int) + -(args.length : Int)).toNat = (lo ++ rest).length := by
    simp; omega
  simp only [pushBase, abs, if_neg h1, h2]
  simp

theorem popBase_cons (c : List V) (b b' : Nat) (bs) : (Stk.mk c b (b' :: bs)).popBase = ⟨c, b', bs⟩ := rfl

theorem pushAll_mk (lo fr args : List V) (bs) :
    pushAll (Stk.mk (lo ++ fr) lo.length bs) args = ⟨lo ++ (fr ++ args), lo.length, bs⟩ := by
  induction args generalizing fr with
  | nil => simp [pushAll]
  | cons a as ih =>
    have := ih (fr ++ [a])
    simp only [pushAll, List.foldl_cons, push, List.append_assoc] at this ⊢
    simpa using this
end Stk

/-- An operator that only touches its own frame, on normal and exceptional exit. -/
def FrameLocal (f : Op V) : Prop :=
  ∀ s : Stk V, s.Wf → match f s with
    | .ok s' _ => Stk.Below s s'
    | .err s' => Stk.Below s s'
    | .ub => True

open Stk

theorem runOpInstr_mk (f : Op V) (lo rest args : List V) (bs) (nr : Nat) (h : 0 < args.length) :
    runOpInstr f args.length nr (Stk.mk (lo ++ (rest ++ args)) lo.length bs) =
      Out.finallyDo
        ((f ⟨(lo ++ rest) ++ args, (lo ++ rest).length, lo.length :: bs⟩).bind fun s1 r =>
          if r ≠ nr then .err s1
          else if s1.size < nr then .err s1
          else orUb (s1.erase 0 (-(nr : Int))))
        Stk.popBase := by
  have h2 : ¬ (rest ++ args).length < args.length := by simp
  simp only [runOpInstr, size_mk, if_neg h2]
  rw [Stk.pushBase_neg_mk _ _ _ _ h]

/-- Split a frame at its top `n` entries. -/
theorem split_top (fr : List V) (n : Nat) (h : n ≤ fr.length) :
    ∃ rest args, fr = rest ++ args ∧ args.length = n ∧ rest = fr.take (fr.length - n) := by
  refine ⟨fr.take (fr.length - n), fr.drop (fr.length - n), by simp, by simp; omega, rfl⟩

end Verif.Runtime
