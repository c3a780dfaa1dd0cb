import Verif.Runtime.MachineLemmas
/-! Static stack-depth check and safety of checked code (helpers for the C03/C04 theorems). -/
namespace Verif.Runtime
variable {V : Type}
open Stk

/-- Position addressed by a relative index in a frame of depth `d` (python-like negative indices). -/
def rel (d : Nat) (i : Int) : Int := if 0 ≤ i then i else (d : Int) + i

/-- Depth of the frame after the instruction, if every access of the instruction stays inside a frame of
depth `d` (and inside a data segment of `nd` entries). -/
def depth (nd : Nat) : Instr V → Nat → Option Nat
  | .push i, d => if 0 ≤ rel d i ∧ rel d i < d then some (d + 1) else none
  | .clone i, d => if 0 ≤ rel d i ∧ rel d i < d then some (d + 1) else none
  | .eraseOne i, d => if 0 ≤ rel d i ∧ rel d i < d then some (d - 1) else none
  | .ringShiftLeft, d => if 0 < d then some d else none
  | .swap i j, d => if (0 ≤ rel d i ∧ rel d i < d) ∧ (0 ≤ rel d j ∧ rel d j < d) then some d else none
  | .erase b e, d =>
      if 0 ≤ rel d b ∧ rel d b ≤ rel d e ∧ rel d e ≤ d then some (d - (rel d e - rel d b).toNat) else none
  | .pack n, d => if n ≤ d then some (d - n + 1) else none
  | .field _, d => if 0 < d then some d else none
  | .dataSeg k, d => if k < nd then some (d + 1) else none
  | .op _ na nr, d => if 0 < na ∧ na ≤ d ∧ 0 < nr then some (d - na + nr) else none

def depths (nd : Nat) : List (Instr V) → Nat → Option Nat
  | [], d => some d
  | i :: is, d => (depth nd i d).bind (depths nd is)

/-- operators inside the instruction are frame local and do not exhibit UB -/
def OpLocal : Instr V → Prop
  | .op f _ _ => FrameLocal f ∧ ∀ s, s.Wf → f s ≠ .ub
  | _ => True

theorem abs_mk (lo fr : List V) (bs) (i : Int) :
    (Stk.mk (lo ++ fr) lo.length bs).abs i = lo.length + rel fr.length i := by
  simp only [Stk.abs, rel]; split <;> simp; omega

theorem index_rel (lo fr : List V) (bs) (i : Int) (h0 : 0 ≤ rel fr.length i)
    (h1 : rel fr.length i < fr.length) :
    ∃ (k : Nat) (hk : k < fr.length), (k : Int) = rel fr.length i ∧
      (Stk.mk (lo ++ fr) lo.length bs).index i = some (fr[k]) := by
  obtain ⟨k, hk⟩ := Int.eq_ofNat_of_zero_le h0
  have hk' : k < fr.length := by omega
  refine ⟨k, hk', hk.symm, ?_⟩
  have e : ((lo.length : Int) + (k : Int)).toNat = lo.length + k := by omega
  have e2 : (0:Int) ≤ (lo.length : Int) + (k : Int) := by omega
  simp only [Stk.index, abs_mk, hk, e, e2, if_true]
  rw [List.getElem?_append_right (by omega)]; simp [hk']

theorem assign_rel (lo fr : List V) (bs) (i : Int) (v : V) (h0 : 0 ≤ rel fr.length i)
    (h1 : rel fr.length i < fr.length) :
    (Stk.mk (lo ++ fr) lo.length bs).assign i v =
      some ⟨lo ++ fr.set (rel fr.length i).toNat v, lo.length, bs⟩ := by
  obtain ⟨k, hk⟩ := Int.eq_ofNat_of_zero_le h0
  have hk' : k < fr.length := by omega
  have e : ((lo.length : Int) + (k : Int)).toNat = lo.length + k := by omega
  have e2 : (0:Int) ≤ (lo.length : Int) + (k : Int) := by omega
  simp [Stk.assign, abs_mk, hk, e, e2, hk']

theorem eraseOne_rel (lo fr : List V) (bs) (i : Int) (h0 : 0 ≤ rel fr.length i)
    (h1 : rel fr.length i < fr.length) :
    (Stk.mk (lo ++ fr) lo.length bs).eraseOne i =
      some ⟨lo ++ fr.eraseIdx (rel fr.length i).toNat, lo.length, bs⟩ := by
  obtain ⟨k, hk⟩ := Int.eq_ofNat_of_zero_le h0
  have hk' : k < fr.length := by omega
  have e : ((lo.length : Int) + (k : Int)).toNat = lo.length + k := by omega
  have e2 : (0:Int) ≤ (lo.length : Int) + (k : Int) := by omega
  have e3 : (lo.length : Int) + (k : Int) < ((lo ++ fr).length : Int) := by simp; omega
  simp only [Stk.eraseOne, abs_mk, hk, e, e2, e3, and_self, if_true]
  rw [List.eraseIdx_append_of_length_le (by omega)]
  simp

theorem erase_rel (lo fr : List V) (bs) (b e : Int) (h0 : 0 ≤ rel fr.length b)
    (h1 : rel fr.length b ≤ rel fr.length e) (h2 : rel fr.length e ≤ fr.length) :
    (Stk.mk (lo ++ fr) lo.length bs).erase b e =
      some ⟨lo ++ (fr.take (rel fr.length b).toNat ++ fr.drop (rel fr.length e).toNat), lo.length, bs⟩ := by
  obtain ⟨k, hk⟩ := Int.eq_ofNat_of_zero_le h0
  obtain ⟨l, hl⟩ := Int.eq_ofNat_of_zero_le (Int.le_trans h0 h1)
  have e : ((lo.length : Int) + (k : Int)).toNat = lo.length + k := by omega
  have e' : ((lo.length : Int) + (l : Int)).toNat = lo.length + l := by omega
  have e2 : (0:Int) ≤ (lo.length : Int) + (k : Int) := by omega
  have e3 : (lo.length : Int) + (l : Int) ≤ ((lo ++ fr).length : Int) := by simp; omega
  have e4 : (lo.length : Int) + (k : Int) ≤ (lo.length : Int) + (l : Int) := by omega
  simp only [Stk.erase, abs_mk, hk, hl, e, e', e2, e3, e4, and_self, if_true]
  rw [List.take_append, List.drop_append, List.take_of_length_le (by omega), List.drop_of_length_le (l := lo) (by omega)]
  simp

/-- the outcome contract: everything below the base is intact; on success the frame depth is `d'` -/
def Contract (s : Stk V) (o : Out (Stk V) Unit) (d' : Nat) : Prop :=
  match o with
  | .ok s' _ => Below s s' ∧ s'.size = d'
  | .err s' => Below s s'
  | .ub => False

theorem opInstr_contract (f : Op V) (hf : FrameLocal f) (hub : ∀ s, s.Wf → f s ≠ .ub)
    (lo rest args : List V) (bs) (nr : Nat) (hn : 0 < args.length) (hr : 0 < nr) :
    (∃ junk res, res.length = nr ∧
      f ⟨(lo ++ rest) ++ args, (lo ++ rest).length, lo.length :: bs⟩ =
        .ok ⟨(lo ++ rest) ++ (junk ++ res), (lo ++ rest).length, lo.length :: bs⟩ nr ∧
      runOpInstr f args.length nr ⟨lo ++ (rest ++ args), lo.length, bs⟩ =
        .ok ⟨lo ++ (rest ++ res), lo.length, bs⟩ ()) ∨
    (∃ fr', runOpInstr f args.length nr ⟨lo ++ (rest ++ args), lo.length, bs⟩ =
        .err ⟨lo ++ (rest ++ fr'), lo.length, bs⟩) := by
  rw [runOpInstr_mk _ _ _ _ _ _ hn]
  have hw : (Stk.mk ((lo ++ rest) ++ args) (lo ++ rest).length (lo.length :: bs)).Wf := wf_mk _ _ _
  have h1 := hf _ hw
  have h2 := hub _ hw
  cases hfs : f ⟨(lo ++ rest) ++ args, (lo ++ rest).length, lo.length :: bs⟩ with
  | ub => exact absurd hfs h2
  | err s1 =>
    rw [hfs] at h1
    obtain ⟨fr1, rfl⟩ := below_ex h1
    right
    exact ⟨fr1, by simp [Out.bind, Out.finallyDo, popBase]⟩
  | ok s1 r =>
    rw [hfs] at h1
    obtain ⟨fr1, rfl⟩ := below_ex h1
    simp only [Out.bind]
    by_cases hrn : r = nr
    · subst hrn
      simp only [ne_eq, not_true, if_false, size_mk]
      by_cases hs : fr1.length < nr
      · simp only [hs, if_true]
        right; exact ⟨fr1, by simp [Out.finallyDo, popBase]⟩
      · simp only [hs, if_false]
        left
        have hs' : nr ≤ fr1.length := by omega
        obtain ⟨junk, res, rfl, hl, _⟩ := split_top fr1 nr hs'
        refine ⟨junk, res, hl, by simp, ?_⟩
        rw [erase_keep_mk _ _ _ _ hr hs']
        simp only [orUb, Out.finallyDo, popBase]
        rw [← hl]; simp
    · simp only [hrn, ne_eq, not_false_eq_true, if_true]
      right; exact ⟨fr1, by simp [Out.finallyDo, popBase]⟩

theorem runInstr_contract (P : PackOps V) (data : List V) (i : Instr V) (s : Stk V) (hs : s.Wf)
    (hl : OpLocal i) (d' : Nat) (hd : depth data.length i s.size = some d') :
    Contract s (runInstr P data i s) d' := by
  obtain ⟨lo, fr, hlo, e, hfr, hlo2⟩ := eq_mk s hs
  rw [e] at hd ⊢
  simp only [size_mk] at hd
  generalize s.bases = bs at *
  clear e hfr hlo hlo2 hs s
  cases i with
  | push i =>
    simp only [depth] at hd
    split at hd <;> simp at hd
    rename_i h
    obtain ⟨k, hk, _, hx⟩ := index_rel lo fr bs i h.1 h.2
    simp only [runInstr, hx, Contract, Stk.push, List.append_assoc]
    exact ⟨below_mk _ _ _ _, by simp; omega⟩
  | clone i =>
    simp only [depth] at hd
    split at hd <;> simp at hd
    rename_i h
    obtain ⟨k, hk, _, hx⟩ := index_rel lo fr bs i h.1 h.2
    simp only [runInstr, hx, Contract, Stk.push, List.append_assoc]
    exact ⟨below_mk _ _ _ _, by simp; omega⟩
  | eraseOne i =>
    simp only [depth] at hd
    split at hd <;> simp at hd
    rename_i h
    simp only [runInstr, eraseOne_rel lo fr bs i h.1 h.2, orUb, Contract]
    refine ⟨below_mk _ _ _ _, ?_⟩
    rw [size_mk, List.length_eraseIdx]; split <;> omega
  | ringShiftLeft =>
    simp only [depth] at hd
    split at hd <;> simp at hd
    rename_i h
    obtain ⟨k, hk, _, hx⟩ := index_rel lo fr bs 0 (by simp [rel]) (by simp [rel]; omega)
    simp only [runInstr, hx, Stk.push, List.append_assoc]
    rw [eraseOne_rel _ _ _ _ (by simp [rel]) (by simp [rel])]
    simp only [orUb, Contract]
    refine ⟨below_mk _ _ _ _, ?_⟩
    rw [size_mk, List.length_eraseIdx]; simp [rel]; omega
  | swap i j =>
    simp only [depth] at hd
    split at hd <;> simp at hd
    rename_i h
    obtain ⟨k, hk, _, hx⟩ := index_rel lo fr bs i h.1.1 h.1.2
    obtain ⟨k', hk', _, hx'⟩ := index_rel lo fr bs j h.2.1 h.2.2
    simp only [runInstr, hx, hx', assign_rel _ _ _ _ _ h.1.1 h.1.2]
    rw [assign_rel _ _ _ _ _ (by simpa using h.2.1) (by simpa using h.2.2)]
    simp only [orErr, Contract]
    refine ⟨below_mk _ _ _ _, ?_⟩
    rw [size_mk]; simp; omega
  | erase b e =>
    simp only [depth] at hd
    split at hd <;> simp at hd
    rename_i h
    simp only [runInstr, erase_rel lo fr bs b e h.1 h.2.1 h.2.2, orUb, Contract]
    refine ⟨below_mk _ _ _ _, ?_⟩
    rw [size_mk]; simp; omega
  | pack n =>
    simp only [depth] at hd
    split at hd <;> simp at hd
    rename_i h
    have h1 : ¬ fr.length < n := by omega
    simp only [runInstr, size_mk, h1, if_false, popN]
    rw [if_pos (by simp; omega)]
    have : List.take ((lo ++ fr).length - n) (lo ++ fr) = lo ++ fr.take (fr.length - n) := by
      simp [List.take_append]
      rw [List.take_of_length_le (by omega)]
      congr 2; omega
    simp only [this, Contract, Stk.push, List.append_assoc]
    refine ⟨below_mk _ _ _ _, ?_⟩
    rw [size_mk]; simp; omega
  | field k =>
    simp only [depth] at hd
    split at hd <;> simp at hd
    rename_i h
    have hne : fr ≠ [] := by intro hh; simp [hh] at h
    have : (lo ++ fr).getLast? = some (fr.getLast hne) := by
      rw [List.getLast?_append, List.getLast?_eq_some_getLast hne]; simp
    simp only [runInstr, this]
    cases hP : P.field (fr.getLast hne) k with
    | none => simp only [Contract]; exact below_mk _ _ _ _
    | some w =>
      simp only [Contract, List.dropLast_append_of_ne_nil hne, List.append_assoc]
      refine ⟨below_mk _ _ _ _, ?_⟩
      rw [size_mk]; simp; omega
  | dataSeg k =>
    simp only [depth] at hd
    split at hd <;> simp at hd
    rename_i h
    simp only [runInstr, List.getElem?_eq_getElem h, Contract, Stk.push, List.append_assoc]
    exact ⟨below_mk _ _ _ _, by simp; omega⟩
  | op f na nr =>
    simp only [depth] at hd
    split at hd <;> simp at hd
    rename_i h
    obtain ⟨rest, args, hra, hla, _⟩ := split_top fr na h.2.1
    subst hra hla
    rcases opInstr_contract f hl.1 hl.2 lo rest args bs nr h.1 h.2.2 with ⟨junk, res, hr, _, hx⟩ | ⟨fr', hx⟩
    · simp only [runInstr, hx, Contract]
      exact ⟨below_mk _ _ _ _, by simp at hd ⊢; omega⟩
    · simp only [runInstr, hx, Contract]; exact below_mk _ _ _ _

theorem runCode_contract (P : PackOps V) (data : List V) (is : List (Instr V)) (s : Stk V) (hs : s.Wf)
    (hl : ∀ i ∈ is, OpLocal i) (d' : Nat) (hd : depths data.length is s.size = some d') :
    Contract s (runCode P data is s) d' := by
  induction is generalizing s with
  | nil => simp [depths] at hd; simp [runCode, Contract, hd, Below.refl hs]
  | cons i is ih =>
    simp only [depths] at hd
    cases hdi : depth data.length i s.size with
    | none => simp [hdi] at hd
    | some d1 =>
      simp only [hdi, Option.bind_some] at hd
      have h1 := runInstr_contract P data i s hs (hl i (by simp)) d1 hdi
      simp only [runCode]
      cases ho : runInstr P data i s with
      | ub => rw [ho] at h1; exact h1.elim
      | err s' => rw [ho] at h1; exact h1
      | ok s' u =>
        rw [ho] at h1
        simp only [Out.bind]
        have h2 := ih s' h1.1.wf' (fun i hi => hl i (by simp [hi])) (by rw [h1.2]; exact hd)
        cases ho2 : runCode P data is s' with
        | ub => rw [ho2] at h2; exact h2.elim
        | err s2 => rw [ho2] at h2; exact h1.1.trans h2
        | ok s2 u2 => rw [ho2] at h2; exact ⟨h1.1.trans h2.1, h2.2⟩

end Verif.Runtime
