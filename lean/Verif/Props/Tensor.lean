import Verif.Core.Tensor
/-!
# C40: packed tensors
-/
namespace Verif.Props
open Verif.Core Verif.Runtime

/-- A tensor that is not itself a pack (`!Tensor::packed()`, tensor.cpp:302-304). -/
def Flat (t : Tensor) : Prop := t.fields = []

/-- Python-style list indexing: `l[i]`, negative `i` from the end, `none` outside. -/
def pyGet {α : Type} (l : List α) (i : Int) : Option α :=
  if 0 ≤ i then l[i.toNat]? else if 0 ≤ (l.length : Int) + i then l[((l.length : Int) + i).toNat]? else none

/-- The full claim for `field`: reading field `i` of a pack of `l` is `l[i]`. -/
def FieldOfPack (l : List Tensor) : Prop :=
  ∀ self : Tensor, ∀ i : Int, isInt32 i → fieldInt (pack self l) i = pyGet l i

theorem fieldAt_pack (self h : Tensor) (ts : List Tensor) (hf : Flat h) (n : Nat) :
    fieldAt (pack self (h :: ts)) n = (h :: ts)[n]? := by
  cases n with
  | zero =>
    cases h with
    | mk o fs => simp [Flat, Tensor.fields] at hf; subst hf; simp [fieldAt, pack, Tensor.own]
  | succ n => simp [fieldAt, pack, Tensor.fields]

/-- C40: packing a non-empty list whose first tensor is not itself a pack, then reading any `int` index,
gives the list element at that index (from the end for negative indices), and an error exactly when the
index is out of range; the target tensor's previous content does not matter. The other list members may be
packs of any depth. (The list is shorter than `2^31`: `int(fields_count())`.) -/
theorem C40_field_of_pack_partial (h : Tensor) (ts : List Tensor) (hf : Flat h)
    (hl : (h :: ts).length < 2147483648) : FieldOfPack (h :: ts) := by
  intro self i hi
  have hlen : fieldsCount (pack self (h :: ts)) = (h :: ts).length := by
    simp [fieldsCount, pack, Tensor.fields]; omega
  unfold fieldInt
  rw [hlen, fieldAt_pack self h ts hf]
  unfold isInt32 at hi
  unfold pyGet
  by_cases h0 : 0 ≤ i
  · have : toSize i = i.toNat := by unfold toSize; omega
    simp only [ge_iff_le, h0, if_true, this]
  · simp only [ge_iff_le, h0, if_false]
    by_cases h1 : 0 ≤ ((h :: ts).length : Int) + i
    · have : toSize (((h :: ts).length : Int) + i) = (((h :: ts).length : Int) + i).toNat := by
        unfold toSize; omega
      simp only [h1, if_true, this]
    · rw [if_neg h1, List.getElem?_eq_none]
      unfold toSize
      omega

example : FieldOfPack [.mk ⟨5, [2], [1,0,0,0,2,0,0,0]⟩ [], .mk ⟨1, [1], [7]⟩ [.mk emptyField []]] :=
  C40_field_of_pack_partial _ _ rfl (by simp)

/-- When the first tensor of the list is itself a pack, reading field 0 gives only that pack's first
member: the inner members are lost. -/
theorem C40_packed_head_false : ∃ l : List Tensor, l ≠ [] ∧ ¬ FieldOfPack l := by
  refine ⟨[.mk ⟨1, [1], [7]⟩ [.mk ⟨1, [1], [8]⟩ []]], by simp, fun h => ?_⟩
  have := h (.mk emptyField []) 0 (by decide)
  simp [fieldInt, fieldAt, pack, toSize, pyGet, Tensor.own] at this

/-- C40: unpacking a pack returns the packed list. -/
theorem C40_unpack_of_pack_partial (self h : Tensor) (ts : List Tensor) (hf : Flat h) :
    unpack (pack self (h :: ts)) = h :: ts := by
  cases h with
  | mk o fs => simp [Flat, Tensor.fields] at hf; subst hf; simp [unpack, pack, Tensor.own, Tensor.fields]

example : unpack (pack (.mk ⟨1, [1], [9]⟩ [.mk emptyField []]) [.mk ⟨1, [1], [7]⟩ [], .mk ⟨1, [1], [8]⟩ []])
    = [.mk ⟨1, [1], [7]⟩ [], .mk ⟨1, [1], [8]⟩ []] := C40_unpack_of_pack_partial _ _ _ rfl

/-- Packing an empty list resets the tensor's own value but leaves its previous extra members in place: a tensor
that was a pack keeps being one. -/
theorem C40_pack_empty_false : ∃ self : Tensor, ¬ (unpack (pack self []) = [.mk emptyField []]) :=
  ⟨.mk emptyField [.mk ⟨1, [1], [8]⟩ []], by simp [unpack, pack, Tensor.own, Tensor.fields]⟩

/-- C40: packing what was unpacked gives the tensor back, for every tensor, nested or not. -/
theorem C40_pack_of_unpack (self t : Tensor) : pack self (unpack t) = t := by
  cases t; simp [pack, unpack, Tensor.own, Tensor.fields]

/-- C40: writing field `i` and reading field `j` (any `int` indices, `i` and `j` normalised alike): the write is
accepted exactly when `i` is a valid index, it then changes field `i` to `v` (for `v` not a pack, or `i` not
index 0) and no other field, and the number of fields stays. -/
theorem C40_set_get (t v : Tensor) (i : Int) (hi : isInt32 i) (hl : fieldsCount t < 2147483648)
    (hv : Flat v) :
    ((setFieldInt t i v).isSome ↔ (-(fieldsCount t : Int) ≤ i ∧ i < fieldsCount t)) ∧
    ∀ t', setFieldInt t i v = some t' →
      fieldsCount t' = fieldsCount t ∧ fieldInt t' i = some v ∧
      ∀ j, isInt32 j → (j - i) % (fieldsCount t : Int) ≠ 0 → fieldInt t' j = fieldInt t j := by
  cases t with
  | mk o fs =>
  cases v with
  | mk vo vfs =>
  simp [Flat, Tensor.fields] at hv; subst hv
  simp only [isInt32] at hi
  simp only [fieldsCount, Tensor.fields] at hl
  have key : ∀ k : Int, (-2147483648 ≤ k ∧ k ≤ 2147483647) →
      ∃ n : Nat, toSize (if k ≥ 0 then k else ((1 + fs.length : Nat) : Int) + k) = n ∧
        ((n < 1 + fs.length ∧ -((1 + fs.length : Nat) : Int) ≤ k ∧ k < ((1 + fs.length : Nat) : Int) ∧
            (k = n ∨ k = (n : Int) - ((1 + fs.length : Nat) : Int))) ∨
         (1 + fs.length ≤ n ∧ ¬ (-((1 + fs.length : Nat) : Int) ≤ k ∧ k < ((1 + fs.length : Nat) : Int)))) := by
    intro k hk
    refine ⟨_, rfl, ?_⟩
    unfold toSize
    split <;> omega
  obtain ⟨n, hn, hcase⟩ := key i hi
  have hset : setFieldInt (.mk o fs) i (.mk vo []) = setFieldAt (.mk o fs) n (.mk vo []) := by
    simp only [setFieldInt, fieldsCount, Tensor.fields, hn]
  rw [hset]
  simp only [fieldsCount, Tensor.fields]
  constructor
  · rcases hcase with ⟨h1, h2, h3, _⟩ | ⟨h1, h2⟩
    · simp only [h2, h3, and_self, iff_true]
      unfold setFieldAt
      split
      · rfl
      · rw [if_neg (by simp only [Tensor.fields]; omega)]; rfl
    · simp only [h2, iff_false]
      unfold setFieldAt
      rw [if_neg (by omega), if_pos (by simp only [Tensor.fields]; omega)]
      simp
  · intro t' ht'
    unfold setFieldAt at ht'
    rcases hcase with ⟨h1, h2, h3, h4⟩ | ⟨h1, h2⟩
    rotate_left
    · rw [if_neg (by omega), if_pos (by simp only [Tensor.fields]; omega)] at ht'
      simp at ht'
    have hlen : t'.fields.length = fs.length := by
      split at ht'
      · cases ht'; rfl
      · split at ht'
        · cases ht'
        · cases ht'; simp [Tensor.fields]
    refine ⟨by cases t'; simpa [Tensor.fields] using hlen, ?_, ?_⟩
    · have : fieldInt t' i = fieldAt t' n := by
        simp only [fieldInt, fieldsCount, hlen, hn]
      rw [this]
      split at ht'
      · rename_i hz; cases ht'; simp [fieldAt, hz, Tensor.own]
      · rename_i hn0
        rw [if_neg (by simp only [Tensor.fields]; omega)] at ht'
        cases ht'
        simp only [fieldAt, hn0, if_false, Tensor.fields]
        rw [List.getElem?_set_self (by omega)]
    · intro j hj hne
      simp only [isInt32] at hj
      obtain ⟨m, hm, hc⟩ := key j hj
      have e1 : fieldInt t' j = fieldAt t' m := by simp only [fieldInt, fieldsCount, hlen, hm]
      have e2 : fieldInt (.mk o fs) j = fieldAt (.mk o fs) m := by
        simp only [fieldInt, fieldsCount, Tensor.fields, hm]
      have hmn : m ≠ n := by
        intro e
        rcases hc with ⟨_, _, _, c4⟩ | ⟨c1, _⟩
        · apply hne
          rcases h4 with h4 | h4 <;> rcases c4 with c4 | c4 <;> subst e
          · simp [c4, h4]
          · rw [c4, h4]
            have : (m : Int) - ((1 + fs.length : Nat) : Int) - m = -((1 + fs.length : Nat) : Int) := by omega
            rw [this]; simp
          · rw [c4, h4]
            have : (m : Int) - ((m : Int) - ((1 + fs.length : Nat) : Int)) = ((1 + fs.length : Nat) : Int) := by omega
            rw [this]; simp
          · rw [c4, h4]; simp
        · omega
      rw [e1, e2]
      split at ht'
      · cases ht'
        have : m ≠ 0 := by omega
        simp [fieldAt, this, Tensor.fields]
      · rename_i hn0
        rw [if_neg (by simp only [Tensor.fields]; omega)] at ht'
        cases ht'
        by_cases hm0 : m = 0
        · simp [fieldAt, hm0, Tensor.own]
        · simp only [fieldAt, hm0, if_false, Tensor.fields]
          rw [List.getElem?_set_ne (by omega)]

example : ∃ t', setFieldInt (.mk emptyField [.mk emptyField []]) (-1) (.mk ⟨1, [1], [8]⟩ []) = some t' ∧
    fieldInt t' 1 = some (.mk ⟨1, [1], [8]⟩ []) := by
  refine ⟨_, rfl, by simp [fieldInt, fieldAt, toSize, Tensor.fields, Tensor.own, fieldsCount]⟩

/-- C40: executing `pack n` and then `field k` with at least `n ≥ 1` values in the frame replaces the top `n` values
by the `k`-th of them (Python indexing), or reports an error when `k` is out of range; the values below are
untouched. Requires the first packed value not to be itself a pack. -/
theorem C40_pack_field_instructions_partial (data : List Tensor) (s : Stk Tensor) (below : List Tensor)
    (h : Tensor) (ts : List Tensor) (k : Int) (hf : Flat h) (hk : isInt32 k)
    (hl : (h :: ts).length < 2147483648)
    (hs : s.cells = below ++ h :: ts) (hb : s.base ≤ below.length) :
    runCode tensorPackOps data [.pack (h :: ts).length, .field k] s =
      match pyGet (h :: ts) k with
      | some v => .ok { s with cells := below ++ [v] } ()
      | none => .err { s with cells := below ++ [pack (.mk emptyField []) (h :: ts)] } := by
  have hlen : s.cells.length = below.length + (h :: ts).length := by simp [hs]
  have hsz : ¬ s.size < (h :: ts).length := by unfold Stk.size; omega
  have hfp := C40_field_of_pack_partial h ts hf hl (.mk emptyField []) k hk
  have hdrop : s.cells.drop (s.cells.length - (h :: ts).length) = h :: ts := by
    rw [hlen, Nat.add_sub_cancel, hs]; simp
  have htake : s.cells.take (s.cells.length - (h :: ts).length) = below := by
    rw [hlen, Nat.add_sub_cancel, hs]; simp
  have hpop : s.popN (h :: ts).length = some { s with cells := below } := by
    unfold Stk.popN; rw [if_pos (by omega), htake]
  have e : (tensorPackOps.pack (h :: ts)) = pack (.mk emptyField []) (h :: ts) := rfl
  have e2 : tensorPackOps.field = fieldInt := rfl
  simp only [runCode, runInstr, hsz, if_false, hdrop, hpop, Out.bind, Stk.push, e, e2,
    List.getLast?_append, List.getLast?_singleton, Option.some_or, hfp]
  cases pyGet (h :: ts) k with
  | none => rfl
  | some v => simp

example : runCode tensorPackOps [] [.pack 2, .field (-1)]
    ⟨[.mk emptyField [], .mk ⟨1, [1], [7]⟩ [], .mk ⟨1, [1], [8]⟩ []], 0, []⟩
    = .ok ⟨[.mk emptyField [], .mk ⟨1, [1], [8]⟩ []], 0, []⟩ () :=
  C40_pack_field_instructions_partial [] ⟨[.mk emptyField [], .mk ⟨1, [1], [7]⟩ [], .mk ⟨1, [1], [8]⟩ []], 0, []⟩
    [.mk emptyField []] (.mk ⟨1, [1], [7]⟩ []) [.mk ⟨1, [1], [8]⟩ []] (-1) rfl (by decide) (by simp) rfl (by simp)

/-- C40: cloning preserves a tensor whose members are not themselves packs … -/
theorem C40_clone_partial (t : Tensor) (h : ∀ f ∈ t.fields, Flat f) : clone t = t := by
  cases t with
  | mk o fs =>
    simp only [clone, unpack, Tensor.own, Tensor.fields, List.map_cons, pack]
    congr 1
    simp only [Tensor.fields] at h
    conv => rhs; rw [← List.map_id fs]
    apply List.map_congr_left
    intro f hf
    have := h f hf
    cases f; simp [Flat, Tensor.fields] at this; subst this; rfl

example : clone (.mk emptyField [.mk ⟨1, [1], [8]⟩ []]) = .mk emptyField [.mk ⟨1, [1], [8]⟩ []] :=
  C40_clone_partial _ (by simp [Tensor.fields, Flat])

/-- … but drops the inner members of a nested pack. -/
theorem C40_clone_nested_false : ∃ t : Tensor, clone t ≠ t :=
  ⟨.mk emptyField [.mk emptyField [.mk emptyField []]], by
    simp [clone, unpack, pack, Tensor.own, Tensor.fields]⟩

/-- C40: setting the number of members to `n`: afterwards there are `n` members (one default member for `n = 0`),
the members that existed below `n` are unchanged, and the new ones are default-constructed. -/
theorem C40_refield (t : Tensor) (n : Nat) :
    fieldsCount (refield t n) = max n 1 ∧
    (∀ j, j < n → j < fieldsCount t → fieldAt (refield t n) j = fieldAt t j) ∧
    (∀ j, j < n → fieldsCount t ≤ j → fieldAt (refield t n) j = some (.mk emptyField [])) ∧
    (n = 0 → refield t n = .mk emptyField []) := by
  cases t with
  | mk o fs =>
  by_cases h0 : n = 0
  · subst h0; simp [refield, fieldsCount, Tensor.fields]
  · simp only [refield, h0, if_false, fieldsCount, Tensor.fields, Tensor.own]
    refine ⟨by simp; omega, ?_, ?_, fun h => h.elim⟩
    · intro j hj hjt
      by_cases hz : j = 0
      · simp [fieldAt, hz, Tensor.own]
      · simp only [fieldAt, hz, if_false, Tensor.fields]
        rw [List.getElem?_append_left (by simp; omega), List.getElem?_take, if_pos (by omega)]
    · intro j hj hjt
      simp only [fieldAt, show j ≠ 0 by omega, if_false, Tensor.fields]
      rw [List.getElem?_append_right (by simp; omega), List.getElem?_replicate, if_pos]
      simp; omega

example : refield (.mk ⟨1, [1], [7]⟩ [.mk ⟨1, [1], [8]⟩ []]) 3
    = .mk ⟨1, [1], [7]⟩ [.mk ⟨1, [1], [8]⟩ [], .mk emptyField []] := rfl

end Verif.Props
