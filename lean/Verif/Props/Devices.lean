import Verif.Memory.Devices
import Mathlib.Data.List.Induction
/-!
# C107: a device's memory is allocated and copied by what was registered for it
-/
namespace Verif.Props.Devices
open Verif.Core Verif.Memory.Devices

/-! ## specification of allocators -/

/-- the memory of a device: the blocks of each device number with their bytes -/
abbrev Store := Int → Nat → Option (List UInt8)

/-- the same with block `p` of device `id` replaced, added or removed -/
def put (s : Store) (id : Int) (p : Nat) (b : Option (List UInt8)) : Store := fun i q => if i = id ∧ q = p then b else s i q

/-- without the block of a pointer -/
def gone (s : Store) (id : Int) : Option Nat → Store
  | none => s
  | some p => put s id p none

/-- `new` gives a block that did not exist, of the size asked for, or throws and changes nothing -/
def GoodNew (new : Int → Nat → Store → Out Store (Option Nat)) : Prop :=
  ∀ id n s, 0 < n → (∃ q b, s id q = none ∧ b.length = n ∧ new id n s = .ok (some q) (put s id q (some b))) ∨ new id n s = .thrown .own s

/-- `del` removes an existing block and ignores null -/
def GoodDel (del : Int → Option Nat → Store → Out Store Unit) : Prop :=
  (∀ id s, del id none s = .ok () s) ∧ ∀ id p s b, s id p = some b → del id (some p) s = .ok () (put s id p none)

/-- the copying function copies between existing blocks -/
def GoodConv (c : Conv Store) : Prop :=
  ∀ did q sid p n s x y, s did q = some x → s sid p = some y → n ≤ x.length → n ≤ y.length →
    c did (some q) sid (some p) n s = .ok () (put s did q (some (y.take n ++ x.drop n)))

/-- what an allocator does for a call with null or an existing block, whose size is given or said to be 0: size 0 frees; another size gives a block of that size,
with the first bytes of the old one if its size was given, the old one is gone and all other blocks are as before; or it throws, and the old block is kept if its
size was given -/
def Contract (a : Alloc Store) : Prop :=
  ∀ id n mem memSize s, (∀ p, mem = some p → ∃ old, s id p = some old ∧ (memSize = 0 ∨ memSize = old.length)) →
    (n = 0 → a id n mem memSize s = .ok none (gone s id mem)) ∧
    (0 < n →
      (∃ q b, (s id q = none ∨ mem = some q) ∧ b.length = n ∧ a id n mem memSize s = .ok (some q) (put (gone s id mem) id q (some b)) ∧
        ∀ p old, mem = some p → s id p = some old → 0 < memSize → b.take old.length = old.take n) ∨
      a id n mem memSize s = .thrown .own (if memSize = 0 then gone s id mem else s))

/-- `reset` moves an existing block of the size given to one of the new size, or throws and changes nothing -/
def GoodReset (r : Alloc Store) : Prop :=
  ∀ id n p s old, 0 < n → s id p = some old → 0 < old.length →
    (∃ q b, (s id q = none ∨ q = p) ∧ b.length = n ∧ b.take old.length = old.take n ∧
      r id n (some p) old.length s = .ok (some q) (put (put s id p none) id q (some b))) ∨
    r id n (some p) old.length s = .thrown .own s

theorem put_other {s : Store} {id : Int} {p q : Nat} (b : Option (List UInt8)) (h : q ≠ p) : put s id p b id q = s id q := by
  simp [put, h]

theorem put_self (s : Store) (id : Int) (p : Nat) (b : Option (List UInt8)) : put s id p b id p = b := by simp [put]

theorem put_put (s : Store) (id : Int) (p : Nat) (a b : Option (List UInt8)) : put (put s id p a) id p b = put s id p b := by
  funext i q; unfold put; split <;> rfl

theorem put_comm (s : Store) (id : Int) {p q : Nat} (h : q ≠ p) (a b : Option (List UInt8)) : put (put s id p a) id q b = put (put s id q b) id p a := by
  funext i r
  unfold put
  by_cases h1 : i = id ∧ r = p
  · rw [if_pos h1, if_neg (by rintro ⟨-, h2⟩; exact h (h2.symm.trans h1.2)), if_pos h1]
  · by_cases h2 : i = id ∧ r = q
    · rw [if_pos h2, if_neg h1, if_pos h2]
    · rw [if_neg h2, if_neg h1, if_neg h1, if_neg h2]

/-- **C107, three functions.** An allocator put together from `new`, `del` and `reset` of a device does what an allocator has to do. -/
theorem C107_bind {p : Parts Store} (hn : GoodNew p.new) (hd : GoodDel p.del) (hr : GoodReset p.reset) : Contract (bindParts p) := by
  intro id n mem memSize s hm
  constructor
  · intro h0
    unfold bindParts
    rw [if_pos h0]
    cases mem with
    | none => rw [hd.1]; rfl
    | some q =>
      obtain ⟨old, ho, -⟩ := hm q rfl
      rw [hd.2 id q s old ho]; rfl
  · intro h0
    unfold bindParts
    rw [if_neg (by omega)]
    cases mem with
    | none =>
      simp only [gone]
      rcases hn id n s h0 with ⟨q, b, h1, h2, h3⟩ | h
      · exact .inl ⟨q, b, .inl h1, h2, h3, fun p old e => by cases e⟩
      · right; rw [h]; simp
    | some k =>
      obtain ⟨old, ho, hz⟩ := hm k rfl
      simp only [gone]
      by_cases hz0 : memSize = 0
      · rw [if_neg (by omega), hd.2 id k s old ho]
        simp only [Out.bind]
        rcases hn id n (put s id k none) h0 with ⟨q, b, h1, h2, h3⟩ | h
        · refine .inl ⟨q, b, ?_, h2, h3, fun p old e1 e2 e3 => by omega⟩
          by_cases e : q = k
          · exact .inr (by rw [e])
          · rw [put_other _ e] at h1; exact .inl h1
        · right; rw [h, if_pos hz0]
      · rw [if_pos (by omega)]
        have he : memSize = old.length := by omega
        subst he
        rcases hr id n k s old h0 ho (by omega) with ⟨q, b, h1, h2, h3, h4⟩ | h
        · refine .inl ⟨q, b, ?_, h2, h4, fun p old' e1 e2 _ => ?_⟩
          · rcases h1 with h1 | h1
            · exact .inl h1
            · exact .inr (by rw [h1])
          · cases e1
            rw [ho] at e2; cases e2
            exact h3
        · right; rw [h, if_neg hz0]

/-- the `reset` made from the other two and the copying function -/
theorem resetV2_good {new : Int → Nat → Store → Out Store (Option Nat)} {del : Int → Option Nat → Store → Out Store Unit} {c : Conv Store}
    (hn : GoodNew new) (hd : GoodDel del) (hc : GoodConv c) : GoodReset (resetV2 new del (some c)) := by
  intro id n p s old h0 ho hl
  unfold resetV2
  rcases hn id n s h0 with ⟨q, b, h1, h2, h3⟩ | h
  · left
    have hne : p ≠ q := fun e => by rw [e, h1] at ho; cases ho
    refine ⟨q, old.take (min n old.length) ++ b.drop (min n old.length), .inl h1, ?_, ?_, ?_⟩
    · simp; omega
    · by_cases hx : n ≤ old.length
      · rw [show min n old.length = n by omega, List.drop_eq_nil_of_le (by omega), List.append_nil, List.take_take, show min old.length n = n by omega]
      · rw [show min n old.length = old.length by omega, List.take_length, List.take_append_of_le_length (Nat.le_refl _), List.take_length,
          List.take_of_length_le (by omega)]
    · rw [h3]
      simp only [Out.bind]
      rw [hc id q id p (min n old.length) _ b old (put_self _ _ _ _) (by rw [put_other _ hne]; exact ho) (by omega) (by omega)]
      simp only
      rw [put_put, hd.2 id p _ old (by rw [put_other _ hne]; exact ho)]
      simp only
      rw [put_comm _ _ hne]
  · right; rw [h]; rfl

/-! ## the registries -/

theorem find_assign {K V : Type} [DecidableEq K] (k k' : K) (v : V) (m : List (K × V)) : find k' (assign k v m) = if k' = k then some v else find k' m := by
  induction m with
  | nil =>
    by_cases h : k' = k
    · subst h; simp [assign, find]
    · simp [assign, find, h, Ne.symm h]
  | cons e r ih =>
    rw [assign]
    by_cases h1 : e.1 = k
    · rw [if_pos h1, find, find]
      by_cases h2 : k' = k
      · subst h2; simp
      · rw [if_neg h2, if_neg (Ne.symm h2), h1, if_neg (Ne.symm h2)]
    · rw [if_neg h1, find, find, ih]
      by_cases h2 : e.1 = k'
      · rw [if_pos h2, if_pos h2, if_neg]; exact fun e' => h1 (h2.trans e')
      · rw [if_neg h2, if_neg h2]

theorem find_isSome {K V : Type} [DecidableEq K] (k : K) (m : List (K × V)) : (find k m).isSome = true ↔ k ∈ m.map (·.1) := by
  induction m with
  | nil => simp [find]
  | cons e r ih =>
    rw [find]
    by_cases h : e.1 = k
    · simp [h]
    · rw [if_neg h, ih]; simp [Ne.symm h]

/-- entry of the converters -/
def entry {S : Type} (r : Reg S) (d s : String) : Option (Option (Conv S)) := (find d r.convs).bind (find s)

theorem entry_reg {S : Type} (r : Reg S) (d s : String) (c : Option (Conv S)) (d' s' : String) :
    entry (r.regConv d s c) d' s' = if d' = d ∧ s' = s then some c else entry r d' s' := by
  unfold entry Reg.regConv
  cases hm : find d r.convs with
  | some m =>
    simp only [find_assign]
    by_cases h1 : d' = d
    · subst h1
      simp only [if_true, true_and, Option.bind_some, find_assign, hm]
    · simp [h1]
  | none =>
    simp only [find_assign]
    by_cases h1 : d' = d
    · subst h1
      simp only [if_true, true_and, Option.bind_some, hm, find, Option.bind_none]
      by_cases h2 : s' = s
      · subst h2; simp
      · rw [if_neg h2, if_neg (Ne.symm h2)]
    · simp [h1]

theorem query_entry {S : Type} (r : Reg S) (d s : String) : r.queryConv d s = (entry r d s).join := by
  unfold Reg.queryConv entry
  cases find d r.convs with
  | none => rfl
  | some m => cases h : find s m <;> simp [h]

theorem entry_step {S : Type} (r : Reg S) (op : Op S) (d s : String) :
    entry (step r op) d s = match op with
      | .conv d' s' c => if d = d' ∧ s = s' then some c else entry r d s
      | .clearConvs => none
      | _ => entry r d s := by
  cases op with
  | conv d' s' c => exact entry_reg r d' s' c d s
  | _ => rfl

/-- the call does not touch the converter of `d` from `s` -/
def LeavesConv {S : Type} (d s : String) : Op S → Prop
  | .conv d' s' _ => ¬ (d' = d ∧ s' = s)
  | .clearConvs => False
  | _ => True

theorem run_append {S : Type} (r : Reg S) (a b : List (Op S)) : run r (a ++ b) = run (run r a) b := by
  induction a generalizing r with
  | nil => rfl
  | cons x a ih => exact ih _

theorem run_leaves {S : Type} {d s : String} (ops : List (Op S)) (h : ∀ op ∈ ops, LeavesConv d s op) (r : Reg S) : entry (run r ops) d s = entry r d s := by
  induction ops generalizing r with
  | nil => rfl
  | cons op ops ih =>
    rw [run, ih (fun x hx => h x (by simp [hx])), entry_step]
    have := h op (by simp)
    cases op with
    | conv d' s' c =>
      simp only [LeavesConv] at this
      simp only
      rw [if_neg]
      rintro ⟨rfl, rfl⟩; exact this ⟨rfl, rfl⟩
    | clearConvs => exact absurd this (by simp [LeavesConv])
    | _ => rfl

/-- **C107, copying.** After any calls, the function that copies from memory of one device to that of another is the one registered last for this pair, in this
order, since the registry was last cleared; without one there is none; and the pairs listed are those registered. -/
theorem C107_converters {S : Type} (ops : List (Op S)) (d s : String) :
    ((∃ pre c post, ops = pre ++ .conv d s c :: post ∧ (∀ op ∈ post, LeavesConv d s op) ∧
        (run .empty ops).queryConv d s = c ∧ (d, s) ∈ (run .empty ops).convKeys) ∨
      ((∀ pre c post, ops = pre ++ .conv d s c :: post → .clearConvs ∈ post) ∧ (run .empty ops).queryConv d s = none ∧ (d, s) ∉ (run .empty ops).convKeys)) := by
  have huniq : ∀ (ops : List (Op S)), ((run (.empty : Reg S) ops).convs.map (·.1)).Nodup := by
    have hass : ∀ {V : Type} (k : String) (v : V) (m : List (String × V)), (m.map (·.1)).Nodup → ((assign k v m).map (·.1)).Nodup := by
      intro V k v m
      have hmem : ∀ (m : List (String × V)) x, x ∈ (assign k v m).map (·.1) → x = k ∨ x ∈ m.map (·.1) := by
        intro m x hx
        have := (find_isSome x (assign k v m)).mpr hx
        rw [find_assign] at this
        by_cases h : x = k
        · exact .inl h
        · rw [if_neg h] at this; exact .inr ((find_isSome x m).mp this)
      induction m with
      | nil => intro _; simp [assign]
      | cons e r ih =>
        intro h
        rw [List.map_cons, List.nodup_cons] at h
        rw [assign]
        split
        · rename_i he
          rw [List.map_cons, List.nodup_cons, ← he]; exact h
        · rename_i he
          rw [List.map_cons, List.nodup_cons]
          refine ⟨fun hx => ?_, ih h.2⟩
          rcases hmem r _ hx with h1 | h1
          · exact he h1
          · exact h.1 h1
    have hstep : ∀ (r : Reg S) op, (r.convs.map (·.1)).Nodup → ((step r op).convs.map (·.1)).Nodup := by
      intro r op h
      cases op with
      | conv d s c =>
        simp only [step, Reg.regConv]
        split <;> exact hass _ _ _ h
      | clearConvs => exact List.nodup_nil
      | _ => exact h
    have : ∀ (ops : List (Op S)) r, (r.convs.map (·.1)).Nodup → ((run r ops).convs.map (·.1)).Nodup := by
      intro ops
      induction ops with
      | nil => exact fun r h => h
      | cons op ops ih => exact fun r h => ih _ (hstep r op h)
    exact fun ops => this ops _ List.nodup_nil
  have hkey : ∀ (r : Reg S), (r.convs.map (·.1)).Nodup → ((d, s) ∈ r.convKeys ↔ (entry r d s).isSome = true) := by
    intro r hu
    unfold Reg.convKeys entry
    generalize r.convs = m at hu
    induction m with
    | nil => simp [find]
    | cons e m ih =>
      rw [List.map_cons, List.nodup_cons] at hu
      rw [List.flatMap_cons, List.mem_append, ih hu.2, find]
      by_cases he : e.1 = d
      · subst he
        rw [if_pos rfl, Option.bind_some, find_isSome]
        have hn : find e.1 m = none := by
          have := mt (find_isSome e.1 m).mp hu.1
          simpa using this
        rw [hn]; simp
      · rw [if_neg he]
        constructor
        · rintro (h | h)
          · simp only [List.mem_map, Prod.mk.injEq] at h
            obtain ⟨x, -, h1, -⟩ := h
            exact absurd h1 he
          · exact h
        · exact .inr
  rw [hkey _ (huniq ops), query_entry]
  by_cases hex : ∃ pre c post, ops = pre ++ .conv d s c :: post ∧ ∀ op ∈ post, LeavesConv d s op
  · left
    obtain ⟨pre, c, post, rfl, hp⟩ := hex
    have : entry (run (.empty : Reg S) (pre ++ .conv d s c :: post)) d s = some c := by
      rw [run_append, run, run_leaves post hp, entry_step]; simp
    exact ⟨pre, c, post, rfl, hp, by rw [this]; simp, by rw [this]; rfl⟩
  · right
    have hnone : ∀ ops : List (Op S), (¬ ∃ pre c post, ops = pre ++ .conv d s c :: post ∧ ∀ op ∈ post, LeavesConv d s op) →
        (∀ pre c post, ops = pre ++ .conv d s c :: post → .clearConvs ∈ post) ∧ entry (run (.empty : Reg S) ops) d s = none := by
      intro ops
      induction ops using List.reverseRecOn with
      | nil => exact fun _ => ⟨fun pre c post h => by simp at h, rfl⟩
      | append_singleton ops op ih =>
        intro hno
        rw [run_append]
        simp only [run]
        rw [entry_step]
        by_cases hc : ∃ c, op = .conv d s c
        · obtain ⟨c, rfl⟩ := hc
          exact absurd ⟨ops, c, [], rfl, by simp⟩ hno
        by_cases hcl : op = .clearConvs
        · subst hcl
          refine ⟨fun pre c post h => ?_, rfl⟩
          have hp : post ≠ [] := by
            rintro rfl
            have := congrArg List.getLast? h
            simp at this
          obtain ⟨z, y, e⟩ : ∃ z y, post = z ++ [y] := ⟨_, _, (List.dropLast_concat_getLast hp).symm⟩
          subst e
          rw [← List.cons_append, ← List.append_assoc] at h
          have := List.append_inj_right' h rfl
          simp only [List.cons.injEq, and_true] at this
          rw [← this]; simp
        · have hl : LeavesConv d s op := by
            cases op with
            | conv d' s' c =>
              rintro ⟨rfl, rfl⟩
              exact hc ⟨c, rfl⟩
            | clearConvs => exact absurd rfl hcl
            | _ => exact True.intro
          have hno' : ¬ ∃ pre c post, ops = pre ++ .conv d s c :: post ∧ ∀ op ∈ post, LeavesConv d s op := by
            rintro ⟨pre, c, post, rfl, hp⟩
            refine hno ⟨pre, c, post ++ [op], by simp, fun x hx => ?_⟩
            rw [List.mem_append, List.mem_singleton] at hx
            rcases hx with hx | rfl
            · exact hp x hx
            · exact hl
          obtain ⟨i1, i2⟩ := ih hno'
          constructor
          · intro pre c post h
            have hp : post ≠ [] := by
              rintro rfl
              have := congrArg List.getLast? h
              simp at this
              exact hc ⟨c, this⟩
            obtain ⟨z, y, e⟩ : ∃ z y, post = z ++ [y] := ⟨_, _, (List.dropLast_concat_getLast hp).symm⟩
            subst e
            rw [← List.cons_append, ← List.append_assoc] at h
            have := List.append_inj_left' h rfl
            simp [i1 pre c z this]
          · cases op with
            | conv d' s' c =>
              simp only
              rw [if_neg, i2]
              rintro ⟨rfl, rfl⟩
              exact hc ⟨c, rfl⟩
            | clearConvs => rfl
            | _ => exact i2
    obtain ⟨h1, h2⟩ := hnone ops hex
    exact ⟨h1, by rw [h2]; rfl, by rw [h2]; simp⟩

/-! ### examples of a device's functions -/

open Classical in
/-- a device that gives the first free block, full of sevens -/
noncomputable def exNew : Int → Nat → Store → Out Store (Option Nat) := fun id n s =>
  if h : ∃ q, s id q = none then .ok (some h.choose) (put s id h.choose (some (List.replicate n 7))) else .thrown .own s

def exDel : Int → Option Nat → Store → Out Store Unit := fun id p s =>
  match p with
  | none => .ok () s
  | some p => match s id p with
    | some _ => .ok () (put s id p none)
    | none => .ub

def exConv : Conv Store := fun did q sid p n s =>
  match q, p with
  | some q, some p => match s did q, s sid p with
    | some x, some y => if n ≤ x.length ∧ n ≤ y.length then .ok () (put s did q (some (y.take n ++ x.drop n))) else .ub
    | _, _ => .ub
  | _, _ => .ub

theorem exNew_good : GoodNew exNew := by
  intro id n s _
  unfold exNew
  by_cases h : ∃ q, s id q = none
  · rw [dif_pos h]
    exact .inl ⟨h.choose, _, h.choose_spec, by simp, rfl⟩
  · rw [dif_neg h]; exact .inr rfl

theorem exDel_good : GoodDel exDel := ⟨fun _ _ => rfl, fun id p s b h => by simp [exDel, h]⟩

theorem exConv_good : GoodConv exConv := by
  intro did q sid p n s x y h1 h2 h3 h4
  simp [exConv, h1, h2, h3, h4]

/-- the functions of the examples put together; an empty memory has room -/
example : Contract (bindParts ⟨exNew, exDel, resetV2 exNew exDel (some exConv)⟩) ∧
    ∃ q, exNew 0 3 (fun _ _ => none) = .ok (some q) (put (fun _ _ => none) 0 q (some [7, 7, 7])) := by
  refine ⟨C107_bind exNew_good exDel_good (resetV2_good exNew_good exDel_good exConv_good), ?_⟩
  have h : ∃ q, (fun _ _ => none : Store) 0 q = none := ⟨0, rfl⟩
  exact ⟨h.choose, by unfold exNew; rw [dif_pos h]; rfl⟩

/-- two copying functions for a pair: the later one; the other direction has none -/
example : let c1 : Conv Store := fun _ _ _ _ _ _ => .ub
    (run .empty [.conv "gpu" "cpu" (some c1), .conv "cpu" "cpu" none, .conv "gpu" "cpu" (some exConv)]).queryConv "gpu" "cpu" = some exConv ∧
    (run (.empty : Reg Store) [.conv "gpu" "cpu" (some exConv)]).queryConv "cpu" "gpu" = none ∧
    (run (.empty : Reg Store) [.conv "gpu" "cpu" (some exConv), .conv "gpu" "gpu" none]).convKeys = [("gpu", "cpu"), ("gpu", "gpu")] := by
  refine ⟨?_, ?_, ?_⟩ <;> rfl

/-! ## allocators in the registry -/

/-- the call registers the allocator `a` for `d`, the registries being `r` before it -/
def Registers {S : Type} (r : Reg S) (d : String) (a : Option (Alloc S)) : Op S → Prop
  | .alloc d' a' => d' = d ∧ a = a'
  | .v3 d' p => d' = d ∧ a = some (bindParts p)
  | .v2 d' new del => d' = d ∧ a = some (bindParts ⟨new, del, resetV2 new del (r.queryConv d d)⟩)
  | _ => False

/-- the call does not touch the allocator of `d` -/
def LeavesAlloc {S : Type} (d : String) : Op S → Prop
  | .alloc d' _ => d' ≠ d
  | .v3 d' _ => d' ≠ d
  | .v2 d' _ _ => d' ≠ d
  | .clearAllocs => False
  | _ => True

theorem alloc_registers {S : Type} {r : Reg S} {d : String} {a : Option (Alloc S)} {op : Op S} (h : Registers r d a op) : find d (step r op).allocs = some a := by
  cases op with
  | alloc d' a' => obtain ⟨rfl, rfl⟩ := h; simp [step, Reg.regAlloc, find_assign]
  | v3 d' p => obtain ⟨rfl, rfl⟩ := h; simp [step, Reg.regV3, Reg.regAlloc, find_assign]
  | v2 d' new del => obtain ⟨rfl, rfl⟩ := h; simp [step, Reg.regV2, Reg.regV3, Reg.regAlloc, find_assign]
  | _ => exact absurd h (by simp [Registers])

theorem alloc_leaves {S : Type} {r : Reg S} {d : String} {op : Op S} (h : LeavesAlloc d op) : find d (step r op).allocs = find d r.allocs := by
  cases op with
  | alloc d' a' => simp [step, Reg.regAlloc, find_assign, Ne.symm h]
  | v3 d' p => simp [step, Reg.regV3, Reg.regAlloc, find_assign, Ne.symm h]
  | v2 d' new del => simp [step, Reg.regV2, Reg.regV3, Reg.regAlloc, find_assign, Ne.symm h]
  | conv d' s c =>
    simp only [step, Reg.regConv]
    split <;> rfl
  | clearAllocs => exact absurd h (by simp [LeavesAlloc])
  | clearConvs => rfl

theorem run_leavesAlloc {S : Type} {d : String} (ops : List (Op S)) (h : ∀ op ∈ ops, LeavesAlloc d op) (r : Reg S) :
    find d (run r ops).allocs = find d r.allocs := by
  induction ops generalizing r with
  | nil => rfl
  | cons op ops ih => rw [run, ih (fun x hx => h x (by simp [hx])), alloc_leaves (h op (by simp))]

/-- **C107, allocators.** After any calls, the allocator of a device is the one registered last for it, and the device is listed; a device for which nothing was
registered since the registry was cleared has none and is not listed. -/
theorem C107_allocators {S : Type} (pre post : List (Op S)) (d : String) (op : Op S) (hp : ∀ x ∈ post, LeavesAlloc d x) :
    (∀ a, Registers (run .empty pre) d a op →
      (run .empty (pre ++ op :: post)).queryAlloc d = a ∧ d ∈ (run .empty (pre ++ op :: post)).allocKeys) ∧
    (run (.empty : Reg S) post).queryAlloc d = none ∧ d ∉ (run (.empty : Reg S) post).allocKeys ∧
    (op = .clearAllocs → (run .empty (pre ++ op :: post)).queryAlloc d = none ∧ d ∉ (run .empty (pre ++ op :: post)).allocKeys) := by
  refine ⟨fun a ha => ?_, ?_, ?_, ?_⟩
  · have : find d (run (.empty : Reg S) (pre ++ op :: post)).allocs = some a := by
      rw [run_append, run, run_leavesAlloc post hp, alloc_registers ha]
    refine ⟨by unfold Reg.queryAlloc; rw [this], ?_⟩
    unfold Reg.allocKeys
    rw [← find_isSome, this]; rfl
  · unfold Reg.queryAlloc
    rw [run_leavesAlloc post hp]; rfl
  · unfold Reg.allocKeys
    rw [← find_isSome, run_leavesAlloc post hp]
    simp [Reg.empty, find]
  · rintro rfl
    have : find d (run (.empty : Reg S) (pre ++ .clearAllocs :: post)).allocs = none := by
      rw [run_append, run, run_leavesAlloc post hp]; rfl
    refine ⟨by unfold Reg.queryAlloc; rw [this], ?_⟩
    unfold Reg.allocKeys
    rw [← find_isSome, this]; simp

/-- registered for the graphics card, then for the processor -/
example : ∃ post : List (Op Store), post.length = 2 ∧ (∀ x ∈ post, LeavesAlloc "gpu" x) ∧
    Registers (run .empty []) "gpu" (some (bindParts ⟨exNew, exDel, resetV2 exNew exDel none⟩)) (.v2 "gpu" exNew exDel) :=
  ⟨[.alloc "cpu" none, .conv "gpu" "gpu" (some exConv)], rfl, by simp [LeavesAlloc], rfl, rfl⟩

/-- **C107, two functions.** An allocator registered by `new` and `del` only does what an allocator has to do, if the device's copying function was registered
before it. -/
theorem C107_two_functions_partial {new : Int → Nat → Store → Out Store (Option Nat)} {del : Int → Option Nat → Store → Out Store Unit} {c : Conv Store}
    (hn : GoodNew new) (hd : GoodDel del) (hc : GoodConv c) (pre post : List (Op Store)) (d : String)
    (hb : (run .empty pre).queryConv d d = some c) (hp : ∀ x ∈ post, LeavesAlloc d x) :
    ∃ a, (run .empty (pre ++ .v2 d new del :: post)).queryAlloc d = some a ∧ Contract a := by
  have := (C107_allocators pre post d (.v2 d new del) hp).1 _ ⟨rfl, rfl⟩
  rw [hb] at this
  exact ⟨_, this.1, C107_bind hn hd (resetV2_good hn hd hc)⟩

example : (run .empty [.conv "npu" "npu" (some exConv)]).queryConv "npu" "npu" = some exConv := rfl

/-- **C107, disproved** for a device whose copying function is registered later: although it is there when memory is used, every growth or reduction of a block
that finds room throws an exception that is not the library's, and the new block stays allocated with nobody knowing of it. -/
theorem C107_late_false {new : Int → Nat → Store → Out Store (Option Nat)} {del : Int → Option Nat → Store → Out Store Unit} (c : Conv Store)
    (pre post : List (Op Store)) (d : String) (hb : (run .empty pre).queryConv d d = none) (hp : ∀ x ∈ post, LeavesAlloc d x) :
    (run .empty (pre ++ .v2 d new del :: (post ++ [.conv d d (some c)]))).queryConv d d = some c ∧
    ∃ a, (run .empty (pre ++ .v2 d new del :: (post ++ [.conv d d (some c)]))).queryAlloc d = some a ∧
      ∀ id n p memSize s q b, 0 < n → 0 < memSize → new id n s = .ok (some q) (put s id q (some b)) →
        a id n (some p) memSize s = .thrown .badCall (put s id q (some b)) := by
  constructor
  · rw [query_entry, ← List.cons_append, ← List.append_assoc, run_append]
    simp only [run]
    rw [entry_step]; simp
  · have := (C107_allocators pre (post ++ [.conv d d (some c)]) d (.v2 d new del) (by
      intro x hx
      rw [List.mem_append, List.mem_singleton] at hx
      rcases hx with hx | rfl
      · exact hp x hx
      · exact True.intro)).1 _ ⟨rfl, rfl⟩
    rw [hb] at this
    refine ⟨_, this.1, fun id n p memSize s q b h1 h2 h3 => ?_⟩
    unfold bindParts
    rw [if_neg (by omega)]
    simp only
    rw [if_pos h2]
    unfold resetV2
    rw [h3]; rfl

/-- with the functions of the examples: block 0 with two bytes is to grow to three -/
example : ∃ s : Store, s 0 0 = some [1, 2] ∧ ∃ q, exNew 0 3 s = .ok (some q) (put s 0 q (some [7, 7, 7])) := by
  refine ⟨put (fun _ _ => none) 0 0 (some [1, 2]), rfl, ?_⟩
  have h : ∃ q, (put (fun _ _ => none) 0 0 (some [1, 2]) : Store) 0 q = none := ⟨1, rfl⟩
  exact ⟨h.choose, by unfold exNew; rw [dif_pos h]; rfl⟩

/-- **C107, disproved** for a `new` that reports want of memory with a null pointer, as `malloc` does: the allocator gives null for a size that is not 0, without an
exception, after having freed the old block. -/
theorem C107_null_false {p : Parts Store} (hd : GoodDel p.del) (id : Int) (n k : Nat) (s : Store) (old : List UInt8) (hn : 0 < n) (hk : s id k = some old)
    (h1 : p.new id n s = .ok none s) (h2 : p.new id n (put s id k none) = .ok none (put s id k none)) :
    bindParts p id n none 0 s = .ok none s ∧ bindParts p id n (some k) 0 s = .ok none (put s id k none) := by
  constructor
  · unfold bindParts
    rw [if_neg (by omega)]
    exact h1
  · unfold bindParts
    rw [if_neg (by omega)]
    simp only [Nat.lt_irrefl, gt_iff_lt, if_false]
    rw [hd.2 id k s old hk]
    exact h2

example : let p : Parts Store := ⟨fun _ _ s => .ok none s, exDel, resetV2 exNew exDel none⟩
    GoodDel p.del ∧ (∀ s, p.new 0 3 s = .ok none s) ∧ (put (fun _ _ => none) 0 0 (some [1]) : Store) 0 0 = some [1] :=
  ⟨exDel_good, fun _ => rfl, rfl⟩

/-- **C107, the processor's own allocator** is what `malloc`, `free` and `realloc` give when put together, so C97 holds of such an allocator too. -/
theorem C107_same_as_cpu (room : Bool) (junk : Nat → UInt8) (id : Int) (n : Nat) (mem : Option Nat) (memSize : Nat) (h : Verif.Memory.HardCpu.Heap) :
    toGot (bindParts ⟨sysNew room junk, sysDel, sysReset room junk⟩ id n mem memSize h) = Verif.Memory.HardCpu.cpuAllocator room junk h n mem memSize := by
  unfold bindParts Verif.Memory.HardCpu.cpuAllocator
  by_cases h0 : n = 0
  · rw [if_pos h0, if_pos h0]
    cases mem with
    | none => rfl
    | some p =>
      simp only [sysDel]
      cases h.free p <;> rfl
  · rw [if_neg h0, if_neg h0]
    cases mem with
    | none =>
      simp only [sysNew]
      cases room <;> rfl
    | some p =>
      simp only
      by_cases hz : memSize = 0
      · rw [if_neg (by omega), if_neg (by omega)]
        simp only [sysDel]
        cases h.free p with
        | none => rfl
        | some h1 => simp only [Out.bind, sysNew]; cases room <;> rfl
      · rw [if_pos (by omega), if_pos hz]
        simp only [sysReset]
        cases h.bytes p with
        | none => rfl
        | some old =>
          cases room
          · rfl
          · simp only [if_true]
            cases h.free p <;> rfl

end Verif.Props.Devices
