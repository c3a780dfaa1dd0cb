import Verif.Api.Plugin
import Mathlib.Data.List.Induction
/-!
# C74: operators are found where they were registered; operators of plugins
-/
namespace Verif.Props
open Verif.Core Verif.Api

variable {F Obj : Type}

/-- a registration that counts: all functions are there and the name of the device fits -/
def Accepted (r : List Nat × List Nat × Option F) : Prop := r.2.2.isSome = true ∧ r.1.length ≤ 7

instance (r : List Nat × List Nat × Option F) : Decidable (Accepted r) := by unfold Accepted; infer_instance

/-- the last registration of this operator for this device that counts -/
def lastOf (rs : List (List Nat × List Nat × Option F)) (device op : List Nat) : Option F :=
  (rs.reverse.find? (fun r => decide (r.1 = device ∧ r.2.1 = op ∧ Accepted r))).bind (fun r => r.2.2)

/-- bytes of a C string -/
def CName (s : List Nat) : Prop := ∀ b ∈ s, b ≠ 0

theorem pad_inj {a b : List Nat} (ha : CName a) (hb : CName b) (la : a.length ≤ 7) (lb : b.length ≤ 7)
    (h : a ++ List.replicate (8 - a.length) 0 = b ++ List.replicate (8 - b.length) 0) : a = b := by
  have key : ∀ (s : List Nat), CName s → (s ++ List.replicate (8 - s.length) 0).takeWhile (· != 0) = s := by
    intro s hs
    rw [List.takeWhile_append_of_pos (by simpa [CName] using hs)]
    cases (8 - s.length) with
    | zero => simp
    | succ k => simp [List.replicate_succ]
  rw [← key a ha, h, key b hb]

theorem query_register (m : Registry F) (d n d' n' : List Nat) (f : F) :
    (m.register d n f).query d' n' = if (d, n) = (d', n') then some f else m.query d' n' := by
  unfold Registry.register Registry.query
  by_cases h : (d, n) = (d', n')
  · simp [h]
  · rw [if_neg h, List.find?_cons_of_neg (by simpa using h)]
    congr 1
    induction m with
    | nil => rfl
    | cons e m ih =>
      by_cases he : e.1 = (d, n)
      · rw [List.filter_cons_of_neg (by simp [he]), List.find?_cons_of_neg (by simp only [he, beq_iff_eq]; exact h), ih]
      · rw [List.filter_cons_of_pos (by simp [he])]
        by_cases he' : e.1 = (d', n')
        · rw [List.find?_cons_of_pos (by simp [he']), List.find?_cons_of_pos (by simp [he'])]
        · rw [List.find?_cons_of_neg (by simp [he']), List.find?_cons_of_neg (by simp [he']), ih]

theorem deviceType_ok {s : List Nat} (h : s.length ≤ 7) : deviceType s = .ok (s ++ List.replicate (8 - s.length) 0) := if_neg (by omega)

theorem registerAll_query (rs : List (List Nat × List Nat × Option F)) (hrs : ∀ r ∈ rs, CName r.1) (device op : List Nat) (hd : CName device)
    (hl : device.length ≤ 7) : (registerAll rs).query (device ++ List.replicate (8 - device.length) 0) op = lastOf rs device op := by
  unfold registerAll lastOf
  induction rs using List.reverseRecOn with
  | nil => rfl
  | append_singleton rs r ih =>
    have ih := ih (fun r hr => hrs r (by simp [hr]))
    rw [List.foldl_append, List.reverse_append]
    simp only [List.foldl_cons, List.foldl_nil, List.reverse_cons, List.reverse_nil, List.nil_append, List.cons_append]
    obtain ⟨dv, n, fs⟩ := r
    have hdv : CName dv := hrs (dv, n, fs) (by simp)
    by_cases hp : dv = device ∧ n = op ∧ Accepted (dv, n, fs)
    · obtain ⟨rfl, rfl, ha⟩ := hp
      rw [List.find?_cons_of_pos (by simp [ha])]
      obtain ⟨f, rfl⟩ := Option.isSome_iff_exists.1 ha.1
      simp only [registerPlugin, deviceType_ok hl]
      rw [query_register, if_pos rfl]
      rfl
    · rw [List.find?_cons_of_neg (by simpa using hp), ← ih]
      unfold registerPlugin
      cases fs with
      | none => rfl
      | some f =>
        by_cases hlen : dv.length ≤ 7
        · simp only [deviceType_ok hlen]
          rw [query_register, if_neg]
          intro e
          obtain ⟨e1, e2⟩ := Prod.mk.inj e
          exact hp ⟨pad_inj hdv hd hlen hl e1, e2, rfl, hlen⟩
        · have : deviceType dv = .err := if_pos (by omega)
          simp only [this]

instance (s : List Nat) : Decidable (CName s) := by unfold CName; infer_instance

/-- the outcome of constructing what was found -/
def built (make : F → Option Obj) : Option F → Option (Res Obj)
  | some f => (make f).map .ok
  | none => some .err

/-- whatever was registered, an operator that is asked for on exactly one device is made by the last registration there, and is not found if there is none -/
theorem C74_strict (make : F → Option Obj) (mem : List (List Nat × List Nat)) (rs : List (List Nat × List Nat × Option F)) (hrs : ∀ r ∈ rs, CName r.1)
    (device op : List Nat) (hd : CName device) (hl : device.length ≤ 7) :
    createOperator make mem (registerAll rs) device op true = built make (lastOf rs device op) := by
  unfold createOperator talentQuery
  rw [deviceType_ok hl]
  simp only
  rw [registerAll_query rs hrs device op hd hl]
  cases lastOf rs device op <;> rfl

/-- otherwise the memory device and then the CPU are tried, if the memory device is known -/
theorem C74_fallback (make : F → Option Obj) (mem : List (List Nat × List Nat)) (rs : List (List Nat × List Nat × Option F)) (hrs : ∀ r ∈ rs, CName r.1)
    (device memory op : List Nat) (hd : CName device) (hl : device.length ≤ 7) (hm : CName memory) (hml : memory.length ≤ 7)
    (hmem : memoryOf mem (device ++ List.replicate (8 - device.length) 0) = some (memory ++ List.replicate (8 - memory.length) 0)) :
    createOperator make mem (registerAll rs) device op false =
      built make (((lastOf rs device op).or (lastOf rs memory op)).or (lastOf rs [99, 112, 117] op)) := by
  have hc : cpuType = [99, 112, 117] ++ List.replicate (8 - [99, 112, 117].length) 0 := rfl
  have hcpu : CName [99, 112, 117] := by decide
  have q1 := registerAll_query rs hrs device op hd hl
  have q2 := registerAll_query rs hrs memory op hm hml
  have q3 := registerAll_query rs hrs [99, 112, 117] op hcpu (by decide)
  rw [← hc] at q3
  unfold createOperator talentQuery
  rw [deviceType_ok hl]
  simp only [Bool.false_eq_true, if_false]
  rw [q1]
  cases h1 : lastOf rs device op with
  | some f => rfl
  | none =>
    simp only [tryMemory, hmem]
    rw [q2]
    cases h2 : lastOf rs memory op with
    | some f => rfl
    | none =>
      simp only [tryCpu]
      by_cases heq : device ++ List.replicate (8 - device.length) 0 = cpuType
      · rw [if_pos heq]
        rw [hc] at heq
        have := pad_inj hd hcpu hl (by decide) heq
        subst this
        simp [h1, built]
      · rw [if_neg heq, q3]
        cases lastOf rs [99, 112, 117] op <;> rfl

/-- a name of a device that does not fit is an exception -/
theorem C74_long_name (make : F → Option Obj) (mem : List (List Nat × List Nat)) (m : Registry F) (device op : List Nat) (strict : Bool) (hl : 7 < device.length) :
    createOperator make mem m device op strict = some .err := by
  unfold createOperator
  have : deviceType device = .err := if_pos hl
  rw [this]

/-- when the process ends: the operator is not registered on the device and the memory of the device is not known, or `f_new` returns null -/
theorem C74_terminates_iff (make : F → Option Obj) (mem : List (List Nat × List Nat)) (rs : List (List Nat × List Nat × Option F)) (hrs : ∀ r ∈ rs, CName r.1)
    (device op : List Nat) (hd : CName device) (hl : device.length ≤ 7) (hun : memoryOf mem (device ++ List.replicate (8 - device.length) 0) = none) :
    createOperator make mem (registerAll rs) device op false = none ↔
      (lastOf rs device op = none ∨ ∃ f, lastOf rs device op = some f ∧ make f = none) := by
  unfold createOperator talentQuery
  rw [deviceType_ok hl]
  simp only [Bool.false_eq_true, if_false]
  rw [registerAll_query rs hrs device op hd hl]
  cases h1 : lastOf rs device op with
  | none => simp [tryMemory, hun]
  | some f => simp

/-- "an operator that the CPU has is found for every device, and one that cannot be made is an exception" is false: in both cases the process ends -/
theorem C74_create_false :
    (∃ rs : List (List Nat × List Nat × Option Nat), lastOf rs [99, 112, 117] [1] = some 5 ∧
      createOperator (fun f => some f) [] (registerAll rs) [120, 121] [1] false = none) ∧
    createOperator (fun _ : Nat => (none : Option Nat)) [(cpuType, cpuType)] (registerAll [([99, 112, 117], [1], some 5)]) [99, 112, 117] [1] false = none :=
  ⟨⟨[([99, 112, 117], [1], some 5)], by decide +kernel, by decide +kernel⟩, by decide +kernel⟩

example : createOperator (fun f => some f) [([103, 112, 117, 0, 0, 0, 0, 0], [103, 112, 117, 0, 0, 0, 0, 0])]
    (registerAll [([99, 112, 117], [1], some 5), ([99, 112, 117], [1], some 6), ([99, 112, 117], [1], none)]) [103, 112, 117] [1] false = some (.ok 6) := by
  rw [C74_fallback (F := Nat) (Obj := Nat) (fun f => some f) _ _ (by decide)
    [103, 112, 117] [103, 112, 117] [1] (by decide) (by decide) (by decide) (by decide) (by decide)]
  decide +kernel

example : createOperator (fun f => some f) [] (registerAll [([99, 112, 117], [1], some 5), ([103, 112, 117], [1], some 6)]) [99, 112, 117] [1] true = some (.ok 5) := by
  rw [C74_strict (F := Nat) (Obj := Nat) (fun f => some f) _ _ (by decide) [99, 112, 117] [1] (by decide) (by decide)]
  decide +kernel

example : createOperator (fun f => some f) [] (registerAll [([99, 112, 117], [1], some 5)]) [120] [1] false = none :=
  (C74_terminates_iff (F := Nat) (Obj := Nat) (fun f => some f) [] _ (by decide) [120] [1] (by decide) (by decide) rfl).2 (.inl (by decide +kernel))

/-! ## The answer of `f_infer` -/

/-- the format of include/api/operator.h:61-65: the number of fields, and of each field type, number of extents and extents -/
def encodeProtos (ps : List (Int × List Int)) : List Int := (ps.length : Int) :: ps.flatMap (fun p => p.1 :: (p.2.length : Int) :: p.2)

theorem inferOne_shrinks {data rest : List Int} {p : Int × Int × List Int} (h : inferOne data = .ok (p, rest)) : rest.length + 2 ≤ data.length := by
  unfold inferOne at h
  split at h
  · next t n r =>
    split at h
    · cases h
    · split at h
      · cases h
      · obtain ⟨-, rfl⟩ := Prod.mk.inj (Res.ok.inj h)
        simp only [List.length_drop, List.length_cons]
        omega
  · cases h

theorem inferLoop_bound {k : Nat} {data : List Int} {ps : List (Int × Int × List Int)} (h : inferLoop k data = .ok ps) : 2 * k ≤ data.length := by
  induction k generalizing data ps with
  | zero => simp
  | succ k ih =>
    unfold inferLoop at h
    cases e : inferOne data with
    | ok r =>
      rw [e, Res.bind_ok] at h
      obtain ⟨p, rest⟩ := r
      simp only at h
      cases e2 : inferLoop k rest with
      | ok qs =>
        have := ih e2
        have := inferOne_shrinks e
        omega
      | err => rw [e2] at h; cases h
      | ub => rw [e2] at h; cases h
    | err => rw [e] at h; cases h
    | ub => rw [e] at h; cases h

/-- no answer of `f_infer` is ever accepted -/
theorem C74_infer_never (data : List Int) (ps : List (Int × Int × List Int)) : inferPlugin data ≠ .ok ps := by
  intro h
  unfold inferPlugin at h
  split at h
  · cases h
  · next rest =>
    have := inferLoop_bound h
    simp only [List.length_cons] at this
    omega

theorem inferOne_encode (p : Int × List Int) (hp : p.2.length ≤ 7) (rest : List Int) :
    inferOne (p.1 :: (p.2.length : Int) :: (p.2 ++ rest)) = .ok ((p.1, (p.2.length : Int), p.2), rest) := by
  unfold inferOne
  simp only
  rw [if_neg (by simp only [List.length_append]; omega), if_neg (by omega)]
  simp

theorem inferLoop_encode (ps : List (Int × List Int)) (hp : ∀ p ∈ ps, p.2.length ≤ 7) (k : Nat) (hk : ps.length < k) :
    inferLoop k (ps.flatMap (fun p => p.1 :: (p.2.length : Int) :: p.2)) = .err := by
  induction ps generalizing k with
  | nil =>
    cases k with
    | zero => simp at hk
    | succ k => rfl
  | cons p ps ih =>
    cases k with
    | zero => simp at hk
    | succ k =>
      simp only [List.flatMap_cons, List.cons_append]
      unfold inferLoop
      rw [inferOne_encode p (hp p (by simp)), Res.bind_ok]
      simp only
      rw [ih (fun q hq => hp q (by simp [hq])) k (by simpa using hk)]
      rfl

/-- "what a plugin announces in the documented format is what is inferred" is false of every announcement: it is refused -/
theorem C74_infer_false (ps : List (Int × List Int)) (hp : ∀ p ∈ ps, p.2.length ≤ 7) : inferPlugin (encodeProtos ps) = .err := by
  unfold encodeProtos inferPlugin
  simp only
  refine inferLoop_encode ps hp _ ?_
  simp only [List.length_cons]
  have : ∀ (l : List (Int × List Int)), l.length ≤ (l.flatMap (fun p => p.1 :: (p.2.length : Int) :: p.2)).length := by
    intro l
    induction l with
    | nil => simp
    | cons a l ih =>
      simp only [List.flatMap_cons, List.length_append, List.length_cons]
      omega
  have := this ps
  omega

/-- the example of the documentation -/
example : inferPlugin [2, 10, 2, 4, 3, 5, 3, 5, 6, 7] = .err := C74_infer_false [(10, [4, 3]), (5, [5, 6, 7])] (by decide)

end Verif.Props
