import Verif.Module.SerialLemmas
/-!
# Building bubbles through their interface

Models the constructors and setters of `Bubble` (src/module/bubble.cpp:45-100, 128-137, 224-242), to show that
the consistency the reader needs (`BubbleOk`) is what the interface maintains.
-/
namespace Verif.Module
open Verif.Core

/-- `tensor::from(Shape)`: an `INT32` vector (tensor_builder.h:76-77, tensor_builder.cpp:314-321) -/
def shapeTensor (s : List Int) : Tensor := .mk ⟨5, [(s.length : Int)], s.flatMap fun z => le32 (toU32 z)⟩ []

/-- `Bubble::set`, bubble.cpp:69-76 (and `m_params[k] = v`) -/
def setParam (l : List (Str × Tensor)) (k : Str) (v : Tensor) : List (Str × Tensor) :=
  if k ∈ l.map Prod.fst then l.map (fun p => if p.1 = k then (k, v) else p) else l ++ [(k, v)]

/-- `Bubble(op, name, shape)` with `update_retention_params`, bubble.cpp:45-63 and 128-137; the other
constructors are the cases with an empty name or shape. -/
def mkBubble (op name : Str) (shape : List Int) : Bubble :=
  let ps := setParam (setParam [] (str "#op") (stringTensor op)) (str "#name") (stringTensor name)
  ⟨op, name, shape, if shape = [] then ps else setParam ps (str "#shape") (shapeTensor shape)⟩

/-- `Bubble::set(param, value)` -/
def Bubble.set (b : Bubble) (k : Str) (v : Tensor) : Bubble := { b with params := setParam b.params k v }
/-- `Bubble::op(op)`, bubble.cpp:224-227 -/
def Bubble.setOp (b : Bubble) (op : Str) : Bubble :=
  { b with op := op, params := setParam b.params (str "#op") (stringTensor op) }
/-- `Bubble::name(name)`, bubble.cpp:229-232 -/
def Bubble.setName (b : Bubble) (name : Str) : Bubble :=
  { b with name := name, params := setParam b.params (str "#name") (stringTensor name) }
/-- `Bubble::shape(shape)`, bubble.cpp:234-237 -/
def Bubble.setShape (b : Bubble) (s : List Int) : Bubble :=
  { b with shape := s, params := setParam b.params (str "#shape") (shapeTensor s) }
/-- `Bubble::clear(param)`, bubble.cpp:92-99 (`none`: unknown parameter) -/
def Bubble.clear (b : Bubble) (k : Str) : Option Bubble :=
  if k ∈ b.params.map Prod.fst then some { b with params := b.params.filter (fun p => p.1 ≠ k) } else none

/-- the names the cached fields depend on, and the output count -/
def Reserved (k : Str) : Prop := k = str "#op" ∨ k = str "#name" ∨ k = str "#shape" ∨ k = str "#output_count"
instance (k : Str) : Decidable (Reserved k) := by unfold Reserved; infer_instance

/-- a shape object: at most seven `int32_t` -/
def ShapeOk (s : List Int) : Prop := s.length ≤ 7 ∧ ∀ z ∈ s, isInt32 z

/-- Bubbles made through the interface, not touching the reserved parameters behind its back. Strings are
shorter than 2^31 (`Shape({int(length)})`). -/
inductive Built : Bubble → Prop where
  | make {op name : Str} {shape : List Int} (h1 : op.length < 2147483648) (h2 : name.length < 2147483648)
      (h3 : ShapeOk shape) : Built (mkBubble op name shape)
  | set {b k v} (h : Built b) (hk : ¬ Reserved k) (hl : k.length < 4294967296) (hv : TensorOk v) :
      Built (b.set k v)
  | op {b op} (h : Built b) (h1 : List.length op < 2147483648) : Built (b.setOp op)
  | name {b name} (h : Built b) (h1 : List.length name < 2147483648) : Built (b.setName name)
  | shape {b s} (h : Built b) (h1 : ShapeOk s) : Built (b.setShape s)
  | clear {b b' k} (h : Built b) (hk : ¬ Reserved k) (hc : b.clear k = some b') : Built b'

/-! ## Lemmas -/

theorem lookup_setParam (l : List (Str × Tensor)) (k j : Str) (v : Tensor) :
    lookup (setParam l k v) j = if j = k then some v else lookup l j := by
  unfold setParam lookup
  split
  · rename_i h
    induction l with
    | nil => cases h
    | cons p ps ih =>
      simp only [List.map_cons, List.find?_cons]
      by_cases hp : p.1 = k
      · simp only [hp, if_true]
        by_cases hj : j = k
        · subst hj; simp
        · have hkj : k ≠ j := Ne.symm hj
          simp only [hj, if_false, hkj, decide_false]
          have hmap : ∀ ps : List (Str × Tensor), (List.find? (fun p => decide (p.1 = j))
              (ps.map fun p => if p.1 = k then (k, v) else p)) = List.find? (fun p => decide (p.1 = j)) ps := by
            intro ps
            induction ps with
            | nil => rfl
            | cons q qs ih2 =>
              simp only [List.map_cons, List.find?_cons]
              by_cases hq : q.1 = k
              · simp only [hq, if_true, hkj, decide_false]
                exact ih2
              · simp only [hq, if_false]
                rw [ih2]
          rw [hmap]
      · simp only [hp, if_false]
        by_cases hpj : p.1 = j
        · have hjk : j ≠ k := fun e => hp (hpj.trans e)
          simp [hpj, hjk]
        · simp only [hpj, decide_false]
          apply ih
          simp only [List.map_cons, List.mem_cons] at h
          rcases h with h | h
          · exact absurd h.symm hp
          · exact h
  · rename_i h
    rw [List.find?_append]
    cases hf : l.find? (fun p => decide (p.1 = j)) with
    | some q =>
      have hq := List.find?_some hf
      have hm := List.mem_of_find?_eq_some hf
      simp only [decide_eq_true_eq] at hq
      have : j ≠ k := by
        rintro rfl
        exact h (List.mem_map.mpr ⟨q, hm, hq⟩)
      simp [this]
    | none =>
      simp only [Option.none_or, List.find?_cons, List.find?_nil]
      by_cases hj : j = k
      · subst hj; simp
      · have hkj : k ≠ j := Ne.symm hj
        simp [hj, hkj]

theorem keys_setParam (l : List (Str × Tensor)) (k : Str) (v : Tensor) (h : (l.map Prod.fst).Nodup) :
    ((setParam l k v).map Prod.fst).Nodup := by
  unfold setParam
  split
  · have : (l.map fun p => if p.1 = k then (k, v) else p).map Prod.fst = l.map Prod.fst := by
      rw [List.map_map]
      apply List.map_congr_left
      intro p _
      simp only [Function.comp_apply]
      split
      · rename_i h; exact h.symm
      · rfl
    rw [this]; exact h
  · rename_i hk
    rw [List.map_append, List.nodup_append]
    refine ⟨h, by simp, ?_⟩
    intro a ha b hb
    simp at hb; subst hb
    exact fun e => hk (e ▸ ha)

theorem values_setParam {P : Str × Tensor → Prop} (l : List (Str × Tensor)) (k : Str) (v : Tensor)
    (h : ∀ p ∈ l, P p) (hv : P (k, v)) : ∀ p ∈ setParam l k v, P p := by
  unfold setParam
  split
  · intro p hp
    simp only [List.mem_map] at hp
    obtain ⟨q, hq, rfl⟩ := hp
    split
    · exact hv
    · exact h q hq
  · intro p hp
    simp only [List.mem_append, List.mem_cons, List.not_mem_nil, or_false] at hp
    rcases hp with hp | rfl
    · exact h p hp
    · exact hv

theorem stringTensor_ok (s : Str) (h : s.length < 2147483648) : TensorOk (stringTensor s) where
  own := {
    dtype := by simp [stringTensor, shapeTensor, Tensor.own]
    rank := by simp [stringTensor, Tensor.own]
    sizes := by
      intro z hz
      simp only [stringTensor, Tensor.own, List.mem_cons, List.not_mem_nil, or_false] at hz
      subst hz
      unfold isInt32; omega
    mem := by
      refine ⟨s.length, ?_, by omega, ?_⟩
      · simp only [stringTensor, Tensor.own, count, count32, Int.one_mul]
        rw [if_pos (by unfold isInt32; omega)]
      · simp [stringTensor, Tensor.own, typeBytes] }
  flat := by intro f hf; cases hf
  count := by simp [fieldsCount, stringTensor, Tensor.fields]

theorem toString_stringTensor (s : Str) : tensorToString (stringTensor s) = some s := by
  simp [tensorToString, stringTensor, Tensor.own]

theorem words_le32 (s : List Int) (h : ∀ z ∈ s, isInt32 z) :
    words (s.flatMap fun z => le32 (toU32 z)) = s := by
  induction s with
  | nil => rfl
  | cons z zs ih =>
    simp only [List.flatMap_cons, le32, List.cons_append, List.nil_append, words]
    rw [rd32_le32, Nat.mod_eq_of_lt (toU32_lt z), ofU32_toU32 z (h z List.mem_cons_self)]
    congr 1
    exact ih (fun y hy => h y (List.mem_cons_of_mem _ hy))

theorem le32_flat_length (l : List Int) : (l.flatMap fun z => le32 (toU32 z)).length = l.length * 4 := by
  induction l with
  | nil => rfl
  | cons a as ih =>
    simp only [List.flatMap_cons, List.length_append, ih, List.length_cons]
    simp only [le32, List.length_cons, List.length_nil]; omega

theorem shapeTensor_ok (s : List Int) (h : ShapeOk s) : TensorOk (shapeTensor s) where
  own := {
    dtype := by simp [stringTensor, shapeTensor, Tensor.own]
    rank := by simp [shapeTensor, Tensor.own]
    sizes := by
      intro z hz
      have := h.1
      simp only [shapeTensor, Tensor.own, List.mem_cons, List.not_mem_nil, or_false] at hz
      subst hz
      unfold isInt32; omega
    mem := by
      have := h.1
      refine ⟨s.length, ?_, by omega, ?_⟩
      · simp only [shapeTensor, Tensor.own, count, count32, Int.one_mul]
        rw [if_pos (by unfold isInt32; omega)]
      · simp only [shapeTensor, Tensor.own, typeBytes, le32_flat_length]; simp }
  flat := by intro f hf; cases hf
  count := by simp [fieldsCount, shapeTensor, Tensor.fields]

/-- the part of `BubbleOk` that does not depend on the number of parameters -/
structure BubblePre (cv : Conv) (b : Bubble) : Prop where
  keys : (b.params.map Prod.fst).Nodup
  values : ∀ p ∈ b.params, p.1.length < 4294967296 ∧ TensorOk p.2
  op : lookup b.params (str "#op") = some (stringTensor b.op)
  name : lookup b.params (str "#name") = some (stringTensor b.name)
  shape : (lookup b.params (str "#shape") = none ∧ b.shape = []) ∨
    (lookup b.params (str "#shape") = some (shapeTensor b.shape))
  shapeOk : ShapeOk b.shape
  outputs : lookup b.params (str "#output_count") = none

theorem lookup_filter (l : List (Str × Tensor)) (k j : Str) (h : j ≠ k) :
    lookup (l.filter fun p => p.1 ≠ k) j = lookup l j := by
  unfold lookup
  rw [List.find?_filter]
  congr 2
  funext p
  by_cases hp : p.1 = j
  · simp [hp, h]
  · simp [hp]

theorem built_pre (cv : Conv) {b : Bubble} (h : Built b) : BubblePre cv b := by
  induction h with
  | @make op name shape h1 h2 h3 =>
    have k1 : (str "#name") ≠ str "#op" := by decide
    have k2 : (str "#op") ≠ str "#name" := by decide
    have k3 : (str "#shape") ≠ str "#name" := by decide
    have k4 : (str "#shape") ≠ str "#op" := by decide
    have k5 : (str "#op") ≠ str "#shape" := by decide
    have k6 : (str "#name") ≠ str "#shape" := by decide
    have k7 : (str "#output_count") ≠ str "#name" := by decide
    have k8 : (str "#output_count") ≠ str "#op" := by decide
    have k9 : (str "#output_count") ≠ str "#shape" := by decide
    have l0 : ∀ j, lookup [] j = none := fun _ => rfl
    have hso := stringTensor_ok op h1
    have hsn := stringTensor_ok name h2
    have hss := shapeTensor_ok shape h3
    refine ⟨?_, ?_, ?_, ?_, ?_, h3, ?_⟩
    · unfold mkBubble; simp only
      split
      · exact keys_setParam _ _ _ (keys_setParam _ _ _ (by simp))
      · exact keys_setParam _ _ _ (keys_setParam _ _ _ (keys_setParam _ _ _ (by simp)))
    · have hb : ∀ p ∈ setParam (setParam [] (str "#op") (stringTensor op)) (str "#name") (stringTensor name),
          p.1.length < 4294967296 ∧ TensorOk p.2 :=
        values_setParam _ _ _ (values_setParam _ _ _ (by simp) ⟨by show List.length _ < _; simp [str], hso⟩) ⟨by show List.length _ < _; simp [str], hsn⟩
      unfold mkBubble; simp only
      split
      · exact hb
      · exact values_setParam _ _ _ hb ⟨by show List.length _ < _; simp [str], hss⟩
    · unfold mkBubble; simp only
      split <;> simp [lookup_setParam, k2, k5]
    · unfold mkBubble; simp only
      split <;> simp [lookup_setParam, k6]
    · unfold mkBubble; simp only
      split
      · rename_i hs
        left; simp [lookup_setParam, k3, k4, l0, hs]
      · right; simp [lookup_setParam]
    · unfold mkBubble; simp only
      split <;> simp [lookup_setParam, k7, k8, k9, l0]
  | @set b k v h hk hl hv ih =>
    simp only [Reserved, not_or] at hk
    obtain ⟨a1, a2, a3, a4⟩ := hk
    refine ⟨keys_setParam _ _ _ ih.keys, values_setParam _ _ _ ih.values ⟨hl, hv⟩, ?_, ?_, ?_, ih.shapeOk, ?_⟩
    · simp only [Bubble.set, lookup_setParam, Ne.symm a1, if_false]; exact ih.op
    · simp only [Bubble.set, lookup_setParam, Ne.symm a2, if_false]; exact ih.name
    · simp only [Bubble.set, lookup_setParam, Ne.symm a3, if_false]; exact ih.shape
    · simp only [Bubble.set, lookup_setParam, Ne.symm a4, if_false]; exact ih.outputs
  | @op b op h h1 ih =>
    have k1 : (str "#name") ≠ str "#op" := by decide
    have k4 : (str "#shape") ≠ str "#op" := by decide
    have k8 : (str "#output_count") ≠ str "#op" := by decide
    refine ⟨keys_setParam _ _ _ ih.keys, values_setParam _ _ _ ih.values ⟨by show List.length _ < _; simp [str], stringTensor_ok _ h1⟩,
      ?_, ?_, ?_, ih.shapeOk, ?_⟩
    · simp [Bubble.setOp, lookup_setParam]
    · simp only [Bubble.setOp, lookup_setParam, k1, if_false]; exact ih.name
    · simp only [Bubble.setOp, lookup_setParam, k4, if_false]; exact ih.shape
    · simp only [Bubble.setOp, lookup_setParam, k8, if_false]; exact ih.outputs
  | @name b nm h h1 ih =>
    have k1 : (str "#op") ≠ str "#name" := by decide
    have k4 : (str "#shape") ≠ str "#name" := by decide
    have k8 : (str "#output_count") ≠ str "#name" := by decide
    refine ⟨keys_setParam _ _ _ ih.keys, values_setParam _ _ _ ih.values ⟨by show List.length _ < _; simp [str], stringTensor_ok _ h1⟩,
      ?_, ?_, ?_, ih.shapeOk, ?_⟩
    · simp only [Bubble.setName, lookup_setParam, k1, if_false]; exact ih.op
    · simp [Bubble.setName, lookup_setParam]
    · simp only [Bubble.setName, lookup_setParam, k4, if_false]; exact ih.shape
    · simp only [Bubble.setName, lookup_setParam, k8, if_false]; exact ih.outputs
  | @shape b s h h1 ih =>
    have k1 : (str "#op") ≠ str "#shape" := by decide
    have k4 : (str "#name") ≠ str "#shape" := by decide
    have k8 : (str "#output_count") ≠ str "#shape" := by decide
    refine ⟨keys_setParam _ _ _ ih.keys, values_setParam _ _ _ ih.values ⟨by show List.length _ < _; simp [str], shapeTensor_ok _ h1⟩,
      ?_, ?_, ?_, h1, ?_⟩
    · simp only [Bubble.setShape, lookup_setParam, k1, if_false]; exact ih.op
    · simp only [Bubble.setShape, lookup_setParam, k4, if_false]; exact ih.name
    · right; simp [Bubble.setShape, lookup_setParam]
    · simp only [Bubble.setShape, lookup_setParam, k8, if_false]; exact ih.outputs
  | @clear b b' k h hk hc ih =>
    simp only [Reserved, not_or] at hk
    obtain ⟨a1, a2, a3, a4⟩ := hk
    unfold Bubble.clear at hc
    split at hc
    · cases hc
      refine ⟨?_, ?_, ?_, ?_, ?_, ih.shapeOk, ?_⟩
      · exact ih.keys.sublist (List.filter_sublist.map _)
      · intro p hp; exact ih.values p (List.mem_filter.mp hp).1
      · simp only [lookup_filter _ _ _ (Ne.symm a1)]; exact ih.op
      · simp only [lookup_filter _ _ _ (Ne.symm a2)]; exact ih.name
      · simp only [lookup_filter _ _ _ (Ne.symm a3)]; exact ih.shape
      · simp only [lookup_filter _ _ _ (Ne.symm a4)]; exact ih.outputs
    · cases hc

theorem built_ok (cv : Conv) {b : Bubble} (h : Built b) (hn : b.params.length < 4294967296) : BubbleOk cv b := by
  have p := built_pre cv h
  refine ⟨p.keys, hn, p.values, ?_, ?_, ?_, ?_⟩
  · rw [p.op]; simp [toString_stringTensor]
  · rw [p.name]; simp [toString_stringTensor]
  · rcases p.shape with ⟨h1, h2⟩ | h1
    · rw [h1]; exact h2
    · rw [h1]
      simp only
      refine ⟨?_, p.shapeOk.1⟩
      simp only [castI32, shapeTensor, Tensor.own, if_true]
      rw [words_le32 _ p.shapeOk.2]
  · unfold outputCountOk; rw [p.outputs]

end Verif.Module
