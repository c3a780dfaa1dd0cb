import Verif.Kernels.SliceV3
import Verif.Props.Slice
import Mathlib.Data.List.Perm.Subperm
/-!
# C103: `slice_v3` is the slice of the ONNX standard

**Specification.** For every axis named, the Python slice `start:end:step` (`PyLen`, `pyStart` of C18) of that dimension; the other dimensions whole. Starts,
ends and steps may be of any size, as in ONNX, where `INT64_MAX` means "to the end".
-/
namespace Verif.Props.SliceV3
open Verif.Core Verif.Spec Verif.Kernels Verif.Kernels.SliceV3 Verif.Props

/-- **Specification**: `full` are the extents of the slice of a tensor of extents `x` -/
structure OnnxShape (x full : List Nat) (starts ends : List Int) (axes : List Nat) (steps : List Int) : Prop where
  length : full.length = x.length
  sliced : ∀ (i a : Nat), axes[i]? = some a →
    PyLen (x.getD a 0) (some (starts.getD i 0)) (some (ends.getD i 0)) (steps.getD i 0) (full.getD a 0)
  whole : ∀ (j : Nat), j ∉ axes → full.getD j 0 = x.getD j 0

/-- **Specification**: the element of the slice at `c` is the one of the tensor at `c'` -/
structure OnnxSource (x c c' : List Nat) (starts : List Int) (axes : List Nat) (steps : List Int) : Prop where
  inside : InBounds x c'
  sliced : ∀ (i a : Nat), axes[i]? = some a →
    (c'.getD a 0 : Int) = pyStart (x.getD a 0) (some (starts.getD i 0)) (steps.getD i 0) + c.getD a 0 * steps.getD i 0
  whole : ∀ (j : Nat), j ∉ axes → c'.getD j 0 = c.getD j 0

/-- what is covered: axes counted from the start, ascending; steps other than 0 and above `INT_MIN`, and not a negative step with the end written as minus the
extent (C18) -/
structure Covered (x : List Nat) (starts ends : List Int) (axes : List Nat) (steps : List Int) : Prop where
  nonempty : starts ≠ []
  rank : x.length ≤ 7
  nAxes : axes.length = starts.length
  nEnds : ends.length = starts.length
  nSteps : steps.length = starts.length
  ascending : axes.Pairwise (· < ·)
  inRange : ∀ a ∈ axes, a < x.length
  step : ∀ s ∈ steps, s ≠ 0 ∧ -2147483648 < s
  stop : ∀ (i a : Nat), axes[i]? = some a → steps.getD i 0 < 0 → ends.getD i 0 ≠ -(x.getD a 0 : Int)

/-! ## numbers -/

theorem saturate_eq (v : Int) : saturate v = max (-2147483648) (min v 2147483647) := by
  unfold saturate; split <;> (try split) <;> omega

theorem pyStart_saturate (x : Nat) (b s : Int) (hx : x ≤ 2147483647) (hs : s ≠ 0) :
    pyStart x (some (saturate b)) (saturate s) = pyStart x (some b) s := by
  rw [saturate_eq, saturate_eq]; unfold pyStart; simp only
  by_cases h : s > 0
  · rw [if_pos h, if_pos (by omega)]
    by_cases hb : b < 0
    · rw [if_pos hb, if_pos (by omega)]; omega
    · rw [if_neg hb, if_neg (by omega)]; omega
  · rw [if_neg h, if_neg (by omega)]
    by_cases hb : b < 0
    · rw [if_pos hb, if_pos (by omega)]; omega
    · rw [if_neg hb, if_neg (by omega)]; omega

theorem pyStop_saturate (x : Nat) (b s : Int) (hx : x ≤ 2147483647) (hs : s ≠ 0) :
    pyStop x (some (saturate b)) (saturate s) = pyStop x (some b) s := by
  rw [saturate_eq, saturate_eq]; unfold pyStop; simp only
  by_cases h : s > 0
  · rw [if_pos h, if_pos (by omega)]
    by_cases hb : b < 0
    · rw [if_pos hb, if_pos (by omega)]; omega
    · rw [if_neg hb, if_neg (by omega)]; omega
  · rw [if_neg h, if_neg (by omega)]
    by_cases hb : b < 0
    · rw [if_pos hb, if_pos (by omega)]; omega
    · rw [if_neg hb, if_neg (by omega)]; omega

theorem pyHas_saturate (x : Nat) (b e s : Int) (k : Nat) (hx : x ≤ 2147483647) (hs : s ≠ 0) (hs2 : -2147483648 < s) :
    PyHas x (some (saturate b)) (some (saturate e)) (saturate s) k ↔ PyHas x (some b) (some e) s k := by
  unfold PyHas
  rw [pyStart_saturate x b s hx hs, pyStop_saturate x e s hx hs]
  by_cases h : s > 2147483647
  · have e1 : saturate s = 2147483647 := by rw [saturate_eq]; omega
    rw [e1, if_pos (by omega), if_pos (by omega)]
    have h0 : 0 ≤ pyStart x (some b) s := by unfold pyStart; simp only; rw [if_pos (by omega)]; split <;> omega
    have h1 : pyStop x (some e) s ≤ x := by unfold pyStop; simp only; rw [if_pos (by omega)]; split <;> omega
    rcases Nat.eq_zero_or_pos k with rfl | hk
    · simp
    · have h2 : (k : Int) * s ≥ 2147483647 := by
        have : (1 : Int) * s ≤ k * s := Int.mul_le_mul_of_nonneg_right (by omega) (by omega)
        omega
      have h3 : (k : Int) * 2147483647 ≥ 2147483647 := by omega
      constructor <;> intro hh <;> omega
  · have e1 : saturate s = s := by rw [saturate_eq]; omega
    rw [e1]

/-! ## the loops -/

theorem checkAxes_ok (dims : Nat) : ∀ (axes : List Nat) (pre : Int), (∀ a ∈ axes, a < dims ∧ pre < a) → axes.Pairwise (· < ·) →
    checkAxes dims pre pre (axes.map Int.ofNat) = .ok (axes.getLast?.elim pre Int.ofNat)
  | [], pre, _, _ => rfl
  | a :: r, pre, h, hp => by
    have ha := h a (by simp)
    rw [List.pairwise_cons] at hp
    rw [List.map_cons, checkAxes, if_neg (by simp; omega)]
    have e : (if Int.ofNat a < 0 then Int.ofNat a + (dims : Int) else Int.ofNat a) = (a : Int) := by rw [if_neg (by simp)]; rfl
    rw [e, if_neg (by omega), if_pos (by omega),
      checkAxes_ok dims r a (fun b hb => ⟨(h b (by simp [hb])).1, by have := hp.1 b hb; omega⟩) hp.2]
    cases r with
    | nil => rfl
    | cons b r => rw [List.getLast?_cons_cons, List.getLast?_cons]; rfl

theorem testBit_clearBit (m a j : Nat) : (clearBit m a).testBit j = (m.testBit j && !decide (j = a)) := by
  unfold clearBit
  rw [Nat.testBit_xor, Nat.testBit_and, Nat.testBit_two_pow]
  by_cases h : a = j
  · subst h; simp
  · have : ¬ j = a := fun e => h e.symm
    simp [h, this]

/-- what the last loop leaves behind -/
theorem setLoop_ok : ∀ (axes : List Nat) (starts ends steps : List Int) (v : Fields),
    axes.length = starts.length → ends.length = starts.length → steps.length = starts.length → axes.Pairwise (· < ·) →
    (∀ a ∈ axes, a < v.begins.length ∧ a < v.ends.length ∧ a < v.strides.length) →
    ∃ w, setLoop (axes.map Int.ofNat) starts ends steps v = .ok w ∧ w.begins.length = v.begins.length ∧ w.ends.length = v.ends.length ∧
      w.strides.length = v.strides.length ∧
      (∀ (i a : Nat), axes[i]? = some a → w.begins.getD a 0 = starts.getD i 0 ∧ w.ends.getD a 0 = ends.getD i 0 ∧
        w.strides.getD a 0 = steps.getD i 0 ∧ w.mask.testBit a = false) ∧
      (∀ (j : Nat), j ∉ axes → w.begins.getD j 0 = v.begins.getD j 0 ∧ w.ends.getD j 0 = v.ends.getD j 0 ∧
        w.strides.getD j 0 = v.strides.getD j 0 ∧ w.mask.testBit j = v.mask.testBit j)
  | [], starts, ends, steps, v, h1, h2, h3, _, _ => by
    cases starts with
    | nil => exact ⟨v, rfl, rfl, rfl, rfl, by simp, by simp⟩
    | cons => simp at h1
  | a :: as, starts, ends, steps, v, h1, h2, h3, hp, hb => by
    cases starts with
    | nil => simp at h1
    | cons s ss =>
    cases ends with
    | nil => simp at h2
    | cons e es =>
    cases steps with
    | nil => simp at h3
    | cons t ts =>
    rw [List.pairwise_cons] at hp
    have ha := hb a (by simp)
    obtain ⟨w, hw, l1, l2, l3, hin, hout⟩ := setLoop_ok as ss es ts
      ⟨v.begins.set a s, v.ends.set a e, v.strides.set a t, clearBit v.mask a⟩ (by simpa using h1) (by simpa using h2) (by simpa using h3) hp.2
      (fun b hb' => by simpa using hb b (by simp [hb']))
    have hna : a ∉ as := fun h => by have := hp.1 a h; omega
    refine ⟨w, ?_, by simpa using l1, by simpa using l2, by simpa using l3, ?_, ?_⟩
    · rw [List.map_cons, setLoop, if_neg (by simp)]
      exact hw
    · intro i b hi
      cases i with
      | zero =>
        simp only [List.getElem?_cons_zero, Option.some.injEq] at hi
        subst hi
        obtain ⟨q1, q2, q3, q4⟩ := hout a hna
        rw [q1, q2, q3, q4, testBit_clearBit]
        simp [List.getD, ha.1, ha.2.1, ha.2.2]
      | succ i =>
        rw [List.getElem?_cons_succ] at hi
        simpa using hin i b hi
    · intro j hj
      rw [List.mem_cons, not_or] at hj
      obtain ⟨q1, q2, q3, q4⟩ := hout j hj.2
      rw [q1, q2, q3, q4, testBit_clearBit]
      have : ¬ a = j := fun e => hj.1 e.symm
      simp [List.getD, List.getElem?_set, this, hj.1]

theorem kept_zero (n : Nat) (full : List Nat) : kept n 0 full = full := by
  unfold kept
  rw [List.filter_eq_self.2 (by intro p _; simp [bit]), List.zipIdx_map_fst]

/-- the parameters that the operands become -/
theorem fields_ok {x : List Nat} {starts ends : List Int} {axes : List Nat} {steps : List Int} (h : Covered x starts ends axes steps) :
    ∃ (n : Nat) (w : Fields), fields x.length (starts.map saturate) (ends.map saturate) (axes.map Int.ofNat) (steps.map saturate) =
        .ok ⟨w.begins, w.ends, w.strides, w.mask, w.mask, 0, 0, 0⟩ ∧ 0 < n ∧ n ≤ x.length ∧ (∀ a ∈ axes, a < n) ∧
      w.begins.length = n ∧ w.ends.length = n ∧ w.strides.length = n ∧
      (∀ (i a : Nat), axes[i]? = some a → w.begins.getD a 0 = saturate (starts.getD i 0) ∧ w.ends.getD a 0 = saturate (ends.getD i 0) ∧
        w.strides.getD a 0 = saturate (steps.getD i 0) ∧ w.mask.testBit a = false) ∧
      (∀ (j : Nat), j < n → j ∉ axes → w.strides.getD j 0 = 1 ∧ w.mask.testBit j = true) := by
  have hne : axes ≠ [] := fun e => h.nonempty (List.length_eq_zero_iff.1 (by rw [← h.nAxes, e]; rfl))
  have hc := checkAxes_ok x.length axes (-2147483648) (fun a ha => ⟨h.inRange a ha, by omega⟩) h.ascending
  rw [List.getLast?_eq_some_getLast hne] at hc
  have hlast : ∀ a ∈ axes, a ≤ axes.getLast hne := by
    intro a ha
    have hp := h.ascending
    rw [← List.dropLast_append_getLast hne, List.pairwise_append] at hp
    rw [← List.dropLast_append_getLast hne, List.mem_append] at ha
    rcases ha with ha | ha
    · exact Nat.le_of_lt (hp.2.2 a ha _ (by simp))
    · simp at ha; omega
  have hn : axes.getLast hne + 1 ≤ x.length := h.inRange _ (List.getLast_mem hne)
  have gz : ∀ (l : List Int) (i : Nat), (l.map saturate).getD i 0 = saturate (l.getD i 0) := by
    intro l i
    rw [List.getD_eq_getElem?_getD, List.getD_eq_getElem?_getD, List.getElem?_map]
    cases l[i]? with
    | none => decide
    | some v => rfl
  obtain ⟨w, hw, l1, l2, l3, hin, hout⟩ := setLoop_ok axes (starts.map saturate) (ends.map saturate) (steps.map saturate)
    ⟨List.replicate (axes.getLast hne + 1) 0, List.replicate (axes.getLast hne + 1) 0, List.replicate (axes.getLast hne + 1) 1,
      2 ^ (axes.getLast hne + 1 + 1) - 1⟩ (by simpa using h.nAxes) (by simpa using h.nEnds) (by simpa using h.nSteps) h.ascending
    (fun a ha => by have := hlast a ha; simp; omega)
  refine ⟨axes.getLast hne + 1, w, ?_, by omega, hn, fun a ha => by have := hlast a ha; omega, by simpa using l1, by simpa using l2,
    by simpa using l3, ?_, ?_⟩
  · unfold fields
    rw [hc, Res.bind_ok]
    have e : ((Option.some (axes.getLast hne)).elim (-2147483648) Int.ofNat + 1).toNat = axes.getLast hne + 1 := by
      simp only [Option.elim]; show ((axes.getLast hne : Int) + 1).toNat = _; omega
    simp only [e]
    rw [hw]; rfl
  · intro i a hi
    have := hin i a hi
    rwa [gz, gz, gz] at this
  · intro j hj hja
    obtain ⟨_, _, q3, q4⟩ := hout j hja
    rw [q3, q4]
    refine ⟨?_, ?_⟩
    · simp only [List.getD_eq_getElem?_getD]
      rw [List.getElem?_replicate, if_pos hj]; rfl
    · simp only [Nat.testBit_two_pow_sub_one, decide_eq_true_eq]; omega

/-- the operands of a slice: `starts`, `ends`, and `axes`, `steps` if they are given -/
inductive Given (starts ends : List Int) : List (List Int) → List Nat → List Int → Prop
  | both (axes : List Nat) (steps : List Int) : Given starts ends [starts, ends, axes.map Int.ofNat, steps] axes steps
  | noSteps (axes : List Nat) : Given starts ends [starts, ends, axes.map Int.ofNat] axes (List.replicate starts.length 1)
  | noAxes : Given starts ends [starts, ends] (List.range starts.length) (List.replicate starts.length 1)

theorem loadParams_ok {x : List Nat} {starts ends : List Int} {axes : List Nat} {steps : List Int} {operands : List (List Int)}
    (h : Covered x starts ends axes steps) (hg : Given starts ends operands axes steps) :
    loadParams x.length operands = fields x.length (starts.map saturate) (ends.map saturate) (axes.map Int.ofNat) (steps.map saturate) := by
  have hlen : axes.length ≤ x.length := by
    have hp := h.ascending
    have hsub : axes ⊆ List.range x.length := fun a ha => List.mem_range.2 (h.inRange a ha)
    have hnd : axes.Nodup := hp.imp (fun h => Nat.ne_of_lt h)
    simpa using (hnd.subperm hsub).length_le
  have hk : starts.length ≤ 7 := by have := h.nAxes; have := h.rank; omega
  have hsat : (axes.map Int.ofNat).map saturate = axes.map Int.ofNat := by
    rw [List.map_map]
    apply List.map_congr_left
    intro a ha
    have := h.inRange a ha; have := h.rank
    show saturate (a : Int) = a
    rw [saturate_eq]; omega
  have hone : (List.replicate starts.length (1 : Int)).map saturate = List.replicate starts.length 1 := by rw [List.map_replicate]; rfl
  have hn := h.nAxes
  have hs := h.nSteps
  have h0 := h.nonempty
  cases hg with
  | both =>
    simp only [loadParams, if_neg h0, List.getElem?_cons_zero, List.getElem?_cons_succ, axesOf, toShape, hsat, List.length_map]
    rw [if_neg (by omega), Res.bind_ok, if_neg (by simp [hn]), stepsOf, toShape, if_neg (by simp; omega), Res.bind_ok]
  | noSteps =>
    simp only [loadParams, if_neg h0, List.getElem?_cons_zero, List.getElem?_cons_succ, List.getElem?_nil, axesOf, toShape, hsat, List.length_map]
    rw [if_neg (by omega), Res.bind_ok, if_neg (by simp [hn]), stepsOf, toShape, if_neg (by simp; omega), Res.bind_ok, hone]
  | noAxes =>
    simp only [loadParams, if_neg h0, List.getElem?_nil, axesOf, toShape, List.length_map, List.length_range]
    rw [if_neg (by omega), Res.bind_ok, if_neg (by simp), stepsOf, toShape, if_neg (by simp; omega), Res.bind_ok, hone]

/-- **C103**: every element of the slice is the one that the standard names, for operands of any size; optional operands may be missing. -/
theorem C103_slice_partial {α : Type} (x full : List Nat) (starts ends : List Int) (axes : List Nat) (steps : List Int) (operands : List (List Int))
    (dtype : Nat) (data dst : List α) (hc : Covered x starts ends axes steps) (hg : Given starts ends operands axes steps)
    (hf : OnnxShape x full starts ends axes steps) (hpos : ∀ e ∈ x, 0 < e) (hb : prod x ≤ 2147483647) (hty : typeBytes dtype ∈ [1, 2, 4, 8, 16])
    (hdata : data.length = prod x) (hdst : dst.length = prod full) :
    ∃ out, run operands dtype (ints x) data dst = .ok (ints full, out) ∧ out.length = prod full ∧
      ∀ c, InBounds full c → ∃ c', OnnxSource x c c' starts axes steps ∧ out[lin full c]? = data[lin x c']? := by
  obtain ⟨n, w, hw, hn0, hnx, han, l1, l2, l3, hin, hout⟩ := fields_ok hc
  have hxi : ∀ (a : Nat), a < x.length → x.getD a 0 ≤ 2147483647 := by
    intro a ha
    have hm : x.getD a 0 ∈ x := by
      rw [List.getD_eq_getElem?_getD, List.getElem?_eq_getElem ha]; exact List.getElem_mem ha
    exact Nat.le_trans (mem_le_prod hpos hm) hb
  have hst : ∀ (i a : Nat), axes[i]? = some a → steps.getD i 0 ≠ 0 ∧ -2147483648 < steps.getD i 0 := by
    intro i a hi
    have hlt : i < axes.length := (List.getElem?_eq_some_iff.1 hi).1
    have : i < steps.length := by have := hc.nAxes; have := hc.nSteps; omega
    apply hc.step
    rw [List.getD_eq_getElem?_getD, List.getElem?_eq_getElem this]; exact List.getElem_mem this
  have hidx : ∀ (a : Nat), a ∈ axes → ∃ i, axes[i]? = some a := fun a ha => List.getElem?_of_mem ha
  have hsel : Selects ⟨w.begins, w.ends, w.strides, w.mask, w.mask, 0, 0, 0⟩ x full := by
    refine ⟨by simp [l1, l2], by simp [l1, l3], by simp [l1, hn0], by simp [l1, hnx], hf.length, ?_, ?_, ?_⟩
    · intro j hj
      simp only [l1] at hj
      by_cases hja : j ∈ axes
      · obtain ⟨i, hi⟩ := hidx j hja
        obtain ⟨q1, q2, q3, q4⟩ := hin i j hi
        have hx := hxi j (by omega)
        have hs := hst i j hi
        have hstop := hc.stop i j hi
        simp only [SliceOk, q2, q3]
        refine ⟨by rw [saturate_eq]; omega, by rw [saturate_eq]; omega, hx, ?_⟩
        intro hneg _ he
        exfalso
        rw [saturate_eq] at hneg he
        exact hstop (by omega) (by omega)
      · obtain ⟨q3, q4⟩ := hout j hj hja
        have hx := hxi j (by omega)
        simp only [SliceOk, q3]
        refine ⟨by omega, by omega, hx, fun h => by omega⟩
    · intro j hj
      simp only [l1] at hj
      by_cases hja : j ∈ axes
      · obtain ⟨i, hi⟩ := hidx j hja
        obtain ⟨q1, q2, q3, q4⟩ := hin i j hi
        have hx := hxi j (by omega)
        have hs := hst i j hi
        simp only [bit, q4, q1, q2, q3, bound, Bool.false_eq_true, if_false]
        intro k
        rw [pyHas_saturate _ _ _ _ _ hx hs.1 hs.2]
        exact hf.sliced i j hi k
      · obtain ⟨q3, q4⟩ := hout j hj hja
        simp only [bit, q4, q3, bound, if_true]
        rw [hf.whole j hja]
        exact pyLen_whole _
    · intro j hj
      simp only [l1] at hj
      exact hf.whole j (fun hja => by have := han j hja; omega)
  obtain ⟨out, ho, hol, hoc⟩ := C18_slice_partial _ dtype x full data dst rfl rfl hsel (by intro j _ hb; simp [bit] at hb) hpos hb hty hdata hdst
  refine ⟨out, ?_, hol, ?_⟩
  · unfold run
    have : (ints x).length = x.length := by simp [ints]
    rw [this, loadParams_ok hc hg, hw, Res.bind_ok, ho]
    simp only [kept_zero]
  · intro c hcb
    obtain ⟨c', hs, he⟩ := hoc c hcb
    obtain ⟨s1, s2, s3⟩ := hs
    simp only [l1] at s2 s3
    refine ⟨c', ⟨s1, ?_, ?_⟩, he⟩
    · intro i a hi
      have ha := List.mem_of_getElem? hi
      have han' := han a ha
      obtain ⟨q1, q2, q3, q4⟩ := hin i a hi
      have hx := hxi a (by omega)
      have hs := hst i a hi
      have := s2 a han'
      simp only [bit, q4, q1, q3, bound, Bool.false_eq_true, if_false] at this
      rw [pyStart_saturate _ _ _ hx hs.1] at this
      rw [this]
      by_cases hbig : steps.getD i 0 > 2147483647
      · -- then the slice has at most one element
        have hlen := hf.sliced i a hi (c.getD a 0)
        have hlt : c.getD a 0 < full.getD a 0 := by
          have hfa : a < full.length := by rw [hf.length]; omega
          have hca : a < c.length := by rw [hcb.length]; exact hfa
          have := (inBounds_iff.1 hcb).2 a hfa hca
          simpa [List.getD_eq_getElem?_getD, List.getElem?_eq_getElem hfa, List.getElem?_eq_getElem hca] using this
        have hhas := hlen.1 hlt
        unfold PyHas at hhas
        rw [if_pos (by omega)] at hhas
        have h0 : 0 ≤ pyStart (x.getD a 0) (some (starts.getD i 0)) (steps.getD i 0) := by
          unfold pyStart; simp only; rw [if_pos (by omega)]; split <;> omega
        have h1 : pyStop (x.getD a 0) (some (ends.getD i 0)) (steps.getD i 0) ≤ x.getD a 0 := by
          unfold pyStop; simp only; rw [if_pos (by omega)]; split <;> omega
        rcases Nat.eq_zero_or_pos (c.getD a 0) with h | h
        · rw [h]; simp
        · exfalso
          have : (1 : Int) * steps.getD i 0 ≤ (c.getD a 0 : Int) * steps.getD i 0 := Int.mul_le_mul_of_nonneg_right (by omega) (by omega)
          omega
      · have : saturate (steps.getD i 0) = steps.getD i 0 := by rw [saturate_eq]; omega
        rw [this]
    · intro j hja
      by_cases hj : j < n
      · obtain ⟨q3, q4⟩ := hout j hj hja
        have := s2 j hj
        simp only [bit, q4, q3, bound, if_true, pyStart] at this
        omega
      · exact s3 j (by omega)

/-- The hypotheses are met: the last dimension from element 1 "to the end" (`INT64_MAX`), the first one backwards. -/
example : ∃ out, run [[-1, 1], [-9223372036854775808, 9223372036854775807], [0, 2], [-1, 1]] 10 (ints [2, 1, 3]) [0, 1, 2, 3, 4, 5] [9, 9, 9, 9] =
    .ok (ints [2, 1, 2], out) ∧ out.length = 4 ∧ ∀ c, InBounds [2, 1, 2] c → ∃ c', OnnxSource [2, 1, 3] c c' [-1, 1] [0, 2] [-1, 1] ∧
      out[lin [2, 1, 2] c]? = ([0, 1, 2, 3, 4, 5] : List Nat)[lin [2, 1, 3] c']? :=
  C103_slice_partial [2, 1, 3] [2, 1, 2] [-1, 1] [-9223372036854775808, 9223372036854775807] [0, 2] [-1, 1] _ 10 _ _
    ⟨by simp, by simp, rfl, rfl, rfl, by simp, by simp, by simp, by
      intro i a hi hneg
      match i, hi with
      | 0, hi => simp at hi; subst hi; simp
      | 1, hi => simp at hneg
      | i + 2, hi => simp at hi⟩
    (.both [0, 2] [-1, 1])
    ⟨rfl, by
      intro i a hi k
      match i, hi with
      | 0, hi =>
        simp at hi; subst hi
        show k < 2 ↔ PyHas 2 (some (-1)) (some (-9223372036854775808)) (-1) k
        simp [PyHas, pyStart, pyStop]
      | 1, hi =>
        simp at hi; subst hi
        show k < 2 ↔ PyHas 3 (some 1) (some 9223372036854775807) 1 k
        simp [PyHas, pyStart, pyStop]; omega
      | i + 2, hi => simp at hi, by
      intro j hj
      match j, hj with
      | 1, _ => rfl
      | j + 3, _ => simp⟩
    (by simp) (by decide) (by decide) (by simp; rfl) (by simp; rfl)
example : run [[-1, 1], [-9223372036854775808, 9223372036854775807], [0, 2], [-1, 1]] 10 [2, 1, 3] [0, 1, 2, 3, 4, 5] [9, 9, 9, 9] =
    .ok ([2, 1, 2], [4, 5, 1, 2]) := by decide

/-- an axis counted from the start -/
def fromStart (dims : Nat) (a : Int) : Int := if a < 0 then a + dims else a

theorem checkAxes_cases (dims : Nat) : ∀ (axes : List Int) (pre top : Int), checkAxes dims pre top axes = .err ∨
    ((∃ t, checkAxes dims pre top axes = .ok t) ∧ (∀ a ∈ axes, -(dims : Int) ≤ a ∧ a < dims ∧ pre < fromStart dims a) ∧
      (axes.map (fromStart dims)).Pairwise (· < ·))
  | [], pre, top => .inr ⟨⟨top, rfl⟩, by simp, by simp⟩
  | a :: r, pre, top => by
    rw [checkAxes]
    by_cases h1 : a < -(dims : Int) ∨ a ≥ dims
    · rw [if_pos h1]; exact .inl rfl
    · rw [if_neg h1]
      by_cases h2 : (if a < 0 then a + (dims : Int) else a) ≤ pre
      · rw [if_pos h2]; exact .inl rfl
      · rw [if_neg h2]
        rcases checkAxes_cases dims r (fromStart dims a)
          (if (if a < 0 then a + (dims : Int) else a) > top then (if a < 0 then a + (dims : Int) else a) else top) with h | ⟨h3, h4, h5⟩
        · exact .inl h
        · refine .inr ⟨h3, ?_, ?_⟩
          · intro b hb
            have hlt : pre < fromStart dims a := by unfold fromStart; omega
            rcases List.mem_cons.1 hb with rfl | hb
            · exact ⟨by omega, by omega, hlt⟩
            · obtain ⟨q1, q2, q3⟩ := h4 b hb
              exact ⟨q1, q2, by omega⟩
          · rw [List.map_cons, List.pairwise_cons]
            refine ⟨?_, h5⟩
            intro b hb
            obtain ⟨c, hc, rfl⟩ := List.mem_map.1 hb
            exact (h4 c hc).2.2

/-- **C103**: axes outside the tensor, or not in ascending order, are refused. -/
theorem C103_refused {α : Type} (starts ends axes : List Int) (rest : List (List Int)) (dtype : Nat) (shape : List Int) (data dst : List α)
    (h7 : axes.length ≤ 7) (hs : ∀ s, rest[0]? = some s → s.length ≤ 7)
    (h : (∃ a ∈ axes, saturate a < -(shape.length : Int) ∨ (shape.length : Int) ≤ saturate a) ∨
      ¬ (axes.map fun a => fromStart shape.length (saturate a)).Pairwise (· < ·)) :
    run (starts :: ends :: axes :: rest) dtype shape data dst = .err := by
  have hc : checkAxes shape.length (-2147483648) (-2147483648) (axes.map saturate) = .err := by
    rcases checkAxes_cases shape.length (axes.map saturate) (-2147483648) (-2147483648) with h' | ⟨_, h2, h3⟩
    · exact h'
    · exfalso
      rcases h with ⟨a, ha, hr⟩ | hr
      · have := h2 _ (List.mem_map.2 ⟨a, ha, rfl⟩); omega
      · rw [List.map_map] at h3; exact hr h3
  unfold run loadParams
  by_cases h0 : starts = []
  · simp [h0]
  · simp only [if_neg h0, List.getElem?_cons_zero, List.getElem?_cons_succ, axesOf, toShape, List.length_map]
    rw [if_neg (by omega), Res.bind_ok, List.length_map]
    by_cases hl : axes.length ≠ starts.length
    · rw [if_pos hl]; rfl
    · rw [if_neg hl]
      have hst : ∃ st, stepsOf starts.length rest[0]? = .ok st := by
        cases hr : rest[0]? with
        | none => exact ⟨List.replicate starts.length 1, by rw [stepsOf, toShape, if_neg (by simp; omega)]⟩
        | some s => exact ⟨s.map saturate, by rw [stepsOf, toShape, if_neg (by have := hs s hr; simp; omega)]⟩
      obtain ⟨st, hst⟩ := hst
      rw [hst, Res.bind_ok, fields, hc]; rfl
example : run [[0], [1], [2]] 10 [2, 3] [0, 1, 2, 3, 4, 5] [9] = .err :=
  C103_refused [0] [1] [2] [] 10 [2, 3] _ _ (by simp) (by simp) (.inl ⟨2, by simp, by simp [saturate]⟩)

/-! ## what fails -/

theorem setLoop_neg : ∀ (axes starts ends steps : List Int) (v : Fields), axes.length = starts.length → (∃ a ∈ axes, a < 0) →
    setLoop axes starts ends steps v = .ub
  | [], _, _, _, _, _, h => by simp at h
  | a :: as, starts, ends, steps, v, h1, h => by
    cases starts with
    | nil => simp at h1
    | cons s ss =>
    cases ends with
    | nil => rfl
    | cons e es =>
    cases steps with
    | nil => rfl
    | cons t ts =>
    rw [setLoop]
    by_cases ha : a < 0
    · rw [if_pos ha]
    · rw [if_neg ha]
      refine setLoop_neg as ss es ts _ (by simpa using h1) ?_
      obtain ⟨b, hb, hb0⟩ := h
      rcases List.mem_cons.1 hb with rfl | hb
      · exact absurd hb0 ha
      · exact ⟨b, hb, hb0⟩

theorem setLoop_short : ∀ (axes starts ends steps : List Int) (v : Fields), axes.length = starts.length →
    (ends.length < starts.length ∨ steps.length < starts.length) → setLoop axes starts ends steps v = .ub
  | [], starts, _, _, _, h1, h => by simp at h1; omega
  | a :: as, starts, ends, steps, v, h1, h => by
    cases starts with
    | nil => simp at h1
    | cons s ss =>
    cases ends with
    | nil => rfl
    | cons e es =>
    cases steps with
    | nil => rfl
    | cons t ts =>
    rw [setLoop]
    by_cases ha : a < 0
    · rw [if_pos ha]
    · rw [if_neg ha]
      exact setLoop_short as ss es ts _ (by simpa using h1) (by simp at h; omega)

/-- both faults, at the level of the operator -/
theorem run_ub {α : Type} (starts ends axes steps : List Int) (dtype : Nat) (shape : List Int) (data dst : List α) (t : Int)
    (h0 : starts ≠ []) (h7 : starts.length ≤ 7) (ha : axes.length = starts.length) (hs : steps.length ≤ 7)
    (ho : checkAxes shape.length (-2147483648) (-2147483648) (axes.map saturate) = .ok t)
    (h : (∃ a ∈ axes, a < 0) ∨ ends.length < starts.length ∨ steps.length < starts.length) :
    run [starts, ends, axes, steps] dtype shape data dst = .ub := by
  have hl : ∀ v, setLoop (axes.map saturate) (starts.map saturate) (ends.map saturate) (steps.map saturate) v = .ub := by
    intro v
    rcases h with ⟨a, ha', hneg⟩ | h
    · refine setLoop_neg _ _ _ _ v (by simpa using ha) ⟨saturate a, List.mem_map.2 ⟨a, ha', rfl⟩, ?_⟩
      rw [saturate_eq]; omega
    · exact setLoop_short _ _ _ _ v (by simpa using ha) (by simpa using h)
  unfold run
  simp only [loadParams, if_neg h0, List.getElem?_cons_zero, List.getElem?_cons_succ, axesOf, toShape, List.length_map]
  rw [if_neg (by omega), Res.bind_ok, if_neg (by simp [ha]), stepsOf, toShape, if_neg (by simp; omega), Res.bind_ok, fields, ho, Res.bind_ok]
  simp only [hl]
  rfl

/-- **C103 fails for every axis counted from the end**: the check counts it from the start, but the fields are then written at the negative index. (`ho`: the check
accepts the axes.) -/
theorem C103_negative_axis_false {α : Type} (starts ends axes steps : List Int) (dtype : Nat) (shape : List Int) (data dst : List α) (t : Int)
    (h0 : starts ≠ []) (h7 : starts.length ≤ 7) (ha : axes.length = starts.length) (hs : steps.length ≤ 7)
    (ho : checkAxes shape.length (-2147483648) (-2147483648) (axes.map saturate) = .ok t) (h : ∃ a ∈ axes, a < 0) :
    run [starts, ends, axes, steps] dtype shape data dst = .ub := run_ub starts ends axes steps dtype shape data dst t h0 h7 ha hs ho (.inl h)
example : run [[0], [1], [-1], [1]] 10 [2, 3] [0, 1, 2, 3, 4, 5] [9, 9] = .ub :=
  C103_negative_axis_false [0] [1] [-1] [1] 10 [2, 3] _ _ 1 (by simp) (by simp) rfl (by simp) (by decide) ⟨-1, by simp, by simp⟩

/-- **C103: fewer ends or steps than starts are not refused but read past the end of the list.** -/
theorem C103_short_false {α : Type} (starts ends axes steps : List Int) (dtype : Nat) (shape : List Int) (data dst : List α) (t : Int)
    (h0 : starts ≠ []) (h7 : starts.length ≤ 7) (ha : axes.length = starts.length) (hs : steps.length ≤ 7)
    (ho : checkAxes shape.length (-2147483648) (-2147483648) (axes.map saturate) = .ok t)
    (h : ends.length < starts.length ∨ steps.length < starts.length) :
    run [starts, ends, axes, steps] dtype shape data dst = .ub := run_ub starts ends axes steps dtype shape data dst t h0 h7 ha hs ho (.inr h)
example : run [[0, 0], [1], [0, 1], [1, 1]] 10 [2, 3] [0, 1, 2, 3, 4, 5] [9, 9] = .ub :=
  C103_short_false [0, 0] [1] [0, 1] [1, 1] 10 [2, 3] _ _ 1 (by simp) (by simp) rfl (by simp) (by decide) (by simp)

/-- **C103: axes in another order, which the standard allows, are refused.** -/
theorem C103_order_false : run [[0, 0], [1, 1], [1, 0], [1, 1]] 10 [2, 3] [0, 1, 2, 3, 4, 5] [9] = .err := by decide

/-- **C103 fails for a negative step and the end minus the extent**: the first element is included, the standard excludes it. -/
theorem C103_end_false : run [[-1], [-3], [0], [-1]] 10 [3] [0, 1, 2] [9, 9, 9] = .ok ([3], [2, 1, 0]) ∧
    PyLen 3 (some (-1)) (some (-3)) (-1) 2 := by
  refine ⟨by decide, fun k => ?_⟩
  simp [PyHas, pyStart, pyStop]

/-- **C103: a step of 0 is not refused.** -/
theorem C103_zero_step_false : run [[0], [3], [0], [0]] 10 [3] [0, 1, 2] [] = .ok ([0], []) := by decide

end Verif.Props.SliceV3
