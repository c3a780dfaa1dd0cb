import Verif.Runtime.InferAnswer
import Verif.Runtime.InferAgree2
/-!
# When the rules of the two reshapes answer

For operands that are known completely. The lemmas are used in Verif/Props/InferAnswer.lean.
-/
namespace Verif.Runtime.Infer
open Verif.Core hiding Fits
open Verif.Kernels Verif.Runtime.Infer3

theorem scanNeg_nonneg {i : Nat} {k : Option Nat} {l : List Int} (h : ∀ a ∈ l, 0 ≤ a) : scanNeg i k l = .ok (l, k) := by
  induction l generalizing i with
  | nil => rfl
  | cons x l ih =>
    simp only [scanNeg]
    rw [if_neg (by have := h x (by simp); omega), ih (fun a ha => h a (by simp [ha]))]
    rfl

theorem scanNeg_answers {i : Nat} {l : List Int} (h : unknowns l ≤ 1) :
    (∀ a ∈ l, 0 ≤ a) ∨ ∃ A a B, l = A ++ a :: B ∧ a < 0 ∧ (∀ a ∈ A, 0 ≤ a) ∧ (∀ a ∈ B, 0 ≤ a) ∧
      scanNeg i none l = .ok (A ++ -1 :: B, some (i + A.length)) := by
  induction l generalizing i with
  | nil => exact .inl (by simp)
  | cons x l ih =>
    rw [unknowns_cons] at h
    by_cases hx : x < 0
    · rw [if_pos hx] at h
      have h0 : ∀ a ∈ l, 0 ≤ a := by
        intro a ha
        by_contra hn
        have : 0 < unknowns l := by
          unfold unknowns
          exact List.countP_pos_iff.2 ⟨a, ha, by simpa using hn⟩
        omega
      refine .inr ⟨[], x, l, rfl, hx, by simp, h0, ?_⟩
      simp only [scanNeg, if_pos hx, scanNeg_nonneg h0, Res.bind_ok]
      rfl
    · rw [if_neg hx] at h
      rcases ih (i := i + 1) (by omega) with h0 | ⟨A, a, B, rfl, ha, hA, hB, e⟩
      · refine .inl fun a ha => ?_
        rcases List.mem_cons.1 ha with rfl | ha
        · omega
        · exact h0 a ha
      · refine .inr ⟨x :: A, a, B, rfl, ha, ?_, hB, ?_⟩
        · intro b hb
          rcases List.mem_cons.1 hb with rfl | hb
          · omega
          · exact hA b hb
        · simp only [scanNeg, if_neg hx, e, Res.bind_ok, List.cons_append, List.length_cons]
          rw [show i + 1 + A.length = i + (A.length + 1) by omega]

theorem prod32_append {acc : Int} {A B : List Int} : prod32 acc (A ++ B) = (prod32 acc A >>= fun u => prod32 u B) := by
  induction A generalizing acc with
  | nil => rfl
  | cons a A ih =>
    simp only [List.cons_append, prod32]
    cases int32 (acc * a) with
    | ok p => simp only [Res.bind_ok]; exact ih
    | err => rfl
    | ub => rfl

theorem prod32_neg {v m c : Int} {B : List Int} (hB : ∀ a ∈ B, 0 ≤ a) (hm : m ≤ 0) (hv : -m ≤ v) (h : prod32 v B = .ok c) :
    ∃ d, prod32 m B = .ok d ∧ d ≤ 0 ∧ -d ≤ c := by
  induction B generalizing v m with
  | nil =>
    simp only [prod32, Res.ok.injEq] at h
    exact ⟨m, rfl, hm, by omega⟩
  | cons b B ih =>
    simp only [prod32, Res.bind_eq_ok] at h
    obtain ⟨p, hp, h⟩ := h
    obtain ⟨rfl, hp'⟩ := of_int32 hp
    have hb := hB b (by simp)
    have k1 : m * b ≤ 0 := mul_nonpos_of_nonpos_of_nonneg hm hb
    have k2 : -(m * b) ≤ v * b := by
      have := mul_le_mul_of_nonneg_right hv hb
      linarith
    obtain ⟨d, hd, hd'⟩ := ih (fun a ha => hB a (by simp [ha])) k1 k2 h
    refine ⟨d, ?_, hd'⟩
    simp only [prod32]
    rw [int32_of (by omega), Res.bind_ok, hd]

theorem fits_middle {A B O : List Int} {a : Int} (hA : ∀ a ∈ A, 0 ≤ a) (hB : ∀ a ∈ B, 0 ≤ a) (h : Fits (A ++ a :: B) O) : ∃ f, O = A ++ f :: B := by
  induction A generalizing O with
  | nil =>
    cases O with
    | nil => exact absurd h (by simp [Fits])
    | cons f O => exact ⟨f, by rw [(Fits.eq h.2 hB)]; rfl⟩
  | cons x A ih =>
    cases O with
    | nil => exact absurd h (by simp [Fits])
    | cons y O =>
      obtain ⟨f, rfl⟩ := ih (fun a ha => hA a (by simp [ha])) h.2
      exact ⟨f, by rw [h.1 (hA x (by simp))]; rfl⟩

theorem iprod_pos {l : List Int} (h : ∀ a ∈ l, 0 < a) : 0 < iprod l := by
  induction l with
  | nil => simp [iprod]
  | cons a l ih => exact Int.mul_pos (h a (by simp)) (ih fun b hb => h b (by simp [hb]))

theorem reshapeShape_answers {x l O : List Int} {c : Int} (hx : ∀ a ∈ x, 0 < a) (hu : unknowns l ≤ 1) (hO : Fits l O) (hp : prod32 1 O = .ok c)
    (hc : prod32 1 x = .ok c) : ∃ o, reshapeShape x l = .ok o := by
  unfold reshapeShape
  rcases scanNeg_answers (i := 0) hu with h0 | ⟨A, a, B, rfl, ha, hA, hB, e⟩
  · have e := hO.eq h0
    subst e
    rw [scanNeg_nonneg h0]
    simp only [Res.bind_ok, hp, hc, ne_eq, not_true_eq_false, if_false]
    exact ⟨_, rfl⟩
  · obtain ⟨f, rfl⟩ := fits_middle hA hB hO
    have hp' := hp
    rw [prod32_append] at hp
    simp only [Res.bind_eq_ok, prod32] at hp
    obtain ⟨u, hu', v, hv, hvB⟩ := hp
    obtain ⟨rfl, hv'⟩ := of_int32 hv
    have cpos : 0 < c := by
      have := prod32_eq hc
      rw [one_mul] at this
      rw [this]; exact iprod_pos hx
    have eu := prod32_eq hu'
    rw [one_mul] at eu
    have u0 : 0 ≤ u := by rw [eu]; exact iprod_nonneg hA
    have b0 := iprod_nonneg hB
    have ec := prod32_eq hvB
    have upos : 0 < u := by
      rcases u0.lt_or_eq with h | h
      · exact h
      · rw [← h] at ec; simp at ec; omega
    have bpos : 0 < iprod B := by
      rcases b0.lt_or_eq with h | h
      · exact h
      · rw [← h] at ec; simp at ec; omega
    have fpos : 0 < f := by
      by_contra hn
      have : u * f ≤ 0 := mul_nonpos_of_nonneg_of_nonpos u0 (by omega)
      have := mul_nonpos_of_nonpos_of_nonneg this b0
      omega
    have k : -(u * -1) ≤ u * f := by nlinarith
    obtain ⟨d, hd, hd0, hdc⟩ := prod32_neg hB (by omega : u * -1 ≤ 0) k hvB
    have ed := prod32_eq hd
    have c32 : c ≤ 2147483647 := by
      have : ∀ {l : List Int} {a r : Int}, a ≤ 2147483647 → prod32 a l = .ok r → r ≤ 2147483647 := by
        intro l
        induction l with
        | nil => intro a r h1 h; cases h; exact h1
        | cons b l ih =>
          intro a r _ h
          simp only [prod32, Res.bind_eq_ok] at h
          obtain ⟨p, hp, h⟩ := h
          exact ih (by have := (of_int32 hp); omega) h
      exact this (by decide) hc
    have down : prod32 1 (A ++ -1 :: B) = .ok d := by
      rw [prod32_append, hu', Res.bind_ok]
      simp only [prod32]
      rw [int32_of ⟨by linarith [hv'.2], by linarith⟩, Res.bind_ok, hd]
    rw [e]
    simp only [Res.bind_ok, hc, down]
    rw [int32_of (by omega)]
    simp only [Res.bind_ok]
    have hdiv : div32 c (-d) = .ok f := by
      have e1 : c = f * (-d) := by rw [ec, ed]; ring
      have hdpos : 0 < -d := by
        rw [ed]
        have := mul_pos upos bpos
        linarith
      unfold div32
      rw [if_neg (by omega), e1, Int.mul_tdiv_cancel _ (by omega)]
      have : f ≤ c := by rw [e1]; nlinarith
      exact int32_of (by omega)
    rw [hdiv, Res.bind_ok]
    have eset : (A ++ -1 :: B).set (0 + A.length) f = A ++ f :: B := by simp
    rw [eset]
    simp only [Res.bind_ok, hp', ne_eq, not_true_eq_false, if_false]
    exact ⟨_, rfl⟩

theorem ruleReshape_answers {x req l O : List Int} {c : Int} (h7 : req.length ≤ 7) (hl : ruleCopyZeros x req = some l) (hu : unknowns l ≤ 1)
    (hO : Fits l O) (hp : prod32 1 O = .ok c) (hc : prod32 1 x = .ok c) : ∃ o, ruleReshape req x = .ok (some o) := by
  unfold ruleReshape
  rw [if_neg (by omega), hl]
  simp only
  split
  · rename_i hpos
    simp only [List.all_eq_true, decide_eq_true_eq] at hpos
    obtain ⟨o, ho⟩ := reshapeShape_answers hpos hu hO hp hc
    rw [ho]
    exact ⟨_, rfl⟩
  · exact ⟨_, rfl⟩

/-- the products that `reshapeShape` compares -/
theorem reshapeShape_counts {s req r : List Int} (h : reshapeShape s req = .ok r) : ∃ c, prod32 1 r = .ok c ∧ prod32 1 s = .ok c := by
  unfold reshapeShape at h
  simp only [Res.bind_eq_ok] at h
  obtain ⟨⟨l, k⟩, -, h⟩ := h
  cases k <;>
  · simp only [Res.bind_eq_ok] at h
    first
      | obtain ⟨up, -, down, -, nd, -, f, -, fixed, hf, n, hn, c, hc, h⟩ := h
      | obtain ⟨fixed, hf, n, hn, c, hc, h⟩ := h
    split at h
    · cases h
    · rename_i he
      cases h
      have he' : n = c := by simpa using he
      subst he'
      exact ⟨n, hn, hc⟩

theorem v1Init_unknowns {i : Nat} {k : Option Nat} {c : Int} {l : List Int} {r : Option Nat × Int} (h : v1Init i k c l = .ok r) :
    unknowns l + (if k = none then 0 else 1) ≤ 1 := by
  induction l generalizing i k c with
  | nil => unfold unknowns; simp; split <;> omega
  | cons x l ih =>
    rw [unknowns_cons]
    simp only [v1Init] at h
    split at h
    · rw [if_neg (by omega)]
      have := ih h
      omega
    · split at h
      · simp only [Res.bind_eq_ok] at h
        obtain ⟨c', -, h⟩ := h
        rw [if_neg (by omega)]
        have := ih h
        omega
      · cases k with
        | some _ => cases h
        | none =>
          have := ih h
          simp at this
          rw [if_pos (by omega)]
          simp
          omega

theorem v2Loop_unknowns {i : Nat} {k : Option Nat} {c : Int} {l : List Int} {r : Option Nat × Int} (h : v2Loop i k c l = .ok r) :
    unknowns l + (if k = none then 0 else 1) ≤ 1 ∧ 0 ∉ l := by
  induction l generalizing i k c with
  | nil => unfold unknowns; simp; split <;> omega
  | cons x l ih =>
    rw [unknowns_cons]
    simp only [v2Loop] at h
    split at h
    · cases h
    · rename_i hx
      split at h
      · simp only [Res.bind_eq_ok] at h
        obtain ⟨c', -, h⟩ := h
        rw [if_neg (by omega)]
        obtain ⟨h1, h2⟩ := ih h
        exact ⟨by omega, by simp; exact ⟨fun h => hx h.symm, h2⟩⟩
      · cases k with
        | some _ => cases h
        | none =>
          obtain ⟨h1, h2⟩ := ih h
          simp at h1
          rw [if_pos (by omega)]
          refine ⟨by simp; omega, by simp; exact ⟨fun h => hx h.symm, h2⟩⟩

theorem copyZeros_unknowns {s req l : List Int} (hs : ∀ a ∈ s, 0 ≤ a) (h : ruleCopyZeros s req = some l) : unknowns l ≤ unknowns req := by
  induction req generalizing s l with
  | nil =>
    have : l = [] := by cases s <;> (simp only [ruleCopyZeros, Option.some.injEq] at h; exact h.symm)
    subst this
    exact Nat.le_refl _
  | cons r req ih =>
    cases s with
    | nil =>
      simp only [ruleCopyZeros] at h
      split at h
      · cases h
      · obtain ⟨t, ht, rfl⟩ := Option.map_eq_some_iff.1 h
        rw [unknowns_cons, unknowns_cons]
        have := ih (by simp) ht
        omega
    | cons a s =>
      simp only [ruleCopyZeros] at h
      obtain ⟨t, ht, rfl⟩ := Option.map_eq_some_iff.1 h
      have := ih (fun b hb => hs b (by simp [hb])) ht
      have ha := hs a (by simp)
      rw [unknowns_cons, unknowns_cons]
      split <;> split <;> (try split at *) <;> omega

theorem v1Copy_rule {s req l : List Int} {c r : Int} (h : v1Copy s req c = .ok (l, r)) : ruleCopyZeros s req = some l := by
  induction req generalizing s l c r with
  | nil =>
    simp only [v1Copy, Res.ok.injEq, Prod.mk.injEq] at h
    rw [← h.1]
    cases s <;> rfl
  | cons x req ih =>
    simp only [v1Copy] at h
    split at h
    · rename_i hx
      cases s with
      | nil => cases h
      | cons a s =>
        simp only [Res.bind_eq_ok] at h
        obtain ⟨c1, -, ⟨l1, r1⟩, hrec, h⟩ := h
        cases h
        simp only [ruleCopyZeros, ih hrec, Option.map_some, if_pos hx]
    · rename_i hx
      simp only [Res.bind_eq_ok] at h
      obtain ⟨⟨l1, r1⟩, hrec, h⟩ := h
      cases h
      cases s with
      | nil =>
        simp only [ruleCopyZeros, if_neg hx]
        rw [List.tail_nil] at hrec
        rw [ih hrec]
        rfl
      | cons a s =>
        simp only [ruleCopyZeros, if_neg hx]
        rw [List.tail_cons] at hrec
        rw [ih hrec]
        rfl

theorem copyZeros_rule {s req : List Int} (h : 0 ∉ copyZeros s req) : ruleCopyZeros s req = some (copyZeros s req) := by
  induction req generalizing s with
  | nil => cases s <;> rfl
  | cons r req ih =>
    cases s with
    | nil =>
      simp only [copyZeros] at h ⊢
      have e : ∀ q : List Int, copyZeros [] q = q := fun q => by cases q <;> rfl
      have := ih (s := []) (by rw [e]; exact fun hh => h (by simp [hh]))
      rw [e] at this
      have hr : r ≠ 0 := fun hh => h (by simp [hh])
      simp only [ruleCopyZeros, if_neg hr, this]
      rfl
    | cons a s =>
      simp only [copyZeros] at h ⊢
      have := ih (s := s) (fun hh => h (by simp [hh]))
      simp only [ruleCopyZeros, this]
      rfl

theorem reshape_answers {x req : List Int} {t : Tensor} (hx : ∀ a ∈ x, 0 ≤ a) (h : reshapeV1 req (.mk ⟨0, x, []⟩ []) = .ok t) :
    ∃ o, ruleReshape req x = .ok (some o) := by
  have hs := (reshapeV1_spec h).1
  unfold reshapeV1 newShapeRun at h
  simp only [Res.bind_eq_ok] at h
  obtain ⟨r, hr, a, -, b, -, h⟩ := h
  split at h
  · cases h
  unfold Core.reshape at h
  simp only [Res.bind_eq_ok] at h
  obtain ⟨r', hr', h⟩ := h
  cases h
  obtain ⟨c, c1, c2⟩ := reshapeShape_counts hr'
  unfold reshapeV1Shape at hr
  split at hr
  · cases hr
  rename_i h7
  simp only [Res.bind_eq_ok] at hr
  obtain ⟨⟨k, c0⟩, hinit, xc, -, ⟨l, rr⟩, hcopy, -⟩ := hr
  have hl := v1Copy_rule hcopy
  have hl' := (v1Copy_copyZeros hcopy).1
  have hu := copyZeros_unknowns hx hl
  have := v1Init_unknowns hinit
  refine ruleReshape_answers (by omega) hl (by omega) ?_ c1 c2
  rw [hl']
  exact hs

theorem reshapeV2_answers {x req : List Int} {t : Tensor} (h : reshapeV2 (.mk ⟨0, x, []⟩ []) req = .ok t) :
    ∃ o, ruleReshape req x = .ok (some o) := by
  have hs := (reshapeV2_spec h).1
  unfold reshapeV2 at h
  simp only [Res.bind_eq_ok] at h
  obtain ⟨r, hr, a, -, b, -, h⟩ := h
  split at h
  · cases h
  unfold Core.reshape at h
  simp only [Res.bind_eq_ok] at h
  obtain ⟨r', hr', h⟩ := h
  cases h
  obtain ⟨c, c1, c2⟩ := reshapeShape_counts hr'
  unfold newshapeV2 at hr
  split at hr
  · cases hr
  simp only [Res.bind_eq_ok] at hr
  obtain ⟨⟨k, c0⟩, hloop, -⟩ := hr
  obtain ⟨hu, h0⟩ := v2Loop_unknowns hloop
  change unknowns (copyZeros x req) + _ ≤ 1 at hu
  exact ruleReshape_answers (by omega) (copyZeros_rule h0) (by omega) hs c1 c2

end Verif.Runtime.Infer
