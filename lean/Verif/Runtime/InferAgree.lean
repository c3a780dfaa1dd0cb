import Verif.Runtime.InferLemmas
/-!
# Each shape rule against its operator
-/
namespace Verif.Runtime.Infer
open Verif.Core Verif.Kernels

/-! ## element-wise -/

theorem eltDim_ok {a b : Int} {A B o : Nat} (ha : 0 ≤ a → a = A) (hb : 0 ≤ b → b = B) (hc : A = B ∨ A = 1 ∨ B = 1)
    (ho : o = if A = B then A else A * B) : 0 ≤ eltDim a b → eltDim a b = o := by
  unfold eltDim
  intro h
  have hAB : (A = B → o = A) ∧ (A = 1 → o = B) ∧ (B = 1 → o = A) := by
    refine ⟨fun e => by rw [ho, if_pos e], fun e => ?_, fun e => ?_⟩
    · subst e; by_cases h1 : 1 = B
      · rw [ho, if_pos h1]; exact h1
      · rw [ho, if_neg h1]; simp
    · subst e; by_cases h1 : A = 1
      · rw [ho, if_pos h1]
      · rw [ho, if_neg h1]; simp
  obtain ⟨h1, h2, h3⟩ := hAB
  split at h
  · rename_i ha0
    rw [if_pos ha0]
    split at h
    · omega
    · rename_i hb1
      rw [if_neg hb1]
      have hB := hb h
      rcases hc with e | e | e
      · have := h1 e; omega
      · have := h2 e; omega
      · omega
  · rename_i ha0
    have hA := ha (by omega)
    rw [if_neg ha0]
    split at h
    · rename_i ha1
      rw [if_pos ha1]
      have hB := hb h
      have := h2 (by omega)
      omega
    · rename_i ha1
      rw [if_neg ha1]
      split at h
      · rename_i hb0
        rw [if_pos hb0]
        rcases hc with e | e | e
        · have := h1 e; omega
        · omega
        · have := h3 e; omega
      · rename_i hb0
        rw [if_neg hb0]
        have hB := hb (by omega)
        split at h
        · rename_i hb1
          rw [if_pos hb1]
          have := h3 (by omega)
          omega
        · rename_i hb1
          rw [if_neg hb1]
          split at h
          · rename_i hab
            rw [if_pos hab]
            have := h1 (by omega)
            omega
          · omega

theorem eltwise_same {l r : List Int} {s : List Nat} (hl : Fits l (s.map Int.ofNat)) (hr : Fits r (s.map Int.ofNat)) :
    Fits (List.zipWith eltDim l r) (s.map Int.ofNat) := by
  induction s generalizing l r with
  | nil => cases l <;> cases r <;> simp_all [Fits]
  | cons a s ih =>
    cases l with
    | nil => simp [Fits] at hl
    | cons b l => cases r with
      | nil => simp [Fits] at hr
      | cons c r =>
        exact ⟨eltDim_ok (A := a) (B := a) hl.1 hr.1 (Or.inl rfl) (by simp), ih hl.2 hr.2⟩

theorem eltwise_loop {l r : List Int} {L R : List Nat} {o : List Nat} {b : Bool} (hl : Fits l (L.map Int.ofNat))
    (hr : Fits r (R.map Int.ofNat)) (hlen : L.length = R.length) (h : reduceLoop L R = .ok (o, b)) :
    Fits (List.zipWith eltDim l r) (o.map Int.ofNat) := by
  induction L generalizing R l r o b with
  | nil =>
    cases R with
    | cons _ _ => simp at hlen
    | nil =>
      cases l with
      | cons _ _ => simp [Fits] at hl
      | nil =>
        simp only [reduceLoop, Res.ok.injEq, Prod.mk.injEq] at h
        rw [← h.1]; trivial
  | cons A L ih =>
    cases R with
    | nil => simp at hlen
    | cons B R =>
      cases l with
      | nil => simp [Fits] at hl
      | cons a l => cases r with
        | nil => simp [Fits] at hr
        | cons b' r =>
          simp only [reduceLoop] at h
          split at h
          · rename_i hAB
            split at h
            · cases h
            · rename_i h1
              simp only [Res.bind_eq_ok] at h
              obtain ⟨⟨os, b2⟩, hrec, h⟩ := h
              simp only [Res.ok.injEq, Prod.mk.injEq] at h
              rw [← h.1]
              refine ⟨eltDim_ok (A := A) (B := B) hl.1 hr.1 (by omega) (by rw [if_neg hAB]), ?_⟩
              exact ih hl.2 hr.2 (by simpa using hlen) hrec
          · rename_i hAB
            have hAB : A = B := by omega
            simp only [Res.bind_eq_ok] at h
            obtain ⟨⟨os, b2⟩, hrec, h⟩ := h
            simp only [Res.ok.injEq, Prod.mk.injEq] at h
            rw [← h.1]
            refine ⟨eltDim_ok (A := A) (B := B) hl.1 hr.1 (Or.inl hAB) (by rw [if_pos hAB]), ?_⟩
            exact ih hl.2 hr.2 (by simpa using hlen) hrec

theorem fits_front {l : List Int} {L : List Nat} (h : Fits l (L.map Int.ofNat)) (n : Nat) :
    Fits (List.replicate n 1 ++ l) ((List.replicate n 1 ++ L).map Int.ofNat) := by
  rw [List.map_append]
  refine Fits.append ?_ h
  rw [List.map_replicate]
  exact Fits.refl _

theorem insertOnes_front {s r : List Int} {n : Nat} (h : insertOnes s 0 n = .ok r) : r = List.replicate n 1 ++ s := by
  unfold insertOnes at h
  split at h
  · cases h
  · split at h
    · cases h
    · split at h
      · cases h
      · simp only [Res.ok.injEq] at h
        rw [← h]; simp

theorem nats_back {s : List Int} (h : ∀ a ∈ s, 0 ≤ a) : (nats s).map Int.ofNat = s := by
  induction s with
  | nil => rfl
  | cons a s ih =>
    have h1 := ih (fun b hb => h b (by simp [hb]))
    have h2 := h a (by simp)
    simp only [nats, List.map_cons] at h1 ⊢
    rw [h1]
    simp only [List.cons.injEq, and_true]
    exact Int.toNat_of_nonneg h2

theorem eltwise_agree {l r L R : List Int} {o : List Int} {l' r' O : List Nat} {b : Bool} (hL : ∀ a ∈ L, 0 ≤ a)
    (hR : ∀ a ∈ R, 0 ≤ a) (hl : Fits l L) (hr : Fits r R) (hop : reduceShapes (nats L) (nats R) = .ok (l', r', O, b))
    (hrule : ruleEltwise l r = .ok (some o)) : Fits o (O.map Int.ofNat) := by
  unfold ruleEltwise at hrule
  simp only [Res.bind_eq_ok, Res.ok.injEq, Option.some.injEq] at hrule
  obtain ⟨x, hx, y, hy, hrule⟩ := hrule
  have hll := hl.length
  have hrl := hr.length
  have hx' : x = List.replicate (R.length - L.length) 1 ++ l := by
    unfold eltPad at hx
    split at hx
    · rw [insertOnes_front hx, hll, hrl]
    · rename_i hc
      simp only [Res.ok.injEq] at hx
      have : R.length - L.length = 0 := by omega
      rw [this, ← hx]; rfl
  have hy' : y = List.replicate (L.length - R.length) 1 ++ r := by
    unfold eltPad at hy
    split at hy
    · rw [insertOnes_front hy, hll, hrl]
    · rename_i hc
      simp only [Res.ok.injEq] at hy
      have : L.length - R.length = 0 := by omega
      rw [this, ← hy]; rfl
  rw [← nats_back hL] at hl
  rw [← nats_back hR] at hr
  have nl : (nats L).length = L.length := by simp [nats]
  have nr : (nats R).length = R.length := by simp [nats]
  unfold reduceShapes at hop
  split at hop
  · rename_i he
    simp only [Res.ok.injEq, Prod.mk.injEq] at hop
    have hlen : L.length = R.length := by rw [← nl, ← nr, he]
    rw [← hop.2.2.1, ← hrule, hx', hy', hlen]
    simp only [Nat.sub_self, List.replicate_zero, List.nil_append]
    refine eltwise_same hl ?_
    rw [he]; exact hr
  · simp only [Res.bind_eq_ok] at hop
    obtain ⟨⟨o1, b1⟩, hloop, hop⟩ := hop
    simp only [Res.ok.injEq, Prod.mk.injEq] at hop
    rw [← hop.2.2.1, ← hrule, hx', hy']
    refine eltwise_loop (L := frontOnes (nats L) (nats R).length) (R := frontOnes (nats R) (nats L).length) ?_ ?_ ?_ hloop
    · unfold frontOnes; rw [nl, nr]; exact fits_front hl _
    · unfold frontOnes; rw [nl, nr]; exact fits_front hr _
    · simp [frontOnes, nl, nr]; omega

/-! ## flatten -/

theorem prod_agree {p s : List Int} {a b : Int} (h : Fits p s) (hu : unknowns p ≤ 1) (ha : prod32 1 p = .ok a)
    (hb : prod32 1 s = .ok b) : 0 ≤ a → a = b := by
  intro h0
  rw [prod32_eq ha, one_mul] at h0 ⊢
  rw [prod32_eq hb, one_mul]
  exact h.iprod hu h0

theorem unknowns_append (a b : List Int) : unknowns (a ++ b) = unknowns a + unknowns b := by
  simp [unknowns]

theorem unknowns_take (p : List Int) (n : Nat) : unknowns (p.take n) ≤ unknowns p := by
  have := unknowns_append (p.take n) (p.drop n)
  rw [List.take_append_drop] at this; omega

theorem unknowns_drop (p : List Int) (n : Nat) : unknowns (p.drop n) ≤ unknowns p := by
  have := unknowns_append (p.take n) (p.drop n)
  rw [List.take_append_drop] at this; omega

theorem insertOnes_ok {s r : List Int} {i n : Nat} (h : insertOnes s i n = .ok r) :
    r = s.take i ++ List.replicate n 1 ++ s.drop i := by
  unfold insertOnes at h
  split at h
  · cases h
  · split at h
    · cases h
    · split at h
      · cases h
      · simp only [Res.ok.injEq] at h
        exact h.symm

theorem flatten_agree {d : Int} {p s o O : List Int} (h : Fits p s) (hu : unknowns p ≤ 1)
    (hop : flattenShape d s = .ok O) (hrule : ruleFlatten d p = .ok (some o)) : Fits o O := by
  unfold ruleFlatten at hrule
  simp only [Res.bind_eq_ok, Res.ok.injEq, Option.some.injEq] at hrule
  obtain ⟨y, hy, rfl⟩ := hrule
  unfold flattenShape at hop hy
  rw [h.length] at hy
  simp only at hop hy
  generalize (if d < 0 then d + (s.length : Int) else d) = fixed at hop hy
  split at hop
  · cases hop
  rename_i h1
  rw [if_neg h1] at hy
  split at hop
  · rename_i h2
    rw [if_pos h2] at hy
    split at hop
    · cases hop
    · rename_i h3
      rw [if_neg h3] at hy
      simp only [Res.bind_eq_ok, Res.ok.injEq] at hop hy
      obtain ⟨a, ha, rfl⟩ := hop
      obtain ⟨b, hb, rfl⟩ := hy
      refine Fits.append (h.take _) ⟨?_, trivial⟩
      exact prod_agree (h.drop _) (Nat.le_trans (unknowns_drop p _) hu) hb ha
  · rename_i h2
    rw [if_neg h2] at hy
    split at hop
    · rename_i h3
      rw [if_pos h3] at hy
      rw [insertOnes_ok hy, insertOnes_ok hop]
      exact Fits.append (Fits.append (h.take _) (Fits.refl _)) (h.drop _)
    · rename_i h3
      rw [if_neg h3] at hy
      simp only [Res.ok.injEq] at hop hy
      rw [← hop, ← hy]; exact h

theorem flatten2d_agree {d : Int} {p s o O : List Int} (h : Fits p s) (hu : unknowns p ≤ 1)
    (hop : flatten2dShape d s = .ok O) (hrule : ruleFlatten2d d p = .ok (some o)) : Fits o O := by
  unfold ruleFlatten2d at hrule
  simp only [Res.bind_eq_ok, Res.ok.injEq, Option.some.injEq] at hrule
  obtain ⟨y, hy, rfl⟩ := hrule
  unfold flatten2dShape at hop hy
  rw [h.length] at hy
  simp only at hop hy
  generalize (if d < 0 then d + (s.length : Int) else d) = fixed at hop hy
  split at hop
  · rename_i h1
    rw [if_pos h1] at hy
    simp only [Res.bind_eq_ok, Res.ok.injEq] at hop hy
    obtain ⟨a, ha, rfl⟩ := hop
    obtain ⟨b, hb, rfl⟩ := hy
    exact ⟨fun _ => rfl, prod_agree h hu hb ha, trivial⟩
  · rename_i h1
    rw [if_neg h1] at hy
    split at hop
    · rename_i h2
      rw [if_pos h2] at hy
      simp only [Res.bind_eq_ok, Res.ok.injEq] at hop hy
      obtain ⟨a, ha, rfl⟩ := hop
      obtain ⟨b, hb, rfl⟩ := hy
      exact ⟨prod_agree h hu hb ha, fun _ => rfl, trivial⟩
    · rename_i h2
      rw [if_neg h2] at hy
      simp only [Res.bind_eq_ok, Res.ok.injEq] at hop hy
      obtain ⟨a, ha, a', ha', rfl⟩ := hop
      obtain ⟨b, hb, b', hb', rfl⟩ := hy
      exact ⟨prod_agree (h.take _) (Nat.le_trans (unknowns_take p _) hu) hb ha,
        prod_agree (h.drop _) (Nat.le_trans (unknowns_drop p _) hu) hb' ha', trivial⟩

/-! ## squeeze, unsqueeze, expand -/

theorem squeeze_loop {n : Nat} {as : List Int} (hn : ∀ a ∈ as, 0 ≤ a) {y Y o O : List Int} (h : Fits y Y)
    (hop : overAxes squeezeStep as Y = .ok O) (hrule : ruleSqueezeLoop n as y = .ok (some o)) : Fits o O := by
  induction as generalizing y Y with
  | nil =>
    simp only [overAxes, ruleSqueezeLoop, Res.ok.injEq, Option.some.injEq] at hop hrule
    rw [← hop, ← hrule]; exact h
  | cons a as ih =>
    have ha := hn a (by simp)
    simp only [overAxes, Res.bind_eq_ok] at hop
    obtain ⟨Y', hs, hop⟩ := hop
    unfold squeezeStep at hs
    simp only at hs
    rw [if_pos (c := a ≥ 0) ha] at hs
    split at hs
    · cases hs
    · rename_i hr
      split at hs
      · simp only [Res.ok.injEq] at hs
        simp only [ruleSqueezeLoop] at hrule
        rw [if_neg (by omega : ¬ a < 0)] at hrule
        split at hrule
        · cases hrule
        · split at hrule
          · cases hrule
          · subst hs
            exact ih (fun b hb => hn b (by simp [hb])) (h.eraseIdx _) hop hrule
      · cases hs

theorem squeeze_agree {axes : List Int} (hne : axes ≠ []) (hn : ∀ a ∈ axes, 0 ≤ a) {p s o O : List Int} (h : Fits p s)
    (hop : squeezeShape axes s = .ok O) (hrule : ruleSqueeze axes p = .ok (some o)) : Fits o O := by
  unfold squeezeShape at hop
  unfold ruleSqueeze at hrule
  rw [if_neg hne] at hop hrule
  exact squeeze_loop (fun a ha => hn a (by simpa using ha)) h hop hrule

theorem insertOne_fits {y Y o O : List Int} {i : Nat} (h : Fits y Y) (h1 : insertOne y i = .ok o)
    (h2 : insertOne Y i = .ok O) : Fits o O := by
  unfold insertOne at h1 h2
  rw [h.length] at h1
  split at h2
  · cases h2
  · rename_i c1
    rw [if_neg c1] at h1
    split at h2
    · cases h2
    · rename_i c2
      rw [if_neg c2] at h1
      simp only [Res.ok.injEq] at h1 h2
      rw [← h1, ← h2]
      exact Fits.append (h.take _) ⟨fun _ => rfl, h.drop _⟩

theorem unsqueeze_agree {axes y Y o O : List Int} (h : Fits y Y) (hop : unsqueezeShape axes Y = .ok O)
    (hrule : ruleUnsqueeze axes y = .ok (some o)) : Fits o O := by
  unfold unsqueezeShape at hop
  induction axes generalizing y Y with
  | nil =>
    simp only [overAxes, ruleUnsqueeze, Res.ok.injEq, Option.some.injEq] at hop hrule
    rw [← hop, ← hrule]; exact h
  | cons a as ih =>
    simp only [overAxes, Res.bind_eq_ok] at hop
    obtain ⟨Y', hs, hop⟩ := hop
    have hs' : (if a > (Y.length : Int) ∨ a < -(Y.length : Int) then Res.err else if a ≥ 0 then insertOne Y a.toNat
        else insertOne Y ((Y.length : Int) + a + 1).toNat) = Res.ok Y' := hs
    simp only [ruleUnsqueeze] at hrule
    rw [h.length] at hrule
    by_cases c1 : a > (Y.length : Int) ∨ a < -(Y.length : Int)
    · rw [if_pos c1] at hs'; cases hs'
    · rw [if_neg c1] at hs' hrule
      by_cases c2 : a ≥ 0
      · rw [if_pos c2] at hs' hrule
        simp only [Res.bind_eq_ok] at hrule
        obtain ⟨y', hy, hrule⟩ := hrule
        exact ih (insertOne_fits h hy hs') hop hrule
      · rw [if_neg c2] at hs' hrule
        simp only [Res.bind_eq_ok] at hrule
        obtain ⟨y', hy, hrule⟩ := hrule
        exact ih (insertOne_fits h hy hs') hop hrule

/-! ## reshape -/

theorem scanNeg_spec {i : Nat} {k : Option Nat} {l r : List Int} {k' : Option Nat} (h : scanNeg i k l = .ok (r, k')) :
    r.length = l.length ∧
    (match k with
     | some j => (∀ a ∈ l, 0 ≤ a) ∧ r = l ∧ k' = some j
     | none => ((∀ a ∈ l, 0 ≤ a) ∧ r = l ∧ k' = none) ∨
        ∃ j, k' = some (i + j) ∧ unknowns l = 1 ∧ (∃ x, l[j]? = some x ∧ x < 0) ∧ ∀ f, r.set j f = l.set j f) := by
  induction l generalizing i k r k' with
  | nil =>
    simp only [scanNeg, Res.ok.injEq, Prod.mk.injEq] at h
    obtain ⟨rfl, rfl⟩ := h
    cases k <;> simp
  | cons x l ih =>
    simp only [scanNeg] at h
    split at h
    · rename_i hx
      cases k with
      | some j => cases h
      | none =>
        simp only [Res.bind_eq_ok] at h
        obtain ⟨⟨r1, k1⟩, hrec, h⟩ := h
        simp only [Res.ok.injEq, Prod.mk.injEq] at h
        obtain ⟨rfl, rfl⟩ := h
        obtain ⟨h1, h2⟩ := ih hrec
        simp only at h2
        obtain ⟨h3, rfl, rfl⟩ := h2
        refine ⟨by simp, Or.inr ⟨0, by simp, ?_, ⟨x, rfl, hx⟩, fun f => by simp⟩⟩
        rw [unknowns_cons, if_pos hx, unknowns_of_nonneg h3]
    · rename_i hx
      simp only [Res.bind_eq_ok] at h
      obtain ⟨⟨r1, k1⟩, hrec, h⟩ := h
      simp only [Res.ok.injEq, Prod.mk.injEq] at h
      obtain ⟨rfl, rfl⟩ := h
      obtain ⟨h1, h2⟩ := ih hrec
      refine ⟨by simp [h1], ?_⟩
      cases k with
      | some j =>
        simp only at h2 ⊢
        obtain ⟨h3, rfl, rfl⟩ := h2
        refine ⟨?_, rfl, rfl⟩
        intro a ha
        rcases List.mem_cons.1 ha with e | e
        · omega
        · exact h3 a e
      | none =>
        simp only at h2 ⊢
        rcases h2 with ⟨h3, rfl, rfl⟩ | ⟨j, rfl, h4, h5, h6⟩
        · refine Or.inl ⟨?_, rfl, rfl⟩
          intro a ha
          rcases List.mem_cons.1 ha with e | e
          · omega
          · exact h3 a e
        · refine Or.inr ⟨j + 1, by congr 1; omega, ?_, ?_, ?_⟩
          · rw [unknowns_cons, if_neg hx, h4]
          · simpa using h5
          · intro f; simp [h6 f]

theorem fits_set {l : List Int} {j : Nat} {x f : Int} (h : l[j]? = some x) (hx : x < 0) : Fits l (l.set j f) := by
  induction l generalizing j with
  | nil => simp at h
  | cons a l ih =>
    cases j with
    | zero =>
      simp at h; subst h
      exact ⟨fun h0 => by omega, Fits.refl _⟩
    | succ j => exact ⟨fun _ => rfl, ih (by simpa using h)⟩

/-- What `Tensor::reshape` guarantees about the shape it returns. -/
theorem reshapeShape_spec {s req r : List Int} (h : reshapeShape s req = .ok r) :
    Fits req r ∧ iprod r = iprod s ∧ unknowns req ≤ 1 := by
  unfold reshapeShape at h
  simp only [Res.bind_eq_ok] at h
  obtain ⟨⟨l, k⟩, hscan, h⟩ := h
  obtain ⟨hlen, hs⟩ := scanNeg_spec hscan
  obtain ⟨fixed, hf, hp, rfl⟩ : ∃ fixed, (match k with
      | none => fixed = l
      | some i => ∃ f, fixed = l.set i f) ∧ iprod fixed = iprod s ∧ r = fixed := by
    cases k with
    | none =>
      simp only [Res.bind_eq_ok] at h
      obtain ⟨_, he, n, hn, c, hc, h⟩ := h
      simp only [Res.ok.injEq] at he
      subst he
      refine ⟨_, rfl, ?_⟩
      split at h
      · cases h
      · rename_i hnc
        simp only [ne_eq, Decidable.not_not] at hnc
        simp only [Res.ok.injEq] at h
        have a := prod32_eq hn
        have b := prod32_eq hc
        rw [one_mul] at a b
        exact ⟨by rw [← a, ← b, hnc], h.symm⟩
    | some i =>
      simp only [Res.bind_eq_ok] at h
      obtain ⟨_, _, _, _, _, _, f, _, _, he, n, hn, c, hc, h⟩ := h
      simp only [Res.ok.injEq] at he
      subst he
      refine ⟨_, ⟨f, rfl⟩, ?_⟩
      split at h
      · cases h
      · rename_i hnc
        simp only [ne_eq, Decidable.not_not] at hnc
        simp only [Res.ok.injEq] at h
        have a := prod32_eq hn
        have b := prod32_eq hc
        rw [one_mul] at a b
        exact ⟨by rw [← a, ← b, hnc], h.symm⟩
  refine ⟨?_, hp, ?_⟩
  · rcases hs with ⟨h1, rfl, rfl⟩ | ⟨j, rfl, h4, ⟨x, hx1, hx2⟩, h6⟩
    · simp only at hf
      rw [hf]; exact Fits.refl _
    · simp only [Nat.zero_add] at hf
      obtain ⟨f, rfl⟩ := hf
      rw [h6 f]; exact fits_set hx1 hx2
  · rcases hs with ⟨h1, _⟩ | ⟨j, _, h4, _⟩
    · rw [unknowns_of_nonneg h1]; omega
    · omega

theorem v2Loop_index {i : Nat} {k : Option Nat} {c : Int} {l : List Int} {k' : Option Nat} {c' : Int}
    (h : v2Loop i k c l = .ok (k', c')) (j : Nat) (hj : k' = some j) :
    k = some j ∨ ∃ x, i ≤ j ∧ l[j - i]? = some x ∧ x < 0 := by
  induction l generalizing i k c with
  | nil =>
    simp only [v2Loop, Res.ok.injEq, Prod.mk.injEq] at h
    exact Or.inl (h.1.trans hj)
  | cons x l ih =>
    have lift : ∀ (k : Option Nat), (k = some j ∨ ∃ y, i + 1 ≤ j ∧ l[j - (i + 1)]? = some y ∧ y < 0) →
        k = some j ∨ ∃ y, i ≤ j ∧ (x :: l)[j - i]? = some y ∧ y < 0 := by
      intro k hk
      rcases hk with hk | ⟨y, h1, h2, h3⟩
      · exact Or.inl hk
      · refine Or.inr ⟨y, by omega, ?_, h3⟩
        have : j - i = (j - (i + 1)) + 1 := by omega
        rw [this]; simpa using h2
    simp only [v2Loop] at h
    split at h
    · cases h
    · split at h
      · simp only [Res.bind_eq_ok] at h
        obtain ⟨c1, _, h⟩ := h
        exact lift k (ih h)
      · cases k with
        | some _ => cases h
        | none =>
          simp only at h
          rcases ih h with e | e
          · simp only [Option.some.injEq] at e
            subst e
            exact Or.inr ⟨x, by omega, by simp, by omega⟩
          · exact lift none (Or.inr e)

theorem newshapeV2_fits {s req r : List Int} (h : newshapeV2 s req = .ok r) : Fits (copyZeros s req) r := by
  unfold newshapeV2 at h
  split at h
  · cases h
  · simp only [Res.bind_eq_ok] at h
    obtain ⟨⟨k, c⟩, hloop, h⟩ := h
    simp only [Res.bind_eq_ok] at h
    obtain ⟨xc, hxc, h⟩ := h
    cases k with
    | none =>
      simp only [Res.ok.injEq] at h
      rw [← h]; exact Fits.refl _
    | some i =>
      simp only [Res.bind_eq_ok] at h
      obtain ⟨f, hf, p, hp, h⟩ := h
      split at h
      · cases h
      · simp only [Res.ok.injEq] at h
        rw [← h]
        rcases v2Loop_index hloop i rfl with e | ⟨x, _, e1, e2⟩
        · cases e
        · exact fits_set (by simpa using e1) e2

/-- the requested shape after copying, in the operator and in the rule -/
theorem copyZeros_fits {p s req l : List Int} (h : Fits p s) (hl : ruleCopyZeros p req = some l) :
    Fits l (copyZeros s req) := by
  induction req generalizing p s l with
  | nil =>
    cases p with
    | nil => cases s <;> simp_all [Fits, ruleCopyZeros, copyZeros]
    | cons a p => cases s with
      | nil => simp [Fits] at h
      | cons b s =>
        simp only [ruleCopyZeros, Option.some.injEq] at hl
        subst hl; trivial
  | cons r req ih =>
    cases p with
    | nil =>
      cases s with
      | cons _ _ => simp [Fits] at h
      | nil =>
        simp only [ruleCopyZeros] at hl
        split at hl
        · cases hl
        · simp only [Option.map_eq_some_iff] at hl
          obtain ⟨m, hm, rfl⟩ := hl
          have := ih h hm
          simp only [copyZeros]
          refine ⟨fun _ => rfl, ?_⟩
          have e : copyZeros [] req = req := by cases req <;> rfl
          rwa [e] at this
    | cons a p => cases s with
      | nil => simp [Fits] at h
      | cons b s =>
        simp only [ruleCopyZeros, Option.map_eq_some_iff] at hl
        obtain ⟨m, hm, rfl⟩ := hl
        simp only [copyZeros]
        refine ⟨?_, ih h.2 hm⟩
        by_cases hr : r = 0
        · simp only [hr, if_true]; exact h.1
        · simp only [hr, if_false]; intro _; trivial

theorem reshape_agree {p s req o O : List Int} (h : Fits p s) (hO : Fits (copyZeros s req) O) (hprod : iprod O = iprod s)
    (hrule : ruleReshape req p = .ok (some o)) : Fits o O := by
  unfold ruleReshape at hrule
  split at hrule
  · cases hrule
  · split at hrule
    · cases hrule
    · rename_i l hl
      have h1 := (copyZeros_fits h hl).trans hO
      split at hrule
      · rename_i hpos
        simp only [List.all_eq_true, decide_eq_true_eq] at hpos
        have he := h.eq (fun a ha => by have := hpos a ha; omega)
        subst he
        simp only [Res.bind_eq_ok, Res.ok.injEq, Option.some.injEq] at hrule
        obtain ⟨r, hr, rfl⟩ := hrule
        obtain ⟨g1, g2, g3⟩ := reshapeShape_spec hr
        have hpp : ∀ q : List Int, (∀ a ∈ q, 0 < a) → 0 < iprod q := by
          intro q hq
          induction q with
          | nil => simp [iprod]
          | cons a q ih => exact Int.mul_pos (hq a (by simp)) (ih fun b hb => hq b (by simp [hb]))
        have hne := hpp p hpos
        rw [Fits.unique g1 h1 g3 (by rw [g2, hprod]) (by rw [g2]; omega)]
        exact Fits.refl _
      · simp only [Res.ok.injEq, Option.some.injEq] at hrule
        rw [← hrule]; exact h1

theorem reshapeV2_spec {s req : List Int} {t : Tensor} (h : reshapeV2 (.mk ⟨0, s, []⟩ []) req = .ok t) :
    Fits (copyZeros s req) t.own.shape ∧ iprod t.own.shape = iprod s := by
  unfold reshapeV2 at h
  simp only [Res.bind_eq_ok] at h
  obtain ⟨r, hr, a, _, b, _, h⟩ := h
  split at h
  · cases h
  · unfold Core.reshape at h
    simp only [Res.bind_eq_ok, Res.ok.injEq] at h
    obtain ⟨r', hr', rfl⟩ := h
    obtain ⟨g1, g2, _⟩ := reshapeShape_spec hr'
    exact ⟨(newshapeV2_fits hr).trans g1, g2⟩

theorem v1Init_index {i : Nat} {k : Option Nat} {c : Int} {l : List Int} {k' : Option Nat} {c' : Int}
    (h : v1Init i k c l = .ok (k', c')) (j : Nat) (hj : k' = some j) :
    k = some j ∨ ∃ x, i ≤ j ∧ l[j - i]? = some x ∧ x < 0 := by
  induction l generalizing i k c with
  | nil =>
    simp only [v1Init, Res.ok.injEq, Prod.mk.injEq] at h
    exact Or.inl (h.1.trans hj)
  | cons x l ih =>
    have lift : ∀ (k : Option Nat), (k = some j ∨ ∃ y, i + 1 ≤ j ∧ l[j - (i + 1)]? = some y ∧ y < 0) →
        k = some j ∨ ∃ y, i ≤ j ∧ (x :: l)[j - i]? = some y ∧ y < 0 := by
      intro k hk
      rcases hk with hk | ⟨y, h1, h2, h3⟩
      · exact Or.inl hk
      · refine Or.inr ⟨y, by omega, ?_, h3⟩
        have : j - i = (j - (i + 1)) + 1 := by omega
        rw [this]; simpa using h2
    simp only [v1Init] at h
    split at h
    · exact lift k (ih h)
    · split at h
      · simp only [Res.bind_eq_ok] at h
        obtain ⟨c1, _, h⟩ := h
        exact lift k (ih h)
      · cases k with
        | some _ => cases h
        | none =>
          simp only at h
          rcases ih h with e | e
          · simp only [Option.some.injEq] at e
            subst e
            exact Or.inr ⟨x, by omega, by simp, by omega⟩
          · exact lift none (Or.inr e)

theorem v1Copy_copyZeros {s req l : List Int} {c r : Int} (h : v1Copy s req c = .ok (l, r)) :
    l = copyZeros s req ∧ ∀ (j : Nat) x, req[j]? = some x → x < 0 → l[j]? = some x := by
  induction req generalizing s l c r with
  | nil =>
    simp only [v1Copy, Res.ok.injEq, Prod.mk.injEq] at h
    refine ⟨?_, fun j x hx => by simp at hx⟩
    rw [← h.1]; cases s <;> rfl
  | cons x req ih =>
    simp only [v1Copy] at h
    split at h
    · rename_i hx0
      cases s with
      | nil => cases h
      | cons a s =>
        simp only [Res.bind_eq_ok] at h
        obtain ⟨c1, _, ⟨l1, r1⟩, hrec, h⟩ := h
        simp only [Res.ok.injEq, Prod.mk.injEq] at h
        obtain ⟨rfl, rfl⟩ := h
        obtain ⟨g1, g2⟩ := ih hrec
        refine ⟨by simp [copyZeros, hx0, g1], ?_⟩
        intro j y hy hy0
        cases j with
        | zero => simp at hy; omega
        | succ j => simpa using g2 j y (by simpa using hy) hy0
    · rename_i hx0
      simp only [Res.bind_eq_ok] at h
      obtain ⟨⟨l1, r1⟩, hrec, h⟩ := h
      simp only [Res.ok.injEq, Prod.mk.injEq] at h
      obtain ⟨rfl, rfl⟩ := h
      obtain ⟨g1, g2⟩ := ih hrec
      refine ⟨?_, ?_⟩
      · cases s with
        | nil =>
          simp only [copyZeros]
          rw [g1]
          simp only [List.tail_nil]
          cases req <;> rfl
        | cons a s => simp [copyZeros, hx0, g1]
      · intro j y hy hy0
        cases j with
        | zero => simpa using hy
        | succ j => simpa using g2 j y (by simpa using hy) hy0

theorem reshapeV1_spec {s req : List Int} {t : Tensor} (h : reshapeV1 req (.mk ⟨0, s, []⟩ []) = .ok t) :
    Fits (copyZeros s req) t.own.shape ∧ iprod t.own.shape = iprod s := by
  unfold reshapeV1 newShapeRun at h
  simp only [Res.bind_eq_ok] at h
  obtain ⟨r, hr, a, _, b, _, h⟩ := h
  split at h
  · cases h
  · unfold Core.reshape at h
    simp only [Res.bind_eq_ok, Res.ok.injEq] at h
    obtain ⟨r', hr', rfl⟩ := h
    obtain ⟨g1, g2, _⟩ := reshapeShape_spec hr'
    refine ⟨Fits.trans ?_ g1, g2⟩
    unfold reshapeV1Shape at hr
    split at hr
    · cases hr
    · simp only [Res.bind_eq_ok] at hr
      obtain ⟨⟨k, c⟩, hinit, hr⟩ := hr
      simp only [Res.bind_eq_ok] at hr
      obtain ⟨xc, _, ⟨l, rr⟩, hcopy, hr⟩ := hr
      obtain ⟨q1, q2⟩ := v1Copy_copyZeros hcopy
      have q1' : l = copyZeros s req := q1
      cases k with
      | none =>
        simp only [Res.ok.injEq] at hr
        rw [← hr, q1']; exact Fits.refl _
      | some i =>
        simp only [Res.bind_eq_ok] at hr
        obtain ⟨rc, _, f, _, p, _, hr⟩ := hr
        split at hr
        · cases hr
        · simp only [Res.ok.injEq] at hr
          rw [← hr]
          rcases v1Init_index hinit i rfl with e | ⟨x, _, e1, e2⟩
          · cases e
          · rw [← q1']
            exact fits_set (q2 i x (by simpa using e1) e2) e2

end Verif.Runtime.Infer
