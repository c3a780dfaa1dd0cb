import Verif.Runtime.InferAgree
/-!
# Each shape rule against its operator, continued
-/
namespace Verif.Runtime.Infer
open Verif.Core Verif.Kernels

/-! ## expand -/

theorem expand_agree {inv : Bool} {n : Int} {p s o : List Int} {t : Tensor} (h : Fits p s)
    (hop : Core.expand (-1) (-1) inv n (.mk ⟨0, s, []⟩ []) = .ok t)
    (hrule : ruleExpand none none inv n p = .ok (some o)) : Fits o t.own.shape := by
  unfold Core.expand at hop
  simp only [Res.bind_eq_ok] at hop
  obtain ⟨s', hs', hop⟩ := hop
  unfold Core.reshape at hop
  simp only [Res.bind_eq_ok, Res.ok.injEq] at hop
  obtain ⟨r, hr, rfl⟩ := hop
  obtain ⟨g1, -, -⟩ := reshapeShape_spec hr
  refine Fits.trans ?_ g1
  change expandShape (-1) (-1) inv n s = .ok s' at hs'
  have hlen := h.length
  unfold expandShape at hs'
  split at hs'
  · cases hs'
  rename_i hn
  simp only at hs'
  split at hs'
  · cases hs'
  rename_i hle
  have hn7 : ¬ n ≤ 0 → ruleExpandEnd n n p = .ok (p ++ List.replicate (n.toNat - p.length) 1) ∨
      ∀ y, ruleExpandEnd n n p ≠ .ok y := by
    intro h0
    unfold ruleExpandEnd
    rw [if_neg h0]
    split
    · exact Or.inr fun y hy => by cases hy
    · exact Or.inl rfl
  -- what the rule returns
  have hro : (inv = true → o = p ++ List.replicate (n.toNat - p.length) 1) ∧
      (inv = false → o = List.replicate (n.toNat - p.length) 1 ++ p) := by
    unfold ruleExpand at hrule
    simp only [Option.getD_none] at hrule
    constructor
    · intro hi
      rw [hi, if_pos rfl] at hrule
      simp only [Res.bind_eq_ok, Res.ok.injEq, Option.some.injEq] at hrule
      obtain ⟨y, hy, z, hz, rfl⟩ := hrule
      unfold ruleExpandEnd at hy
      unfold ruleExpandFront at hz
      by_cases h0 : n ≤ 0
      · rw [if_pos h0, Res.ok.injEq] at hy hz
        subst hy; subst hz
        have : n.toNat - p.length = 0 := by omega
        rw [this]; simp
      · rw [if_neg h0] at hy hz
        split at hy
        · cases hy
        · rename_i h7
          rw [if_neg h7, Res.ok.injEq] at hz
          rw [Res.ok.injEq] at hy
          subst hy; subst hz
          have : n.toNat - (p ++ List.replicate (n.toNat - p.length) 1).length = 0 := by simp; omega
          rw [this]; simp
    · intro hi
      rw [hi, if_neg (by simp)] at hrule
      simp only [Res.bind_eq_ok, Res.ok.injEq, Option.some.injEq] at hrule
      obtain ⟨y, hy, z, hz, rfl⟩ := hrule
      unfold ruleExpandFront at hy
      unfold ruleExpandEnd at hz
      by_cases h0 : n ≤ 0
      · rw [if_pos h0, Res.ok.injEq] at hy hz
        subst hy; subst hz
        have : n.toNat - p.length = 0 := by omega
        rw [this]; simp
      · rw [if_neg h0] at hy hz
        split at hy
        · cases hy
        · rename_i h7
          rw [if_neg h7, Res.ok.injEq] at hz
          rw [Res.ok.injEq] at hy
          subst hy; subst hz
          have : n.toNat - (List.replicate (n.toNat - p.length) 1 ++ p).length = 0 := by simp; omega
          rw [this]; simp
  split at hs'
  · rename_i he
    rw [Res.ok.injEq] at hs'
    subst hs'
    have : n.toNat - p.length = 0 := by omega
    rw [this] at hro
    cases inv
    · rw [hro.2 rfl]; simpa using h
    · rw [hro.1 rfl]; simpa using h
  · rw [if_neg (by omega)] at hs'
    cases inv
    · rw [if_neg (by simp)] at hs'
      unfold expandFront at hs'
      rw [if_pos (by omega)] at hs'
      simp only [Res.bind_eq_ok] at hs'
      obtain ⟨⟨y, b⟩, hy, hs'⟩ := hs'
      obtain ⟨z, hz, hy⟩ := hy
      simp only [Res.ok.injEq, Prod.mk.injEq] at hy
      obtain ⟨rfl, rfl⟩ := hy
      simp only [if_true, Res.ok.injEq] at hs'
      subst hs'
      rw [hro.2 rfl, insertOnes_front hz, hlen]
      exact Fits.append (Fits.refl _) h
    · rw [if_pos rfl] at hs'
      unfold expandEnd at hs'
      rw [if_pos (by omega)] at hs'
      simp only [Res.bind_eq_ok] at hs'
      obtain ⟨⟨y, b⟩, hy, hs'⟩ := hs'
      obtain ⟨z, hz, hy⟩ := hy
      simp only [Res.ok.injEq, Prod.mk.injEq] at hy
      obtain ⟨rfl, rfl⟩ := hy
      simp only [if_true, Res.ok.injEq] at hs'
      subst hs'
      rw [hro.1 rfl, insertOnes_ok hz, hlen]
      simp only [List.take_length, List.drop_length, List.append_nil]
      exact Fits.append h (Fits.refl _)

/-! ## transpose -/

theorem permLoop_agree {y Y ks o O : List Int} (h : Fits y Y) (hop : permLoop Y ks = .ok O)
    (hrule : rulePermLoop y ks = some o) : Fits o O := by
  induction ks generalizing o O with
  | nil =>
    simp only [permLoop, rulePermLoop, Res.ok.injEq, Option.some.injEq] at hop hrule
    rw [← hop, ← hrule]; trivial
  | cons k ks ih =>
    simp only [permLoop, Res.bind_eq_ok] at hop
    obtain ⟨v, hv, hop⟩ := hop
    split at hop
    · simp only [Res.bind_eq_ok, Res.ok.injEq] at hop
      obtain ⟨r, hr, rfl⟩ := hop
      simp only [rulePermLoop] at hrule
      split at hrule
      · cases hrule
      · rename_i hk
        split at hrule
        · cases hrule
        · rename_i w hw
          simp only [Option.map_eq_some_iff] at hrule
          obtain ⟨m, hm, rfl⟩ := hrule
          unfold getIdx at hv
          rw [if_pos (by omega)] at hv
          obtain ⟨b, hb1, hb2⟩ := h.get _ _ hw
          rw [hb1] at hv
          simp only [Res.ok.injEq] at hv
          subst hv
          exact ⟨hb2, ih hr hm⟩
    · cases hop

theorem transpose_agree {q p s m o O : List Int} {pm : List Int} (hq : q ≠ []) (h : Fits p s)
    (hinit : initPermute (some q) = .ok m) (hget : getPermute m s.length = .ok pm)
    (hop : permutedShape s pm = .ok O) (hrule : ruleTranspose (some q) p = .ok (some o)) : Fits o O := by
  have hm : m = q := by
    unfold initPermute at hinit
    simp only at hinit
    split at hinit
    · simpa using hinit.symm
    · cases hinit
  subst hm
  have hpm : pm = m := by
    unfold getPermute at hget
    rw [if_pos hq] at hget
    split at hget
    · cases hget
    · simpa using hget.symm
  subst hpm
  unfold permutedShape at hop
  simp only [Res.bind_eq_ok] at hop
  obtain ⟨Y, hY, hop⟩ := hop
  split at hop
  · cases hop
  unfold ruleTranspose at hrule
  simp only [Res.bind_eq_ok, Res.ok.injEq] at hrule
  obtain ⟨y, hy, hrule⟩ := hrule
  unfold padShape at hY hy
  rw [h.length] at hy
  split at hY
  · cases hY
  · rename_i hc
    rw [if_neg hc] at hy
    simp only [Res.ok.injEq] at hY hy
    refine permLoop_agree ?_ hop hrule
    rw [← hY, ← hy]
    exact Fits.append (Fits.refl _) h

/-! ## concat -/

theorem sizeAt_ok {s : List Int} {i : Nat} {v : Int} (h : sizeAt s i = .ok v) : s[i]? = some v := by
  unfold sizeAt at h
  split at h
  · rename_i w hw
    simp only [Res.ok.injEq] at h
    rw [hw, h]
  · cases h

theorem concat_loop {d : Nat} {S0 : List Nat} {ps : List (List Int)} {SS : List (List Nat)} {a : Int} {A N : Nat} {n : Int}
    (hlen : ps.length = SS.length)
    (hf : ∀ (i : Nat) p S, ps[i]? = some p → SS[i]? = some S → Fits p (S.map Int.ofNat)) (ha : a = A)
    (hop : concatLoop d S0 SS A = .ok N) (hrule : ruleConcatLoop d ps a = .ok n) : 0 ≤ n → n = N := by
  induction ps generalizing SS a A with
  | nil =>
    cases SS with
    | cons _ _ => simp at hlen
    | nil =>
      simp only [concatLoop, ruleConcatLoop, Res.ok.injEq] at hop hrule
      intro _; omega
  | cons p ps ih =>
    cases SS with
    | nil => simp at hlen
    | cons S SS =>
      simp only [concatLoop] at hop
      split at hop
      · cases hop
      · split at hop
        · cases hop
        · split at hop
          · simp only [ruleConcatLoop, Res.bind_eq_ok] at hrule
            obtain ⟨inc, hinc, hrule⟩ := hrule
            split at hrule
            · simp only [Res.ok.injEq] at hrule
              intro h0; omega
            · rename_i hpos
              simp only [Res.bind_eq_ok, int32_eq_ok] at hrule
              obtain ⟨acc, ⟨_, rfl⟩, hrule⟩ := hrule
              have hfit := hf 0 p S rfl rfl
              obtain ⟨b, hb1, hb2⟩ := hfit.get _ _ (sizeAt_ok hinc)
              have hb := hb2 (by omega)
              rw [List.getElem?_map] at hb1
              refine ih (by simpa using hlen) (fun i p' S' h1 h2 => hf (i + 1) p' S' (by simpa using h1) (by simpa using h2))
                ?_ hop hrule
              cases hS : S[d]? with
              | none => rw [hS] at hb1; cases hb1
              | some w =>
                rw [hS] at hb1
                simp only [Option.map_some, Option.some.injEq] at hb1
                have : S.getD d 0 = w := by simp [hS]
                rw [this]
                have : (Int.ofNat w) = (w : Int) := rfl
                omega
          · cases hop

theorem concat_agree {dim : Int} {ps : List (List Int)} {xs : List (List Int)} {o : List Int} {O : List Nat}
    (hx : ∀ x ∈ xs, ∀ a ∈ x, 0 ≤ a) (hlen : ps.length = xs.length)
    (hf : ∀ (i : Nat) p x, ps[i]? = some p → xs[i]? = some x → Fits p x)
    (hk : ∀ p rest, ps = p :: rest → ∀ v, p[(if dim < 0 then (p.length : Int) + dim else dim).toNat]? = some v → 0 ≤ v)
    (hop : concatInfer dim (xs.map fun x => (⟨0, nats x, []⟩ : Operand Unit)) = .ok O)
    (hrule : ruleConcat dim ps = .ok (some o)) : Fits o (O.map Int.ofNat) := by
  cases ps with
  | nil => simp [ruleConcat] at hrule
  | cons p ps =>
    cases xs with
    | nil => simp at hlen
    | cons x xs =>
      have hpx : Fits p x := hf 0 p x rfl rfl
      have hnb : (nats x).map Int.ofNat = x := nats_back (hx x (by simp))
      have hk' := hk p ps rfl
      simp only [ruleConcat] at hrule
      generalize hD : (if dim < 0 then (p.length : Int) + dim else dim) = d at hrule hk'
      split at hrule
      · cases hrule
      rename_i hd
      simp only [Res.bind_eq_ok, Res.ok.injEq, Option.some.injEq] at hrule
      obtain ⟨v, hv, n, hn, rfl⟩ := hrule
      have hv' := sizeAt_ok hv
      have hv0 := hk' v hv'
      obtain ⟨b, hb1, hb2⟩ := hpx.get _ _ hv'
      have hb := hb2 hv0
      subst hb
      cases xs with
      | nil =>
        cases ps with
        | cons _ _ => simp at hlen
        | nil =>
          simp only [List.map_cons, List.map_nil, concatInfer, Res.ok.injEq] at hop
          rw [← hop, hnb]
          simp only [ruleConcatLoop, Res.ok.injEq] at hn
          subst hn
          have : p.set d.toNat v = p := by
            obtain ⟨hlt, he⟩ := List.getElem?_eq_some_iff.1 hv'
            rw [← he]; exact List.set_getElem_self hlt
          rw [this]; exact hpx
      | cons x2 xs =>
        simp only [List.map_cons, concatInfer] at hop
        split at hop
        · cases hop
        · simp only [Res.bind_eq_ok, Res.ok.injEq] at hop
          obtain ⟨d', hd', n', hn', rfl⟩ := hop
          have hdd : d' = d.toNat := by
            unfold fixDim at hd'
            simp only at hd'
            by_cases hc : (if dim ≥ 0 then dim else ((nats x).length : Int) + dim) < 0 ∨
                (if dim ≥ 0 then dim else ((nats x).length : Int) + dim) ≥ ((nats x).length : Int)
            · rw [if_pos hc] at hd'; cases hd'
            · rw [if_neg hc, Res.ok.injEq] at hd'
              rw [← hd']
              have hl : ((nats x).length : Int) = p.length := by simp [nats, hpx.length]
              rw [hl]
              congr 1
              rw [← hD]
              split <;> split <;> omega
          subst hdd
          rw [List.map_set, hnb]
          refine hpx.set _ _ _ ?_
          have hnn : (nats x).getD d.toNat 0 = v.toNat := by
            simp only [nats, List.getD_eq_getElem?_getD, List.getElem?_map, hb1, Option.map_some, Option.getD_some]
          refine concat_loop (A := (nats x).getD d.toNat 0) (SS := ((x2 :: xs).map nats)) (S0 := nats x) ?_ ?_ ?_ ?_ hn
          · simpa using hlen
          · intro i p' S h1 h2
            rw [List.getElem?_map] at h2
            cases hi : (x2 :: xs)[i]? with
            | none => rw [hi] at h2; cases h2
            | some y =>
              rw [hi] at h2
              simp only [Option.map_some, Option.some.injEq] at h2
              subst h2
              rw [nats_back (hx y (List.mem_cons_of_mem _ (List.mem_of_getElem? hi)))]
              exact hf (i + 1) p' y (by simpa using h1) (by simpa using hi)
          · rw [hnn]; omega
          · rw [← hn']
            congr 1
            simp only [List.map_cons, List.map_map]
            rfl

/-! ## convolution and pooling -/

theorem convForward_split {x a b p k s d u v : Int} (hp : int32 (a + b) = .ok p) (h1 : convForward x a b k s d = .ok u)
    (h2 : convForward x p 0 k s d = .ok v) : v = u := by
  unfold convForward at h1 h2
  simp only [Res.bind_eq_ok, int32_eq_ok] at h1 h2 hp
  obtain ⟨_, ⟨_, rfl⟩, _, ⟨_, rfl⟩, e, he, _, ⟨_, rfl⟩, q, hq, _, rfl⟩ := h1
  obtain ⟨_, ⟨_, rfl⟩, _, ⟨_, rfl⟩, e', he', _, ⟨_, rfl⟩, q', hq', _, rfl⟩ := h2
  obtain ⟨_, rfl⟩ := hp
  rw [he, Res.ok.injEq] at he'
  subst he'
  have : x + (a + b) + 0 - e = x + a + b - e := by omega
  rw [this, hq, Res.ok.injEq] at hq'
  rw [hq']

theorem poolForward_split {rnd : Rat → Rat} {x a b p k s u v : Int} (hp : int32 (a + b) = .ok p)
    (h1 : poolForward rnd x a b k s = .ok u) (h2 : poolForward rnd x p 0 k s = .ok v) : v = u := by
  unfold poolForward at h1 h2
  simp only [Res.bind_eq_ok, int32_eq_ok] at h1 h2 hp
  obtain ⟨_, ⟨_, rfl⟩, _, ⟨_, rfl⟩, _, ⟨_, rfl⟩, hq⟩ := h1
  obtain ⟨_, ⟨_, rfl⟩, _, ⟨_, rfl⟩, _, ⟨_, rfl⟩, hq'⟩ := h2
  obtain ⟨_, rfl⟩ := hp
  have : x + (a + b) + 0 - k = x + a + b - k := by omega
  rw [this] at hq'
  split at hq
  · cases hq
  · rename_i hs
    rw [if_neg hs] at hq'
    rw [int32_eq_ok] at hq hq'
    rw [hq.2, hq'.2]

theorem convDim_agree {w : ConvAttrs} {i : Nat} {x X k h H : Int} (hx : 0 ≤ x → x = X)
    (hop : convForward X (w.pad (2 * i)) (w.pad (2 * i + 1)) k (w.stride i) (w.dilation i) = .ok H)
    (hrule : ruleConvDim w i x k = .ok h) : 0 ≤ h → h = H := by
  unfold ruleConvDim at hrule
  split at hrule
  · simp only [Res.ok.injEq] at hrule
    intro h0; omega
  · rename_i h0
    simp only [Res.bind_eq_ok] at hrule
    obtain ⟨p, hp, hrule⟩ := hrule
    have := hx (by omega)
    subst this
    intro _
    exact convForward_split hp hop hrule

theorem poolDim_agree {rnd : Rat → Rat} {w : ConvAttrs} {i : Nat} {x X h H : Int} (hx : 0 ≤ x → x = X)
    (hop : poolForward rnd X (w.pad (2 * i)) (w.pad (2 * i + 1)) (w.ksize i) (w.stride i) = .ok H)
    (hrule : rulePoolDim rnd w i x = .ok h) : 0 ≤ h → h = H := by
  unfold rulePoolDim at hrule
  split at hrule
  · simp only [Res.ok.injEq] at hrule
    intro h0; omega
  · rename_i h0
    simp only [Res.bind_eq_ok] at hrule
    obtain ⟨p, hp, hrule⟩ := hrule
    have := hx (by omega)
    subst this
    intro _
    exact poolForward_split hp hop hrule

/-- a read of a prototype describes the read of the shape -/
theorem sizeAt_fits {p s : List Int} {i : Nat} {v : Int} (h : Fits p s) (hv : sizeAt p i = .ok v) :
    ∃ V, s[i]? = some V ∧ (0 ≤ v → v = V) := h.get _ _ (sizeAt_ok hv)

theorem conv2d_agree {w : ConvAttrs} {p q x k o O : List Int} (hx : Fits p x) (hk : Fits q k) (hq : ∀ a ∈ q, 0 ≤ a)
    (hop : conv2dShape .nchw w x k = .ok O) (hrule : ruleConv2d .nchw w p q = .ok (some o)) : Fits o O := by
  have := hk.eq hq
  subst this
  unfold conv2dShape at hop
  split at hop
  · rename_i x0 x1 x2 x3 k0 k1 k2 k3
    split at hop
    · cases hop
    · simp only [Res.bind_eq_ok, Res.ok.injEq] at hop
      obtain ⟨h, hh, v, hv, rfl⟩ := hop
      unfold ruleConv2d at hrule
      simp only [Res.bind_eq_ok, Res.ok.injEq, Option.some.injEq] at hrule
      obtain ⟨a0, ha0, b0, hb0, b2, hb2, b3, hb3, a2, ha2, h', hh', a3, ha3, v', hv', rfl⟩ := hrule
      have e0 := sizeAt_fits hx ha0
      have e2 := sizeAt_fits hx ha2
      have e3 := sizeAt_fits hx ha3
      have f0 := sizeAt_ok hb0
      have f2 := sizeAt_ok hb2
      have f3 := sizeAt_ok hb3
      simp at e0 e2 e3 f0 f2 f3
      subst f0 f2 f3
      exact ⟨e0, fun _ => rfl, convDim_agree (i := 2) e2 hh hh', convDim_agree (i := 3) e3 hv hv', trivial⟩
  · cases hop

theorem pooling2d_agree {rnd : Rat → Rat} {f : Format} {w : ConvAttrs} {p x o O : List Int} (hx : Fits p x)
    (hop : pooling2dShape rnd f w x = .ok O) (hrule : rulePooling2d rnd f w p = .ok (some o)) : Fits o O := by
  unfold pooling2dShape at hop
  split at hop
  · rename_i x0 x1 x2 x3
    unfold rulePooling2d at hrule
    cases f with
    | nchw =>
      simp only [Res.bind_eq_ok, Res.ok.injEq] at hop
      obtain ⟨h, hh, v, hv, rfl⟩ := hop
      simp only [Res.bind_eq_ok, Res.ok.injEq, Option.some.injEq] at hrule
      obtain ⟨a0, ha0, a1, ha1, a2, ha2, h', hh', a3, ha3, v', hv', rfl⟩ := hrule
      have e0 := sizeAt_fits hx ha0
      have e1 := sizeAt_fits hx ha1
      have e2 := sizeAt_fits hx ha2
      have e3 := sizeAt_fits hx ha3
      simp at e0 e1 e2 e3
      exact ⟨e0, e1, poolDim_agree (i := 2) e2 hh hh', poolDim_agree (i := 3) e3 hv hv', trivial⟩
    | nhwc =>
      simp only [Res.bind_eq_ok, Res.ok.injEq] at hop
      obtain ⟨h, hh, v, hv, rfl⟩ := hop
      simp only [Res.bind_eq_ok, Res.ok.injEq, Option.some.injEq] at hrule
      obtain ⟨a0, ha0, a3, ha3, a1, ha1, h', hh', a2, ha2, v', hv', rfl⟩ := hrule
      have e0 := sizeAt_fits hx ha0
      have e1 := sizeAt_fits hx ha1
      have e2 := sizeAt_fits hx ha2
      have e3 := sizeAt_fits hx ha3
      simp at e0 e1 e2 e3
      exact ⟨e0, poolDim_agree (i := 1) e1 hh hh', poolDim_agree (i := 2) e2 hv hv', e3, trivial⟩
  · cases hop

theorem globalPool_agree {f : Format} {p x o O : List Int} (hx : Fits p x)
    (hop : globalPoolShape f x = .ok O) (hrule : ruleGlobalPool f p = .ok (some o)) : Fits o O := by
  unfold globalPoolShape at hop
  split at hop
  · rename_i x0 x1 x2 x3
    unfold ruleGlobalPool at hrule
    cases f with
    | nchw =>
      simp only [Res.ok.injEq] at hop
      subst hop
      simp only [Res.bind_eq_ok, Res.ok.injEq, Option.some.injEq] at hrule
      obtain ⟨a0, ha0, a1, ha1, rfl⟩ := hrule
      have e0 := sizeAt_fits hx ha0
      have e1 := sizeAt_fits hx ha1
      simp at e0 e1
      exact ⟨e0, e1, fun _ => rfl, fun _ => rfl, trivial⟩
    | nhwc =>
      simp only [Res.ok.injEq] at hop
      subst hop
      simp only [Res.bind_eq_ok, Res.ok.injEq, Option.some.injEq] at hrule
      obtain ⟨a0, ha0, a3, ha3, rfl⟩ := hrule
      have e0 := sizeAt_fits hx ha0
      have e3 := sizeAt_fits hx ha3
      simp at e0 e3
      exact ⟨e0, fun _ => rfl, fun _ => rfl, e3, trivial⟩
  · cases hop

/-! ## gather, argmax, stack, tile, pad -/

theorem insertRow_fits {y Y r R o O : List Int} {i : Nat} (h : Fits y Y) (hr : Fits r R)
    (h1 : insertRow y i r = .ok o) (h2 : insertRow Y i R = .ok O) : Fits o O := by
  unfold insertRow at h1 h2
  rw [h.length, hr.length] at h1
  split at h2
  · cases h2
  · rename_i c1
    rw [if_neg c1] at h1
    split at h2
    · cases h2
    · rename_i c2
      rw [if_neg c2] at h1
      simp only [Res.ok.injEq] at h1 h2
      rw [← h1, ← h2]
      exact Fits.append (Fits.append (h.take _) hr) (h.drop _)

theorem gather_agree {axis : Int} {p q x i o O : List Int} (hx : Fits p x) (hi : Fits q i)
    (hop : gatherShape axis x i = .ok O) (hrule : ruleGather axis p q = .ok (some o)) : Fits o O := by
  unfold gatherShape at hop
  unfold ruleGather at hrule
  rw [hx.length] at hrule
  simp only at hop hrule
  split at hop
  · cases hop
  split at hop
  · cases hop
  rename_i hr
  have : (if axis < 0 then axis + (x.length : Int) else axis) = (if axis < 0 then (x.length : Int) + axis else axis) := by
    split <;> omega
  rw [this] at hrule
  generalize (if axis < 0 then (x.length : Int) + axis else axis) = a at hop hrule
  split at hrule
  · cases hrule
  · simp only [Res.bind_eq_ok, Res.ok.injEq, Option.some.injEq] at hrule
    obtain ⟨y, hy, rfl⟩ := hrule
    exact insertRow_fits (hx.eraseIdx _) hi hy hop

theorem argmax_agree {dim : Int} {p x o O : List Int} (hx : Fits p x)
    (hop : argmaxShape dim x = .ok O) (hrule : ruleArgmax dim p = .ok (some o)) : Fits o O := by
  unfold argmaxShape at hop
  unfold ruleArgmax at hrule
  rw [hx.length] at hrule
  simp only at hop hrule
  generalize (if dim < 0 then dim + (x.length : Int) else dim) = d at hop hrule
  split at hop
  · split at hrule
    · cases hrule
    · simp only [Res.ok.injEq, Option.some.injEq] at hop hrule
      rw [← hop, ← hrule]
      exact hx.eraseIdx _
  · cases hop

theorem stack_agree {axis : Int} {ps xs : List (List Int)} {o O : List Int} (hlen : ps.length = xs.length)
    (hf : ∀ (i : Nat) p x, ps[i]? = some p → xs[i]? = some x → Fits p x)
    (hop : stackShape axis xs = .ok O) (hrule : ruleStack axis ps = .ok (some o)) : Fits o O := by
  cases ps with
  | nil => simp [ruleStack] at hrule
  | cons p ps =>
    cases xs with
    | nil => simp at hlen
    | cons x xs =>
      have hpx : Fits p x := hf 0 p x rfl rfl
      unfold stackShape at hop
      simp only [ruleStack] at hrule
      rw [hpx.length] at hrule
      simp only at hop
      have : (if axis ≥ 0 then axis else (x.length : Int) + axis + 1)
          = (if axis ≥ 0 then axis else (x.length : Int) + 1 + axis) := by
        split <;> omega
      rw [this, hlen] at hrule
      generalize (if axis ≥ 0 then axis else (x.length : Int) + 1 + axis) = a at hop hrule
      split at hop
      · cases hop
      split at hop
      · cases hop
      rename_i hr
      split at hrule
      · cases hrule
      · simp only [Res.bind_eq_ok, Res.ok.injEq, Option.some.injEq] at hrule
        obtain ⟨y, hy, rfl⟩ := hrule
        exact insertRow_fits hpx (Fits.refl _) hy hop

theorem tileMul_agree {y Y r o O : List Int} (h : Fits y Y) (hop : tileMul Y r = .ok O)
    (hrule : ruleTileMul y r = .ok o) : Fits o O := by
  induction r generalizing y Y o O with
  | nil =>
    cases y with
    | nil =>
      cases Y with
      | cons _ _ => simp [Fits] at h
      | nil =>
        simp only [tileMul, ruleTileMul, Res.ok.injEq] at hop hrule
        rw [← hop, ← hrule]; trivial
    | cons a y =>
      cases Y with
      | nil => simp [Fits] at h
      | cons b Y =>
        simp only [tileMul, ruleTileMul, Res.ok.injEq] at hop hrule
        rw [← hop, ← hrule]; trivial
  | cons r rs ih =>
    cases y with
    | nil =>
      cases Y with
      | cons _ _ => simp [Fits] at h
      | nil =>
        simp only [tileMul, ruleTileMul, Res.ok.injEq] at hop hrule
        rw [← hop, ← hrule]; trivial
    | cons a y =>
      cases Y with
      | nil => simp [Fits] at h
      | cons b Y =>
        simp only [tileMul, Res.bind_eq_ok, int32_eq_ok, Res.ok.injEq] at hop
        obtain ⟨v, ⟨_, rfl⟩, l, hl, rfl⟩ := hop
        simp only [ruleTileMul] at hrule
        split at hrule
        · simp only [Res.bind_eq_ok, Res.ok.injEq] at hrule
          obtain ⟨u, rfl, l', hl', rfl⟩ := hrule
          exact ⟨fun h0 => by omega, ih h.2 hl hl'⟩
        · rename_i ha
          simp only [Res.bind_eq_ok, int32_eq_ok, Res.ok.injEq] at hrule
          obtain ⟨u, ⟨_, rfl⟩, l', hl', rfl⟩ := hrule
          have := h.1 (by omega)
          exact ⟨fun _ => by rw [this], ih h.2 hl hl'⟩

theorem tile_agree {r p x o O : List Int} (h : Fits p x) (hop : tileShape r x = .ok O)
    (hrule : ruleTile r p = .ok (some o)) : Fits o O := by
  unfold tileShape at hop
  split at hop
  · cases hop
  simp only [Res.bind_eq_ok] at hop
  obtain ⟨r1, hr1, Y, hY, hop⟩ := hop
  unfold ruleTile at hrule
  simp only [Res.bind_eq_ok, Res.ok.injEq, Option.some.injEq] at hrule
  obtain ⟨r2, hr2, y, hy, l, hl, rfl⟩ := hrule
  rw [h.length, hr1, Res.ok.injEq] at hr2
  subst hr2
  refine tileMul_agree ?_ hop hl
  unfold tilePad at hY hy
  rw [h.length] at hy
  split at hY
  · cases hY
  · rename_i hc
    rw [if_neg hc] at hy
    simp only [Res.ok.injEq] at hY hy
    rw [← hY, ← hy]
    exact Fits.append (Fits.refl _) h

theorem padLoop_agree {q x p o O : List Int} (h : Fits q x) (hp : ∀ a ∈ p, 0 ≤ a) (hx : ∀ a ∈ q, a ≠ 0)
    (hop : padLoop x p = .ok O) (hrule : rulePadLoop q p = .ok o) : Fits o O := by
  induction x generalizing q p o O with
  | nil =>
    cases q with
    | cons _ _ => simp [Fits] at h
    | nil =>
      simp only [padLoop, rulePadLoop, Res.ok.injEq] at hop hrule
      rw [← hop, ← hrule]; trivial
  | cons b x ih =>
    cases q with
    | nil => simp [Fits] at h
    | cons a q =>
      match p, hp, hop, hrule with
      | [], _, hop, hrule =>
        simp only [padLoop, rulePadLoop, Res.ok.injEq] at hop hrule
        rw [← hop, ← hrule]; trivial
      | [_], _, hop, hrule =>
        simp only [padLoop, rulePadLoop, Res.ok.injEq] at hop hrule
        rw [← hop, ← hrule]; trivial
      | c :: d :: p, hp, hop, hrule =>
        simp only [padLoop, Res.bind_eq_ok, int32_eq_ok, Res.ok.injEq] at hop
        obtain ⟨_, ⟨_, rfl⟩, _, ⟨_, rfl⟩, l, hl, rfl⟩ := hop
        have hc := hp c (by simp)
        have hd := hp d (by simp)
        have hb := hx a (by simp)
        have hp' : ∀ a ∈ p, 0 ≤ a := fun a ha => hp a (by simp [ha])
        have hx' : ∀ a ∈ q, a ≠ 0 := fun a ha => hx a (by simp [ha])
        simp only [rulePadLoop] at hrule
        split at hrule
        · simp only [Res.bind_eq_ok, Res.ok.injEq] at hrule
          obtain ⟨u, rfl, l', hl', rfl⟩ := hrule
          exact ⟨fun h0 => by omega, ih h.2 hp' hx' hl hl'⟩
        · rename_i ha
          simp only [Res.bind_eq_ok, int32_eq_ok, Res.ok.injEq] at hrule
          obtain ⟨_, ⟨_, rfl⟩, _, ⟨_, rfl⟩, l', hl', rfl⟩ := hrule
          have := h.1 (by omega)
          rw [if_neg (by omega)]
          exact ⟨fun _ => by rw [this], ih h.2 hp' hx' hl hl'⟩

theorem pad_agree {q x ps p o O : List Int} (h : Fits q x) (hp : ∀ a ∈ p, 0 ≤ a) (hx : ∀ a ∈ q, a ≠ 0)
    (hop : padShapeOp x ps p = .ok O) (hrule : rulePad p q = .ok (some o)) : Fits o O := by
  unfold padShapeOp at hop
  split at hop
  · split at hop
    · cases hop
    · split at hop
      · cases hop
      · unfold rulePad at hrule
        split at hrule
        · cases hrule
        · simp only [Res.bind_eq_ok, Res.ok.injEq, Option.some.injEq] at hrule
          obtain ⟨l, hl, rfl⟩ := hrule
          exact padLoop_agree h hp hx hop hl
  · cases hop

/-! ## matrix products -/

theorem innerProd_agree {t : Bool} {p q x w o O : List Int} (hx : Fits p x) (hx0 : ∀ a ∈ x, 0 ≤ a) (hw : Fits q w)
    (hop : innerProdShape t x w = .ok O) (hrule : ruleInnerProd t p q = .ok (some o)) : Fits o O := by
  unfold ruleInnerProd at hrule
  simp only [Res.bind_eq_ok, Res.ok.injEq, Option.some.injEq] at hrule
  obtain ⟨a, ha, b, hb, rfl⟩ := hrule
  obtain ⟨A, hA, hA'⟩ := sizeAt_fits hx ha
  obtain ⟨B, hB, hB'⟩ := sizeAt_fits hw hb
  unfold innerProdShape at hop
  split at hop
  · cases hop
  rename_i n xs
  have hn : n = A := by simpa using hA
  subst hn
  have key : ∀ l' : List Int, (∃ r, l' = n :: r) → innerProd2 t l' w = Res.ok O → Fits [a, b] O := by
    intro l' hl' hm
    obtain ⟨r, rfl⟩ := hl'
    unfold innerProd2 at hm
    split at hm
    · rename_i a1 b1 c1 d1 he
      simp only [List.cons.injEq] at he
      obtain ⟨rfl, rfl⟩ := he
      cases t with
      | true =>
        simp only [if_true, List.getElem?_cons_zero, Option.some.injEq] at hm hB
        split at hm
        · rw [Res.ok.injEq] at hm
          subst hm
          subst hB
          exact ⟨hA', hB', trivial⟩
        · cases hm
      | false =>
        simp only [Bool.false_eq_true, if_false, List.getElem?_cons_zero, List.getElem?_cons_succ,
          Option.some.injEq] at hm hB
        split at hm
        · rw [Res.ok.injEq] at hm
          subst hm
          subst hB
          exact ⟨hA', hB', trivial⟩
        · cases hm
    · cases hm
  split at hop
  · simp only [Res.bind_eq_ok] at hop
    obtain ⟨l', hl', hop⟩ := hop
    refine key l' ?_ hop
    obtain ⟨g1, -, -⟩ := reshapeShape_spec hl'
    cases l' with
    | nil => simp [Fits] at g1
    | cons u r =>
      have := g1.1 (hx0 n (by simp))
      exact ⟨r, by rw [this]⟩
  · exact key _ ⟨_, rfl⟩ hop

theorem gemm_agree {ta tb : Bool} {p q x w c o O : List Int} (hx : Fits p x) (hw : Fits q w)
    (hop : gemmShape ta tb x w c = .ok O) (hrule : ruleGemm ta tb p q = .ok (some o)) : Fits o O := by
  unfold ruleGemm at hrule
  simp only [Res.bind_eq_ok, Res.ok.injEq, Option.some.injEq] at hrule
  obtain ⟨a, ha, b, hb, rfl⟩ := hrule
  obtain ⟨A, hA, hA'⟩ := sizeAt_fits hx ha
  obtain ⟨B, hB, hB'⟩ := sizeAt_fits hw hb
  unfold gemmShape at hop
  split at hop
  · rename_i a0 a1 b0 b1
    split at hop
    · cases hop
    · cases ta <;> cases tb <;> simp only [Bool.false_eq_true, if_true, if_false] at hop hA hB <;> (
        split at hop
        · cases hop
        · split at hop
          · split at hop
            · cases hop
            · rw [Res.ok.injEq] at hop
              subst hop
              simp only [List.getElem?_cons_zero, List.getElem?_cons_succ, Option.some.injEq] at hA hB
              subst hA
              subst hB
              exact ⟨hA', hB', trivial⟩
          · cases hop)
  · cases hop

end Verif.Runtime.Infer
