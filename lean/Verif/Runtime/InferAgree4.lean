import Verif.Runtime.InferRules3
import Verif.Runtime.InferAgree3
/-!
# Agreement of the third group of shape rules with the operators
-/
namespace Verif.Runtime.Infer3
open Verif.Core hiding Fits
open Verif.Kernels Verif.Runtime.Infer Verif.Runtime.Infer2 Verif.Props

/-! ## slice_v2 -/

theorem wrapInt_id {v : Int} (h : -2147483648 ≤ v ∧ v ≤ 2147483647) : wrapInt v = v := by
  unfold wrapInt; omega

theorem clampInt_id {v : Int} (h : -2147483648 ≤ v ∧ v ≤ 2147483647) : Exec.clampInt v = v := by
  unfold Exec.clampInt; split
  · omega
  · split <;> omega

theorem clampInt_small {v : Int} (h : 0 ≤ Exec.clampInt v ∧ Exec.clampInt v < 2147483647) : -2147483648 ≤ v ∧ v ≤ 2147483647 := by
  unfold Exec.clampInt at h; split at h
  · omega
  · split at h <;> omega

theorem begins_small {x b s y : List Int} (hx : ∀ a ∈ x, a < 2 ^ 31) (hl : b.length = x.length) (hs : s.length = x.length)
    (h : Exec.sliceLoop x (b.map Exec.clampInt) s = .ok y) : ∀ v ∈ b, -2147483648 ≤ v ∧ v ≤ 2147483647 := by
  induction x generalizing b s y with
  | nil => cases b <;> simp_all
  | cons a x ih =>
    match b, s, hl, hs with
    | v :: b, t :: s, hl, hs =>
      simp only [List.map_cons, Exec.sliceLoop, Res.bind_eq_ok, Res.ok.injEq] at h
      obtain ⟨d, hd, r, hr, rfl⟩ := h
      have := ih (fun a ha => hx a (by simp [ha])) (by simpa using hl) (by simpa using hs) hr
      intro w hw
      rcases List.mem_cons.1 hw with rfl | hw
      · unfold Exec.sliceOne at hd
        split at hd
        · cases hd
        rename_i h0
        have := hx a (by simp)
        exact clampInt_small (by omega)
      · exact this w hw

theorem sliceV2_agree {b s p x o O : List Int} (h : Fits p x) (hx : ∀ a ∈ x, a < 2 ^ 31) (hs : ∀ v ∈ s, -2147483648 ≤ v ∧ v ≤ 2147483647)
    (hop : Exec.sliceV2 b s x = .ok O) (hr : ruleSliceV2 b s p = .ok (some o)) : Fits o O := by
  unfold Exec.sliceV2 at hop
  unfold ruleSliceV2 at hr
  have e1 : s.map Exec.clampInt = s := by
    conv_rhs => rw [← List.map_id s]
    exact List.map_congr_left fun v hv => clampInt_id (hs v hv)
  have e2 : s.map wrapInt = s := by
    conv_rhs => rw [← List.map_id s]
    exact List.map_congr_left fun v hv => wrapInt_id (hs v hv)
  rw [e1] at hop
  rw [e2] at hr
  have hb : ∀ v ∈ b, -2147483648 ≤ v ∧ v ≤ 2147483647 := by
    have hop' := hop
    unfold Exec.slice at hop'
    split at hop'
    · cases hop'
    rename_i hl
    simp only [List.length_map, ne_eq, not_or, Decidable.not_not] at hl
    exact begins_small hx (by omega) hl.2 hop'
  have e3 : b.map Exec.clampInt = b := by
    conv_rhs => rw [← List.map_id b]
    exact List.map_congr_left fun v hv => clampInt_id (hb v hv)
  have e4 : b.map wrapInt = b := by
    conv_rhs => rw [← List.map_id b]
    exact List.map_congr_left fun v hv => wrapInt_id (hb v hv)
  rw [e3] at hop
  rw [e4] at hr
  exact slice_agree h hop hr

/-! ## sample2d -/

/-- what is used of the rounding of `float`: it keeps zero and the sign -/
def SignRound (rnd : Rat → Rat) : Prop := rnd 0 = 0 ∧ ∀ q : Rat, 0 ≤ q → 0 ≤ rnd q

theorem scaled_agree {rnd : Rat → Rat} (hr : SignRound rnd) {c : Rat} (hc : 0 ≤ c) {a A h H : Int} (ha : 0 ≤ a → a = A)
    (hop : Exec.floorScaled rnd c A = .ok H) (hru : scaleKnown rnd c a = .ok h) : 0 ≤ h → h = H := by
  unfold Exec.floorScaled at hop
  unfold scaleKnown at hru
  rw [int32_eq_ok] at hop
  obtain ⟨-, rfl⟩ := hop
  split at hru
  · rename_i h0
    have := ha (by omega)
    subst this
    unfold truncInt at hru
    rw [int32_eq_ok] at hru
    obtain ⟨-, rfl⟩ := hru
    have n1 : (0 : Rat) ≤ rnd a := hr.2 _ (by exact_mod_cast (by omega : 0 ≤ a))
    have n2 := hr.2 _ (mul_nonneg n1 hc)
    rw [if_neg (by linarith)]
    intro _; rfl
  · rename_i h0
    simp only [Res.ok.injEq] at hru
    subst hru
    intro h1
    have := ha h1
    have e : a = 0 := by omega
    subst this e
    simp only [Int.cast_zero, hr.1, zero_mul]
    rfl

theorem sample2d_agree {rnd : Rat → Rat} (hrnd : SignRound rnd) {c : Rat} {d : Int} {p x o O : List Int} (h : Fits p x)
    (hop : Exec.sample2d rnd c d x = .ok O) (hr : ruleSample2d rnd c d p = .ok (some o)) : Fits o O := by
  unfold Exec.sample2d at hop
  unfold ruleSample2d at hr
  rw [h.length, Int.add_comm d] at hr
  simp only at hop hr
  generalize hD : (if d < 0 then (x.length : Int) + d else d) = D at hop hr
  split at hop
  · cases hop
  rename_i hc
  split at hop
  · cases hop
  rename_i hd
  rw [if_neg (by omega)] at hr
  simp only [Res.bind_eq_ok] at hop hr
  obtain ⟨A, hA, H, hH, B, hB, W, hW, hop⟩ := hop
  obtain ⟨a, ha, h', hh, b, hb, w, hw, hr⟩ := hr
  simp only [Res.ok.injEq, Option.some.injEq] at hr
  subst hr
  unfold Exec.affineSample at hop
  simp only [hD] at hop
  split at hop
  · cases hop
  split at hop
  · cases hop
  simp only [Res.ok.injEq] at hop
  subst hop
  have hc0 : (0 : Rat) ≤ c := by
    have : (1 : Rat) / 100000 ≤ c := by simpa using hc
    linarith
  obtain ⟨A', eA, fA⟩ := sizeAt_fits h ha
  obtain ⟨B', eB, fB⟩ := sizeAt_fits h hb
  rw [sizeAt_ok hA] at eA
  rw [sizeAt_ok hB] at eB
  cases eA
  cases eB
  exact (h.set _ _ _ (scaled_agree hrnd hc0 fA hH hh)).set _ _ _ (scaled_agree hrnd hc0 fB hW hw)

/-! ## sample2d_v2 -/

/-- the scaled extent as a number: the whole part of it is what the rule answers -/
def scaledBy (rnd : Rat → Rat) (c : Rat) (a : Int) : Rat := rnd (rnd a * c)

theorem scale_loop {rnd : Rat → Rat} (hr : SignRound rnd) {p x s o : List Int} {c : List Rat} (h : Fits p x) (hx : ∀ a ∈ x, 0 ≤ a)
    (hl : c.length = x.length)
    (hk : ∀ (i : Nat) a t, p[i]? = some a → c[i]? = some t → (a < 0 → scaledBy rnd t a ≤ -1) ∧ (0 < a → 1 ≤ scaledBy rnd t a))
    (hs : Exec.floorLoop rnd x c = .ok s) (ho : scaleLoop rnd p c = .ok o) :
    Fits o (List.zipWith (fun s a => if s > 0 then s else a) s x) := by
  induction p generalizing x s o c with
  | nil =>
    cases x with
    | cons _ _ => simp [Fits] at h
    | nil =>
      cases c with
      | cons _ _ => simp at hl
      | nil =>
        simp only [scaleLoop, Exec.floorLoop, Res.ok.injEq] at hs ho
        subst hs ho
        trivial
  | cons a p ih =>
    cases x with
    | nil => simp [Fits] at h
    | cons A x =>
      cases c with
      | nil => simp at hl
      | cons t c =>
        simp only [scaleLoop, Exec.floorLoop, Res.bind_eq_ok, Res.ok.injEq] at hs ho
        obtain ⟨H, hH, s', hs', rfl⟩ := hs
        obtain ⟨y, hy, o', ho', rfl⟩ := ho
        refine ⟨?_, ih h.2 (fun a ha => hx a (by simp [ha])) (by simpa using hl)
          (fun i a t h1 h2 => hk (i + 1) a t (by simpa using h1) (by simpa using h2)) hs' ho'⟩
        obtain ⟨k1, k2⟩ := hk 0 a t rfl rfl
        unfold scaledBy at k1 k2
        unfold truncInt at hy
        unfold Exec.floorScaled at hH
        rw [int32_eq_ok] at hy hH
        obtain ⟨-, rfl⟩ := hy
        obtain ⟨-, rfl⟩ := hH
        intro h0
        rcases Int.lt_trichotomy a 0 with hneg | rfl | hpos
        · have := k1 hneg
          rw [if_pos (by linarith)] at h0
          exfalso
          have h2 : (rnd (rnd a * t)).ceil ≤ -1 := by
            rw [Rat.ceil_le_iff]
            simpa using this
          omega
        · have := h.1 (by omega)
          subst this
          have e : Rat.floor 0 = 0 := rfl
          simp [hr.1, e]
        · have := h.1 (by omega)
          subst this
          have k := k2 hpos
          rw [if_neg (by linarith)]
          have h2 : 1 ≤ (rnd (rnd a * t)).floor := by
            rw [Rat.le_floor_iff]
            simpa using k
          show _ = if _ then _ else _
          rw [if_pos (by omega)]

theorem sample2dV2_agree {rnd : Rat → Rat} (hrnd : SignRound rnd) {c : List Rat} {p x o O : List Int} (h : Fits p x) (hx : ∀ a ∈ x, 0 ≤ a)
    (hk : ∀ (i : Nat) a t, p[i]? = some a → c[i]? = some t → (a < 0 → scaledBy rnd t a ≤ -1) ∧ (0 < a → 1 ≤ scaledBy rnd t a))
    (hop : Exec.sample2dV2 rnd c x = .ok O) (hr : ruleSample2dV2 rnd c p = .ok (some o)) : Fits o O := by
  unfold Exec.sample2dV2 at hop
  unfold ruleSample2dV2 at hr
  split at hop
  · cases hop
  rename_i hl
  split at hr
  · cases hr
  simp only [Res.bind_eq_ok, Res.ok.injEq, Option.some.injEq] at hop hr
  obtain ⟨s, hs, hop⟩ := hop
  obtain ⟨y, hy, rfl⟩ := hr
  obtain ⟨-, rfl⟩ := resize2d_eq hx hop
  exact scale_loop hrnd h hx (by omega) hk hs hy

/-! ## broadcast -/

theorem broadcast_loop {p : List Int} {x o : List Nat} {y : List Int} (h : Fits p (x.map Int.ofNat)) (hl : x.length = y.length)
    (hy : ∀ a ∈ y, a ≠ 0) (hop : broadcastExtents x y = .ok o) : Fits (List.zipWith eltDim p y) (o.map Int.ofNat) := by
  induction x generalizing p y o with
  | nil =>
    cases p with
    | cons _ _ => simp [Fits] at h
    | nil =>
      cases y with
      | cons _ _ => simp at hl
      | nil =>
        simp only [broadcastExtents, Res.ok.injEq] at hop
        subst hop
        trivial
  | cons A x ih =>
    cases p with
    | nil => simp [Fits] at h
    | cons a p =>
      cases y with
      | nil => simp at hl
      | cons b y =>
        simp only [broadcastExtents] at hop
        split at hop
        · cases hop
        rename_i hc
        simp only [Res.bind_eq_ok, Res.ok.injEq] at hop
        obtain ⟨r, hr, rfl⟩ := hop
        refine ⟨?_, ih h.2 (by simpa using hl) (fun a ha => hy a (by simp [ha])) hr⟩
        have h0 := hy b (by simp)
        have ha := h.1
        simp only [Int.ofNat_eq_natCast] at ha ⊢
        intro hp
        unfold eltDim at hp ⊢
        split at hp
        · split at hp
          · omega
          · simp only [*, if_true, if_false]
            omega
        · split at hp
          · simp only [*, if_true, if_false]
            omega
          · split at hp
            · simp only [*, if_true, if_false]
              omega
            · split at hp
              · simp only [*, if_true, if_false]
                omega
              · split at hp
                · simp only [*, if_true, if_false]
                  omega
                · omega

theorem broadcast_same {p y : List Int} (h : Fits p y) (hn : ∀ a ∈ y, 0 ≤ a) : Fits (List.zipWith eltDim p y) y := by
  induction p generalizing y with
  | nil => cases y <;> simp_all [Fits]
  | cons a p ih =>
    cases y with
    | nil => simp [Fits] at h
    | cons b y =>
      refine ⟨?_, ih h.2 fun a ha => hn a (by simp [ha])⟩
      have ha := h.1
      have hb := hn b (by simp)
      unfold eltDim
      intro hp
      split at hp
      · split at hp
        · omega
        · simp [*]
      · have := ha (by omega)
        subst this
        simp only [*, if_true, if_false]
        split <;> simp_all

theorem broadcast_agree {p x r o : List Int} {O : List Nat} (h : Fits p x) (hx : ∀ a ∈ x, 0 ≤ a) (hr0 : ∀ a ∈ r, a ≠ 0)
    (hop : Exec.broadcast (nats x) r = .ok O) (hru : ruleEltwise p r = .ok (some o)) : Fits o (O.map Int.ofNat) := by
  unfold ruleEltwise at hru
  simp only [Res.bind_eq_ok, Res.ok.injEq, Option.some.injEq] at hru
  obtain ⟨l', hl', r', hr', rfl⟩ := hru
  have hpl := h.length
  have nl : (nats x).length = x.length := by simp [nats]
  have e1 : l' = List.replicate (r.length - x.length) 1 ++ p := by
    unfold eltPad at hl'
    split at hl'
    · rw [insertOnes_front hl', hpl]
    · rename_i hc
      simp only [Res.ok.injEq] at hl'
      have : r.length - x.length = 0 := by omega
      rw [this, ← hl']; rfl
  have e2 : r' = List.replicate (x.length - r.length) 1 ++ r := by
    unfold eltPad at hr'
    split at hr'
    · rw [insertOnes_front hr', hpl]
    · rename_i hc
      simp only [Res.ok.injEq] at hr'
      have : x.length - r.length = 0 := by omega
      rw [this, ← hr']; rfl
  subst e1 e2
  have hf : Fits (List.replicate (r.length - x.length) 1 ++ p) ((frontOnes (nats x) r.length).map Int.ofNat) := by
    unfold frontOnes
    rw [nl]
    exact fits_front (by rw [nats_back hx]; exact h) _
  unfold Exec.broadcast at hop
  rw [nl] at hop
  simp only at hop
  split at hop
  · rename_i he
    simp only [Res.ok.injEq] at hop
    subst hop
    rw [he] at hf ⊢
    refine broadcast_same hf fun a ha => ?_
    rw [← he] at ha
    obtain ⟨n, -, rfl⟩ := List.mem_map.1 ha
    exact Int.natCast_nonneg n
  · refine broadcast_loop hf (by simp [frontOnes, nl]; omega) (fun a ha => ?_) hop
    rcases List.mem_append.1 ha with ha | ha
    · have := List.eq_of_mem_replicate ha; omega
    · exact hr0 a ha

/-! ## windows -/

theorem winograd_agree {m : String} {p x o O : List Int} (h : Fits p x) (hop : Exec.winograd m x = .ok O)
    (hr : ruleWinograd m p = .ok (some o)) : Fits o O := by
  unfold Exec.winograd at hop
  unfold ruleWinograd at hr
  split at hop
  · rename_i n a b c d hm
    split at hop
    · simp only [Res.ok.injEq] at hop
      subst hop
      rw [hm] at hr
      simp only at hr
      split at hr
      · cases hr
      simp only [Res.ok.injEq, Option.some.injEq] at hr
      subst hr
      exact (h.set 2 n n fun _ => rfl).set 3 n n fun _ => rfl
    · cases hop
  · cases hop

theorem depthwise_agree {w : ConvAttrs} {p q x k o O : List Int} (hx : Fits p x) (hk : Fits q k) (hq : ∀ a ∈ q, 0 ≤ a)
    (hop : Exec.depthwise .nchw w x k = .ok O) (hr : ruleDepthwise .nchw w p q = .ok (some o)) : Fits o O := by
  have := hk.eq hq
  subst this
  unfold Exec.depthwise at hop
  simp only [Res.bind_eq_ok] at hop
  obtain ⟨y, hy, k0, hk0, hop⟩ := hop
  split at hop
  · cases hop
  rename_i h1
  have h1 : k0 = 1 := by omega
  subst h1
  simp only [Res.bind_eq_ok, Res.ok.injEq] at hop
  obtain ⟨c, hc, n, hn, rfl⟩ := hop
  unfold ruleDepthwise at hr
  simp only [Res.bind_eq_ok, Res.ok.injEq, Option.some.injEq] at hr
  obtain ⟨x0, hx0, k0, hk0', k2, hk2, k3, hk3, c', hc', n', hn', x2, hx2, hh, hhh, x3, hx3, v, hv, rfl⟩ := hr
  have hrow : ruleConv2d .nchw w p q = .ok (some [x0, k0, hh, v]) := by
    unfold ruleConv2d
    simp [hx0, hk0', hk2, hk3, hx2, hhh, hx3, hv]
  have := conv2d_agree hx (Fits.refl q) hq hy hrow
  have h2 := this.set 1 n' n (by
    rw [hk0] at hk0'
    simp only [Res.ok.injEq] at hk0'
    subst hk0'
    rw [int32_eq_ok] at hn hn'
    obtain ⟨-, rfl⟩ := hn
    obtain ⟨-, rfl⟩ := hn'
    obtain ⟨C, eC, fC⟩ := sizeAt_fits hx hc'
    rw [sizeAt_ok hc] at eC
    cases eC
    omega)
  exact h2

theorem conv2dV2_agree {w : ConvAttrs} {p q x k o O ps pad : List Int} (hx : Fits p x) (hk : Fits q k) (hq : ∀ a ∈ q, 0 ≤ a)
    (hop : Exec.conv2dV2 .nchw w x ps pad k = .ok O) (hr : ruleConv2dV2 .nchw w pad p q = .ok (some o)) : Fits o O := by
  unfold Exec.conv2dV2 at hop
  unfold ruleConv2dV2 at hr
  split at hop
  · cases hop
  split at hr
  · cases hr
  exact conv2d_agree hx hk hq hop hr

theorem pooling2dV2_agree {rnd : Rat → Rat} {f : Format} {w : ConvAttrs} {p x o O ps pad ks ksize ss stride : List Int} (hx : Fits p x)
    (hop : Exec.pooling2dV2 rnd f w x ps pad ks ksize ss stride = .ok O) (hr : rulePooling2dV2 rnd f w pad ksize stride p = .ok (some o)) : Fits o O := by
  unfold Exec.pooling2dV2 at hop
  unfold rulePooling2dV2 at hr
  split at hop
  · cases hop
  split at hr
  · cases hr
  exact pooling2d_agree hx hop hr

theorem roiAlign_agree {a b : Int} {p q x r o O : List Int} (hx : Fits p x) (hq : Fits q r) (hop : Exec.roiAlign a b x r = .ok O)
    (hr : ruleRoiAlign a b p q = .ok (some o)) : Fits o O := by
  unfold Exec.roiAlign at hop
  unfold ruleRoiAlign at hr
  simp only [Res.bind_eq_ok, Res.ok.injEq, Option.some.injEq] at hop hr
  obtain ⟨N, hN, C, hC, rfl⟩ := hop
  obtain ⟨n, hn, c, hc, rfl⟩ := hr
  obtain ⟨N', eN, fN⟩ := sizeAt_fits hq hn
  obtain ⟨C', eC, fC⟩ := sizeAt_fits hx hc
  rw [sizeAt_ok hN] at eN
  rw [sizeAt_ok hC] at eC
  cases eN
  cases eC
  exact ⟨fN, fC, fun _ => rfl, fun _ => rfl, trivial⟩

/-! ## strided_slice -/

theorem ruleDim_agree {x b e s n b' e' r : Int} {bf ef : Bool} (hx : 0 ≤ x) (hop : sliceDim x b e s bf ef = .ok (n, b', e'))
    (hr : ruleDim x b e s bf ef = .ok r) : 0 ≤ r → r = n := by
  unfold sliceDim at hop
  unfold ruleDim at hr
  rw [if_pos hx] at hr
  simp only [Res.bind_eq_ok] at hop hr
  obtain ⟨u, hu, hop⟩ := hop
  obtain ⟨u', hu', hr⟩ := hr
  rw [hu] at hu'
  simp only [Res.ok.injEq] at hu'
  subst hu'
  cases u with
  | none =>
    simp only [Res.ok.injEq, Prod.mk.injEq] at hop hr
    intro _
    rw [← hr, ← hop.1]
  | some u =>
    simp only [Res.bind_eq_ok] at hop hr
    obtain ⟨v, hv, hop⟩ := hop
    obtain ⟨v', hv', hr⟩ := hr
    rw [hv] at hv'
    simp only [Res.ok.injEq] at hv'
    subst hv'
    cases v with
    | none =>
      simp only [Res.ok.injEq, Prod.mk.injEq] at hop hr
      intro _
      rw [← hr, ← hop.1]
    | some v =>
      simp only [Res.bind_eq_ok, Res.ok.injEq, Prod.mk.injEq] at hop
      obtain ⟨m, hm, rfl, -⟩ := hop
      simp only at hr
      unfold ruleCount at hr
      split at hr
      · simp only [Res.ok.injEq] at hr
        omega
      · rw [hm] at hr
        simp only [Res.ok.injEq] at hr
        intro _
        exact hr.symm

theorem ruleDim_whole {x r : Int} (hx : 0 ≤ x) (hr : ruleDim x 0 0 1 true true = .ok r) : r = x := by
  unfold ruleDim at hr
  rw [if_pos hx] at hr
  simp [sliceBegin, sliceEnd, ruleCount, sliceCount] at hr
  split at hr
  · simp only [Res.bind_eq_ok, int32_eq_ok] at hr
    obtain ⟨a, ⟨-, rfl⟩, q, hq, -, rfl⟩ := hr
    unfold div32 at hq
    rw [if_neg (by omega), int32_eq_ok] at hq
    obtain ⟨-, rfl⟩ := hq
    simp
  · simp only [Res.ok.injEq] at hr
    omega

theorem rest_whole {bm em i : Nat} {x o : List Int} (hx : ∀ a ∈ x, 0 ≤ a) (h : ruleStridedLoop bm em i x [] [] [] = .ok o) : o = x := by
  induction x generalizing i o with
  | nil =>
    simp only [ruleStridedLoop, Res.ok.injEq] at h
    exact h.symm
  | cons a x ih =>
    simp only [ruleStridedLoop, Res.bind_eq_ok, Res.ok.injEq] at h
    obtain ⟨n, hn, r, hr, rfl⟩ := h
    rw [ruleDim_whole (hx a (by simp)) hn, ih (fun b hb => hx b (by simp [hb])) hr]

theorem dims_agree {bm em bm' em' i : Nat} {xs bs es ss tx tb te ts rest ns bo rs : List Int} (hx : ∀ a ∈ xs, 0 ≤ a) (hrest : ∀ a ∈ rest, 0 ≤ a)
    (h1 : bs.length = xs.length) (h2 : es.length = xs.length) (h3 : ss.length = xs.length)
    (hb : ∀ j, j < i + xs.length → bit bm' j = bit bm j ∧ bit em' j = bit em j)
    (hop : sliceDims bm' em' i (xs ++ tx) (bs ++ tb) (es ++ te) (ss ++ ts) = .ok (ns, bo))
    (hr : ruleStridedLoop bm em i (xs ++ rest) bs es ss = .ok rs) : Fits rs (ns.take xs.length ++ rest) := by
  induction xs generalizing i bs es ss ns bo rs with
  | nil =>
    cases bs with
    | cons _ _ => simp at h1
    | nil =>
    cases es with
    | cons _ _ => simp at h2
    | nil =>
    cases ss with
    | cons _ _ => simp at h3
    | nil =>
      rw [List.nil_append] at hr
      rw [rest_whole hrest hr]
      simpa using Fits.refl rest
  | cons x xs ih =>
    match bs, es, ss, h1, h2, h3 with
    | b :: bs, e :: es, s :: ss, h1, h2, h3 =>
      simp only [List.cons_append, sliceDims, ruleStridedLoop, Res.bind_eq_ok, Res.ok.injEq, Prod.mk.injEq] at hop hr
      obtain ⟨⟨n, b', e'⟩, hd, ⟨ns', bo'⟩, hrec, rfl, -⟩ := hop
      obtain ⟨r, hrd, rs', hrs, rfl⟩ := hr
      obtain ⟨q1, q2⟩ := hb i (by simp)
      rw [q1, q2] at hd
      refine ⟨ruleDim_agree (hx x (by simp)) hd hrd, ?_⟩
      exact ih (fun a ha => hx a (by simp [ha])) (by simpa using h1) (by simpa using h2) (by simpa using h3)
        (fun j hj => hb j (by simp; omega)) hrec hrs

theorem shrink_agree {sm : Nat} {l : List Nat} {p x O : List Int} (h : Fits p x) (hop : shrinkLoop sm none l x = .ok O) :
    Fits (ruleShrink sm l p) O := by
  induction l generalizing p x with
  | nil =>
    simp only [shrinkLoop, Res.ok.injEq] at hop
    subst hop
    exact h
  | cons i l ih =>
    simp only [shrinkLoop] at hop
    simp only [ruleShrink]
    split at hop
    · rename_i hb
      split at hop
      · cases hop
      · rw [if_pos hb]
        exact ih (h.eraseIdx i) hop
    · rename_i hb
      rw [if_neg hb]
      exact ih h hop

theorem bit_zero (i : Nat) : bit 0 i = false := by simp [bit]

theorem ellipsis_none (n : Nat) : ellipsisAt 0 n = none := by
  simp [ellipsisAt, bit_zero]

theorem insertAxes_none (l : List Nat) (s : List Int) : insertAxes 0 l s = .ok s := by
  induction l with
  | nil => rfl
  | cons i l ih => simp [insertAxes, bit_zero, ih]

theorem bit_high {m n j : Nat} (h : j < n) : bit (m ||| 2 ^ n) j = bit m j := by
  unfold bit
  rw [Nat.testBit_or, Nat.testBit_two_pow]
  simp; omega

theorem strided_agree {b e s : List Int} {bm em sm : Nat} {p x o O : List Int} (h : Fits p x) (hp : ∀ a ∈ p, 0 ≤ a)
    (hop : Exec.stridedSlice b e s bm em sm x = .ok O) (hr : ruleStrided b e s bm em sm p = .ok (some o)) : Fits o O := by
  have := h.eq hp
  subst this
  unfold Exec.stridedSlice at hop
  simp only [Res.bind_eq_ok] at hop
  obtain ⟨pl, hpl, -, -, hre⟩ := hop
  refine Fits.trans ?_ (reshapeShape_spec hre).1
  unfold ruleStrided at hr
  split at hr
  · cases hr
  rename_i l1
  split at hr
  · cases hr
  rename_i l2
  split at hr
  · cases hr
  rename_i l3
  simp only [Res.bind_eq_ok, Res.ok.injEq, Option.some.injEq] at hr
  obtain ⟨y, hy, rfl⟩ := hr
  unfold slicePlan at hpl
  simp only [ellipsis_none, insertAxes_none, Res.bind_ok] at hpl
  split at hpl
  · cases hpl
  split at hpl
  · cases hpl
  split at hpl
  · rename_i hlt
    simp only [Res.bind_eq_ok, Res.ok.injEq] at hpl
    obtain ⟨q, hq, ⟨ns, bs⟩, hd, out, ho, rfl⟩ := hpl
    simp only at ho ⊢
    refine shrink_agree ?_ ho
    have hsplit : p = p.take b.length ++ p.drop b.length := (List.take_append_drop _ _).symm
    have hlen : (p.take b.length).length = b.length := by simp; omega
    have hlen' : b.length = (p.take b.length).length := hlen.symm
    have := dims_agree (bm := bm) (em := em) (xs := p.take b.length) (bs := b) (es := e) (ss := s) (rest := p.drop b.length) (rs := y)
      (fun a ha => hp a (List.mem_of_mem_take ha)) (fun a ha => hp a (List.mem_of_mem_drop ha)) (by omega) (by omega) (by omega)
      (fun j hj => ⟨bit_high (by omega), bit_high (by omega)⟩) hd (by rw [← hsplit]; exact hy)
    rwa [hlen] at this
  · rename_i hlt
    split at hpl
    · cases hpl
    rename_i heq
    simp only [Res.bind_eq_ok, Res.ok.injEq] at hpl
    obtain ⟨⟨ns, bs⟩, hd, out, ho, rfl⟩ := hpl
    simp only at ho ⊢
    refine shrink_agree ?_ ho
    have := dims_agree (bm := bm) (em := em) (bm' := bm) (em' := em) (xs := p) (bs := b) (es := e) (ss := s) (rest := []) (tx := []) (tb := []) (te := []) (ts := []) (rs := y) (ns := ns) (bo := bs)
      hp (by simp) (by omega) (by omega) (by omega) (fun j hj => ⟨rfl, rfl⟩) (by simpa using hd) (by simpa using hy)
    have hns : ns.length = p.length := by
      clear this ho hy
      have key : ∀ (bm em i : Nat) (xs bs es ss ns bo : List Int), bs.length = xs.length → es.length = xs.length → ss.length = xs.length →
          sliceDims bm em i xs bs es ss = .ok (ns, bo) → ns.length = xs.length := by
        intro bm em i xs
        induction xs generalizing i with
        | nil =>
          intro bs es ss ns bo _ _ _ h
          simp only [sliceDims, Res.ok.injEq, Prod.mk.injEq] at h
          rw [← h.1]
        | cons x xs ih =>
          intro bs es ss ns bo h1 h2 h3 h
          match bs, es, ss, h1, h2, h3 with
          | b :: bs, e :: es, s :: ss, h1, h2, h3 =>
            simp only [sliceDims, Res.bind_eq_ok, Res.ok.injEq, Prod.mk.injEq] at h
            obtain ⟨_, -, ⟨ns', bo'⟩, hrec, rfl, -⟩ := h
            simp [ih (i + 1) bs es ss ns' bo' (by simpa using h1) (by simpa using h2) (by simpa using h3) hrec]
      exact key bm em 0 p b e s ns bs (by omega) (by omega) (by omega) hd
    rw [List.append_nil, ← hns, List.take_length] at this
    exact this

end Verif.Runtime.Infer3
