import Verif.Compiler.PackKern
import Verif.Compiler.TranslateInit
import Verif.Props.MatMul
import Verif.Props.Conv
import Verif.Props.ElementWise
/-! The operator models satisfy the laws the packing option relies on (helpers for C47). -/
namespace Verif.Props
open Verif.Core Verif.Kernels Verif.Spec Verif.Compiler

variable {α : Type}

theorem fine_some {a : Arr α} {s : List Nat} (h : fine a = some s) :
    a.dtype = 10 ∧ a.shape = ints s ∧ (∀ x ∈ s, 0 < x) ∧ prod s ≤ 2147483647 ∧ a.data.length = prod s := by
  unfold fine at h
  split at h
  · rename_i hc
    cases h
    obtain ⟨h1, h2, h3, h4⟩ := hc
    refine ⟨h1, ?_, ?_, h3, h4⟩
    · unfold ints
      rw [List.map_map]
      conv_lhs => rw [← List.map_id a.shape]
      apply List.map_congr_left
      intro x hx
      have := h2 x hx
      simp only [id, Function.comp, Int.ofNat_eq_natCast]
      omega
    · intro x hx
      simp only [List.mem_map] at hx
      obtain ⟨y, hy, rfl⟩ := hx
      have := h2 y hy
      omega
  · cases h

theorem fine_mk {s : List Nat} {d : List α} (hp : ∀ x ∈ s, 0 < x) (hb : prod s ≤ 2147483647) (hl : d.length = prod s) :
    fine ⟨10, ints s, d⟩ = some s := by
  have e : (ints s).map Int.toNat = s := by
    unfold ints
    rw [List.map_map]
    conv_rhs => rw [← List.map_id s]
    apply List.map_congr_left
    intro x _
    simp
  unfold fine
  simp only [e]
  rw [if_pos]
  refine ⟨trivial, ?_, hb, hl⟩
  intro x hx
  simp only [ints, List.mem_map] at hx
  obtain ⟨y, hy, rfl⟩ := hx
  have := hp y hy
  simp
  omega

theorem resOpt_some {β : Type} {r : Res β} {b : β} : resOpt r = some b ↔ r = .ok b := by
  cases r <;> simp [resOpt]

variable [CommSemiring α]

theorem prod_pair (a b : Nat) : prod [a, b] = a * b := by simp [prod]

omit [CommSemiring α] in
theorem packAIdx_length (row col lda : Nat) : (packAIdx row col lda).length = row * col := by
  unfold packAIdx
  rw [List.length_append, (flatMap_get (col * 8) (row / 8) _ (fun nn _ => by rw [(flatMap_get 8 col _ (by simp)).1])).1,
    (flatMap_get col (row % 8) _ (by simp)).1]
  rw [show row / 8 * (col * 8) = row / 8 * 8 * col by ring, ← Nat.add_mul]
  congr 1
  omega

/-- what an inner product in the domain looks like -/
theorem arrInner_dom {t p : Bool} {vs : List (Arr α)} {v : Arr α} (h : arrInner t p vs = some v) :
    ∃ x w M rest p0 q0, vs = [x, w] ∧ fine x = some (M :: rest) ∧ fine w = some [p0, q0] ∧
      prod rest = (if t then q0 else p0) ∧ M * (if t then p0 else q0) ≤ 2147483647 ∧
      innerProdRun t p x w (List.replicate (M * (if t then p0 else q0)) 0) (List.replicate (p0 * q0) 0) = .ok v := by
  unfold arrInner at h
  split at h
  · rename_i x w
    split at h
    · rename_i M rest p0 q0 hx hw
      by_cases hc : prod rest = (if t then q0 else p0) ∧ M * (if t then p0 else q0) ≤ 2147483647
      · rw [if_pos hc] at h
        exact ⟨x, w, M, rest, p0, q0, rfl, hx, hw, hc.1, hc.2, resOpt_some.1 h⟩
      · rw [if_neg hc] at h; cases h
    · cases h
  · cases h

theorem arrInner_eq {t p : Bool} {x w : Arr α} {M p0 q0 : Nat} {rest : List Nat} (hx : fine x = some (M :: rest))
    (hw : fine w = some [p0, q0]) (hc : prod rest = (if t then q0 else p0)) (hb : M * (if t then p0 else q0) ≤ 2147483647) :
    arrInner t p [x, w] = resOpt (innerProdRun t p x w (List.replicate (M * (if t then p0 else q0)) 0)
      (List.replicate (p0 * q0) 0)) := by
  unfold arrInner
  simp only [hx, hw]
  rw [if_pos ⟨hc, hb⟩]

theorem arr_packB (t : Bool) (x w p v : Arr α) (hp : resOpt (packInnerWeights t w) = some p)
    (h : arrInner t false [x, w] = some v) : arrInner false true [x, p] = some v := by
  obtain ⟨x', w', M, rest, p0, q0, e, hx, hw, hc, hb, hr⟩ := arrInner_dom h
  cases e
  obtain ⟨x1, x2, x3, x4, x5⟩ := fine_some hx
  obtain ⟨w1, w2, w3, w4, w5⟩ := fine_some hw
  have hp0 : 0 < p0 := w3 p0 (by simp)
  have hq0 : 0 < q0 := w3 q0 (by simp)
  rw [prod_pair] at w4 w5
  rw [show prod (M :: rest) = M * prod rest by simp [prod], hc] at x4 x5
  -- inner extent and columns
  generalize hK : (if t then q0 else p0) = K at *
  generalize hN : (if t then p0 else q0) = N at *
  have hKN : p0 * q0 = K * N := by
    subst hK hN; cases t <;> simp [Nat.mul_comm]
  have hKp : 0 < K := by subst hK; cases t <;> simp <;> omega
  have hNp : 0 < N := by subst hN; cases t <;> simp <;> omega
  rw [hKN] at w4 w5 hr
  have hrs : w.shape = if t then [(N : Int), (K : Int)] else [(K : Int), (N : Int)] := by
    rw [w2]; subst hK hN; cases t <;> simp
  obtain ⟨p', a1, a2, a3, a4, a5⟩ := C46_packed_weights t M N K x w (M :: rest) (List.replicate (M * N) 0)
    (List.replicate (M * N) 0) (List.replicate (K * N) 0) (List.replicate (K * N) 0) x2 ⟨rest, rfl, hc, x3⟩ hNp x4 w4 hrs
    x1 w1 x5 w5 (by simp) (by simp) (by simp)
  rw [resOpt_some, a1] at hp
  cases hp
  obtain ⟨pd, psh, pda⟩ := p
  simp only at a2 a3 a4
  subst a2 a3
  have hfp : fine (⟨10, [(K : Int), (N : Int)], pda⟩ : Arr α) = some [K, N] :=
    fine_mk (s := [K, N]) (by simp; omega) (by rw [prod_pair]; exact w4) (by rw [prod_pair]; exact a4)
  rw [arrInner_eq hx hfp (by simpa using hc) (by simpa using hb)]
  simp only [Bool.false_eq_true, if_false]
  rw [a5, hr]
  rfl

theorem arr_convOn_packed (c : ConvPar α) (pad : Int × Int × Int × Int) (x w p v : Arr α) (hp : arrPackA w = some p)
    (h : arrConvOn c pad false x w = some v) : arrConvOn c pad true x p = some v := by
  unfold arrConvOn at h
  split at h
  · rename_i n ch hh wd o ch' kh kw hx hw
    split at h
    · rename_i hch
      subst hch
      obtain ⟨x1, x2, x3, x4, x5⟩ := fine_some hx
      obtain ⟨w1, w2, w3, w4, w5⟩ := fine_some hw
      simp only at h
      split at h
      · rename_i oh ow hoh how
        split at h
        · rename_i r hr
          cases h
          rw [resOpt_some] at hr
          -- the packed weights
          unfold arrPackA at hp
          simp only [hw] at hp
          split at hp
          · rename_i pd hpd
            cases hp
            rw [resOpt_some] at hpd
            have hwl : w.data.length = o * ch * kh * kw := by rw [w5]; simp only [prod]; ring
            have hxl : x.data.length = n * ch * hh * wd := by rw [x5]; simp only [prod]; ring
            have hlen : pd.length = prod [o, ch, kh, kw] := by
              have h0 := pack8A_ok o (ch * kh * kw) w.data (by rw [hwl]; apply le_of_eq; ring)
              rw [hpd] at h0
              cases h0
              rw [List.length_map, packAIdx_length]
              simp only [prod]; ring
            have hfp : fine (⟨10, w.shape, pd⟩ : Arr α) = some [o, ch, kh, kw] := by
              rw [w2]; exact fine_mk w3 w4 hlen
            by_cases hneg : oh < 0 ∨ ow < 0
            · unfold conv2dRun at hr
              simp only [hoh, how, Res.bind_ok] at hr
              rw [if_pos hneg] at hr
              cases hr
            · obtain ⟨oh', rfl⟩ := Int.eq_ofNat_of_zero_le (show 0 ≤ oh by omega)
              obtain ⟨ow', rfl⟩ := Int.eq_ofNat_of_zero_le (show 0 ≤ ow by omega)
              simp only [Int.toNat_natCast] at hr
              obtain ⟨o1, b1, b2, b3⟩ := C44_convolution
                (⟨n, ch, hh, wd, o, kh, kw, pad.1, pad.2.1, pad.2.2.1, pad.2.2.2, c.sh, c.sw, c.dh, c.dw⟩ : ConvGeo)
                c.padv x.data w.data (fun _ => List.replicate (o * (oh' * ow')) 0) oh' ow' hxl hwl hoh how (by simp) false _ rfl
              obtain ⟨o2, c1, c2, c3⟩ := C44_convolution
                (⟨n, ch, hh, wd, o, kh, kw, pad.1, pad.2.1, pad.2.2.1, pad.2.2.2, c.sh, c.sw, c.dh, c.dw⟩ : ConvGeo)
                c.padv x.data w.data (fun _ => List.replicate (o * (oh' * ow')) 0) oh' ow' hxl hwl hoh how (by simp) true pd hpd
              rw [b1] at hr
              cases hr
              have hsame : o2 = o1 := by
                apply List.ext_getElem?
                intro q
                by_cases hq : q < n * o * oh' * ow'
                · have how' : 0 < ow' := by
                    rcases Nat.eq_zero_or_pos ow' with e | e
                    · subst e; simp at hq
                    · exact e
                  have hoh' : 0 < oh' := by
                    rcases Nat.eq_zero_or_pos oh' with e | e
                    · subst e; simp at hq
                    · exact e
                  have hop : 0 < o := w3 o (by simp)
                  have q1 : q = q / ow' * ow' + q % ow' := by rw [Nat.mul_comm]; exact (Nat.div_add_mod _ _).symm
                  have q2 : q / ow' = q / ow' / oh' * oh' + q / ow' % oh' := by
                    rw [Nat.mul_comm]; exact (Nat.div_add_mod _ _).symm
                  have q3 : q / ow' / oh' = q / ow' / oh' / o * o + q / ow' / oh' % o := by
                    rw [Nat.mul_comm]; exact (Nat.div_add_mod _ _).symm
                  have l1 : q / ow' / oh' / o < n := by
                    rw [Nat.div_lt_iff_lt_mul hop, Nat.div_lt_iff_lt_mul hoh', Nat.div_lt_iff_lt_mul how']; exact hq
                  have e : q = ((q / ow' / oh' / o * o + q / ow' / oh' % o) * oh' + q / ow' % oh') * ow' + q % ow' := by
                    rw [← q3, ← q2, ← q1]
                  rw [e]
                  rw [b3 _ _ _ _ l1 (Nat.mod_lt _ hop) (Nat.mod_lt _ hoh') (Nat.mod_lt _ how'),
                    c3 _ _ _ _ l1 (Nat.mod_lt _ hop) (Nat.mod_lt _ hoh') (Nat.mod_lt _ how')]
                · rw [List.getElem?_eq_none (by simp only at c2; omega), List.getElem?_eq_none (by simp only at b2; omega)]
              subst hsame
              unfold arrConvOn
              simp only [hx, hfp, if_true, hoh, how, Int.toNat_natCast]
              rw [c1]
              rfl
          · cases hp
        · cases h
      · cases h
    · cases h
  · cases h

theorem zipWith_ones (s : List Nat) (h : ∀ x ∈ s, 0 < x) : List.zipWith max (List.replicate s.length 1) s = s := by
  induction s with
  | nil => rfl
  | cons a s ih =>
    have ha := h a (by simp)
    rw [List.length_cons, List.replicate_succ, List.zipWith_cons_cons, ih fun x hx => h x (by simp [hx])]
    congr 1
    omega

theorem inBounds_len {s c : List Nat} (h : InBounds s c) : c.length = s.length := by
  induction s generalizing c with
  | nil => cases c with
    | nil => rfl
    | cons _ _ => simp [InBounds] at h
  | cons a s ih =>
    cases c with
    | nil => simp [InBounds] at h
    | cons x c =>
      simp only [InBounds] at h
      simp [ih h.2]

theorem readAt_self {s c : List Nat} (h : InBounds s c) : readAt s c = c := by
  have hl := inBounds_len h
  unfold readAt
  rw [show c.length - s.length = 0 by omega, List.drop_zero]
  clear hl
  induction s generalizing c with
  | nil => cases c with
    | nil => rfl
    | cons _ _ => simp [InBounds] at h
  | cons a s ih =>
    cases c with
    | nil => simp [InBounds] at h
    | cons x c =>
      simp only [InBounds] at h
      rw [List.zipWith_cons_cons, ih h.2]
      congr 1
      split
      · omega
      · rfl

theorem compat_nil (s : List Nat) : NumpyCompatible [] s := by
  intro k; right; left; simp [ext]

theorem broadcast_nil (s : List Nat) (h : ∀ x ∈ s, 0 < x) : broadcastShape [] s = s := by
  rw [broadcastShape_eq]
  have e1 : frontOnes [] s.length = List.replicate s.length 1 := by simp [frontOnes]
  have e2 : frontOnes s ([] : List Nat).length = s := by simp [frontOnes]
  rw [e1, e2, zipWith_ones s h]

/-- multiplying by a scalar (any element-wise operator with a scalar on the left) -/
theorem arrZip_scalar (f : α → α → α) (hf : ∀ x y, f x y = f y x) {a y : Arr α} {al : α} {s : List Nat}
    (ha : scalarOf a = some al) (hy : fine y = some s) :
    arrZip f [a, y] = some ⟨10, ints s, y.data.map (f al)⟩ := by
  obtain ⟨y1, y2, y3, y4, y5⟩ := fine_some hy
  have hfa : fine a = some [] ∧ a.data = [al] := by
    unfold scalarOf at ha
    split at ha
    · rename_i hc
      split at ha
      · rename_i x hx
        cases ha
        refine ⟨?_, hx⟩
        unfold fine
        simp only [hc.1, hc.2, hx, List.map_nil, prod]
        rw [if_pos (by simp)]
      · cases ha
    · cases ha
  have hbs := broadcast_nil s y3
  obtain ⟨out, e, el, eb⟩ := C19_broadcast .swap true f (fun _ => hf) [] s a.data y.data
    (List.replicate (prod s) 0) (compat_nil s) (by simp) y3 (by rw [hbs]; exact y4) (by rw [hfa.2]; rfl) y5
    (by rw [hbs]; simp)
  rw [hbs] at e el eb
  have hred : ∃ l r b, reduceShapes [] s = .ok (l, r, s, b) := by
    unfold elementWise at e
    rw [Res.bind_eq_ok] at e
    obtain ⟨⟨l, r, o, b⟩, e1, e2⟩ := e
    rw [Res.bind_eq_ok] at e2
    obtain ⟨q, e3, e4⟩ := e2
    cases e4
    exact ⟨l, r, b, e1⟩
  obtain ⟨l, r, b, hred⟩ := hred
  have hout : out = y.data.map (f al) := by
    apply List.ext_getElem?
    intro q
    by_cases hq : q < prod s
    · have hib := unlin_inBounds (s := s) (i := q) hq
      obtain ⟨u, w, h1, h2, h3⟩ := eb _ hib
      rw [readAt_self hib, lin_unlin hq] at h2
      rw [lin_unlin hq] at h3
      rw [h3, List.getElem?_map, h2]
      simp only [readAt, List.zipWith_nil_left, lin, hfa.2] at h1
      simp at h1
      rw [h1]; rfl
    · rw [List.getElem?_eq_none (by omega), List.getElem?_eq_none (by rw [List.length_map]; omega)]
  unfold arrZip
  simp only [hfa.1, hy, hred, if_pos y4]
  rw [hfa.2] at e ⊢
  simp only [e, resOpt, hout]

/-- adding a bias that can be broadcast to a matrix -/
theorem arrZip_bias (f : α → α → α) (hf : ∀ x y, f x y = f y x) {m q : Arr α} {M N : Nat} {c : List Nat}
    (hm : fine m = some [M, N]) (hq : fine q = some c) (hc : BiasFits c M N) :
    ∃ out, arrZip f [m, q] = some ⟨10, ints [M, N], out⟩ ∧ out.length = M * N ∧
      ∀ i j, i < M → j < N → out[i * N + j]? = some (f (m.data.getD (i * N + j) 0) (biasAt c q.data i j)) := by
  obtain ⟨m1, m2, m3, m4, m5⟩ := fine_some hm
  obtain ⟨q1, q2, q3, q4, q5⟩ := fine_some hq
  have hM : 0 < M := m3 M (by simp)
  have hN : 0 < N := m3 N (by simp)
  rw [prod_pair] at m5
  have hbs : broadcastShape [M, N] c = [M, N] ∧ NumpyCompatible [M, N] c := by
    rcases hc with rfl | ⟨n, rfl, hn⟩ | ⟨a, n, rfl, ha, hn⟩
    · refine ⟨?_, fun k => by right; right; simp [ext]⟩
      simp [broadcastShape, ext, List.range_succ]; omega
    · refine ⟨?_, ?_⟩
      · simp [broadcastShape, ext, List.range_succ]; omega
      · intro k
        rcases k with _ | _ | k
        · simp [ext]; omega
        · simp [ext]
        · simp [ext]
    · refine ⟨?_, ?_⟩
      · simp [broadcastShape, ext, List.range_succ]; omega
      · intro k
        rcases k with _ | _ | k
        · simp [ext]; omega
        · simp [ext]; omega
        · simp [ext]
  obtain ⟨hbs, hcm⟩ := hbs
  obtain ⟨out, e, el, eb⟩ := C19_broadcast .swap true f (fun _ => hf) [M, N] c m.data q.data
    (List.replicate (prod [M, N]) 0) hcm m3 q3 (by rw [hbs]; exact m4) (by rw [m5, prod_pair]) q5
    (by rw [hbs]; simp)
  rw [hbs] at e el eb
  have hred : ∃ l r b, reduceShapes [M, N] c = .ok (l, r, [M, N], b) := by
    unfold elementWise at e
    rw [Res.bind_eq_ok] at e
    obtain ⟨⟨l, r, o, b⟩, e1, e2⟩ := e
    rw [Res.bind_eq_ok] at e2
    obtain ⟨q, e3, e4⟩ := e2
    cases e4
    exact ⟨l, r, b, e1⟩
  obtain ⟨l, r, b, hred⟩ := hred
  refine ⟨out, ?_, by rw [el, prod_pair], ?_⟩
  · unfold arrZip
    simp only [hm, hq, hred, if_pos m4]
    simp only [e, resOpt]
  · intro i j hi hj
    have hib : InBounds [M, N] [i, j] := ⟨hi, hj, trivial⟩
    obtain ⟨u, w, h1, h2, h3⟩ := eb [i, j] hib
    have hl : lin [M, N] [i, j] = i * N + j := by simp [lin, prod]
    rw [readAt_self hib, hl] at h1
    rw [hl] at h3
    rw [h3, List.getD_eq_getElem?_getD, h1]
    congr 2
    rcases hc with rfl | ⟨n, rfl, hn⟩ | ⟨a, n, rfl, ha, hn⟩
    · simp only [readAt, List.zipWith_nil_left, lin] at h2
      simp [biasAt, h2]
    · simp [readAt, lin, prod] at h2
      simp [biasAt, h2]
    · simp [readAt, lin, prod] at h2
      simp [biasAt, h2]

/-- transposing a matrix -/
theorem arrTransposed_ok {a a' : Arr α} {m n : Nat} (ha : fine a = some [m, n]) (h : arrTransposed a = some a') :
    fine a' = some [n, m] ∧ ∀ i j, i < n → j < m → a'.data.getD (i * m + j) 0 = a.data.getD (j * n + i) 0 := by
  obtain ⟨a1, a2, a3, a4, a5⟩ := fine_some ha
  rw [prod_pair] at a4 a5
  unfold arrTransposed at h
  simp only [ha] at h
  have hidx : ∀ p ∈ ((List.range n).flatMap fun i => (List.range m).map fun j => j * n + i), p < a.data.length := by
    intro p hp
    simp only [List.mem_flatMap, List.mem_map, List.mem_range] at hp
    obtain ⟨i, hi, j, hj, rfl⟩ := hp
    rw [a5]; exact rc_lt hj hi
  have ht : matrixTranspose a.data m n = .ok (((List.range n).flatMap fun i => (List.range m).map fun j => j * n + i).map
      fun i => a.data.getD i 0) := by
    unfold matrixTranspose
    rw [pack_ok _ _ hidx]
  rw [ht] at h
  simp only [resOpt, Option.some.injEq] at h
  subst h
  refine ⟨fine_mk (s := [n, m]) (by intro x hx; apply a3; simp at hx ⊢; tauto) (by rw [prod_pair, Nat.mul_comm]; exact a4) ?_, ?_⟩
  · rw [List.length_map, (flatMap_get m n _ (by simp)).1, prod_pair]
  · intro i j hi hj
    have := (flatMap_get m n (fun i => (List.range m).map fun j => j * n + i) (by simp)).2 i j hi hj
    simp only
    rw [List.getD_eq_getElem?_getD, List.getElem?_map, this]
    simp [hj]

/-- the operand after the constant was transposed if asked for -/
theorem opnd_ok (t : Bool) {a a' : Arr α} {p q : Nat} (ha : fine a = some [p, q])
    (h : if t then arrTransposed a = some a' else a' = a) :
    fine a' = some [if t then q else p, if t then p else q] ∧
      ∀ i k, i < (if t then q else p) → k < (if t then p else q) →
        entry false a'.data (if t then p else q) i k = entry t a.data q i k := by
  cases t with
  | false =>
    simp only [Bool.false_eq_true, if_false] at h ⊢
    subst h
    exact ⟨ha, fun _ _ _ _ => rfl⟩
  | true =>
    simp only [if_true] at h ⊢
    obtain ⟨h1, h2⟩ := arrTransposed_ok ha h
    refine ⟨h1, ?_⟩
    intro i k hi hk
    simp only [entry, if_true, Bool.false_eq_true, if_false]
    exact h2 i k hi hk

theorem biasFits_spec {c : List Nat} {M N : Nat} (h : biasFits c M N = true) : BiasFits c M N := by
  unfold biasFits at h
  split at h
  · exact .inl rfl
  · right; left
    simp at h
    exact ⟨_, rfl, h⟩
  · right; right
    simp at h
    exact ⟨_, _, rfl, h.1, h.2⟩
  · cases h

theorem biasAt_map (c : List Nat) (C : List α) (be : α) (i j : Nat) :
    biasAt c (C.map fun x => be * x) i j = be * biasAt c C i j := by
  have hg : ∀ k, (C.map fun x => be * x).getD k 0 = be * C.getD k 0 := by
    intro k
    rw [List.getD_eq_getElem?_getD, List.getElem?_map, List.getD_eq_getElem?_getD]
    cases C[k]? <;> simp
  unfold biasAt
  split <;> simp only [hg, mul_zero]

theorem ext_grid {M N : Nat} {a b : List α} (ha : a.length = M * N) (hb : b.length = M * N)
    (h : ∀ i j, i < M → j < N → a[i * N + j]? = b[i * N + j]?) : a = b := by
  apply List.ext_getElem?
  intro p
  by_cases hp : p < M * N
  · have hN : 0 < N := by
      rcases Nat.eq_zero_or_pos N with e | e
      · subst e; simp at hp
      · exact e
    have hq : p = p / N * N + p % N := by rw [Nat.mul_comm]; exact (Nat.div_add_mod p N).symm
    rw [hq]
    exact h _ _ ((Nat.div_lt_iff_lt_mul hN).2 hp) (Nat.mod_lt _ hN)
  · rw [List.getElem?_eq_none (by omega), List.getElem?_eq_none (by omega)]

theorem arr_gemm (near : α → α → Bool) (hn0 : ∀ x, near x 0 = true → x = 0) (hn1 : ∀ x, near x 1 = true → x = 1)
    (h01 : near 0 1 = false) (toInt : α → Int) (alpha beta : Arr α) (tA tB : Bool) (a b c v a' b' : Arr α)
    (h : arrGemm near alpha beta tA tB [a, b, c] = some v)
    (ha : if tA then arrTransposed a = some a' else a' = a) (hb : if tB then arrTransposed b = some b' else b' = b) :
    ∃ m, arrInner false false [a', b'] = some m ∧
      ((arrKern near toInt).nearZero beta = true → ((arrKern near toInt).nearOne alpha = true → v = m) ∧
        ((arrKern near toInt).nearOne alpha = false → arrZip (· * ·) [alpha, m] = some v)) ∧
      ((arrKern near toInt).nearZero beta = false → ∃ q, arrZip (· * ·) [beta, c] = some q ∧
        ((arrKern near toInt).nearOne alpha = true → arrZip (· + ·) [m, q] = some v) ∧
        ((arrKern near toInt).nearOne alpha = false → ∃ am, arrZip (· * ·) [alpha, m] = some am ∧
          arrZip (· + ·) [am, q] = some v)) := by
  unfold arrGemm at h
  simp only at h
  split at h
  case h_2 => cases h
  rename_i al be a0 a1 b0 b1 cs hal hbe hfa hfb hfc
  by_cases hcond : (if tA then a0 else a1) = (if tB then b1 else b0) ∧
          biasFits cs (if tA then a1 else a0) (if tB then b0 else b1) = true ∧
          (if tA then a1 else a0) * (if tB then b0 else b1) ≤ 2147483647
  case neg => rw [if_neg hcond] at h; cases h
  rw [if_pos hcond, resOpt_some] at h
  obtain ⟨hk, hbf, hbd⟩ := hcond
  obtain ⟨fa, ea⟩ := opnd_ok tA hfa ha
  obtain ⟨fb, eb⟩ := opnd_ok tB hfb hb
  obtain ⟨u1, u2, u3, u4, u5⟩ := fine_some hfa
  obtain ⟨w1, w2, w3, w4, w5⟩ := fine_some hfb
  obtain ⟨c1, c2, c3, c4, c5⟩ := fine_some hfc
  obtain ⟨p1, p2, p3, p4, p5⟩ := fine_some fa
  obtain ⟨r1, r2, r3, r4, r5⟩ := fine_some fb
  rw [prod_pair] at u5 w5 p4 p5 r4 r5
  have hAs : a.shape = if tA then [((if tA then a0 else a1 : Nat) : Int), ((if tA then a1 else a0 : Nat) : Int)]
      else [((if tA then a1 else a0 : Nat) : Int), ((if tA then a0 else a1 : Nat) : Int)] := by
    rw [u2]; cases tA <;> simp
  have hBs : b.shape = if tB then [((if tB then b0 else b1 : Nat) : Int), ((if tB then b1 else b0 : Nat) : Int)]
      else [((if tB then b1 else b0 : Nat) : Int), ((if tB then b0 else b1 : Nat) : Int)] := by
    rw [w2]; cases tB <;> simp
  have hlda : (if tA then (if tA then a1 else a0) else (if tA then a0 else a1)) = a1 := by cases tA <;> simp
  have hldb : (if tB then (if tB then b1 else b0) else (if tB then b0 else b1)) = b1 := by cases tB <;> simp
  have hal' : a.data.length = (if tA then a1 else a0) * (if tA then a0 else a1) := by
    rw [u5]; cases tA <;> simp [Nat.mul_comm]
  have hbl' : b.data.length = (if tB then b1 else b0) * (if tB then b0 else b1) := by
    rw [w5]; cases tB <;> simp [Nat.mul_comm]
  rw [← hk] at hBs hldb hbl' fb eb
  have hMp : 0 < (if tA then a1 else a0) := p3 _ (by simp)
  have hNp : 0 < (if tB then b0 else b1) := r3 _ (by simp)
  rw [← hk] at r2 r4 r5
  generalize (if tA then a1 else a0) = M at *
  generalize (if tA then a0 else a1) = K at *
  generalize (if tB then b0 else b1) = N at *
  have hbF := biasFits_spec hbf
  obtain ⟨out, e, el, eo⟩ := C46_gemm near (fun x => near x 0) true tA tB false M N K al be a b c cs
    (List.replicate (M * N) 0) hMp hNp hbd ⟨hn0 al, hn1 al⟩ ⟨hn0 be, hn1 be⟩ (hn0 be) h01 hAs hBs c2 hbF (.inl u1)
    (by rw [u1, w1]) (by rw [u1, c1]) hal' hbl' c5 (by simp)
  rw [e] at h
  cases h
  rw [hlda, hldb] at eo
  rw [u1]
  -- the inner product
  obtain ⟨om, f1, f2, f3⟩ := C46_inner_prod_partial false M N K a' b' [M, K] (List.replicate (M * N) 0)
    (List.replicate (K * N) 0) p2 ⟨[K], rfl, by simp [prod], p3⟩ hNp p4 r4 (by rw [r2]; rfl) p1 r1 p5 r5 (by simp) (by simp)
  have hprod : ∀ i j, i < M → j < N → productAt false false K a'.data K b'.data N i j =
      productAt tA tB K a.data a1 b.data b1 i j := by
    intro i j hi hj
    unfold productAt
    apply Finset.sum_congr rfl
    intro k hk
    rw [Finset.mem_range] at hk
    rw [ea i k hi hk, eb k j hk hj]
  have hfm : fine (⟨10, [(M : Int), (N : Int)], om⟩ : Arr α) = some [M, N] :=
    fine_mk (s := [M, N]) (by simp; omega) (by rw [prod_pair]; exact hbd) (by rw [prod_pair]; exact f2)
  have hscal : ∀ {x : Arr α} {y : α}, scalarOf x = some y → x.data = [y] := by
    intro x y hx
    unfold scalarOf at hx
    split at hx
    · split at hx
      · rename_i z hz; cases hx; exact hz
      · cases hx
    · cases hx
  have hone : (arrKern near toInt).nearOne alpha = near al 1 := by simp [arrKern, hscal hal]
  have hzero : (arrKern near toInt).nearZero beta = near be 0 := by simp [arrKern, hscal hbe]
  have hom : ∀ i j, i < M → j < N → om.getD (i * N + j) 0 = productAt tA tB K a.data a1 b.data b1 i j := by
    intro i j hi hj
    rw [List.getD_eq_getElem?_getD, f3 i j hi hj, if_neg (by simp), ← hprod i j hi hj]; rfl
  have hmul := arrZip_scalar (· * ·) mul_comm hal hfm
  have hq := arrZip_scalar (· * ·) mul_comm hbe hfc
  have hfq : fine (⟨10, ints cs, c.data.map fun x => be * x⟩ : Arr α) = some cs :=
    fine_mk c3 c4 (by rw [List.length_map]; exact c5)
  have hfam : fine (⟨10, ints [M, N], om.map fun x => al * x⟩ : Arr α) = some [M, N] :=
    fine_mk (s := [M, N]) (by simp; omega) (by rw [prod_pair]; exact hbd) (by rw [List.length_map, prod_pair]; exact f2)
  refine ⟨⟨10, [(M : Int), (N : Int)], om⟩, ?_, ?_, ?_⟩
  · rw [arrInner_eq fa fb (by simp [prod]) (by simpa using hbd)]
    simp only [Bool.false_eq_true, if_false]
    rw [f1]; rfl
  · intro hz
    rw [hzero] at hz
    have be0 := hn0 be hz
    subst be0
    refine ⟨?_, ?_⟩
    · intro ho
      rw [hone] at ho
      have al1 := hn1 al ho
      subst al1
      congr 1
      apply ext_grid el f2
      intro i j hi hj
      rw [eo i j hi hj, f3 i j hi hj, if_neg (by simp), hprod i j hi hj]
      congr 1; ring
    · intro _
      rw [hmul]
      simp only [ints_cons, ints_nil]
      congr 2
      apply ext_grid (by rw [List.length_map]; exact f2) el
      intro i j hi hj
      rw [List.getElem?_map, eo i j hi hj, f3 i j hi hj, if_neg (by simp), hprod i j hi hj, Option.map_some]
      congr 1; ring
  · intro _
    refine ⟨_, hq, ?_, ?_⟩
    · intro ho
      rw [hone] at ho
      have al1 := hn1 al ho
      subst al1
      obtain ⟨o1, g1, g2, g3⟩ := arrZip_bias (· + ·) add_comm hfm hfq hbF
      rw [g1]
      simp only [ints_cons, ints_nil]
      congr 2
      apply ext_grid g2 el
      intro i j hi hj
      rw [g3 i j hi hj, eo i j hi hj, hom i j hi hj, biasAt_map]
      congr 1; ring
    · intro _
      refine ⟨_, hmul, ?_⟩
      obtain ⟨o1, g1, g2, g3⟩ := arrZip_bias (· + ·) add_comm hfam hfq hbF
      rw [g1]
      simp only [ints_cons, ints_nil]
      congr 2
      apply ext_grid g2 el
      intro i j hi hj
      rw [g3 i j hi hj, eo i j hi hj, biasAt_map]
      simp only
      rw [List.getD_eq_getElem?_getD, List.getElem?_map, f3 i j hi hj, if_neg (by simp), hprod i j hi hj]
      simp only [Option.map_some, Option.getD_some]
      congr 1; ring

/-- the operators of the library satisfy the laws the packing option relies on, for any comparison with zero and one
that is exact -/
theorem arrKern_sound (near : α → α → Bool) (hn0 : ∀ x, near x 0 = true → x = 0) (hn1 : ∀ x, near x 1 = true → x = 1)
    (h01 : near 0 1 = false) (toInt : α → Int) : (arrKern near toInt).Sound where
  innerArity t p vs v h := by
    obtain ⟨x, w, _, _, _, _, rfl, _⟩ := arrInner_dom h
    rfl
  convArity c v2 p vs v h := by
    simp only [arrKern, arrConv] at h
    split at h
    · rfl
    · rfl
    · cases h
  gemmArity a b tA tB vs v h := by
    simp only [arrKern, arrGemm] at h
    split at h
    · rfl
    · cases h
  packB t x w p v hp h := by
    simp only [arrKern] at hp h ⊢
    split at hp
    · exact arr_packB t x w p v hp h
    · cases hp
  packA c x w p v hp h := by
    simp only [arrKern, arrConv] at hp h ⊢
    exact arr_convOn_packed c _ x w p v hp h
  packA2 c x y w p v hp h := by
    simp only [arrKern, arrConv] at hp h ⊢
    split at h
    · rename_i pad hpad
      exact arr_convOn_packed c _ x w p v hp h
    · cases h
  gemm al be tA tB a b c v a' b' h ha hb := arr_gemm near hn0 hn1 h01 toInt al be tA tB a b c v a' b' h ha hb

/-- **C44, padding as an operand.** `conv2d_v2` with the paddings `(t, b, l, r)` in its second operand computes what `conv2d`
computes with those paddings as parameter, whatever padding it was configured with; a padding of batch or channels, or an
operand of another shape, is refused. -/
theorem C44_conv2d_v2_padding (toInt : α → Int) (c : ConvPar α) (p : Bool) (x y w : Arr α) :
    (∀ n0 n1 c0 c1 t b l r, y.shape = [4, 2] → y.data = [n0, n1, c0, c1, t, b, l, r] →
      toInt n0 = 0 → toInt n1 = 0 → toInt c0 = 0 → toInt c1 = 0 →
      arrConv toInt c true p [x, y, w] =
        arrConv toInt { c with pad := (toInt t, toInt b, toInt l, toInt r) } false p [x, w]) ∧
    (y.shape ≠ [4, 2] → arrConv toInt c true p [x, y, w] = none) := by
  constructor
  · intro n0 n1 c0 c1 t b l r hs hd h1 h2 h3 h4
    simp only [arrConv, padOf, hs, hd, h1, h2, h3, h4, and_self, if_true]
    rfl
  · intro hs
    have : padOf toInt y = none := by
      unfold padOf
      split
      · rename_i h _; exact absurd h hs
      · rfl
    simp only [arrConv, this]

example : (arrConv (fun z : Int => z) ⟨(0, 0, 0, 0), 1, 1, 1, 1, 0⟩ true false
    [⟨10, [1, 1, 1, 1], [5]⟩, ⟨10, [4, 2], [0, 0, 0, 0, 0, 0, 0, 1]⟩, ⟨10, [1, 1, 1, 1], [2]⟩]).map (fun a => (a.shape, a.data)) =
    some ([1, 1, 1, 2], [10, 0]) := by decide +kernel

end Verif.Props
