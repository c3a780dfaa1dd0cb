import Verif.Kernels.WinogradLemmas
import Verif.Props.Conv
/-!
# C60: the Winograd operator computes the convolution

Specification: `convSpec` of C44 with a 3x3 kernel, stride 1, dilation 1. `WinoReq` is one run, `WinoReq.Valid` the conditions on the sizes.
-/
namespace Verif.Props
open Verif.Core Verif.Kernels

variable {α : Type}

/-! ## the algorithms look at their tile only -/

structure WinoLocal (a : WinoAlg α) : Prop where
  kern : ∀ k k' i j, (∀ r q, r < 3 → q < 3 → k r q = k' r q) → a.kern k i j = a.kern k' i j
  inp : ∀ d d' i j, (∀ r q, r < a.side → q < a.side → d r q = d' r q) → a.inp d i j = a.inp d' i j
  outp : ∀ d d' i j, (∀ r q, r < a.side → q < a.side → d r q = d' r q) → a.outp d i j = a.outp d' i j

section
variable [Field α]

theorem kernTransform_local (G : List (List α)) (k k' : Nat → Nat → α) (i j : Nat) (h : ∀ r q, r < 3 → q < 3 → k r q = k' r q) :
    kernTransform G k i j = kernTransform G k' i j := by
  simp only [kernTransform, h 0 0 (by omega) (by omega), h 0 1 (by omega) (by omega), h 0 2 (by omega) (by omega), h 1 0 (by omega) (by omega),
    h 1 1 (by omega) (by omega), h 1 2 (by omega) (by omega), h 2 0 (by omega) (by omega), h 2 1 (by omega) (by omega), h 2 2 (by omega) (by omega)]

theorem bt23_local {v v' : Nat → α} (h : ∀ q, q < 4 → v q = v' q) (i : Nat) : bt23 v i = bt23 v' i := by
  unfold bt23; split <;> simp only [h 0 (by omega), h 1 (by omega), h 2 (by omega), h 3 (by omega)]
theorem at23_local {v v' : Nat → α} (h : ∀ q, q < 4 → v q = v' q) (i : Nat) : at23 v i = at23 v' i := by
  unfold at23; split <;> simp only [h 0 (by omega), h 1 (by omega), h 2 (by omega), h 3 (by omega)]
theorem bt63Row_local {v v' : Nat → α} (h : ∀ q, q < 8 → v q = v' q) (i : Nat) : bt63Row v i = bt63Row v' i := by
  unfold bt63Row
  split <;> simp only [h 0 (by omega), h 1 (by omega), h 2 (by omega), h 3 (by omega), h 4 (by omega), h 5 (by omega), h 6 (by omega), h 7 (by omega)]
theorem bt63Col_local {v v' : Nat → α} (h : ∀ q, q < 8 → v q = v' q) (i : Nat) : bt63Col v i = bt63Col v' i := by
  unfold bt63Col
  split <;> simp only [h 0 (by omega), h 1 (by omega), h 2 (by omega), h 3 (by omega), h 4 (by omega), h 5 (by omega), h 6 (by omega), h 7 (by omega)]
theorem at63_local {v v' : Nat → α} (h : ∀ q, q < 8 → v q = v' q) (i : Nat) : at63 v i = at63 v' i := by
  unfold at63
  split <;> simp only [h 0 (by omega), h 1 (by omega), h 2 (by omega), h 3 (by omega), h 4 (by omega), h 5 (by omega), h 6 (by omega), h 7 (by omega)]

theorem f23_local : WinoLocal (f23 : WinoAlg α) where
  kern k k' i j h := kernTransform_local G23 k k' i j h
  inp d d' i j h := bt23_local (fun q hq => bt23_local (fun r hr => h r q hr hq) i) j
  outp d d' i j h := at23_local (fun r hr => at23_local (fun q hq => h r q hr hq) j) i

theorem f63_local : WinoLocal (f63 : WinoAlg α) where
  kern k k' i j h := kernTransform_local G63 k k' i j h
  inp d d' i j h := bt63Col_local (fun r hr => bt63Row_local (fun q hq => h r q hr hq) j) i
  outp d d' i j h := at63_local (fun r hr => at63_local (fun q hq => h r q hr hq) j) i

end

/-! ## one forward pass -/

/-- new buffers have the length that was asked for -/
structure FreshOk (f : WinoFresh α) : Prop where
  padded : ∀ n, (f.padded n).length = n
  input : ∀ n, (f.input n).length = n
  product : ∀ n p, (f.product n p).length = n
  output : ∀ n, (f.output n).length = n
  result : ∀ n, (f.result n).length = n

/-- `ker` is the transformed and packed kernel `w` -/
def HoldsKernel [CommSemiring α] (a : WinoAlg α) (oc ic : Nat) (w ker : List α) : Prop :=
  ∀ p, p < a.cells → ∃ Wp : List α,
    (ker.drop (p * (oc * ic))).take (oc * ic) = (packAIdx oc ic ic).map (fun i => Wp.getD i 0) ∧
    ∀ o c, o < oc → c < ic → Wp.getD (o * ic + c) 0 = a.kern (kernelAt ic w o c) (p / a.side) (p % a.side)

theorem roundUp_eq {o t : Nat} (ht : 0 < t) : ∃ n, roundUp o t = n * t ∧ o ≤ n * t := by
  refine ⟨(o + t - 1) / t, rfl, ?_⟩
  have := Nat.lt_div_mul_add ht (a := o + t - 1)
  omega

theorem winoForward_ok [CommRing α] {a : WinoAlg α} {A G B : Nat → Nat → α} (law : WinoLaw a A G B) (loc : WinoLocal a) {g : ConvGeo} {padv : α}
    {x w ker : List α} {oh ow t b l r : Nat} {f : WinoFresh α} (hf : FreshOk f)
    (ht : g.top = t) (hb : g.bottom = b) (hl : g.left = l) (hr : g.right = r) (hh : g.h + t + b = oh + 2) (hw : g.w + l + r = ow + 2)
    (hx : x.length = g.n * g.c * g.h * g.w) (hk : HoldsKernel a g.o g.c w ker) :
    ∃ out, winoForward a g padv x ker oh ow f = .ok out ∧ out.length = g.n * g.o * oh * ow ∧
      ∀ n o i j, n < g.n → o < g.o → i < oh → j < ow → out[((n * g.o + o) * oh + i) * ow + j]? =
        some (∑ c ∈ Finset.range g.c, ∑ kr ∈ Finset.range 3, ∑ kc ∈ Finset.range 3,
          w.getD (((o * g.c + c) * 3 + kr) * 3 + kc) 0 * xpad g padv x n c ((i : Int) + kr - g.top) ((j : Int) + kc - g.left)) := by
  obtain ⟨nH, eH, lH⟩ := roundUp_eq (o := oh) law.pos
  obtain ⟨nW, eW, lW⟩ := roundUp_eq (o := ow) law.pos
  have hH : (winoExtent g.h g.top g.bottom oh a.tile).toNat = nH * a.tile + 2 := by
    unfold winoExtent; rw [eH, ht, hb]; omega
  have hW : (winoExtent g.w g.left g.right ow a.tile).toNat = nW * a.tile + 2 := by
    unfold winoExtent; rw [eW, hl, hr]; omega
  unfold winoForward
  simp only [hH, hW, eH, eW, Nat.mul_div_cancel _ law.pos]
  -- the padded input
  let X : Nat → Nat → Nat → Nat → α := fun n c h q => x.getD (((n * g.c + c) * g.h + h) * g.w + q) 0
  let V : Nat → Nat → Nat → Nat → α := fun n c h q => xpad g padv x n c ((h : Int) - g.top) ((q : Int) - g.left)
  have hX : ∀ n c h q, n < g.n → c < g.c → h < g.h → q < g.w → x[enc4 g.c g.h g.w n c h q]? = some (X n c h q) := by
    intro n c h q h1 h2 h3 h4
    have : enc4 g.c g.h g.w n c h q < x.length := by rw [hx]; exact enc4_lt h1 h2 h3 h4
    simp only [X]
    rw [List.getD_eq_getElem?_getD]
    show x[enc4 g.c g.h g.w n c h q]? = some (x[enc4 g.c g.h g.w n c h q]?.getD 0)
    rw [List.getElem?_eq_getElem this, Option.getD_some]
  have hV : ∀ n c h q, n < g.n → c < g.c → h < nH * a.tile + 2 → q < nW * a.tile + 2 → V n c h q =
      if (t ≤ h ∧ h < t + g.h) ∧ l ≤ q ∧ q < l + g.w then X n c (h - t) (q - l) else padv := by
    intro n c h q _ _ _ _
    simp only [V, X, xpad, ht, hl]
    by_cases hc : (t ≤ h ∧ h < t + g.h) ∧ l ≤ q ∧ q < l + g.w
    · rw [if_pos hc, if_pos (by omega), show ((h : Int) - t).toNat = h - t by omega, show ((q : Int) - l).toNat = q - l by omega]
    · rw [if_neg hc, if_neg (by omega)]
  have hp : ∃ xp, winoPadded g padv x (nH * a.tile + 2) (nW * a.tile + 2) f.padded = .ok xp ∧
      ∀ n c h q, n < g.n → c < g.c → h < nH * a.tile + 2 → q < nW * a.tile + 2 →
        xp[enc4 g.c (nH * a.tile + 2) (nW * a.tile + 2) n c h q]? = some (V n c h q) := by
    unfold winoPadded
    by_cases hne : nH * a.tile + 2 ≠ g.h ∨ nW * a.tile + 2 ≠ g.w
    · rw [if_pos hne, ht, hl]
      obtain ⟨o, h1, -, h3⟩ := pad2d_ok (t := t) (l := l) (X := X) (V := V) (padv := padv) (num := g.n) (ch := g.c) (srcH := g.h) (srcW := g.w)
        (outH := nH * a.tile + 2) (outW := nW * a.tile + 2) (x := x) (dst := f.padded (g.n * g.c * ((nH * a.tile + 2) * (nW * a.tile + 2))))
        (by omega) (by omega) (hf.padded _) hX hV
      exact ⟨o, h1, h3⟩
    · rw [if_neg hne]
      refine ⟨x, rfl, ?_⟩
      have h1 : nH * a.tile + 2 = g.h := by omega
      have h2 : nW * a.tile + 2 = g.w := by omega
      have h3 : t = 0 := by omega
      have h4 : l = 0 := by omega
      intro n c h q a1 a2 a3 a4
      rw [hV n c h q a1 a2 a3 a4, if_pos (by omega), h3, h4, Nat.sub_zero, Nat.sub_zero]
      have := hX n c h q a1 a2 (by omega) (by omega)
      rw [← h1, ← h2] at this
      exact this
  obtain ⟨xp, e1, v1⟩ := hp
  rw [e1, Res.bind_ok]
  -- the transformed patches
  obtain ⟨v, e2, l2, v2⟩ := winoInput_ok a loc.inp (X := V) (num := g.n) (ic := g.c) (x := xp) (dst := f.input (g.n * a.cells * (g.c * (nH * nW))))
    law.pos rfl rfl (hf.input _) v1
  rw [e2, Res.bind_ok]
  -- the products
  obtain ⟨m, e3, l3, v3⟩ := winoProducts_ok a (K := fun p o c => a.kern (kernelAt g.c w o c) (p / a.side) (p % a.side))
    (V := fun n p c k => a.inp (fun s q => V n c (k / nW * a.tile + s) (k % nW * a.tile + q)) (p / a.side) (p % a.side))
    (fresh := f.product (g.o * (nH * nW))) (hf.product _) hk l2 (by
      intro n p c k hn hp hc hk'
      have hnW : 0 < nW := by rcases Nat.eq_zero_or_pos nW with h0 | h0; · rw [h0] at hk'; simp at hk'
                              · exact h0
      have h1 : k / nW < nH := by rw [Nat.div_lt_iff_lt_mul hnW]; exact hk'
      have := v2 n p c (k / nW) (k % nW) hn hp hc h1 (Nat.mod_lt _ hnW)
      rw [Nat.div_add_mod'] at this
      exact this)
  rw [e3, Res.bind_ok]
  -- the outputs
  have final : ∀ n o h q, n < g.n → o < g.o → h < nH * a.tile → q < nW * a.tile →
      a.outp (fun s q' => ∑ c ∈ Finset.range g.c, a.kern (kernelAt g.c w o c) ((s * a.side + q') / a.side) ((s * a.side + q') % a.side) *
          a.inp (fun s' q'' => V n c ((h / a.tile * nW + q / a.tile) / nW * a.tile + s') ((h / a.tile * nW + q / a.tile) % nW * a.tile + q''))
            ((s * a.side + q') / a.side) ((s * a.side + q') % a.side)) (h % a.tile) (q % a.tile) =
        ∑ c ∈ Finset.range g.c, ∑ kr ∈ Finset.range 3, ∑ kc ∈ Finset.range 3,
          w.getD (((o * g.c + c) * 3 + kr) * 3 + kc) 0 * xpad g padv x n c ((h : Int) + kr - g.top) ((q : Int) + kc - g.left) := by
    intro n o h q hn ho hh' hq'
    have hq2 : q / a.tile < nW := by rw [Nat.div_lt_iff_lt_mul law.pos]; exact hq'
    rw [law.tile g.c (fun c => kernelAt g.c w o c) (fun c s q' => V n c (h / a.tile * a.tile + s) (q / a.tile * a.tile + q')) _ (by
        intro i j hi hj
        refine Finset.sum_congr rfl fun c _ => ?_
        simp only [mul_add_div' hj, mul_add_mod' hj, mul_add_div' hq2, mul_add_mod' hq2])
      (Nat.mod_lt h law.pos) (Nat.mod_lt q law.pos)]
    refine Finset.sum_congr rfl fun c _ => Finset.sum_congr rfl fun kr _ => Finset.sum_congr rfl fun kc _ => ?_
    simp only [V, kernelAt]
    rw [← Nat.add_assoc (h / a.tile * a.tile), ← Nat.add_assoc (q / a.tile * a.tile), Nat.div_add_mod', Nat.div_add_mod']
    push_cast
    congr 2
    ring
  by_cases hc : nH * a.tile ≠ oh ∨ nW * a.tile ≠ ow
  · rw [if_pos hc]
    obtain ⟨o, e4, l4, v4⟩ := winoOutput_ok a loc.outp (num := g.n) (oc := g.o) (nH := nH) (nW := nW) (m := m)
      (dst := f.output (g.n * g.o * (nH * a.tile * (nW * a.tile)))) law.pos (hf.output _) v3
    rw [e4, Res.bind_ok]
    obtain ⟨res, e5, l5, v5⟩ := cut2d_ok (num := g.n) (ch := g.o) (x := o) (dst := f.result (g.n * g.o * (oh * ow))) lH lW (hf.result _) v4
    refine ⟨res, e5, l5, ?_⟩
    intro n o' i j hn ho hi hj
    rw [← final n o' i j hn ho (by omega) (by omega)]
    exact v5 n o' i j hn ho hi hj
  · rw [if_neg hc]
    have h1 : nH * a.tile = oh := by omega
    have h2 : nW * a.tile = ow := by omega
    obtain ⟨o, e4, l4, v4⟩ := winoOutput_ok a loc.outp (num := g.n) (oc := g.o) (nH := nH) (nW := nW) (m := m)
      (dst := f.result (g.n * g.o * (oh * ow))) law.pos (by rw [hf.result, h1, h2]) v3
    rw [e4]
    refine ⟨o, rfl, by rw [l4, h1, h2], ?_⟩
    intro n o' i j hn ho hi hj
    rw [← final n o' i j hn ho (by omega) (by omega)]
    have := v4 n o' i j hn ho (by omega) (by omega)
    rw [← this, h1, h2]
    rfl

/-! ## the operator -/

/-- one run of the operator -/
structure WinoReq (α : Type) where
  geo : ConvGeo
  padv : α
  x : List α
  w : List α
  freshK : Nat → List α
  fresh : WinoFresh α

/-- output of the run: a height, a width, the elements -/
abbrev WinoResult (α : Type) := (Nat × Nat) × List α

/-- successive runs of one operator -/
def winoRuns [Field α] : WinoState α → List (WinoReq α) → Res (List (WinoResult α))
  | _, [] => .ok []
  | st, q :: qs => do
    let r ← winoRun st q.geo q.padv q.x q.w q.freshK q.fresh
    let rs ← winoRuns r.1 qs
    .ok (r.2 :: rs)

/-- a 3x3 convolution with stride 1, dilation 1 and no negative padding, with an output (of height and width `o`) that `int` can describe -/
structure WinoReq.Valid (q : WinoReq α) (o : Nat × Nat) : Prop where
  three : q.geo.kh = 3 ∧ q.geo.kw = 3
  unit : q.geo.sh = 1 ∧ q.geo.sw = 1 ∧ q.geo.dh = 1 ∧ q.geo.dw = 1
  padding : 0 ≤ q.geo.top ∧ 0 ≤ q.geo.bottom ∧ 0 ≤ q.geo.left ∧ 0 ≤ q.geo.right
  height : convForward q.geo.h q.geo.top q.geo.bottom 3 1 1 = .ok (o.1 : Int)
  width : convForward q.geo.w q.geo.left q.geo.right 3 1 1 = .ok (o.2 : Int)
  x : q.x.length = q.geo.n * q.geo.c * q.geo.h * q.geo.w
  w : q.w.length = q.geo.o * q.geo.c * 9
  freshK : ∀ n, (q.freshK n).length = n
  fresh : FreshOk q.fresh

/-- the result of a run is the convolution -/
def IsConvolution [CommSemiring α] (q : WinoReq α) (r : WinoResult α) : Prop :=
  r.2.length = q.geo.n * q.geo.o * r.1.1 * r.1.2 ∧
  ∀ n o i j, n < q.geo.n → o < q.geo.o → i < r.1.1 → j < r.1.2 →
    r.2[((n * q.geo.o + o) * r.1.1 + i) * r.1.2 + j]? = some (convSpec q.geo q.padv q.x q.w n o i j)

theorem unit_extent {x b a r : Int} (h : convForward x b a 3 1 1 = .ok r) : r = x + b + a - 2 := by
  unfold convForward dilatedKernel div32 at h
  simp only [Res.bind_eq_ok, int32_eq_ok, if_neg (by decide : ¬ (1 : Int) = 0)] at h
  obtain ⟨_, ⟨_, rfl⟩, _, ⟨_, rfl⟩, _, ⟨_, ⟨_, rfl⟩, _, ⟨_, rfl⟩, _, rfl⟩, _, ⟨_, rfl⟩, _, ⟨_, rfl⟩, _, h⟩ := h
  rw [h]; simp; omega

variable [Field α] [CharZero α]

theorem winoAlg_law (m : Bool) : ∃ A G B : Nat → Nat → α, WinoLaw (winoAlg m) A G B := by
  cases m
  · exact ⟨_, _, _, f23_law⟩
  · exact ⟨_, _, _, f63_law⟩

omit [CharZero α] in
theorem winoAlg_local (m : Bool) : WinoLocal (winoAlg m : WinoAlg α) := by
  cases m
  · exact f23_local
  · exact f63_local

/-- what the operator keeps belongs to the kernel -/
def StateOf (O C : Nat) (w : List α) : WinoState α → Prop
  | none => True
  | some s => HoldsKernel (winoAlg s.1) O C w s.2

theorem winoRun_ok (st : WinoState α) (q : WinoReq α) (o : Nat × Nat) (h : q.Valid o) (hs : StateOf q.geo.o q.geo.c q.w st) :
    ∃ st' out, winoRun st q.geo q.padv q.x q.w q.freshK q.fresh = .ok (st', (o, out)) ∧ StateOf q.geo.o q.geo.c q.w st' ∧
      IsConvolution q (o, out) := by
  have hst : ∃ s : Bool × List α, winoPrepare q.geo q.w q.freshK st = .ok s ∧ HoldsKernel (winoAlg s.1) q.geo.o q.geo.c q.w s.2 := by
    rcases st with _ | s
    · obtain ⟨k, e, hk⟩ := winoKernel_ok (winoAlg (selects63 q.geo)) (winoAlg_local _).kern q.geo.o q.geo.c q.w
        (q.freshK ((winoAlg (selects63 q.geo) : WinoAlg α).cells * (q.geo.o * q.geo.c))) h.w (h.freshK _)
      unfold winoPrepare
      rw [e, Res.bind_ok]
      exact ⟨_, rfl, hk⟩
    · exact ⟨s, rfl, hs⟩
  obtain ⟨s, e, hk⟩ := hst
  obtain ⟨A, G, B, law⟩ := winoAlg_law (α := α) s.1
  obtain ⟨p1, p2, p3, p4⟩ := h.padding
  obtain ⟨t, ht⟩ := Int.eq_ofNat_of_zero_le p1
  obtain ⟨b, hb⟩ := Int.eq_ofNat_of_zero_le p2
  obtain ⟨l, hl⟩ := Int.eq_ofNat_of_zero_le p3
  obtain ⟨r, hr⟩ := Int.eq_ofNat_of_zero_le p4
  have e1 := unit_extent h.height
  have e2 := unit_extent h.width
  obtain ⟨out, e3, l3, v3⟩ := winoForward_ok law (winoAlg_local s.1) (g := q.geo) (padv := q.padv) (x := q.x) (w := q.w) (ker := s.2)
    (oh := o.1) (ow := o.2) (f := q.fresh) h.fresh ht hb hl hr (by omega) (by omega) h.x hk
  refine ⟨some s, out, ?_, hk, l3, ?_⟩
  · unfold winoRun
    rw [h.height, Res.bind_ok, h.width, Res.bind_ok, if_neg (by omega), e, Res.bind_ok]
    simp only [Int.toNat_natCast]
    rw [e3, Res.bind_ok]
  · intro n c i j hn hc hi hj
    rw [v3 n c i j hn hc hi hj]
    unfold convSpec
    rw [h.three.1, h.three.2, h.unit.1, h.unit.2.1, h.unit.2.2.1, h.unit.2.2.2]
    simp

/-- **C60.** Any number of runs of one operator with one kernel on images of any size, without negative padding: every run computes the
convolution, whatever the buffers hold. Missing: negative padding, another kernel in a later run, a kernel that is already transformed (all
three are computed wrongly, see below), rounding. -/
theorem C60_winograd_partial (O C : Nat) (w : List α) (qs : List (WinoReq α)) (os : List (Nat × Nat))
    (hk : ∀ q ∈ qs, q.geo.o = O ∧ q.geo.c = C ∧ q.w = w) (hv : List.Forall₂ WinoReq.Valid qs os) :
    ∃ rs, winoRuns none qs = .ok rs ∧ rs.map Prod.fst = os ∧ List.Forall₂ IsConvolution qs rs := by
  suffices h : ∀ st : WinoState α, StateOf O C w st → ∃ rs, winoRuns st qs = .ok rs ∧ rs.map Prod.fst = os ∧ List.Forall₂ IsConvolution qs rs from
    h none trivial
  induction hv with
  | nil => intro st _; exact ⟨[], rfl, rfl, .nil⟩
  | @cons q o qs os h1 _ ih =>
    intro st hst
    obtain ⟨rfl, rfl, rfl⟩ := hk q (by simp)
    obtain ⟨st', out, e, hst', hc⟩ := winoRun_ok st q o h1 hst
    obtain ⟨rs, e', h2, h3⟩ := ih (fun q' hq' => hk q' (by simp [hq'])) st' hst'
    refine ⟨(o, out) :: rs, ?_, by simp [h2], .cons hc h3⟩
    unfold winoRuns
    rw [e, Res.bind_ok, e', Res.bind_ok]

/-! ## examples -/

/-- buffers full of 7 -/
def junk : WinoFresh ℚ where
  padded n := List.replicate n 7
  input n := List.replicate n 7
  product n _ := List.replicate n 7
  output n := List.replicate n 7
  result n := List.replicate n 7

/-- one image and one kernel -/
def winoGeo (h w : Nat) (top bottom left right : Int) : ConvGeo :=
  { n := 1, c := 1, h := h, w := w, o := 1, kh := 3, kw := 3, top := top, bottom := bottom, left := left, right := right,
    sh := 1, sw := 1, dh := 1, dw := 1 }

/-- a run -/
def winoReq (g : ConvGeo) (x w : List ℚ) : WinoReq ℚ := { geo := g, padv := 5, x := x, w := w, freshK := fun n => List.replicate n 7, fresh := junk }

/-- the elements of an image -/
def ramp (n : Nat) : List ℚ := (List.range n).map fun i => ((i * i + 1 : Nat) : ℚ)

/-- the kernel that picks its centre -/
def centre : List ℚ := [0, 0, 0, 0, 1, 0, 0, 0, 0]
/-- the kernel that picks its upper left corner -/
def corner : List ℚ := [1, 0, 0, 0, 0, 0, 0, 0, 0]

theorem junk_ok : FreshOk junk := ⟨by simp [junk], by simp [junk], by simp [junk], by simp [junk], by simp [junk]⟩

example : ∃ rs, winoRuns none [winoReq (winoGeo 3 4 1 1 1 1) (ramp 12) centre, winoReq (winoGeo 5 3 1 2 0 1) (ramp 15) centre] = .ok rs ∧
    rs.map Prod.fst = [(3, 4), (6, 2)] := by
  obtain ⟨rs, h1, h2, -⟩ := C60_winograd_partial 1 1 centre
    [winoReq (winoGeo 3 4 1 1 1 1) (ramp 12) centre, winoReq (winoGeo 5 3 1 2 0 1) (ramp 15) centre] [(3, 4), (6, 2)]
    (by intro q hq; simp only [List.mem_cons, List.not_mem_nil, or_false] at hq; rcases hq with rfl | rfl <;> exact ⟨rfl, rfl, rfl⟩)
    (.cons ⟨by decide, by decide, by decide, by decide, by decide, by decide, by decide, fun n => by simp [winoReq], junk_ok⟩
      (.cons ⟨by decide, by decide, by decide, by decide, by decide, by decide, by decide, fun n => by simp [winoReq], junk_ok⟩ .nil))
  exact ⟨rs, h1, h2⟩

/-- A second run with another kernel computes with the first one. -/
theorem C60_stale_kernel_false : ∃ rs, winoRuns none [winoReq (winoGeo 3 3 0 0 0 0) (ramp 9) corner, winoReq (winoGeo 3 3 0 0 0 0) (ramp 9) centre] =
    .ok rs ∧ rs = [((1, 1), [1]), ((1, 1), [1])] ∧ convSpec (winoGeo 3 3 0 0 0 0) 5 (ramp 9) centre 0 0 0 0 = 17 := by
  refine ⟨_, ?_, rfl, ?_⟩ <;> decide +kernel

/-- A negative padding at the top drops the rows at the bottom: the convolution is that of other rows. -/
theorem C60_negative_top_false : ∃ rs, winoRuns none [winoReq (winoGeo 5 4 (-1) 0 0 0) (ramp 20) corner] = .ok rs ∧
    rs = [((2, 2), [1, 2, 17, 26])] ∧ convSpec (winoGeo 5 4 (-1) 0 0 0) 5 (ramp 20) corner 0 0 0 0 = 17 := by
  refine ⟨_, ?_, rfl, ?_⟩ <;> decide +kernel

/-- A negative padding at the bottom: the padding routine writes behind the padded image. -/
theorem C60_negative_bottom_false : winoRuns none [winoReq (winoGeo 5 4 0 (-1) 0 0) (ramp 20) corner] = .ub := by decide +kernel

/-- One row more at the top and one less at the bottom: the size does not change, and nothing is padded. -/
theorem C60_shifting_padding_false : ∃ rs, winoRuns none [winoReq (winoGeo 4 4 1 (-1) 0 0) (ramp 16) corner] = .ok rs ∧
    rs = [((2, 2), [1, 2, 17, 26])] ∧ convSpec (winoGeo 4 4 1 (-1) 0 0) 5 (ramp 16) corner 0 0 0 0 = 5 := by
  refine ⟨_, ?_, rfl, ?_⟩ <;> decide +kernel

/-- A kernel given as transformed (`kernel_winograd_transformed`, one 4x4 tile, here that of `centre`) is transformed again. -/
theorem C60_transformed_kernel_false : ∃ rs w', (List.range 16).map (fun p => (f23 : WinoAlg ℚ).kern (asMatrix 3 centre) (p / 4) (p % 4)) = w' ∧
    winoRuns none [winoReq (winoGeo 3 3 0 0 0 0) (ramp 9) w'] = .ok rs ∧
    rs = [((1, 1), [-11 / 4])] ∧ convSpec (winoGeo 3 3 0 0 0 0) 5 (ramp 9) centre 0 0 0 0 = 17 := by
  refine ⟨_, _, rfl, ?_, rfl, ?_⟩ <;> decide +kernel

end Verif.Props
