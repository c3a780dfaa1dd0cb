import Verif.Compiler.WinogradZip
import Verif.Props.Winograd
import Verif.Props.Conv
/-!
# C99: replacing convolutions by Winograd convolutions keeps the results
-/
namespace Verif.Props.WinogradZip
open Verif.Core Verif.Kernels Verif.Compiler.WinogradZip

variable {α : Type}

/-- the tensor stride, dilation or padding is stored completely -/
def Whole (p : IntParam) : Prop := p.data.length = p.shape.foldr (· * ·) 1

/-- no element is negative -/
def NonNeg (p : IntParam) : Prop := ∀ v ∈ p.data, 0 ≤ v

/-- the image and the memory that a run allocates are complete -/
structure RunOk (r : Run α) : Prop where
  x : r.x.data.length = r.x.n * r.x.c * r.x.h * r.x.w
  out : ∀ n i, (r.out n i).length = n
  kernel : ∀ n, (r.kernel n).length = n
  wino : FreshOk r.wino

/-- every constant operand has as many elements as its extents say -/
def ConstantsOk (nd : ConvNode α) : Prop := ∀ k ∈ nd.inputs, ∀ v, k.value = some v → v.2.length = v.1.foldr (· * ·) 1

/-- the padding that is in force is nowhere negative -/
def PaddingOk (nd : ConvNode α) (rs : List (Run α)) : Prop :=
  match nd.op with
  | .conv2dV2 => ∀ r ∈ rs, NonNeg r.pad
  | _ => ∀ p, nd.padding = some p → NonNeg p

/-- the replacement: what the option sets in the new node -/
theorem zip_some {nd : ConvNode α} {cpu : Bool} {z : WinoNode α} (h : zip cpu nd = .ok (some z)) :
    cpu = true ∧ nd.op ≠ .other ∧ nd.format = some "NCHW" ∧
    (∃ s s0 s1, nd.stride = some s ∧ s.data[0]? = some s0 ∧ s.data[1]? = some s1 ∧ s.data[2]? = some 1 ∧ s.data[3]? = some 1) ∧
    (∃ d d0 d1, nd.dilation = some d ∧ d.data[0]? = some d0 ∧ d.data[1]? = some d1 ∧ d.data[2]? = some 1 ∧ d.data[3]? = some 1) ∧
    (∃ k, kernelOf nd.op nd.inputs = .ok k ∧ ∃ o c, k.1[0]? = some o ∧ k.1[1]? = some c ∧ k.1[2]? = some 3 ∧ k.1[3]? = some 3 ∧ 32 ≤ o ∧ 32 ≤ c) ∧
    z = ⟨nd.name, decide (nd.op = .conv2dV2), nd.inputs, "NCHW", if nd.op = .conv2d then nd.padding else none, nd.paddingValue⟩ ∧
    (nd.op = .conv2d → ∃ p, nd.padding = some p) := by
  unfold zip at h
  split at h
  · cases h
  split at h
  · cases h
  rename_i h1 h2
  rw [Res.bind_eq_ok] at h
  obtain ⟨f, hf, h⟩ := h
  split at h
  · cases h
  rename_i h3
  simp only [Res.bind_eq_ok] at h
  obtain ⟨s, hs, d, hd, s', hs', k, hk, p, hp, c, hc, h⟩ := h
  have h3 : f = "NCHW" := by simpa using h3
  subst h3
  cases c with
  | false => simp at h
  | true =>
    simp only [if_true, Res.ok.injEq, Option.some.injEq] at h
    have hneed : ∀ {β : Type} {o : Option β} {b : β}, need o = .ok b → o = some b := by
      intro β o b e; cases o with
      | none => cases e
      | some x => cases e; rfl
    have hcell : ∀ {p : IntParam} {i : Nat} {v : Int}, cell p i = .ok v → p.data[i]? = some v := by
      intro p i v e; unfold cell at e; split at e
      · cases e; assumption
      · cases e
    have hext : ∀ {p : List Nat} {i : Nat} {v : Nat}, shapeAt p i = .ok v → p[i]? = some v := by
      intro p i v e; unfold shapeAt at e; split at e
      · cases e; assumption
      · cases e
    have hfour : ∀ {p : IntParam} {v : Int × Int}, fourCells p = .ok v → ∃ a b, p.data[0]? = some a ∧ p.data[1]? = some b ∧
        p.data[2]? = some v.1 ∧ p.data[3]? = some v.2 := by
      intro p v e; unfold fourCells at e; simp only [Res.bind_eq_ok] at e
      obtain ⟨a, ha, b, hb, c, hc, d, hd, e⟩ := e
      cases e
      exact ⟨a, b, hcell ha, hcell hb, hcell hc, hcell hd⟩
    unfold winogradCheck at hc
    simp only [Res.bind_eq_ok] at hc
    obtain ⟨kh, ekh, kw, ekw, i, ei, o, eo, hc⟩ := hc
    simp only [Res.ok.injEq, decide_eq_true_eq] at hc
    obtain ⟨rfl, rfl, c1, c2, c3, c4, c5, c6⟩ := hc
    have hdil : ∃ dd, nd.dilation = some dd ∧ fourCells dd = .ok d := by
      unfold dilationOf at hd
      split at hd
      · exact ⟨_, by assumption, hd⟩
      · cases hd; simp at c3
    obtain ⟨dd, hdd, hd4⟩ := hdil
    obtain ⟨s0, s1, e0, e1, e2, e3⟩ := hfour hs'
    obtain ⟨d0, d1, f0, f1, f2, f3⟩ := hfour hd4
    rw [c2] at e2; rw [c1] at e3; rw [c3] at f2; rw [c4] at f3
    have hpad : p = (if nd.op = .conv2d then nd.padding else none) ∧ (nd.op = .conv2d → ∃ p, nd.padding = some p) := by
      unfold paddingOf at hp
      split at hp
      · rename_i h4
        rw [Res.bind_eq_ok] at hp
        obtain ⟨q, hq, hp⟩ := hp
        cases hp
        rw [if_pos h4, hneed hq]
        exact ⟨rfl, fun _ => ⟨q, rfl⟩⟩
      · rename_i h4
        cases hp
        rw [if_neg h4]
        exact ⟨rfl, fun h => absurd h h4⟩
    refine ⟨by simpa using h1, h2, hneed hf, ⟨s, s0, s1, hneed hs, e0, e1, e2, e3⟩, ⟨dd, d0, d1, hdd, f0, f1, f2, f3⟩,
      ⟨k, hk, o, i, hext eo, hext ei, hext ekh, hext ekw, c6, c5⟩, ?_, hpad.2⟩
    rw [← h, hpad.1]

/-- two results with the same extents and the same element everywhere -/
theorem same_result [CommSemiring α] {g g' : ConvGeo} {padv : α} {x w : List α} {oh ow : Nat} {a b : List α} (e1 : g.n = g'.n) (e2 : g.o = g'.o)
    (hspec : ∀ n o i j, convSpec g padv x w n o i j = convSpec g' padv x w n o i j)
    (la : a.length = g.n * g.o * oh * ow) (ha : ∀ n o i j, n < g.n → o < g.o → i < oh → j < ow → a[((n * g.o + o) * oh + i) * ow + j]? = some (convSpec g padv x w n o i j))
    (lb : b.length = g'.n * g'.o * oh * ow)
    (hb : ∀ n o i j, n < g'.n → o < g'.o → i < oh → j < ow → b[((n * g'.o + o) * oh + i) * ow + j]? = some (convSpec g' padv x w n o i j)) : a = b := by
  rw [← e1, ← e2] at lb
  simp only [← e1, ← e2] at hb
  apply List.ext_getElem?
  intro p
  by_cases hp : p < g.n * g.o * oh * ow
  · obtain ⟨n, o, i, j, hn, ho, hi, hj, rfl⟩ := enc4_cover hp
    have h1 := ha n o i j hn ho hi hj
    have h2 := hb n o i j hn ho hi hj
    unfold enc4
    rw [h1, h2, hspec]
  · rw [List.getElem?_eq_none (by omega), List.getElem?_eq_none (by omega)]

section
variable [Field α] [CharZero α]

/-- what the kept state has to do with the kernel -/
def KeptOk (O C : Nat) (w : List α) (st : WinoKept α) : Prop := StateOf O C w st.kernel

omit [CharZero α] in
theorem keptOk_refresh {O C : Nat} {w : List α} {st : WinoKept α} (h : KeptOk O C w st) (v2 : Bool) (p : IntParam) :
    KeptOk O C w (refresh v2 p st) := by
  unfold refresh
  split
  · split
    · exact h
    · exact trivial
  · exact h

theorem run_same {nd : ConvNode α} {z : WinoNode α} (hz : zip true nd = .ok (some z)) (hp : nd.packed = false) (hc : ConstantsOk nd)
    {r : Run α} (hr : RunOk r) (hpad : PaddingOk nd [r]) {o c : Nat} {w : List α} (hk : kernelOf nd.op nd.inputs = .ok ([o, c, 3, 3], w))
    {st : WinoKept α} (hst : KeptOk o c w st) {y : (Nat × Nat) × List α} (hy : convRunNode nd r = .ok y) :
    ∃ st', winoRunNode z st r = .ok (st', y) ∧ KeptOk o c w st' := by
  obtain ⟨-, hop, hf, ⟨s, -, -, hs, -, -, hs2, hs3⟩, ⟨d, -, -, hd, -, -, hd2, hd3⟩, -, rfl, hpp⟩ := zip_some hz
  have hw : w.length = o * c * 9 := by
    have : ∃ k ∈ nd.inputs, k.value = some ([o, c, 3, 3], w) := by
      unfold kernelOf at hk
      split at hk
      · rename_i a b _ hin; rw [hin]
        refine ⟨b, by simp, ?_⟩
        cases hb : b.value with
        | none => rw [hb] at hk; cases hk
        | some v => rw [hb] at hk; cases hk; rfl
      · rename_i a b' b _ hin; rw [hin]
        refine ⟨b, by simp, ?_⟩
        cases hb : b.value with
        | none => rw [hb] at hk; cases hk
        | some v => rw [hb] at hk; cases hk; rfl
      · cases hk
    obtain ⟨k, hk1, hk2⟩ := this
    rw [hc k hk1 _ hk2]
    simp only [List.foldr]
    ring
  unfold convRunNode at hy
  rw [hf, hs] at hy
  simp only [need, Res.bind_ok] at hy
  rw [Res.bind_eq_ok] at hy
  obtain ⟨pp, hpi, hy⟩ := hy
  have hdi : dilationIn nd = .ok d := by unfold dilationIn; rw [hd]
  rw [hdi, Res.bind_ok, Res.bind_eq_ok] at hy
  obtain ⟨p4, hp4, hy⟩ := hy
  rw [Res.bind_eq_ok] at hy
  obtain ⟨s4, hs4, hy⟩ := hy
  rw [Res.bind_eq_ok] at hy
  obtain ⟨d4, hd4, hy⟩ := hy
  rw [hk, Res.bind_ok] at hy
  have hone : ∀ {q : IntParam} {v : Nat × Nat}, q.data[2]? = some 1 → q.data[3]? = some 1 → pair4 q = .ok v → v = (1, 1) := by
    intro q v e2 e3 e
    unfold pair4 at e
    split at e
    · split at e
      · rename_i n c a b hq
        rw [hq] at e2 e3
        simp at e2 e3
        subst e2; subst e3
        split at e
        · cases e
        · simp at e; exact e.symm
      · cases e
    · cases e
  obtain rfl := hone hs2 hs3 hs4
  obtain rfl := hone hd2 hd3 hd4
  simp only [ne_eq, not_true_eq_false, if_false] at hy
  split at hy
  · cases hy
  rename_i hcc
  have hcc : c = r.x.c := by simpa using hcc
  subst hcc
  rw [Res.bind_eq_ok] at hy
  obtain ⟨oh, hoh, hy⟩ := hy
  rw [Res.bind_eq_ok] at hy
  obtain ⟨ow, how, hy⟩ := hy
  have hpos : 0 ≤ oh ∧ 0 ≤ ow := by
    unfold conv2dRun at hy
    rw [hoh, Res.bind_ok, how, Res.bind_ok] at hy
    split at hy
    · cases hy
    · omega
  obtain ⟨oh', rfl⟩ := Int.eq_ofNat_of_zero_le hpos.1
  obtain ⟨ow', rfl⟩ := Int.eq_ofNat_of_zero_le hpos.2
  -- the padding
  have hnn : NonNeg pp := by
    unfold padIn at hpi
    unfold PaddingOk at hpad
    cases hop' : nd.op with
    | conv2d =>
      rw [hop'] at hpi hpad
      obtain ⟨q, hq⟩ := hpp hop'
      rw [hq] at hpi
      simp [need] at hpi
      subst hpi
      exact hpad _ hq
    | conv2dV2 =>
      rw [hop'] at hpi hpad
      simp at hpi
      subst hpi
      exact hpad r (by simp)
    | other => exact absurd hop' hop
  have hp4n : 0 ≤ p4.1 ∧ 0 ≤ p4.2.1 ∧ 0 ≤ p4.2.2.1 ∧ 0 ≤ p4.2.2.2 := by
    unfold padding4 at hp4
    split at hp4
    · split at hp4
      · rename_i hq
        unfold NonNeg at hnn
        rw [hq] at hnn
        split at hp4
        · cases hp4
        · cases hp4
          exact ⟨hnn _ (by simp), hnn _ (by simp), hnn _ (by simp), hnn _ (by simp)⟩
      · cases hp4
    · cases hp4
  -- the convolution
  obtain ⟨out, e1, l1, v1⟩ := C44_convolution (geometry r.x o 3 3 p4 (1, 1) (1, 1)) (nd.paddingValue.getD 0) r.x.data w
    (fun i => r.out (o * (oh' * ow')) i) oh' ow' hr.x (by rw [hw]; simp only [geometry]; ring) hoh how
    (fun i => hr.out _ i) false w rfl
  rw [hp] at hy
  simp only [Int.toNat_natCast] at hy
  rw [e1] at hy
  cases hy
  -- the Winograd convolution
  obtain ⟨st', out', e2, hst', l2, v2⟩ := winoRun_ok (refresh (decide (nd.op = .conv2dV2)) pp st).kernel
    ⟨geometry r.x o 3 3 p4 (1, 1) (1, 1), nd.paddingValue.getD 0, r.x.data, w, r.kernel, r.wino⟩ (oh', ow')
    ⟨⟨rfl, rfl⟩, ⟨rfl, rfl, rfl, rfl⟩, hp4n, hoh, how, hr.x, hw, hr.kernel, hr.wino⟩ (keptOk_refresh hst _ _)
  have heq : out = out' := same_result rfl rfl (fun _ _ _ _ => rfl) l1 v1 l2 v2
  refine ⟨⟨(refresh (decide (nd.op = .conv2dV2)) pp st).saved, st'⟩, ?_, hst'⟩
  unfold winoRunNode
  have hpi' : padIn (decide (nd.op = .conv2dV2)) (if nd.op = .conv2d then nd.padding else none) r.pad = .ok pp := by
    unfold padIn at hpi ⊢
    cases hop' : nd.op with
    | conv2d => rw [hop'] at hpi; simpa using hpi
    | conv2dV2 => rw [hop'] at hpi; simpa using hpi
    | other => exact absurd hop' hop
  have hk' : kernelOf (if decide (nd.op = .conv2dV2) = true then .conv2dV2 else .conv2d) nd.inputs = .ok ([o, r.x.c, 3, 3], w) := by
    cases hop' : nd.op with
    | conv2d => rw [hop'] at hk; simpa using hk
    | conv2dV2 => rw [hop'] at hk; simpa using hk
    | other => exact absurd hop' hop
  simp only [hpi', Res.bind_ok, hp4, hk', ne_eq, not_true_eq_false, if_false]
  rw [e2, Res.bind_ok, heq]

/-- **C99.** If the option replaces a convolution, every sequence of runs of it (on images of any sizes, with any paddings for `conv2d_v2`) that
succeeds gives the same results with the new operator, over exact arithmetic. Missing: negative padding, weights that are already packed (both
are computed wrongly, see below), rounding. -/
theorem C99_same_results_partial {nd : ConvNode α} {z : WinoNode α} (hz : zip true nd = .ok (some z)) (hp : nd.packed = false) (hc : ConstantsOk nd)
    (rs : List (Run α)) (hr : ∀ r ∈ rs, RunOk r) (hpad : PaddingOk nd rs) {ys : List ((Nat × Nat) × List α)} (hy : convRuns nd rs = .ok ys) :
    winoRunsNode z .new rs = .ok ys := by
  rcases rs with _ | ⟨r0, rs0⟩
  · exact hy
  obtain ⟨-, -, -, -, -, ⟨k, hk, o, c, k0, k1, k2, k3, -, -⟩, -, -⟩ := zip_some hz
  -- the first run shows that the kernel has four extents
  have hk4 : k.1 = [o, c, 3, 3] := by
    unfold convRuns at hy
    rw [Res.bind_eq_ok] at hy
    obtain ⟨y, hy, -⟩ := hy
    unfold convRunNode at hy
    simp only [Res.bind_eq_ok] at hy
    obtain ⟨_, _, _, _, _, _, _, _, _, _, _, _, _, _, k', hk', hy⟩ := hy
    rw [hk] at hk'
    cases hk'
    split at hy
    · cases hy
    · split at hy
      · rename_i a b c' d' heq
        rw [heq] at k0 k1 k2 k3
        simp at k0 k1 k2 k3
        rw [heq, k0, k1, k2, k3]
      · cases hy
  obtain ⟨ks, w⟩ := k
  simp only at hk4
  subst hk4
  generalize hrs : r0 :: rs0 = rs at *
  clear hrs
  suffices h : ∀ st : WinoKept α, KeptOk o c w st → winoRunsNode z st rs = .ok ys from h _ trivial
  induction rs generalizing ys with
  | nil => intro _ _; exact hy
  | cons r rs ih =>
    intro st hst
    unfold convRuns at hy
    simp only [Res.bind_eq_ok] at hy
    obtain ⟨y, hy1, ys', hys, hy⟩ := hy
    cases hy
    have hp1 : PaddingOk nd [r] ∧ PaddingOk nd rs := by
      unfold PaddingOk at hpad ⊢
      split
      · rename_i he
        rw [he] at hpad
        exact ⟨fun q hq => hpad q (by simp at hq; simp [hq]), fun q hq => hpad q (by simp [hq])⟩
      · rename_i he
        split at hpad
        · rename_i he'; exact absurd he' he
        · exact ⟨hpad, hpad⟩
    obtain ⟨st', e, hst'⟩ := run_same hz hp hc (hr r (by simp)) hp1.1 hk hst hy1
    have := ih (fun q hq => hr q (by simp [hq])) hp1.2 hys st' hst'
    unfold winoRunsNode
    rw [e, Res.bind_ok]
    simp only [this, Res.bind_ok]

end

/-! ## which nodes are replaced -/

/-- the parameters of a convolution that the option can read: format, stride (four numbers), dilation (four numbers, or absent), padding (for
`conv2d`), and a constant kernel with four extents -/
structure Readable (nd : ConvNode α) (st dl : Int × Int) (o c kh kw : Nat) : Prop where
  format : ∃ f, nd.format = some f
  stride : ∃ s a b, nd.stride = some s ∧ s.data = [a, b, st.1, st.2]
  dilation : match nd.dilation with
    | some d => ∃ a b, d.data = [a, b, dl.1, dl.2]
    | none => dl = (0, 0)
  padding : nd.op = .conv2d → ∃ p, nd.padding = some p
  kernel : ∃ w x y k, k.value = some ([o, c, kh, kw], w) ∧ nd.inputs = if nd.op = .conv2d then [x, k] else [x, y, k]

/-- **C99.** The option replaces exactly the `conv2d` and `conv2d_v2` nodes on the CPU with format NCHW, a constant 3x3 kernel, at least 32 input
and 32 output channels, stride 1 and a parameter `dilation` that is 1; the new node has the name, the operands, the format, the padding and the
padding value of the old one. -/
theorem C99_replaces_iff {nd : ConvNode α} {st dl : Int × Int} {o c kh kw : Nat} (h : Readable nd st dl o c kh kw) (cpu : Bool) :
    zip cpu nd = .ok (if cpu = true ∧ nd.op ≠ .other ∧ nd.format = some "NCHW" ∧ st = (1, 1) ∧ dl = (1, 1) ∧ kh = 3 ∧ kw = 3 ∧ 32 ≤ c ∧ 32 ≤ o then
      some ⟨nd.name, decide (nd.op = .conv2dV2), nd.inputs, "NCHW", if nd.op = .conv2d then nd.padding else none, nd.paddingValue⟩ else none) := by
  obtain ⟨⟨f, hf⟩, ⟨s, a, b, hs, hsd⟩, hd, hpd, w, x, y, k, hk, hin⟩ := h
  unfold zip
  by_cases hc : cpu = false
  · subst hc; simp
  by_cases ho : nd.op = .other
  · simp [ho]
  rw [if_neg hc, if_neg ho, hf]
  have hc : cpu = true := by simpa using hc
  simp only [need, Res.bind_ok]
  by_cases hn : f = "NCHW"
  · subst hn
    have e1 : dilationOf nd = .ok dl := by
      unfold dilationOf
      cases hdl : nd.dilation with
      | none => rw [hdl] at hd; rw [hd]
      | some d =>
        rw [hdl] at hd
        obtain ⟨a', b', hd⟩ := hd
        simp [fourCells, cell, hd]
    have e2 : fourCells s = .ok st := by simp [fourCells, cell, hsd]
    have e3 : kernelOf nd.op nd.inputs = .ok ([o, c, kh, kw], w) := by
      rw [hin]
      cases hop : nd.op with
      | conv2d => simp [kernelOf, need, hk]
      | conv2dV2 => simp [kernelOf, need, hk]
      | other => exact absurd hop ho
    have e4 : paddingOf nd = .ok (if nd.op = .conv2d then nd.padding else none) := by
      unfold paddingOf
      split
      · rename_i h4
        obtain ⟨p, hp⟩ := hpd h4
        rw [hp]; rfl
      · rfl
    rw [if_neg (by simp), hs]
    simp only [Res.bind_ok, e1, e2, e3, e4]
    unfold winogradCheck
    simp only [shapeAt, List.getElem?_cons_zero, List.getElem?_cons_succ, Res.bind_ok]
    congr 1
    obtain ⟨s1, s2⟩ := st
    obtain ⟨d1, d2⟩ := dl
    simp only [Prod.mk.injEq]
    by_cases hh : kh = 3 ∧ kw = 3 ∧ s2 = 1 ∧ s1 = 1 ∧ d1 = 1 ∧ d2 = 1 ∧ 32 ≤ c ∧ 32 ≤ o
    · obtain ⟨h1, h2, h3, h4, h5, h6, h7, h8⟩ := hh
      simp [h1, h2, h3, h4, h5, h6, h7, h8, hc, ho]
    · rw [if_neg (by simpa using hh), if_neg (by rintro ⟨-, -, -, ⟨h4, h3⟩, ⟨h5, h6⟩, h1, h2, h7, h8⟩; exact hh ⟨h1, h2, h3, h4, h5, h6, h7, h8⟩)]
  · rw [if_pos hn, if_neg (by rintro ⟨-, -, h, -⟩; exact hn (by simpa using h))]

/-- **C99.** With packing and Winograd both on, a convolution whose kernel has been packed is not replaced: what Winograd reads is never the
packed kernel. -/
theorem C99_packed_is_kept {nd : ConvNode α} (h : packsKernel nd = .ok true) (w : List α) (cpu : Bool) (z : WinoNode α) :
    zip cpu (packed nd w) ≠ .ok (some z) := by
  intro hz
  obtain ⟨-, hop, hf, ⟨s, -, -, hs, -, -, hs2, hs3⟩, ⟨d, -, -, hd, -, -, hd2, hd3⟩, ⟨k, hk, o, c, k0, k1, k2, k3, ho, hc⟩, -, -⟩ := zip_some hz
  have hs : nd.stride = some s := hs
  have hd : nd.dilation = some d := hd
  unfold packsKernel at h
  split at h
  · rename_i k' hk'
    -- packing does not change the extents
    have hsame : k'.1 = k.1 := by
      have hk : kernelOf nd.op (packed nd w).inputs = .ok k := hk
      unfold kernelOf at hk'
      split at hk'
      · rename_i a b hop' hin
        rw [hop'] at hk
        simp only [packed, hin] at hk
        cases hb : b.value with
        | none => rw [hb] at hk'; cases hk'
        | some v => rw [hb] at hk'; cases hk'; simp [kernelOf, need, hb] at hk; rw [← hk]
      · rename_i a b' b hop' hin
        rw [hop'] at hk
        simp only [packed, hin] at hk
        cases hb : b.value with
        | none => rw [hb] at hk'; cases hk'
        | some v => rw [hb] at hk'; cases hk'; simp [kernelOf, need, hb] at hk; rw [← hk]
      · cases hk'
    rw [hs, hd] at h
    simp only [need, Res.bind_ok, cell, hs2, hs3, hd2, hd3] at h
    unfold winogradCheck at h
    rw [hsame] at h
    simp [shapeAt, k0, k1, k2, k3, ho, hc] at h
  · cases h

/-! ## examples -/

/-- a run, given the values of what it reads -/
theorem convRunNode_eq {nd : ConvNode ℚ} {r : Run ℚ} {pp s d : IntParam} {p4 : Int × Int × Int × Int} {s4 d4 : Nat × Nat} {o c kh kw : Nat} {w : List ℚ}
    {oh ow : Int} (hf : nd.format = some "NCHW") (h1 : padIn (decide (nd.op = .conv2dV2)) nd.padding r.pad = .ok pp) (h2 : nd.stride = some s)
    (h3 : dilationIn nd = .ok d) (h4 : padding4 pp = .ok p4) (h5 : pair4 s = .ok s4) (h6 : pair4 d = .ok d4)
    (h7 : kernelOf nd.op nd.inputs = .ok ([o, c, kh, kw], w)) (h8 : c = r.x.c)
    (h9 : convForward r.x.h p4.1 p4.2.1 kh s4.1 d4.1 = .ok oh) (h10 : convForward r.x.w p4.2.2.1 p4.2.2.2 kw s4.2 d4.2 = .ok ow) :
    convRunNode nd r = conv2dRun true nd.packed (geometry r.x o kh kw p4 s4 d4) (nd.paddingValue.getD 0) r.x.data w
      fun i => r.out (o * (oh.toNat * ow.toNat)) i := by
  unfold convRunNode
  rw [hf, h2]
  simp only [need, Res.bind_ok, h1, h3, h4, h5, h6, h7, ne_eq, not_true_eq_false, if_false, h8]
  simp only [geometry, h9, h10, Res.bind_ok]

/-- a kernel of 32 x 32 filters, each the centre of the window for its own channel -/
def diag : List ℚ := (List.range 9216).map fun i => if i % 9 = 4 ∧ i / 9 % 32 = i / 288 then 1 else 0

/-- a 3x3 convolution with padding 1 -/
def node (w : List ℚ) (packed : Bool) : ConvNode ℚ :=
  { name := "conv", op := .conv2d, inputs := [⟨1, none⟩, ⟨2, some ([32, 32, 3, 3], w)⟩], format := some "NCHW",
    padding := some ⟨[4, 2], [0, 0, 0, 0, 1, 1, 1, 1]⟩, paddingValue := none, stride := some ⟨[4], [1, 1, 1, 1]⟩,
    dilation := some ⟨[4], [1, 1, 1, 1]⟩, dialations := none, packed := packed }

/-- the Winograd convolution -/
def winoNode (w : List ℚ) : WinoNode ℚ :=
  { name := "conv", v2 := false, inputs := [⟨1, none⟩, ⟨2, some ([32, 32, 3, 3], w)⟩], format := "NCHW",
    padding := some ⟨[4, 2], [0, 0, 0, 0, 1, 1, 1, 1]⟩, paddingValue := none }

theorem node_readable (w : List ℚ) (p : Bool) : Readable (node w p) (1, 1) (1, 1) 32 32 3 3 :=
  ⟨⟨"NCHW", rfl⟩, ⟨_, 1, 1, rfl, rfl⟩, ⟨1, 1, rfl⟩, fun _ => ⟨_, rfl⟩, w, _, ⟨0, none⟩, _, rfl, rfl⟩

theorem node_zip (w : List ℚ) (p : Bool) : zip true (node w p) = .ok (some (winoNode w)) := by
  rw [C99_replaces_iff (node_readable w p)]
  rfl

/-- an image of one pixel with 32 channels -/
def pixel (x : List ℚ) : Run ℚ :=
  { x := ⟨1, 32, 1, 1, x⟩, pad := ⟨[], []⟩, out := fun n _ => List.replicate n 7, kernel := fun n => List.replicate n 7, wino := junk }

theorem pixel_ok {x : List ℚ} (h : x.length = 32) : RunOk (pixel x) :=
  ⟨h, fun n i => by simp [pixel], fun n => by simp [pixel], junk_ok⟩

theorem node_runs (w x : List ℚ) (hw : w.length = 9216) (hx : x.length = 32) (p : Bool) (w' : List ℚ)
    (hw' : if p then pack8A 32 288 w 288 = .ok w' else w' = w) :
    ∃ y, convRunNode (node w' p) (pixel x) = .ok ((1, 1), y) ∧ y.length = 32 ∧ ∀ o, o < 32 →
      y[o]? = some (convSpec ⟨1, 32, 1, 1, 32, 3, 3, 1, 1, 1, 1, 1, 1, 1, 1⟩ 0 x w 0 o 0 0) := by
  obtain ⟨out, e, l, v⟩ := C44_convolution ⟨1, 32, 1, 1, 32, 3, 3, 1, 1, 1, 1, 1, 1, 1, 1⟩ (0 : ℚ) x w (fun _ => List.replicate (32 * (1 * 1)) 7) 1 1
    (by simp [hx]) (by simp [hw]) (by decide) (by decide) (by intro; simp) p w' hw'
  refine ⟨out, ?_, by simpa using l, fun o ho => ?_⟩
  · have : convRunNode (node w' p) (pixel x) = conv2dRun true p ⟨1, 32, 1, 1, 32, 3, 3, 1, 1, 1, 1, 1, 1, 1, 1⟩ (0 : ℚ) x w'
        (fun _ => List.replicate (32 * (1 * 1)) 7) := by
      rw [convRunNode_eq (nd := node w' p) (r := pixel x) (pp := ⟨[4, 2], [0, 0, 0, 0, 1, 1, 1, 1]⟩) (p4 := (1, 1, 1, 1)) (s := ⟨[4], [1, 1, 1, 1]⟩)
        (d := ⟨[4], [1, 1, 1, 1]⟩) (s4 := (1, 1)) (d4 := (1, 1)) (o := 32) (c := 32) (kh := 3) (kw := 3) (w := w') (oh := 1) (ow := 1) rfl rfl rfl rfl rfl rfl
        rfl rfl rfl
        (by show convForward ((1 : Nat) : Int) 1 1 ((3 : Nat) : Int) ((1 : Nat) : Int) ((1 : Nat) : Int) = _; decide)
        (by show convForward ((1 : Nat) : Int) 1 1 ((3 : Nat) : Int) ((1 : Nat) : Int) ((1 : Nat) : Int) = _; decide)]
      rfl
    rw [this, e]
  · have := v 0 o 0 0 (by decide) ho (by decide) (by decide)
    simpa using this

theorem pixel_spec (w x : List ℚ) (o : Nat) :
    convSpec ⟨1, 32, 1, 1, 32, 3, 3, 1, 1, 1, 1, 1, 1, 1, 1⟩ 0 x w 0 o 0 0 = ∑ c ∈ Finset.range 32, w.getD ((o * 32 + c) * 9 + 4) 0 * x.getD c 0 := by
  unfold convSpec
  refine Finset.sum_congr rfl fun c _ => ?_
  simp only [Finset.sum_range_succ, Finset.sum_range_zero]
  simp [xpad]
  left
  congr 2
  ring

/-- the first channel only -/
def first : List ℚ := 1 :: List.replicate 31 0

theorem first_spec (w : List ℚ) (o : Nat) :
    convSpec ⟨1, 32, 1, 1, 32, 3, 3, 1, 1, 1, 1, 1, 1, 1, 1⟩ 0 first w 0 o 0 0 = w.getD (o * 288 + 4) 0 := by
  rw [pixel_spec, Finset.sum_eq_single 0]
  · simp [first]; congr 2; ring
  · intro c hc h0
    obtain ⟨c, rfl⟩ := Nat.exists_eq_succ_of_ne_zero h0
    have : first.getD (c + 1) 0 = 0 := by
      unfold first
      rw [List.getD_cons_succ, List.getD_eq_getElem?_getD, List.getElem?_replicate]
      split <;> rfl
    rw [this, mul_zero]
  · simp

theorem diag_length : diag.length = 9216 := by simp [diag]

/-- the hypotheses of C99 are met: the option replaces this convolution, and it runs -/
example : zip true (node diag false) = .ok (some (winoNode diag)) ∧ ConstantsOk (node diag false) ∧ RunOk (pixel first) ∧
    PaddingOk (node diag false) [pixel first, pixel first] ∧ (∃ ys, convRuns (node diag false) [pixel first, pixel first] = .ok ys) ∧
    ∃ ys, winoRunsNode (winoNode diag) .new [pixel first, pixel first] = .ok ys ∧ ys.length = 2 := by
  have hc : ConstantsOk (node diag false) := by
    intro k hk v hv
    simp [node] at hk
    rcases hk with rfl | rfl
    · cases hv
    · cases hv; rw [diag_length]; rfl
  have hx : RunOk (pixel first) := pixel_ok (by simp [first])
  have hp : PaddingOk (node diag false) [pixel first, pixel first] := by
    intro p hp; cases hp; intro v hv; simp at hv; omega
  obtain ⟨y, e, -⟩ := node_runs diag first diag_length (by simp [first]) false diag rfl
  have he : convRuns (node diag false) [pixel first, pixel first] = .ok [((1, 1), y), ((1, 1), y)] := by
    simp only [convRuns, e, Res.bind_ok]
  exact ⟨node_zip _ _, hc, hx, hp, ⟨_, he⟩, _, C99_same_results_partial (node_zip _ _) rfl hc _ (by simp [hx]) hp he, rfl⟩

/-- a kernel with a single one, in the upper left corner of the fourth filter's window for channel 0 -/
def single : List ℚ := (List.range 9216).map fun i => if i = 1152 then 1 else 0

/-- Weights that are already packed (`kernel_packed`): the convolution unpacks them, the operator that replaces it does not. -/
theorem C99_packed_weights_false : ∃ w w' y y', pack8A 32 288 w 288 = .ok w' ∧ zip true (node w' true) = .ok (some (winoNode w')) ∧
    convRuns (node w' true) [pixel first] = .ok [y] ∧ winoRunsNode (winoNode w') .new [pixel first] = .ok [y'] ∧ y ≠ y' := by
  have hl : single.length = 9216 := by simp [single]
  have hpack := pack8A_ok 32 288 single (by rw [hl])
  generalize hw' : ((packAIdx 32 288 288).map fun i => single.getD i 0) = w' at hpack
  have hl' : w'.length = 9216 := by rw [← hw', List.length_map, packAIdx_len]
  obtain ⟨y, e, ly, vy⟩ := node_runs single first hl (by simp [first]) true w' hpack
  obtain ⟨y', e', ly', vy'⟩ := node_runs w' first hl' (by simp [first]) false w' rfl
  have hc : ConstantsOk (node w' false) := by
    intro k hk v hv
    simp [node] at hk
    rcases hk with rfl | rfl
    · cases hv
    · cases hv; rw [hl']; rfl
  have hp : PaddingOk (node w' false) [pixel first] := by
    intro p hp; cases hp; intro v hv; simp at hv; omega
  have he' : convRuns (node w' false) [pixel first] = .ok [((1, 1), y')] := by simp only [convRuns, e', Res.bind_ok]
  have hz := C99_same_results_partial (node_zip w' false) rfl hc [pixel first] (by simp [pixel_ok (x := first) (by simp [first])]) hp he'
  refine ⟨single, w', ((1, 1), y), ((1, 1), y'), hpack, node_zip _ _, by simp only [convRuns, e, Res.bind_ok], hz, ?_⟩
  intro heq
  have heq : y = y' := by simpa using heq
  have h1 := vy 0 (by decide)
  have h2 := vy' 0 (by decide)
  rw [first_spec] at h1 h2
  have a1 : single.getD (0 * 288 + 4) 0 = 0 := by simp [single]
  have a2 : w'.getD (0 * 288 + 4) 0 = 1 := by
    have hi : (packAIdx 32 288 288)[4]? = some 1152 := by decide +kernel
    rw [← hw', List.getD_eq_getElem?_getD, List.getElem?_map, show 0 * 288 + 4 = 4 from rfl, hi]
    simp [single]
  rw [heq, h2, a1, a2] at h1
  simp at h1

/-- A kernel that is computed by the module: the option asks the node for its constant value and throws, so the module cannot be compiled. -/
theorem C99_computed_kernel_false (nd : ConvNode α) (x k : Verif.Compiler.WinogradZip.Operand α) (h1 : nd.op = .conv2d) (h2 : nd.format = some "NCHW") (h3 : nd.inputs = [x, k])
    (h4 : k.value = none) (s d : IntParam) (h5 : nd.stride = some s) (h6 : 4 ≤ s.data.length) (h7 : nd.dilation = some d) (h8 : 4 ≤ d.data.length) :
    zip true nd = .err := by
  have hf : ∀ p : IntParam, 4 ≤ p.data.length → ∃ v, fourCells p = .ok v := by
    intro p hp
    have hc : ∀ i, i < 4 → ∃ v, cell p i = .ok v := by
      intro i hi
      unfold cell
      rw [List.getElem?_eq_getElem (by omega)]
      exact ⟨_, rfl⟩
    obtain ⟨a, ha⟩ := hc 0 (by decide)
    obtain ⟨b, hb⟩ := hc 1 (by decide)
    obtain ⟨c, hc'⟩ := hc 2 (by decide)
    obtain ⟨e, he⟩ := hc 3 (by decide)
    exact ⟨(c, e), by simp [fourCells, ha, hb, hc', he]⟩
  obtain ⟨v, hv⟩ := hf s h6
  obtain ⟨v', hv'⟩ := hf d h8
  have hd : dilationOf nd = .ok v' := by unfold dilationOf; rw [h7]; exact hv'
  unfold zip
  simp [h1, h2, h3, h5, need, hd, hv, kernelOf, h4]

example : zip true { node diag false with inputs := [⟨1, none⟩, ⟨2, none⟩] } = .err :=
  C99_computed_kernel_false _ ⟨1, none⟩ ⟨2, none⟩ rfl rfl rfl rfl _ _ rfl (by decide) rfl (by decide)

/-- The old spelling `dialations`: the convolution accepts it and runs; it is never replaced, and packing throws. -/
theorem C99_old_spelling_false : ∃ nd : ConvNode ℚ, (∃ ys, convRuns nd [pixel first] = .ok ys) ∧ zip true nd = .ok none ∧ packsKernel nd = .err := by
  refine ⟨{ node diag false with dilation := none, dialations := some ⟨[4], [1, 1, 1, 1]⟩ }, ?_, rfl, rfl⟩
  obtain ⟨y, e, -⟩ := node_runs diag first diag_length (by simp [first]) false diag rfl
  exact ⟨[((1, 1), y)], by
    simp only [convRuns]
    rw [show convRunNode { node diag false with dilation := none, dialations := some ⟨[4], [1, 1, 1, 1]⟩ } (pixel first) =
      convRunNode (node diag false) (pixel first) from rfl, e]
    rfl⟩

/-- a convolution that packing takes and the option leaves: 16 channels -/
example : packsKernel { node diag false with inputs := [⟨1, none⟩, ⟨2, some ([16, 16, 3, 3], [])⟩] } = .ok true := by decide

section
variable {α : Type}
/-- **C99.** With packing on, exactly the convolutions that Winograd would not take (by kernel, channels, stride and `dilation`) get a packed
kernel. -/
theorem C99_packs_iff {nd : ConvNode α} {st dl : Int × Int} {o c kh kw : Nat} (h : Readable nd st dl o c kh kw) (ho : nd.op ≠ .other)
    (hdil : nd.dilation ≠ none) :
    packsKernel nd = .ok (!decide (st = (1, 1) ∧ dl = (1, 1) ∧ kh = 3 ∧ kw = 3 ∧ 32 ≤ c ∧ 32 ≤ o)) := by
  obtain ⟨-, ⟨s, a, b, hs, hsd⟩, hd, -, w, x, y, k, hk, hin⟩ := h
  have e3 : kernelOf nd.op nd.inputs = .ok ([o, c, kh, kw], w) := by
    rw [hin]
    cases hop : nd.op with
    | conv2d => simp [kernelOf, need, hk]
    | conv2dV2 => simp [kernelOf, need, hk]
    | other => exact absurd hop ho
  cases hdl : nd.dilation with
  | none => exact absurd hdl hdil
  | some d =>
    rw [hdl] at hd
    obtain ⟨a', b', hd⟩ := hd
    unfold packsKernel
    rw [e3, hs, hdl]
    simp only [need, Res.bind_ok, cell, hsd, hd, List.getElem?_cons_zero, List.getElem?_cons_succ]
    unfold winogradCheck
    simp only [shapeAt, List.getElem?_cons_zero, List.getElem?_cons_succ, Res.bind_ok, Res.ok.injEq]
    congr 1
    obtain ⟨s1, s2⟩ := st
    obtain ⟨d1, d2⟩ := dl
    simp only [Prod.mk.injEq]
    grind

/-- **C99.** Which number of the padding is which: a convolution of either kind, with padding `[[0,0],[0,0],[t,b],[l,r]]` in force, makes the height from
`t`, `b` and the third extent of the kernel, the width from `l`, `r` and the fourth. -/
theorem C99_output_extents [CommSemiring α] {nd : ConvNode α} {run : Run α} {n0 n1 c0 c1 t b l r : Int} {sh sw dh dw : Int} {s d p : IntParam} {o c kh kw oh ow : Nat}
    {w ys : List α} (hp : padIn (decide (nd.op = .conv2dV2)) nd.padding run.pad = .ok p) (hpd : p.data = [n0, n1, c0, c1, t, b, l, r])
    (hs : nd.stride = some s) (hsd : s.data = [1, 1, sh, sw]) (hd : nd.dilation = some d) (hdd : d.data = [1, 1, dh, dw])
    (hk : kernelOf nd.op nd.inputs = .ok ([o, c, kh, kw], w)) (h : convRunNode nd run = .ok ((oh, ow), ys)) :
    (oh : Int) = (run.x.h + t + b - (dh * (kh - 1) + 1)).tdiv sh + 1 ∧ (ow : Int) = (run.x.w + l + r - (dw * (kw - 1) + 1)).tdiv sw + 1 := by
  have fwd : ∀ (x p q k s d y : Int), convForward x p q k s d = .ok y → y = (x + p + q - (d * (k - 1) + 1)).tdiv s + 1 := by
    intro x p q k s d y h
    unfold convForward dilatedKernel div32 at h
    simp only [Res.bind_eq_ok, int32_eq_ok] at h
    obtain ⟨_, ⟨_, rfl⟩, _, ⟨_, rfl⟩, _, ⟨_, ⟨_, rfl⟩, _, ⟨_, rfl⟩, _, rfl⟩, _, ⟨_, rfl⟩, q', hq, _, rfl⟩ := h
    split at hq
    · cases hq
    · rw [int32_eq_ok] at hq
      obtain ⟨_, rfl⟩ := hq
      rfl
  have pr : ∀ (q : IntParam) (a b : Int) (v : Nat × Nat), q.data = [1, 1, a, b] → pair4 q = .ok v → (v.1 : Int) = a ∧ (v.2 : Int) = b := by
    intro q a b v hq hv
    unfold pair4 at hv
    split at hv
    · rw [hq] at hv
      simp only [ne_eq, not_true_eq_false, or_self, if_false] at hv
      split at hv
      · cases hv; simp; omega
      · cases hv
    · cases hv
  unfold convRunNode at h
  simp only [Res.bind_eq_ok] at h
  obtain ⟨f, -, p', hp', s', hs', d', hd', p4, hp4, s4, hs4, d4, hd4, k, hk', h⟩ := h
  rw [hp] at hp'; cases hp'
  rw [hs] at hs'; cases hs'
  simp only [dilationIn, hd, Res.ok.injEq] at hd'; subst hd'
  rw [hk] at hk'; cases hk'
  obtain ⟨q1, q2⟩ := pr _ _ _ _ hsd hs4
  obtain ⟨q3, q4⟩ := pr _ _ _ _ hdd hd4
  unfold padding4 at hp4
  split at hp4
  · rw [hpd] at hp4
    simp only at hp4
    split at hp4
    · cases hp4
    cases hp4
    split at h
    · cases h
    simp only at h
    split at h
    · cases h
    simp only [Res.bind_eq_ok] at h
    obtain ⟨_, -, _, -, h⟩ := h
    unfold conv2dRun at h
    simp only [Res.bind_eq_ok] at h
    obtain ⟨u, hu, v, hv, h⟩ := h
    split at h
    · cases h
    simp only [Res.bind_eq_ok, Res.ok.injEq, Prod.mk.injEq] at h
    obtain ⟨_, _, ⟨rfl, rfl⟩, _⟩ := h
    have e1 := fwd _ _ _ _ _ _ _ hu
    have e2 := fwd _ _ _ _ _ _ _ hv
    simp only [geometry] at e1 e2
    rw [q1, q3] at e1
    rw [q2, q4] at e2
    rw [← e1, ← e2]
    omega
  · cases hp4
end

/-- non-vacuity of `C99_output_extents`: a run of the 1x1 image with padding 1 on all sides -/
example : ∃ ys, convRunNode (node diag false) (pixel first) = .ok ((1, 1), ys) := by
  obtain ⟨y, e, -⟩ := node_runs diag first diag_length (by simp [first]) false diag rfl
  exact ⟨y, e⟩

end Verif.Props.WinogradZip
