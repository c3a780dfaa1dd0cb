import Verif.Kernels.Depthwise
import Verif.Kernels.WinogradLemmas
import Verif.Props.Conv
/-!
# C61: depthwise convolution computes its defining sum

Specification: `dwSpec`, with the padded input `xpad` of C44.
-/
namespace Verif.Props
open Verif.Core Verif.Kernels

variable {α : Type} [CommSemiring α]

/-- the definition: every channel is convolved with its own kernel -/
def dwSpec (g : ConvGeo) (padv : α) (x w : List α) (n c i j : Nat) : α :=
  ∑ kr ∈ Finset.range g.kh, ∑ kc ∈ Finset.range g.kw,
    w.getD ((c * g.kh + kr) * g.kw + kc) 0 * xpad g padv x n c (i * g.sh + kr * g.dh - g.top) (j * g.sw + kc * g.dw - g.left)

/-! ## sums -/

theorem loopSum {f : α → Nat → Res α} {v : Nat → α} {n : Nat} {a : α} (h : ∀ i s, i < n → f s i = .ok (s + v i)) :
    loop f n a = .ok (a + ∑ i ∈ Finset.range n, v i) := by
  induction n with
  | zero => simp [loop]
  | succ n ih =>
    simp only [loop]
    rw [ih (fun i s hi => h i s (by omega)), Res.bind_ok, h n _ (by omega), Finset.sum_range_succ, add_assoc]

theorem image_read {g : ConvGeo} {padv : α} {x : List α} {n c : Nat} {r q : Int} (hx : x.length = g.n * g.c * g.h * g.w)
    (hn : n < g.n) (hc : c < g.c) (hr : 0 ≤ r ∧ r < g.h ∧ 0 ≤ q ∧ q < g.w) {xb : Nat} (hb : xb = (n * g.c + c) * (g.h * g.w)) :
    rdI x (xb + r * g.w + q) = .ok (xpad g padv x n c r q) := by
  unfold xpad
  rw [if_pos hr]
  obtain ⟨r', rfl⟩ := Int.eq_ofNat_of_zero_le hr.1
  obtain ⟨q', rfl⟩ := Int.eq_ofNat_of_zero_le hr.2.2.1
  have h1 : r' < g.h := by omega
  have h2 : q' < g.w := by omega
  have h3 : ((n * g.c + c) * g.h + r') * g.w + q' < x.length := by rw [hx]; exact rc_lt (rc_lt (rc_lt hn hc) h1) h2
  rw [hb, show (((n * g.c + c) * (g.h * g.w) : Nat) : Int) + (r' : Int) * g.w + q' = ((((n * g.c + c) * g.h + r') * g.w + q' : Nat) : Int) by
    push_cast; ring]
  apply rdI_ok
  rw [Int.toNat_natCast, Int.toNat_natCast, List.getD_eq_getElem?_getD, List.getElem?_eq_getElem h3, Option.getD_some]

theorem dwSum_ok {g : ConvGeo} {kh kw dh dw : Nat} {padv : α} {x w : List α} {n c : Nat} {h q : Int} {xb wb : Nat}
    (hx : x.length = g.n * g.c * g.h * g.w) (hn : n < g.n) (hc : c < g.c) (hb : xb = (n * g.c + c) * (g.h * g.w)) (hw : wb + kh * kw ≤ w.length) :
    dwSum g kh kw dh dw padv x w xb wb h q = .ok (∑ i ∈ Finset.range kh, ∑ j ∈ Finset.range kw,
      xpad g padv x n c (h * g.sh - g.top + i * dh) (q * g.sw - g.left + j * dw) * w.getD (wb + (i * kw + j)) 0) := by
  unfold dwSum
  rw [loopSum (v := fun i => ∑ j ∈ Finset.range kw,
      xpad g padv x n c (h * g.sh - g.top + i * dh) (q * g.sw - g.left + j * dw) * w.getD (wb + (i * kw + j)) 0), zero_add]
  intro i s hi
  refine loopSum fun j s hj => ?_
  unfold dwStep
  have hlt : wb + (i * kw + j) < w.length := by have := rc_lt hi hj; omega
  rw [rd_ok (v := w.getD (wb + (i * kw + j)) 0) (by rw [List.getD_eq_getElem?_getD, List.getElem?_eq_getElem hlt, Option.getD_some]), Res.bind_ok]
  generalize h * (g.sh : Int) - g.top + i * dh = r
  generalize q * (g.sw : Int) - g.left + j * dw = t
  by_cases hr : 0 ≤ r ∧ r < g.h ∧ 0 ≤ t ∧ t < g.w
  · rw [if_pos hr, image_read (padv := padv) hx hn hc hr hb, Res.bind_ok]
  · rw [if_neg hr]
    unfold xpad
    rw [if_neg hr]

/-! ## the general kernel -/

theorem dwGeneral_ok {g : ConvGeo} {padv : α} {x w : List α} {oh ow : Nat} {dst : List α} (hx : x.length = g.n * g.c * g.h * g.w)
    (hw : g.c * g.kh * g.kw ≤ w.length) (hd : dst.length = g.n * g.c * (oh * ow)) :
    ∃ out, dwGeneral g padv x w oh ow dst = .ok out ∧ out.length = g.n * g.c * oh * ow ∧
      ∀ n c i j, n < g.n → c < g.c → i < oh → j < ow → out[((n * g.c + c) * oh + i) * ow + j]? = some (dwSpec g padv x w n c i j) := by
  have e : Eff (g.n * g.c * oh * ow) (dec4 g.c oh ow (dwSpec g padv x w)) (fun dst => dwGeneral g padv x w oh ow dst)
      (fun p => ∃ n, n < g.n ∧ ∃ c, c < g.c ∧ ∃ h, h < oh ∧ ∃ q, q < ow ∧ p = enc4 g.c oh ow n c h q) := by
    unfold dwGeneral
    refine Eff.loop fun n hn => Eff.loop fun c hc => Eff.loop fun h hh => Eff.loop fun q hq => ?_
    refine (Eff.wr (p := enc4 g.c oh ow n c h q) (v := dwSpec g padv x w n c h q) (enc4_lt hn hc hh hq) (dec4_enc _ hc hh hq).symm).congr ?_
      (fun _ => Iff.rfl)
    intro out _
    rw [dwSum_ok hx hn hc rfl (by
      have : (c + 1) * (g.kh * g.kw) ≤ g.c * (g.kh * g.kw) := Nat.mul_le_mul_right _ hc
      rw [Nat.add_mul] at this
      rw [Nat.mul_assoc] at hw ⊢
      omega), Res.bind_ok]
    congr 1
    unfold dwSpec
    refine Finset.sum_congr rfl fun kr _ => Finset.sum_congr rfl fun kc _ => ?_
    rw [mul_comm]
    congr 1
    · congr 1; ring
    · congr 1 <;> ring
  obtain ⟨o, ho, l1, l2, -⟩ := e dst (by rw [hd]; ring)
  refine ⟨o, ho, l1, ?_⟩
  intro n c h q hn hc hh hq
  show o[enc4 g.c oh ow n c h q]? = _
  rw [l2 _ ⟨n, hn, c, hc, h, hh, q, hq, rfl⟩, dec4_enc _ hc hh hq]

/-! ## the special kernels -/

section
variable {e : DwEnv α} {L n c oh C : Nat} {V : Nat → Nat → Nat → Nat → α}

/-- what one position of the output gets -/
structure DwComputes (e : DwEnv α) (L n c oh C : Nat) (V : Nat → Nat → Nat → Nat → α) : Prop where
  chan : c < C
  room : ∀ h q, h < oh → q < e.ow → enc4 C oh e.ow n c h q < L
  base : ∀ h q, e.ob + h * e.ow + q = enc4 C oh e.ow n c h q
  sum : ∀ h q : Nat, h < oh → q < e.ow → dwSum e.g 3 3 1 1 e.padv e.x e.w e.xb e.wb (h : Int) (q : Int) = .ok (V n c h q)

theorem DwComputes.inner (k : DwComputes e L n c oh C V) {h q : Nat} (hh : h < oh) (hq : q < e.ow) :
    Eff L (dec4 C oh e.ow V) (fun dst => e.inner dst (h : Int) (q : Int)) (· = enc4 C oh e.ow n c h q) := by
  refine (Eff.wr (k.room h q hh hq) (dec4_enc V k.chan hh hq).symm).congr ?_ (fun _ => Iff.rfl)
  intro out _
  unfold DwEnv.inner
  rw [k.sum h q hh hq, Res.bind_ok,
    show (e.ob : Int) + (h : Int) * e.ow + q = ((e.ob + h * e.ow + q : Nat) : Int) by push_cast; ring, wrI_nat, k.base]

theorem DwComputes.four (k : DwComputes e L n c oh C V) {h q : Nat} (hh : h < oh) (hq : q + 3 < e.ow)
    (hl : ∀ l, l < 4 → e.lane ((h : Int) * e.g.sh - e.g.top) (((q : Int) + (l : Nat)) * e.g.sw - e.g.left) = .ok (V n c h (q + l))) :
    Eff L (dec4 C oh e.ow V) (fun dst => e.four dst (h : Int) (q : Int)) (fun p => ∃ l, l < 4 ∧ p = enc4 C oh e.ow n c h (q + l)) := by
  unfold DwEnv.four
  refine Eff.loop fun l hl' => ?_
  refine (Eff.wr (k.room h (q + l) hh (by omega)) (dec4_enc V k.chan hh (by omega)).symm).congr ?_ (fun _ => Iff.rfl)
  intro out _
  rw [hl l hl', Res.bind_ok,
    show (e.ob : Int) + (h : Int) * e.ow + (q + (l : Int)) = ((e.ob + h * e.ow + (q + l) : Nat) : Int) by push_cast; ring, wrI_nat, k.base]

theorem DwComputes.band (k : DwComputes e L n c oh C V) {rows h ws : Nat} {we : Int} (hh : h + rows ≤ oh) (hws : ws ≤ e.ow) (hwe : we ≤ e.ow)
    (hl : ∀ r q : Nat, r < rows → ws ≤ q → (q : Int) < we →
      e.lane (((h + r : Nat) : Int) * e.g.sh - e.g.top) ((q : Int) * e.g.sw - e.g.left) = .ok (V n c (h + r) q)) :
    Eff L (dec4 C oh e.ow V) (fun dst => e.band rows (ws : Int) we dst (h : Int))
      (fun p => ∃ r, r < rows ∧ ∃ q, q < e.ow ∧ p = enc4 C oh e.ow n c (h + r) q) := by
  obtain ⟨m, hm⟩ : ∃ m, m = ((we - ws) / 4).toNat := ⟨_, rfl⟩
  have hm4 : ws + 4 * m ≤ e.ow := by omega
  have hm5 : 0 < m → (ws : Int) + 4 * m ≤ we := by omega
  have e1 : Eff L (dec4 C oh e.ow V) (fun dst => loop (fun dst (q : Nat) => loop (fun dst (r : Nat) => e.inner dst ((h : Int) + r) q) rows dst) ws dst)
      (fun p => ∃ q, q < ws ∧ ∃ r, r < rows ∧ p = enc4 C oh e.ow n c (h + r) q) := by
    refine Eff.loop fun q hq => Eff.loop fun r hr => ?_
    have := k.inner (h := h + r) (q := q) (by omega) (by omega)
    simpa using this
  have e2 : Eff L (dec4 C oh e.ow V) (fun dst => loop (fun dst (i : Nat) => loop (fun dst (r : Nat) =>
        e.four dst ((h : Int) + r) ((ws : Int) + 4 * i)) rows dst) m dst)
      (fun p => ∃ i, i < m ∧ ∃ r, r < rows ∧ ∃ l, l < 4 ∧ p = enc4 C oh e.ow n c (h + r) (ws + 4 * i + l)) := by
    refine Eff.loop fun i hi => Eff.loop fun r hr => ?_
    have := k.four (h := h + r) (q := ws + 4 * i) (by omega) (by omega) (fun l hl' => by
      have := hl r (ws + 4 * i + l) hr (by omega) (by push_cast; omega)
      rw [← this]
      push_cast
      rfl)
    simpa using this
  have e3 : Eff L (dec4 C oh e.ow V) (fun dst => loop (fun dst (i : Nat) => loop (fun dst (r : Nat) =>
        e.inner dst ((h : Int) + r) ((ws : Int) + 4 * m + i)) rows dst) (e.ow - (ws + 4 * m)) dst)
      (fun p => ∃ i, i < e.ow - (ws + 4 * m) ∧ ∃ r, r < rows ∧ p = enc4 C oh e.ow n c (h + r) (ws + 4 * m + i)) := by
    refine Eff.loop fun i hi => Eff.loop fun r hr => ?_
    have := k.inner (h := h + r) (q := ws + 4 * m + i) (by omega) (by omega)
    simpa using this
  refine ((e1.seq e2).seq e3).congr ?_ ?_
  · intro out _
    unfold DwEnv.band
    simp only [Int.toNat_natCast, ← hm, show ((e.ow : Int) - ((ws : Int) + 4 * (m : Int))).toNat = e.ow - (ws + 4 * m) by omega]
    rcases loop (fun dst (q : Nat) => loop (fun dst (r : Nat) => e.inner dst ((h : Int) + r) q) rows dst) ws out with o | _ | _ <;> rfl
  · intro p
    constructor
    · rintro ⟨r, hr, q, hq, rfl⟩
      by_cases h1 : q < ws
      · exact .inl (.inl ⟨q, h1, r, hr, rfl⟩)
      · by_cases h2 : q < ws + 4 * m
        · exact .inl (.inr ⟨(q - ws) / 4, by omega, r, hr, (q - ws) % 4, by omega, by congr 1; omega⟩)
        · exact .inr ⟨q - (ws + 4 * m), by omega, r, hr, by congr 1; omega⟩
    · rintro ((⟨q, hq, r, hr, rfl⟩ | ⟨i, hi, r, hr, l, hl', rfl⟩) | ⟨i, hi, r, hr, rfl⟩)
      · exact ⟨r, hr, q, by omega, rfl⟩
      · exact ⟨r, hr, _, by omega, rfl⟩
      · exact ⟨r, hr, _, by omega, rfl⟩

theorem DwComputes.plane (k : DwComputes e L n c oh C V) {rows hs ws : Nat} {he we : Int} (hr0 : 0 < rows) (hhs : hs ≤ oh) (hhe : he ≤ oh)
    (hws : ws ≤ e.ow) (hwe : we ≤ e.ow)
    (hl : ∀ h q : Nat, hs ≤ h → (h : Int) < he → ws ≤ q → (q : Int) < we →
      e.lane ((h : Int) * e.g.sh - e.g.top) ((q : Int) * e.g.sw - e.g.left) = .ok (V n c h q)) :
    Eff L (dec4 C oh e.ow V) (fun dst => e.plane rows (hs : Int) he (ws : Int) we oh dst)
      (fun p => ∃ h, h < oh ∧ ∃ q, q < e.ow ∧ p = enc4 C oh e.ow n c h q) := by
  obtain ⟨m, hm⟩ : ∃ m, m = ((he - hs) / rows).toNat := ⟨_, rfl⟩
  have hm1 : 0 < m → (hs : Int) + rows * m ≤ he := by
    intro h0
    have : ((m : Nat) : Int) = (he - hs) / rows := by omega
    have := Int.mul_ediv_self_le (x := he - hs) (k := (rows : Int)) (by omega)
    rw [‹((m : Nat) : Int) = (he - hs) / rows›]
    omega
  have hm2 : hs + rows * m ≤ oh := by
    rcases Nat.eq_zero_or_pos m with h0 | h0
    · rw [h0]; omega
    · have := hm1 h0
      have : ((hs + rows * m : Nat) : Int) ≤ oh := by push_cast; omega
      omega
  have e1 : Eff L (dec4 C oh e.ow V) (fun dst => loop (fun dst (h : Nat) => loop (fun dst (q : Nat) => e.inner dst h q) e.ow dst) hs dst)
      (fun p => ∃ h, h < hs ∧ ∃ q, q < e.ow ∧ p = enc4 C oh e.ow n c h q) :=
    Eff.loop fun h hh => Eff.loop fun q hq => k.inner (by omega) hq
  have step : ∀ i, i < m → rows * i + rows ≤ rows * m := by
    intro i hi
    have : rows * (i + 1) ≤ rows * m := Nat.mul_le_mul_left _ hi
    rw [Nat.mul_add] at this
    omega
  have e2 : Eff L (dec4 C oh e.ow V) (fun dst => loop (fun dst (i : Nat) => e.band rows (ws : Int) we dst ((hs : Int) + rows * i)) m dst)
      (fun p => ∃ i, i < m ∧ ∃ r, r < rows ∧ ∃ q, q < e.ow ∧ p = enc4 C oh e.ow n c (hs + rows * i + r) q) := by
    refine Eff.loop fun i hi => ?_
    have s := step i hi
    have s2 := hm1 (by omega)
    have := k.band (rows := rows) (h := hs + rows * i) (ws := ws) (we := we) (by omega) hws hwe (fun r q hr hq1 hq2 => by
      refine hl (hs + rows * i + r) q (by omega) ?_ hq1 hq2
      have : ((hs + rows * i + rows : Nat) : Int) ≤ ((hs + rows * m : Nat) : Int) := by omega
      push_cast at this ⊢
      omega)
    simpa using this
  have e3 : Eff L (dec4 C oh e.ow V) (fun dst => loop (fun dst (i : Nat) => loop (fun dst (q : Nat) =>
        e.inner dst ((hs : Int) + rows * m + i) q) e.ow dst) (oh - (hs + rows * m)) dst)
      (fun p => ∃ i, i < oh - (hs + rows * m) ∧ ∃ q, q < e.ow ∧ p = enc4 C oh e.ow n c (hs + rows * m + i) q) := by
    refine Eff.loop fun i hi => Eff.loop fun q hq => ?_
    have := k.inner (h := hs + rows * m + i) (q := q) (by omega) hq
    simpa using this
  refine ((e1.seq e2).seq e3).congr ?_ ?_
  · intro out _
    unfold DwEnv.plane
    have : ((oh : Int) - ((hs : Int) + (rows : Int) * (m : Int))).toNat = oh - (hs + rows * m) := by
      rw [show (hs : Int) + (rows : Int) * (m : Int) = ((hs + rows * m : Nat) : Int) by push_cast; ring]
      omega
    simp only [Int.toNat_natCast, ← hm, this]
    rcases loop (fun dst (h : Nat) => loop (fun dst (q : Nat) => e.inner dst h q) e.ow dst) hs out with o | _ | _ <;> rfl
  · intro p
    constructor
    · rintro ⟨h, hh, q, hq, rfl⟩
      by_cases h1 : h < hs
      · exact .inl (.inl ⟨h, h1, q, hq, rfl⟩)
      · by_cases h2 : h < hs + rows * m
        · refine .inl (.inr ⟨(h - hs) / rows, ?_, (h - hs) % rows, Nat.mod_lt _ hr0, q, hq, ?_⟩)
          · rw [Nat.div_lt_iff_lt_mul hr0, Nat.mul_comm]; omega
          · congr 1
            have := Nat.div_add_mod (h - hs) rows
            omega
        · exact .inr ⟨h - (hs + rows * m), by omega, q, hq, by congr 1; omega⟩
    · rintro ((⟨h, hh, q, hq, rfl⟩ | ⟨i, hi, r, hr, q, hq, rfl⟩) | ⟨i, hi, q, hq, rfl⟩)
      · exact ⟨h, by omega, q, hq, rfl⟩
      · have := step i hi
        exact ⟨_, by omega, q, hq, rfl⟩
      · exact ⟨_, by omega, q, hq, rfl⟩

end

theorem dwRegs_ok {w : List α} {wb : Nat} (h : wb + 9 < w.length) :
    dwRegs w wb = .ok ((List.range 12).map fun p => w.getD (wb + p / 4 * 3 + p % 4) 0) := by
  refine forEach_ok fun p hp => ?_
  have hp := List.mem_range.1 hp
  have : wb + p / 4 * 3 + p % 4 < w.length := by omega
  exact rd_ok (by rw [List.getD_eq_getElem?_getD, List.getElem?_eq_getElem this, Option.getD_some])

theorem dwRegs_ub {w : List α} {wb : Nat} (h : wb + 9 = w.length) : dwRegs w wb = .ub := by
  unfold dwRegs
  have hk : ∀ p, p < 11 → rd w (wb + p / 4 * 3 + p % 4) = .ok (w.getD (wb + p / 4 * 3 + p % 4) 0) := by
    intro p hp
    have : wb + p / 4 * 3 + p % 4 < w.length := by omega
    exact rd_ok (by rw [List.getD_eq_getElem?_getD, List.getElem?_eq_getElem this, Option.getD_some])
  have h11 : rd w (wb + 11 / 4 * 3 + 11 % 4) = .ub := rd_ub (by omega)
  rw [show List.range 12 = [0, 1, 2, 3, 4, 5, 6, 7, 8, 9, 10, 11] from rfl]
  simp only [forEach, hk 0 (by omega), hk 1 (by omega), hk 2 (by omega), hk 3 (by omega), hk 4 (by omega), hk 5 (by omega), hk 6 (by omega),
    hk 7 (by omega), hk 8 (by omega), hk 9 (by omega), hk 10 (by omega), h11, Res.bind_ok]
  rfl

theorem lane_ok {e : DwEnv α} {n c : Nat} {r q : Int} (hx : e.x.length = e.g.n * e.g.c * e.g.h * e.g.w) (hn : n < e.g.n) (hc : c < e.g.c)
    (hb : e.xb = (n * e.g.c + c) * (e.g.h * e.g.w)) (hr : 0 ≤ r ∧ r + 2 < e.g.h) (hq : 0 ≤ q ∧ q + 2 < e.g.w) :
    e.lane r q = .ok (∑ i ∈ Finset.range 3, ∑ j ∈ Finset.range 3, xpad e.g e.padv e.x n c (r + i) (q + j) * e.regs.getD (4 * i + j) 0) := by
  unfold DwEnv.lane
  rw [loopSum (v := fun i => ∑ j ∈ Finset.range 3, xpad e.g e.padv e.x n c (r + i) (q + j) * e.regs.getD (4 * i + j) 0), zero_add]
  intro i s hi
  refine loopSum fun j s hj => ?_
  rw [image_read (padv := e.padv) hx hn hc (r := r + i) (q := q + j) (by omega) hb, Res.bind_ok]

/-- what the special kernels need: no negative padding; the kernel fits into the padded image; in every direction the image and the padding behind it
have at least two cells -/
structure DwFine (g : ConvGeo) : Prop where
  padding : 0 ≤ g.top ∧ 0 ≤ g.bottom ∧ 0 ≤ g.left ∧ 0 ≤ g.right
  fits : 3 ≤ g.h + g.top + g.bottom ∧ 3 ≤ g.w + g.left + g.right
  behind : 2 ≤ g.h + g.bottom ∧ 2 ≤ g.w + g.right

theorem conv_extent {x b a r : Int} {s : Nat} (hs : s = 1 ∨ s = 2) (h3 : 3 ≤ x + b + a) (h : convForward x b a 3 s 1 = .ok r) :
    r = (x + b + a - 3) / s + 1 := by
  unfold convForward dilatedKernel div32 at h
  have h0 : ¬ ((s : Nat) : Int) = 0 := by omega
  simp only [Res.bind_eq_ok, int32_eq_ok, if_neg h0] at h
  obtain ⟨_, ⟨_, rfl⟩, _, ⟨_, rfl⟩, _, ⟨_, ⟨_, rfl⟩, _, ⟨_, rfl⟩, _, rfl⟩, _, ⟨_, rfl⟩, _, ⟨_, rfl⟩, _, h⟩ := h
  rw [h, Int.tdiv_eq_ediv_of_nonneg (by omega)]
  rfl

/-- one axis: where the rows begin and end that need no test, and that they need none -/
theorem dwEdge_ok {x : Nat} {b a : Int} {s o : Nat} (hs : s = 1 ∨ s = 2) (hb : 0 ≤ b) (ha : 0 ≤ a) (h3 : 3 ≤ x + b + a) (h2 : 2 ≤ x + a)
    (h : convForward x b a 3 s 1 = .ok (o : Int)) :
    ∃ hs' : Nat, dwEdge s b = hs' ∧ hs' ≤ o ∧ (o : Int) - dwEdge s a ≤ o ∧
      ∀ i : Nat, hs' ≤ i → (i : Int) < o - dwEdge s a → 0 ≤ (i : Int) * s - b ∧ (i : Int) * s - b + 2 < x := by
  have ho := conv_extent hs h3 h
  obtain ⟨b, rfl⟩ := Int.eq_ofNat_of_zero_le hb
  obtain ⟨a, rfl⟩ := Int.eq_ofNat_of_zero_le ha
  rcases hs with rfl | rfl
  · have e1 : ∀ p : Nat, dwEdge 1 (p : Int) = p := by intro p; unfold dwEdge; split <;> simp_all
    rw [e1, e1]
    refine ⟨b, rfl, by omega, by omega, fun i _ _ => by omega⟩
  · have e2 : ∀ p : Nat, dwEdge 2 (p : Int) = (((p + 1) / 2 : Nat) : Int) := by
      intro p
      unfold dwEdge
      split
      · have : p = 0 := by omega
        subst this
        rfl
      · rw [if_neg (by decide), Int.tdiv_eq_ediv_of_nonneg (by omega)]
        omega
    rw [e2, e2]
    refine ⟨(b + 1) / 2, rfl, by omega, by omega, fun i _ _ => by omega⟩

theorem dwChannel_eff {s : Nat} {g : ConvGeo} {padv : α} {x w : List α} {oh ow n c : Nat} (hs : s = 1 ∨ s = 2) (hg : dwSpecialised s g = true)
    (hf : DwFine g) (hoh : convForward g.h g.top g.bottom g.kh g.sh g.dh = .ok (oh : Int))
    (how : convForward g.w g.left g.right g.kw g.sw g.dw = .ok (ow : Int))
    (hx : x.length = g.n * g.c * g.h * g.w) (hw : c * 9 + 9 < w.length) (hn : n < g.n) (hc : c < g.c) :
    Eff (g.n * g.c * oh * ow) (dec4 g.c oh ow (dwSpec g padv x w)) (fun dst => dwChannel s g padv x w oh ow n c dst)
      (fun p => ∃ h, h < oh ∧ ∃ q, q < ow ∧ p = enc4 g.c oh ow n c h q) := by
  simp only [dwSpecialised, Bool.and_eq_true, beq_iff_eq] at hg
  obtain ⟨⟨⟨⟨⟨k1, k2⟩, k3⟩, k4⟩, k5⟩, k6⟩ := hg
  rw [k1, k3, k5] at hoh
  rw [k2, k4, k6] at how
  obtain ⟨p1, p2, p3, p4⟩ := hf.padding
  obtain ⟨hs', a1, a2, a3, a4⟩ := dwEdge_ok hs p1 p2 hf.fits.1 hf.behind.1 hoh
  obtain ⟨ws', b1, b2, b3, b4⟩ := dwEdge_ok hs p3 p4 hf.fits.2 hf.behind.2 how
  obtain ⟨e, he⟩ : ∃ e : DwEnv α, e = DwEnv.mk g padv x w (n * (g.c * (g.h * g.w)) + c * (g.h * g.w)) (c * 9) (n * (g.c * (oh * ow)) + c * (oh * ow))
      ow ((List.range 12).map (fun p => w.getD (c * 9 + p / 4 * 3 + p % 4) 0)) := ⟨_, rfl⟩
  have hxb : n * (g.c * (g.h * g.w)) + c * (g.h * g.w) = (n * g.c + c) * (g.h * g.w) := by ring
  have spec : ∀ h q : Nat, dwSpec g padv x w n c h q = ∑ i ∈ Finset.range 3, ∑ j ∈ Finset.range 3,
      xpad g padv x n c ((h : Int) * g.sh - g.top + i) ((q : Int) * g.sw - g.left + j) * w.getD (c * 9 + (i * 3 + j)) 0 := by
    intro h q
    unfold dwSpec
    rw [k1, k2, k5, k6]
    refine Finset.sum_congr rfl fun i _ => Finset.sum_congr rfl fun j _ => ?_
    rw [mul_comm]
    congr 1
    · congr 1 <;> push_cast <;> ring
    · congr 1; ring
  have comp : DwComputes e (g.n * g.c * oh * ow) n c oh g.c (dwSpec g padv x w) := by
    subst he
    refine ⟨hc, fun h q hh hq => enc4_lt hn hc hh hq, fun h q => by simp only [enc4]; ring, fun h q _ _ => ?_⟩
    simp only
    rw [dwSum_ok hx hn hc hxb (by omega), spec]
    simp
  have heow : e.ow = ow := by rw [he]
  have := comp.plane (rows := if s = 1 then 2 else 1) (hs := hs') (ws := ws') (he := oh - dwEdge s g.bottom) (we := ow - dwEdge s g.right)
    (by split <;> omega) a2 a3 (by rw [heow]; exact b2) (by rw [heow]; exact b3) (fun h q h1 h2 h3 h4 => by
      have c1 := a4 h h1 h2
      have c2 := b4 q h3 h4
      rw [← k3] at c1
      rw [← k4] at c2
      rw [spec]
      subst he
      rw [lane_ok (n := n) (c := c) hx hn hc hxb c1 c2]
      simp only
      congr 1)
  rw [heow] at this
  refine this.congr ?_ (fun _ => Iff.rfl)
  intro out _
  unfold dwChannel
  rw [dwRegs_ok (by omega), Res.bind_ok, ← he, a1, b1]

/-- what is required of one call: the input has its extents, the weights are there, new memory has the size asked for; and if a special kernel
is used, what it needs, which includes that one more element can be read behind the weights -/
structure DwValid (isFloat : Bool) (g : ConvGeo) (x w : List α) (fresh : Nat → List α) (oh ow : Nat) : Prop where
  xlen : x.length = g.n * g.c * g.h * g.w
  wlen : g.c * g.kh * g.kw ≤ w.length
  fresh : ∀ n, (fresh n).length = n
  height : convForward g.h g.top g.bottom g.kh g.sh g.dh = .ok (oh : Int)
  width : convForward g.w g.left g.right g.kw g.sw g.dw = .ok (ow : Int)
  special : isFloat = true → (dwSpecialised 1 g = true ∨ dwSpecialised 2 g = true) → DwFine g ∧ g.c * 9 < w.length

/-- **C61.** Missing: for `FLOAT32` 3x3 kernels with stride 1 or 2, memory that ends with the weights, negative paddings and very small images (all
computed wrongly, see below); rounding. -/
theorem C61_depthwise_partial (dtype : Nat) (ht : dtype = 10 ∨ dtype = 11) (g : ConvGeo) (padv : α) (x w : List α) (fresh : Nat → List α) (oh ow : Nat)
    (h : DwValid (dtype == 10) g x w fresh oh ow) :
    ∃ out, dwRun dtype true false (1, g.c) g padv x w fresh = .ok ((oh, ow), out) ∧ out.length = g.n * g.c * oh * ow ∧
      ∀ n c i j, n < g.n → c < g.c → i < oh → j < ow → out[((n * g.c + c) * oh + i) * ow + j]? = some (dwSpec g padv x w n c i j) := by
  have sp : ∀ s, s = 1 ∨ s = 2 → dwSpecialised s g = true → DwFine g → g.c * 9 < w.length →
      ∃ out, dwSpecial s g padv x w oh ow (fresh (g.n * g.c * (oh * ow))) = .ok out ∧ out.length = g.n * g.c * oh * ow ∧
      ∀ n c i j, n < g.n → c < g.c → i < oh → j < ow → out[((n * g.c + c) * oh + i) * ow + j]? = some (dwSpec g padv x w n c i j) := by
    intro s hs hg hf hw
    have e : Eff (g.n * g.c * oh * ow) (dec4 g.c oh ow (dwSpec g padv x w)) (fun dst => dwSpecial s g padv x w oh ow dst)
        (fun p => ∃ n, n < g.n ∧ ∃ c, c < g.c ∧ ∃ h, h < oh ∧ ∃ q, q < ow ∧ p = enc4 g.c oh ow n c h q) :=
      Eff.loop fun n hn => Eff.loop fun c hc => dwChannel_eff hs hg hf h.height h.width h.xlen (by omega) hn hc
    obtain ⟨o, ho, l1, l2, -⟩ := e (fresh (g.n * g.c * (oh * ow))) (by rw [h.fresh]; ring)
    refine ⟨o, ho, l1, ?_⟩
    intro n c h q hn hc hh hq
    show o[enc4 g.c oh ow n c h q]? = _
    rw [l2 _ ⟨n, hn, c, hc, h, hh, q, hq, rfl⟩, dec4_enc _ hc hh hq]
  have comp : ∃ out, dwCompute (dtype == 10) false g padv x w oh ow (fresh (g.n * g.c * (oh * ow))) = .ok out ∧ out.length = g.n * g.c * oh * ow ∧
      ∀ n c i j, n < g.n → c < g.c → i < oh → j < ow → out[((n * g.c + c) * oh + i) * ow + j]? = some (dwSpec g padv x w n c i j) := by
    unfold dwCompute
    rw [if_neg (by simp)]
    by_cases hf : (dtype == 10) = true
    · rw [if_neg (by simp [hf])]
      by_cases s1 : dwSpecialised 1 g = true
      · rw [if_pos s1]
        obtain ⟨f1, f2⟩ := h.special hf (.inl s1)
        exact sp 1 (.inl rfl) s1 f1 f2
      · rw [if_neg s1]
        by_cases s2 : dwSpecialised 2 g = true
        · rw [if_pos s2]
          obtain ⟨f1, f2⟩ := h.special hf (.inr s2)
          exact sp 2 (.inr rfl) s2 f1 f2
        · rw [if_neg s2]
          exact dwGeneral_ok h.xlen h.wlen (h.fresh _)
    · rw [if_pos (by simp [hf])]
      exact dwGeneral_ok h.xlen h.wlen (h.fresh _)
  obtain ⟨out, e, l, v⟩ := comp
  refine ⟨out, ?_, l, v⟩
  unfold dwRun
  rw [if_neg (by simp), h.height, Res.bind_ok, h.width, Res.bind_ok, if_neg (by simp), if_neg (by omega), if_pos ht]
  simp only [Int.toNat_natCast]
  rw [e, Res.bind_ok]

/-- a 3x3 geometry -/
def dwGeo (n c h w s : Nat) (top bottom left right : Int) : ConvGeo :=
  { n := n, c := c, h := h, w := w, o := c, kh := 3, kw := 3, top := top, bottom := bottom, left := left, right := right,
    sh := s, sw := s, dh := 1, dw := 1 }

example : ∃ out, dwRun 10 true false (1, 2) (dwGeo 1 2 5 7 1 1 1 1 2) (5 : Int) (List.replicate 70 1) (List.replicate 19 2) (fun n => List.replicate n 7) =
    .ok ((5, 8), out) := by
  obtain ⟨out, h, -⟩ := C61_depthwise_partial 10 (.inl rfl) (dwGeo 1 2 5 7 1 1 1 1 2) (5 : Int) (List.replicate 70 1) (List.replicate 19 2)
    (fun n => List.replicate n 7) 5 8
    ⟨by decide, by decide, by simp, by decide, by decide, fun _ _ => ⟨⟨by decide, by decide, by decide⟩, by decide⟩⟩
  exact ⟨out, h⟩

/-- `FLOAT32`, 3x3, stride 1 or 2: the four-element load of the last three weights of the last channel reads behind the weights, for every such
call with a batch and a channel. -/
theorem C61_reads_behind_false (s : Nat) (hs : s = 1 ∨ s = 2) (g : ConvGeo) (hg : dwSpecialised s g = true) (hf : DwFine g) (padv : α) (x w : List α)
    (fresh : Nat → List α) (oh ow : Nat) (hoh : convForward g.h g.top g.bottom g.kh g.sh g.dh = .ok (oh : Int))
    (how : convForward g.w g.left g.right g.kw g.sw g.dw = .ok (ow : Int)) (hx : x.length = g.n * g.c * g.h * g.w)
    (hfr : ∀ n, (fresh n).length = n) (hw : w.length = g.c * 9) (hn : 0 < g.n) (hc : 0 < g.c) :
    dwRun 10 true false (1, g.c) g padv x w fresh = .ub := by
  have inner : ∀ dst : List α, dst.length = g.n * g.c * oh * ow → loop (fun dst c => dwChannel s g padv x w oh ow 0 c dst) g.c dst = .ub := by
    intro dst hd
    refine loop_ub (k := g.c - 1) (fun _ dst => dst.length = g.n * g.c * oh * ow) hd (by omega) ?_ ?_
    · intro c dst' hc' hd'
      obtain ⟨o, e, l, -, -⟩ := dwChannel_eff (padv := padv) hs hg hf hoh how hx (n := 0) (c := c) (w := w) (by omega) hn (by omega) dst' hd'
      exact ⟨o, e, l⟩
    · intro dst' _
      unfold dwChannel
      rw [dwRegs_ub (by omega)]
      rfl
  have special : dwSpecial s g padv x w oh ow (fresh (g.n * g.c * (oh * ow))) = .ub := by
    unfold dwSpecial
    exact loop_ub (k := 0) (fun _ dst => dst.length = g.n * g.c * oh * ow) (by rw [hfr]; ring) hn (fun i _ hi _ => absurd hi (by omega))
      (fun dst hd => inner dst hd)
  have comp : dwCompute (10 == 10) false g padv x w oh ow (fresh (g.n * g.c * (oh * ow))) = .ub := by
    unfold dwCompute
    rw [if_neg (by simp), if_neg (by simp)]
    rcases hs with rfl | rfl
    · rw [if_pos hg]; exact special
    · rw [if_neg, if_pos hg]
      · exact special
      · simp only [dwSpecialised, Bool.and_eq_true, beq_iff_eq] at hg ⊢
        omega
  unfold dwRun
  rw [if_neg (by simp), hoh, Res.bind_ok, how, Res.bind_ok, if_neg (by simp), if_neg (by omega), if_pos (.inl rfl)]
  simp only [Int.toNat_natCast]
  rw [comp]
  rfl

example : dwRun 10 true false (1, 1) (dwGeo 1 1 3 3 1 0 0 0 0) (0 : Int) [1, 2, 3, 4, 5, 6, 7, 8, 9] [1, 1, 1, 1, 1, 1, 1, 1, 1]
    (fun n => List.replicate n 7) = .ub :=
  C61_reads_behind_false 1 (.inl rfl) (dwGeo 1 1 3 3 1 0 0 0 0) (by decide) ⟨by decide, by decide, by decide⟩ 0 _ _ _ 1 1 (by decide) (by decide)
    (by decide) (by simp) (by decide) (by decide) (by decide)

/-- Stride 2, an image of two rows without padding: the output has one row (`(2 - 3) / 2 + 1`), and the third row that the vectorised part reads does
not exist. -/
theorem C61_small_image_false : convForward 2 0 0 3 2 1 = .ok 1 ∧
    dwRun 10 true false (1, 1) (dwGeo 1 1 2 9 2 0 0 0 0) (0 : Int) (List.replicate 18 1) (List.replicate 10 1) (fun n => List.replicate n 7) = .ub := by
  decide

/-- One column, padding on the left only: positions to the right of the output row are written. -/
theorem C61_left_padding_false : convForward 1 2 0 3 1 1 = .ok 1 ∧
    dwRun 10 true false (1, 1) (dwGeo 1 1 4 1 1 0 0 2 0) (0 : Int) (List.replicate 4 1) (List.replicate 10 1) (fun n => List.replicate n 7) = .ub := by
  decide

/-- A negative padding: rows before the first and behind the last are written. -/
theorem C61_negative_padding_false :
    dwRun 10 true false (1, 1) (dwGeo 1 1 5 3 1 (-1) 0 0 0) (0 : Int) (List.replicate 15 1) (List.replicate 10 1) (fun n => List.replicate n 7) = .ub ∧
    dwRun 10 true false (1, 1) (dwGeo 1 1 6 3 1 0 (-1) 0 0) (0 : Int) (List.replicate 18 1) (List.replicate 10 1) (fun n => List.replicate n 7) = .ub := by
  decide

/-- **C61, refusals**: weights of another type or with another number of channels, with a channel multiplier, packed weights, other types. -/
theorem C61_rejects (dtype : Nat) (same packed : Bool) (wc : Nat × Nat) (g : ConvGeo) (padv : α) (x w : List α) (fresh : Nat → List α) (oh ow : Nat)
    (hoh : convForward g.h g.top g.bottom g.kh g.sh g.dh = .ok (oh : Int)) (how : convForward g.w g.left g.right g.kw g.sw g.dw = .ok (ow : Int))
    (h : same = false ∨ wc ≠ (1, g.c) ∨ packed = true ∨ (dtype ≠ 10 ∧ dtype ≠ 11)) :
    dwRun dtype same packed wc g padv x w fresh = .err := by
  unfold dwRun
  by_cases h1 : (!same) = true ∨ wc.2 ≠ g.c
  · rw [if_pos h1]
  · rw [if_neg h1, hoh, Res.bind_ok, how, Res.bind_ok]
    by_cases h2 : wc.1 ≠ 1
    · rw [if_pos h2]
    · rw [if_neg h2, if_neg (by omega)]
      have hw : wc = (1, g.c) := by
        obtain ⟨a, b⟩ := wc
        simp only [not_or, ne_eq, not_not] at h1 h2
        rw [h2, h1.2]
      have hsame : same = true := by cases same <;> simp_all
      by_cases h3 : dtype = 10 ∨ dtype = 11
      · rw [if_pos h3]
        have hp : packed = true := by
          rcases h with h | h | h | h
          · rw [hsame] at h; exact absurd h (by simp)
          · exact absurd hw h
          · exact h
          · omega
        unfold dwCompute
        rw [if_pos hp]
        rfl
      · rw [if_neg h3]

example : dwRun 10 true true (1, 1) (dwGeo 1 1 3 3 1 0 0 0 0) (0 : Int) [1, 2, 3, 4, 5, 6, 7, 8, 9] [1, 1, 1, 1, 1, 1, 1, 1, 1]
    (fun n => List.replicate n 7) = .err :=
  C61_rejects _ _ _ _ _ _ _ _ _ 1 1 (by decide) (by decide) (.inr (.inr (.inl rfl)))

end Verif.Props
