import Verif.Kernels.Yolo
import Verif.Kernels.TopKLemmas
import Verif.Kernels.Eff
import Verif.Core.Holds
import Verif.Core.ShapeLemmas
import Verif.Props.Select
/-!
# Lemmas on yolo and yolo_poster
-/
namespace Verif.Kernels
open Verif.Core Verif.Spec Verif.Props

variable {α : Type}

/-! ## updates in place -/

/-- a step that replaces the elements at `D` by their images, given that they are still those of `data` -/
def Upd (data : List α) (act : α → α) (f : List α → Res (List α)) (D : Nat → Prop) : Prop :=
  ∀ out, out.length = data.length → (∀ p, D p → out[p]? = data[p]?) → ∃ out', f out = .ok out' ∧ out'.length = data.length ∧
    (∀ p, D p → out'[p]? = (data[p]?).map act) ∧ ∀ p, ¬ D p → out'[p]? = out[p]?

theorem Upd.loop {data : List α} {act : α → α} {f : List α → Nat → Res (List α)} {n : Nat} {D : Nat → Nat → Prop}
    (h : ∀ i, i < n → Upd data act (fun out => f out i) (D i)) (hd : ∀ i j p, i < n → j < n → D i p → D j p → i = j) :
    Upd data act (fun out => loop f n out) (fun p => ∃ i, i < n ∧ D i p) := by
  intro out hl ho
  obtain ⟨out', e, h1, h2, h3⟩ := loop_inv (f := f) (n := n) (s := out)
    (fun k o => o.length = data.length ∧ (∀ p, (∃ i, i < k ∧ D i p) → o[p]? = (data[p]?).map act) ∧
      ∀ p, (¬ ∃ i, i < k ∧ D i p) → o[p]? = out[p]?)
    ⟨hl, by rintro p ⟨i, hi, _⟩; omega, fun _ _ => rfl⟩
    (by
      intro i o hi ⟨a1, a2, a3⟩
      obtain ⟨o', e, b1, b2, b3⟩ := h i hi o a1 (by
        intro p hp
        rw [a3 p (by rintro ⟨j, hj, hd'⟩; have := hd j i p (by omega) hi hd' hp; omega)]
        exact ho p ⟨i, hi, hp⟩)
      refine ⟨o', e, b1, ?_, ?_⟩
      · rintro p ⟨j, hj, hd'⟩
        by_cases hp : D i p
        · exact b2 p hp
        · rw [b3 p hp]
          have : j ≠ i := fun hc => hp (hc ▸ hd')
          exact a2 p ⟨j, by omega, hd'⟩
      · intro p hp
        rw [b3 p (fun hc => hp ⟨i, by omega, hc⟩)]
        exact a3 p (fun ⟨j, hj, hd'⟩ => hp ⟨j, by omega, hd'⟩))
  exact ⟨out', e, h1, h2, h3⟩

theorem Upd.congr {data : List α} {act : α → α} {f f' : List α → Res (List α)} {D D' : Nat → Prop} (h : Upd data act f D)
    (hf : ∀ out, out.length = data.length → f' out = f out) (hD : ∀ p, D' p ↔ D p) : Upd data act f' D' := by
  intro out hl ho
  obtain ⟨out', e, h1, h2, h3⟩ := h out hl fun p hp => ho p ((hD p).2 hp)
  exact ⟨out', by rw [hf out hl, e], h1, fun p hp => h2 p ((hD p).1 hp), fun p hp => h3 p (fun hc => hp ((hD p).2 hc))⟩

theorem activateArray_upd {data : List α} (act : α → α) {start n : Nat} (h : start + n ≤ data.length) :
    Upd data act (activateArray act start n) (fun p => start ≤ p ∧ p < start + n) := by
  have := Upd.loop (data := data) (act := act) (n := n) (f := fun d i => do
    let v ← rd d (start + i)
    wr d (start + i) (act v)) (D := fun i p => p = start + i) (by
      intro i hi out hl ho
      have hlt : start + i < data.length := by omega
      have hv := ho (start + i) rfl
      rw [List.getElem?_eq_getElem hlt] at hv
      refine ⟨out.set (start + i) (act data[start + i]), ?_, by simp [hl], ?_, ?_⟩
      · show (rd out (start + i) >>= _) = _
        rw [rd_ok hv, Res.bind_ok, wr_ok _ (by omega)]
      · rintro p rfl
        rw [set_eq (by omega), List.getElem?_eq_getElem hlt]; rfl
      · intro p hp; exact set_ne (fun h => hp h.symm)) (by intro i j p _ _ h1 h2; omega)
  refine this.congr (fun _ _ => rfl) ?_
  intro p
  constructor
  · intro ⟨h1, h2⟩; exact ⟨p - start, by omega, by omega⟩
  · rintro ⟨i, hi, rfl⟩; omega

/-- `entry_index` of an entry of an anchor -/
theorem entryIndex_ok {W H K outputs b n e r c : Nat} (hr : r < H) (hc : c < W)
    (hb : b * outputs + n * (W * H) * (4 + K + 1) + e * (W * H) + (r * W + c) ≤ 2147483647) :
    entryIndex W H K outputs b (n * W * H + (r * W + c)) e = .ok (b * outputs + n * (W * H) * (4 + K + 1) + e * (W * H) + (r * W + c)) := by
  have hlt : r * W + c < W * H := by rw [Nat.mul_comm W H]; exact cell2_lt hr hc
  have hp : 0 < W * H := by omega
  have hq : (n * W * H + (r * W + c)) / (W * H) = n := by
    rw [Nat.mul_assoc, Nat.add_comm, Nat.add_mul_div_right _ _ hp, Nat.div_eq_of_lt hlt]; omega
  have hm : (n * W * H + (r * W + c)) % (W * H) = r * W + c := by
    rw [Nat.mul_assoc, Nat.add_comm, Nat.add_mul_mod_self_right, Nat.mod_eq_of_lt hlt]
  unfold entryIndex
  rw [hq, hm, if_neg (by omega), if_pos hb]

theorem entry_lin {B N K H W b n e r c : Nat} :
    lin [B, N * (K + 4 + 1), H, W] [b, n * (K + 4 + 1) + e, r, c] =
      b * (N * (K + 4 + 1) * H * W) + n * (W * H) * (4 + K + 1) + e * (W * H) + (r * W + c) := by
  simp only [lin, prod]
  ring

theorem activateAnchor_upd {data : List α} (act : α → α) {B N K H W b n : Nat} (hb : b < B) (hn : n < N) (hW : 0 < W) (hH : 0 < H)
    (hl : data.length = B * (N * ((5 + K) * (W * H)))) (hs : data.length ≤ 2147483647) :
    Upd data act (activateAnchor act W H K (N * (K + 4 + 1) * H * W) b n)
      (fun p => ∃ e, e < 5 + K ∧ e ≠ 2 ∧ e ≠ 3 ∧ ∃ q, q < W * H ∧ p = (b * N + n) * ((5 + K) * (W * H)) + e * (W * H) + q) := by
  have hbase : ∀ e, b * (N * (K + 4 + 1) * H * W) + n * (W * H) * (4 + K + 1) + e * (W * H) + (0 * W + 0) =
      (b * N + n) * ((5 + K) * (W * H)) + e * (W * H) := by intro e; ring
  have hlt : (b * N + n) * ((5 + K) * (W * H)) + (5 + K) * (W * H) ≤ data.length := by
    rw [hl, show B * (N * ((5 + K) * (W * H))) = B * N * ((5 + K) * (W * H)) by ring]
    have := Nat.mul_le_mul_right ((5 + K) * (W * H)) (cell2_lt hb hn)
    rw [Nat.succ_mul] at this
    exact this
  generalize hBs : (b * N + n) * ((5 + K) * (W * H)) = base at hbase hlt
  have h5 : (5 + K) * (W * H) = 4 * (W * H) + (1 + K) * W * H := by ring
  have h4 : 4 * (W * H) = 2 * W * H + 2 * (W * H) := by ring
  have e0 : entryIndex W H K (N * (K + 4 + 1) * H * W) b (n * W * H) 0 = .ok base := by
    have := @entryIndex_ok W H K (N * (K + 4 + 1) * H * W) b n 0 0 0 hH hW (by rw [hbase]; omega)
    rw [hbase] at this
    simpa using this
  have e4 : entryIndex W H K (N * (K + 4 + 1) * H * W) b (n * W * H) 4 = .ok (base + 4 * (W * H)) := by
    have := @entryIndex_ok W H K (N * (K + 4 + 1) * H * W) b n 4 0 0 hH hW (by rw [hbase]; omega)
    rw [hbase] at this
    simpa using this
  intro out ho hD
  have hP : 0 < W * H := Nat.mul_pos hW hH
  have dq : ∀ e q, q < W * H → (e * (W * H) + q < 2 * W * H ↔ e < 2) ∧ (4 * (W * H) ≤ e * (W * H) + q ↔ 4 ≤ e) ∧
      (e * (W * H) + q < 4 * (W * H) + (1 + K) * W * H ↔ e < 5 + K) := by
    intro e q hq
    rw [← h5, Nat.mul_assoc 2]
    refine ⟨⟨fun h => ?_, fun h => cell2_lt h hq⟩, ⟨fun h => ?_, fun h => ?_⟩, ⟨fun h => ?_, fun h => cell2_lt h hq⟩⟩
    · by_contra hc
      have := Nat.mul_le_mul_right (W * H) (show 2 ≤ e by omega)
      omega
    · by_contra hc
      have := Nat.mul_le_mul_right (W * H) (show e + 1 ≤ 4 by omega)
      rw [Nat.succ_mul] at this
      omega
    · have := Nat.mul_le_mul_right (W * H) h
      omega
    · by_contra hc
      have := Nat.mul_le_mul_right (W * H) (show 5 + K ≤ e by omega)
      omega
  have split : ∀ p, base ≤ p → ∃ e q, q < W * H ∧ p = base + e * (W * H) + q := by
    intro p hp
    refine ⟨(p - base) / (W * H), (p - base) % (W * H), Nat.mod_lt _ hP, ?_⟩
    have := Nat.div_add_mod (p - base) (W * H)
    rw [Nat.mul_comm] at this
    omega
  obtain ⟨o1, f1, a1, a2, a3⟩ := activateArray_upd (data := data) act (start := base) (n := 2 * W * H) (by omega) out ho (by
    intro p ⟨hp, hp'⟩
    obtain ⟨e, q, hq, rfl⟩ := split p hp
    have := (dq e q hq).1.1 (by omega)
    exact hD _ ⟨e, by omega, by omega, by omega, q, hq, rfl⟩)
  obtain ⟨o2, f2, b1, b2, b3⟩ := activateArray_upd (data := data) act (start := base + 4 * (W * H)) (n := (1 + K) * W * H) (by omega) o1 a1 (by
    intro p ⟨hp, hp'⟩
    rw [a3 p (by omega)]
    obtain ⟨e, q, hq, rfl⟩ := split p (by omega)
    have h1 := (dq e q hq).2.1.1 (by omega)
    have h2 := (dq e q hq).2.2.1 (by omega)
    exact hD _ ⟨e, by omega, by omega, by omega, q, hq, rfl⟩)
  refine ⟨o2, ?_, b1, ?_, ?_⟩
  · unfold activateAnchor
    rw [e0, Res.bind_ok, f1, Res.bind_ok, e4, Res.bind_ok, f2]
  · rintro p ⟨e, he, h2, h3, q, hq, rfl⟩
    obtain ⟨d1, d2, d3⟩ := dq e q hq
    by_cases h4' : 4 ≤ e
    · have := d2.2 h4'
      have := d3.2 he
      exact b2 _ (by omega)
    · have h2' := d1.2 (by omega)
      have h2'' : ¬ 4 * (W * H) ≤ e * (W * H) + q := fun h => h4' (d2.1 h)
      rw [b3 _ (by omega)]
      exact a2 _ (by omega)
  · intro p hp
    have n2 : ¬ (base + 4 * (W * H) ≤ p ∧ p < base + 4 * (W * H) + (1 + K) * W * H) := by
      intro ⟨u, v⟩
      obtain ⟨e, q, hq, rfl⟩ := split p (by omega)
      have h1 := (dq e q hq).2.1.1 (by omega)
      have h2 := (dq e q hq).2.2.1 (by omega)
      exact hp ⟨e, by omega, by omega, by omega, q, hq, rfl⟩
    have n1 : ¬ (base ≤ p ∧ p < base + 2 * W * H) := by
      intro ⟨u, v⟩
      obtain ⟨e, q, hq, rfl⟩ := split p (by omega)
      have := (dq e q hq).1.1 (by omega)
      exact hp ⟨e, by omega, by omega, by omega, q, hq, rfl⟩
    rw [b3 p n2, a3 p n1]

theorem activateHead_ok {data : List α} (act : α → α) {B N K H W : Nat} (hW : 0 < W) (hH : 0 < H)
    (hl : data.length = B * (N * ((5 + K) * (W * H)))) (hs : data.length ≤ 2147483647) :
    ∃ out, activateHead act W H K (N * (K + 4 + 1) * H * W) B N data = .ok out ∧ out.length = data.length ∧
      ∀ b n e q, b < B → n < N → e < 5 + K → q < W * H →
        out[(b * N + n) * ((5 + K) * (W * H)) + e * (W * H) + q]? =
          (data[(b * N + n) * ((5 + K) * (W * H)) + e * (W * H) + q]?).map (fun v => if e = 2 ∨ e = 3 then v else act v) := by
  have inj : ∀ m m' e e' q q' : Nat, e < 5 + K → e' < 5 + K → q < W * H → q' < W * H →
      m * ((5 + K) * (W * H)) + e * (W * H) + q = m' * ((5 + K) * (W * H)) + e' * (W * H) + q' → m = m' ∧ e = e' ∧ q = q' := by
    intro m m' e e' q q' he he' hq hq' h
    have c1 := cell2_lt he hq
    have c2 := cell2_lt he' hq'
    obtain ⟨h1, h2⟩ := cell2_inj (B := (5 + K) * (W * H)) (i := m) (i' := m') (j := e * (W * H) + q) (j' := e' * (W * H) + q') c1 c2 (by omega)
    obtain ⟨h3, h4⟩ := cell2_inj hq hq' h2
    exact ⟨h1, h3, h4⟩
  have hu : Upd data act (fun d => activateHead act W H K (N * (K + 4 + 1) * H * W) B N d)
      (fun p => ∃ b, b < B ∧ ∃ n, n < N ∧ ∃ e, e < 5 + K ∧ e ≠ 2 ∧ e ≠ 3 ∧ ∃ q, q < W * H ∧
        p = (b * N + n) * ((5 + K) * (W * H)) + e * (W * H) + q) := by
    unfold activateHead
    refine Upd.loop (fun b hb => Upd.loop (fun n hn => activateAnchor_upd act hb hn hW hH hl hs) ?_) ?_
    · rintro i j p hi hj ⟨e, he, _, _, q, hq, rfl⟩ ⟨e', he', _, _, q', hq', h⟩
      obtain ⟨h1, _, _⟩ := inj _ _ _ _ _ _ he he' hq hq' h
      omega
    · rintro i j p hi hj ⟨n, hn, e, he, _, _, q, hq, rfl⟩ ⟨n', hn', e', he', _, _, q', hq', h⟩
      obtain ⟨h1, _, _⟩ := inj _ _ _ _ _ _ he he' hq hq' h
      exact (cell2_inj hn hn' h1).1
  obtain ⟨out, e1, h1, h2, h3⟩ := hu data rfl (fun _ _ => rfl)
  refine ⟨out, e1, h1, ?_⟩
  intro b n e q hb hn he hq
  by_cases h : e = 2 ∨ e = 3
  · rw [h3]
    · simp only [if_pos h, Option.map_id']
    · rintro ⟨b', hb', n', hn', e', he', g2, g3, q', hq', hh⟩
      obtain ⟨_, h5, _⟩ := inj _ _ _ _ _ _ he he' hq hq' hh
      omega
  · rw [h2 _ ⟨b, hb, n, hn, e, he, by omega, by omega, q, hq, rfl⟩]
    simp only [if_neg h]

/-! ## suppression -/

/-- the scores after suppression: every score is kept or dropped (0); two kept ones do not overlap; a dropped one overlaps a kept
one whose score is not smaller -/
structure Suppressed (sup : Nat → Nat → Bool) (n : Nat) (p q : Nat → Rat) : Prop where
  keep : ∀ d, d < n → q d = p d ∨ q d = 0
  apart : ∀ d e, d < n → e < n → d ≠ e → q d ≠ 0 → q e ≠ 0 → sup d e = false
  why : ∀ d, d < n → p d ≠ 0 → q d = 0 → ∃ e, e < n ∧ e ≠ d ∧ q e ≠ 0 ∧ p d ≤ p e ∧ sup e d = true

theorem nmsInner_ok {sup : Nat → Nat → Bool} {σ : List Nat} {i a : Nat} {P : List Rat} (hσ : ∀ x ∈ σ, x < P.length) :
    ∃ P', nmsInner sup σ i a P = .ok P' ∧ P'.length = P.length ∧
      (∀ s x : Nat, i < s → σ[s]? = some x → sup a x = true → P'[x]? = some 0) ∧
      ∀ x : Nat, (¬ ∃ s : Nat, i < s ∧ σ[s]? = some x ∧ sup a x = true) → P'[x]? = P[x]? := by
  have h : Eff P.length (fun _ => (0 : Rat)) (nmsInner sup σ i a)
      (fun x => ∃ j : Nat, j < σ.length - (i + 1) ∧ (σ[i + 1 + j]? = some x ∧ sup a x = true)) := by
    unfold nmsInner
    refine Eff.loop ?_
    intro j hj out hl
    have hlt : i + 1 + j < σ.length := by omega
    have hx := hσ _ (List.getElem_mem hlt)
    rw [List.getElem?_eq_getElem hlt]
    show ∃ out', (rd σ (i + 1 + j) >>= _) = _ ∧ _
    rw [rd_ok (List.getElem?_eq_getElem hlt), Res.bind_ok]
    generalize σ[i + 1 + j] = x at hx
    by_cases hs : sup a x = true
    · rw [if_pos hs]
      obtain ⟨o, e, h1, h2, h3⟩ := Eff.wr (g := fun _ => (0 : Rat)) (v := 0) hx rfl out hl
      refine ⟨o, e, h1, ?_, ?_⟩
      · rintro p ⟨hp, _⟩; exact h2 p (by injection hp with hp; exact hp.symm)
      · intro p hp
        exact h3 p (fun hc => hp ⟨by rw [hc], by rw [hc]; exact hs⟩)
    · rw [if_neg hs]
      refine ⟨out, rfl, hl, ?_, fun _ _ => rfl⟩
      rintro p ⟨hp, hp'⟩
      injection hp with hp
      subst hp
      exact absurd hp' hs
  obtain ⟨P', e, h1, h2, h3⟩ := h P rfl
  refine ⟨P', e, h1, ?_, ?_⟩
  · intro s x hs hx hsx
    have : s < σ.length := by
      by_contra hc
      rw [List.getElem?_eq_none (by omega)] at hx
      cases hx
    exact h2 x ⟨s - (i + 1), by omega, by rw [show i + 1 + (s - (i + 1)) = s by omega]; exact hx, hsx⟩
  · intro x hx
    refine h3 x ?_
    rintro ⟨j, hj, h4, h5⟩
    exact hx ⟨i + 1 + j, by omega, h4, h5⟩

theorem nmsClass_ok {psort : (Nat → Nat → Bool) → Nat → List Nat → List Nat} (hps : SortContract psort) {sup : Nat → Nat → Bool}
    (hsym : ∀ a b, sup a b = sup b a) {p : List Rat} {n : Nat} {f : Nat → Rat} (hn : p.length = n)
    (hp : ∀ d, d < n → p[d]? = some (f d)) :
    ∃ (q : List Rat) (g : Nat → Rat), nmsClass psort sup p = .ok q ∧ q.length = n ∧ (∀ d, d < n → q[d]? = some (g d)) ∧
      Suppressed sup n f g := by
  have hcell : ∀ a b, a < n → b < n → cellLt (fun u v : Rat => decide (u < v)) p 0 b a = decide (f b < f a) := by
    intro a b ha hb
    unfold cellLt
    rw [Nat.zero_add, Nat.zero_add, hp a ha, hp b hb]
  have hw : WeakOrderOn (fun a b => cellLt (fun u v : Rat => decide (u < v)) p 0 b a) (· ∈ List.range p.length) := by
    intro a b c ha hb hc
    rw [List.mem_range, hn] at ha hb hc
    simp only [hcell a a ha ha, hcell a b ha hb, hcell b c hb hc, hcell a c ha hc, decide_eq_true_eq, decide_eq_false_iff_not, not_lt]
    exact ⟨le_refl _, fun h1 h2 => lt_trans h2 h1, fun h1 h2 => le_trans h1 h2⟩
  obtain ⟨c1, c2, _⟩ := hps _ p.length (List.range p.length) (by simp) hw
  have e1 : partialSort psort (fun a b => cellLt (fun u v : Rat => decide (u < v)) p 0 b a) p.length (List.range p.length) =
      .ok (psort (fun a b => cellLt (fun u v : Rat => decide (u < v)) p 0 b a) p.length (List.range p.length)) := by
    unfold partialSort
    rw [if_pos ⟨by simp, weakOrderOn_iff.2 hw⟩]
  generalize hσ : psort (fun a b => cellLt (fun u v : Rat => decide (u < v)) p 0 b a) p.length (List.range p.length) = σ at c1 c2 e1
  have hlen : σ.length = n := by rw [c1.length_eq, List.length_range, hn]
  have hmem : ∀ x, x ∈ σ ↔ x < n := by intro x; rw [c1.mem_iff, List.mem_range, hn]
  have hnd : σ.Nodup := c1.nodup_iff.2 List.nodup_range
  rw [List.take_of_length_le (by omega)] at c2
  have hord : ∀ r s x y : Nat, r < s → σ[r]? = some x → σ[s]? = some y → f y ≤ f x := by
    intro r s x y hrs hx hy
    obtain ⟨hr, rfl⟩ := List.getElem?_eq_some_iff.1 hx
    obtain ⟨hs, rfl⟩ := List.getElem?_eq_some_iff.1 hy
    have := List.pairwise_iff_getElem.1 c2 r s hr hs hrs
    rw [hcell _ _ ((hmem _).1 (List.getElem_mem hs)) ((hmem _).1 (List.getElem_mem hr))] at this
    simpa using this
  have hinj : ∀ r s x : Nat, σ[r]? = some x → σ[s]? = some x → r = s := by
    intro r s x hx hy
    obtain ⟨hr, rfl⟩ := List.getElem?_eq_some_iff.1 hx
    obtain ⟨hs, h⟩ := List.getElem?_eq_some_iff.1 hy
    exact (hnd.getElem_inj_iff.1 h).symm
  obtain ⟨P, e2, g1, g2, g3, g4⟩ := loop_inv (n := σ.length) (s := p) (f := fun p i => do
      let a ← rd σ i
      let v ← rd p a
      if v = 0 then .ok p else nmsInner sup σ i a p)
    (fun i P => P.length = n ∧ (∀ d, d < n → P[d]? = some (f d) ∨ P[d]? = some 0) ∧
      (∀ r s x y : Nat, r < i → r < s → σ[r]? = some x → σ[s]? = some y → P[x]? ≠ some 0 → sup x y = true → P[y]? = some 0) ∧
      (∀ d, d < n → f d ≠ 0 → P[d]? = some 0 → ∃ r s x : Nat, r < s ∧ r < i ∧ σ[s]? = some d ∧ σ[r]? = some x ∧ P[x]? ≠ some 0 ∧ sup x d = true))
    ⟨hn, fun d hd => Or.inl (hp d hd), by intros; omega, by
      intro d hd h1 h2; rw [hp d hd] at h2; injection h2 with h2; exact absurd h2 h1⟩
    (by
      intro i P hi ⟨a1, a2, a3, a4⟩
      have hx : ∃ x, σ[i]? = some x := ⟨_, List.getElem?_eq_getElem hi⟩
      obtain ⟨x, hx⟩ := hx
      have hxn : x < n := (hmem x).1 (List.mem_of_getElem? hx)
      obtain ⟨v, hv⟩ : ∃ v, P[x]? = some v := ⟨_, List.getElem?_eq_getElem (by omega)⟩
      rw [rd_ok hx, Res.bind_ok, rd_ok hv, Res.bind_ok]
      by_cases h0 : v = 0
      · rw [if_pos h0]
        refine ⟨P, rfl, a1, a2, ?_, ?_⟩
        · intro r s y z hr hrs hy hz hne hsup
          by_cases hri : r = i
          · subst hri
            rw [hx] at hy
            injection hy with hy
            subst hy
            rw [hv, h0] at hne
            exact absurd rfl hne
          · exact a3 r s y z (by omega) hrs hy hz hne hsup
        · intro d hd h1 h2
          obtain ⟨r, s, y, b1, b2, b3⟩ := a4 d hd h1 h2
          exact ⟨r, s, y, b1, by omega, b3⟩
      · rw [if_neg h0]
        obtain ⟨P', e, b1, b2, b3⟩ := nmsInner_ok (sup := sup) (σ := σ) (i := i) (a := x) (P := P)
          (by intro y hy; rw [a1]; exact (hmem y).1 hy)
        have same : ∀ r y : Nat, r ≤ i → σ[r]? = some y → P'[y]? = P[y]? := by
          intro r y hr hy
          refine b3 y ?_
          rintro ⟨s, hs, h1, _⟩
          have := hinj r s y hy h1
          omega
        have zero : ∀ y : Nat, P[y]? = some 0 → P'[y]? = some 0 := by
          intro y hy
          by_cases hex : ∃ s : Nat, i < s ∧ σ[s]? = some y ∧ sup x y = true
          · obtain ⟨s, hs, h1, h2⟩ := hex
            exact b2 s y hs h1 h2
          · rw [b3 y hex, hy]
        refine ⟨P', e, by omega, ?_, ?_, ?_⟩
        · intro d hd
          by_cases hex : ∃ s : Nat, i < s ∧ σ[s]? = some d ∧ sup x d = true
          · obtain ⟨s, hs, h1, h2⟩ := hex
            exact Or.inr (b2 s d hs h1 h2)
          · rw [b3 d hex]; exact a2 d hd
        · intro r s y z hr hrs hy hz hne hsup
          rw [same r y (by omega) hy] at hne
          by_cases hri : r = i
          · subst hri
            rw [hx] at hy
            injection hy with hy
            subst hy
            exact b2 s z hrs hz hsup
          · exact zero z (a3 r s y z (by omega) hrs hy hz hne hsup)
        · intro d hd h1 h2
          by_cases hex : ∃ s : Nat, i < s ∧ σ[s]? = some d ∧ sup x d = true
          · obtain ⟨s, hs, h3, h4⟩ := hex
            refine ⟨i, s, x, hs, by omega, h3, hx, ?_, h4⟩
            rw [same i x (le_refl _) hx, hv]
            intro hc
            injection hc with hc
            exact h0 hc
          · rw [b3 d hex] at h2
            obtain ⟨r, s, y, c1, c2, c3, c4, c5, c6⟩ := a4 d hd h1 h2
            refine ⟨r, s, y, c1, by omega, c3, c4, ?_, c6⟩
            rw [same r y (by omega) c4]
            exact c5)
  refine ⟨P, fun d => (P[d]?).getD 0, ?_, g1, ?_, ?_⟩
  · unfold nmsClass nmsOuter
    rw [e1, Res.bind_ok]
    exact e2
  · intro d hd
    simp only
    rw [List.getElem?_eq_getElem (by omega)]; rfl
  have pos : ∀ d, d < n → ∃ r : Nat, σ[r]? = some d := by
    intro d hd
    obtain ⟨r, hr, h⟩ := List.getElem_of_mem ((hmem d).2 hd)
    exact ⟨r, by rw [List.getElem?_eq_getElem hr, h]⟩
  have gd : ∀ d, d < n → P[d]? = some ((P[d]?).getD 0) := by
    intro d hd
    rw [List.getElem?_eq_getElem (by omega)]; rfl
  refine ⟨?_, ?_, ?_⟩
  · intro d hd
    rcases g2 d hd with h | h
    · left; simp [h]
    · right; simp [h]
  · intro d e hd he hde h1 h2
    obtain ⟨r, hr⟩ := pos d hd
    obtain ⟨s, hs⟩ := pos e he
    have nd : P[d]? ≠ some 0 := by intro hc; rw [hc] at h1; exact h1 rfl
    have ne : P[e]? ≠ some 0 := by intro hc; rw [hc] at h2; exact h2 rfl
    have hrl : r < σ.length := (List.getElem?_eq_some_iff.1 hr).1
    have hsl : s < σ.length := (List.getElem?_eq_some_iff.1 hs).1
    by_contra hc
    rw [Bool.not_eq_false] at hc
    rcases Nat.lt_trichotomy r s with h | h | h
    · exact ne (g3 r s d e hrl h hr hs nd hc)
    · subst h
      rw [hr] at hs
      injection hs with hs
      exact hde hs
    · exact nd (g3 s r e d hsl h hs hr ne (by rw [hsym]; exact hc))
  · intro d hd h1 h2
    obtain ⟨r, s, x, b1, b2, b3, b4, b5, b6⟩ := g4 d hd h1 (by rw [gd d hd, h2])
    have hxn : x < n := (hmem x).1 (List.mem_of_getElem? b4)
    refine ⟨x, hxn, ?_, ?_, hord r s x d b1 b4 b3, b6⟩
    · rintro rfl
      have := hinj r s x b4 b3
      omega
    · intro hc
      exact b5 (by rw [gd x hxn, hc])

/-- the overlap test does not depend on the order of the boxes, whatever the rounding -/
theorem yoloOverlaps_symm (fl : Rat → Rat) (t : Rat) (a b : YBox) : yoloOverlaps fl t a b = yoloOverlaps fl t b a := by
  have h1 : ∀ x1 w1 x2 w2, yoloOverlap fl x1 w1 x2 w2 = yoloOverlap fl x2 w2 x1 w1 := by
    intro x1 w1 x2 w2
    unfold yoloOverlap
    simp only
    congr 2
    · split_ifs <;> linarith
    · split_ifs <;> linarith
  have h2 : yoloInter fl a b = yoloInter fl b a := by
    unfold yoloInter
    rw [h1 a.x, h1 a.y]
  have h3 : yoloUnion fl a b = yoloUnion fl b a := by
    unfold yoloUnion
    rw [h2, add_comm]
  unfold yoloOverlaps
  rw [h2, h3]

end Verif.Kernels
