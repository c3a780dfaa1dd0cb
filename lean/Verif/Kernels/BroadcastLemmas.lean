import Verif.Kernels.Broadcast
import Verif.Kernels.ElementWiseLemmas
import Verif.Kernels.Eff
/-! # Lemmas on the broadcasting kernels -/
namespace Verif.Kernels
open Verif.Core Verif.Spec

variable {α β : Type}

/-- a loop that sets every position once, in order -/
theorem loop_fill {f : List β → Nat → Res (List β)} {n : Nat} {dst : List β} {g : Nat → β} (hd : dst.length = n)
    (hf : ∀ i d, i < n → d.length = n → f d i = .ok (d.set i (g i))) : loop f n dst = .ok ((List.range n).map g) := by
  obtain ⟨r, e, h1, h2⟩ := loop_inv (f := f) (n := n) (s := dst)
    (fun k d => d.length = n ∧ ∀ i, i < k → d[i]? = some (g i)) ⟨hd, by intros; omega⟩ (by
      intro i d hi ⟨a1, a2⟩
      refine ⟨_, hf i d hi a1, by simpa using a1, ?_⟩
      intro j hj
      by_cases hji : j = i
      · subst hji; exact set_eq (by omega)
      · rw [set_ne (fun h => hji h.symm)]; exact a2 j (by omega))
  rw [e]
  congr 1
  apply List.ext_getElem?
  intro i
  by_cases hi : i < n
  · rw [h2 i hi]; simp [hi]
  · rw [List.getElem?_eq_none (by omega), List.getElem?_eq_none (by simp; omega)]

theorem wrAll_eff {L p w : Nat} {v : α} {g : Nat → α} (h : p + w ≤ L) (hg : ∀ q, p ≤ q → q < p + w → g q = v) :
    Eff L g (fun out => wrAll out p (List.replicate w v)) (fun q => p ≤ q ∧ q < p + w) := by
  intro out hl
  refine ⟨out.take p ++ List.replicate w v ++ out.drop (p + w), ?_, ?_, ?_, ?_⟩
  · simp only [wrAll, List.length_replicate]; rw [if_pos (by omega)]
  · simp; omega
  · intro q ⟨h1, h2⟩
    rw [List.append_assoc, List.getElem?_append_right (by simp; omega), List.getElem?_append_left (by simp; omega),
      List.getElem?_replicate, if_pos (by simp; omega), hg q h1 h2]
  · intro q hq
    rcases Nat.lt_or_ge q p with h1 | h1
    · rw [List.append_assoc, List.getElem?_append_left (by simp; omega), List.getElem?_take_of_lt h1]
    · rw [List.getElem?_append_right (by simp; omega), List.getElem?_drop]
      congr 1; simp; omega

theorem rdAll_eq {L p n : Nat} {v : α} {out : List α} (hl : out.length = L) (h : p + n ≤ L)
    (hv : ∀ q, p ≤ q → q < p + n → out[q]? = some v) : rdAll out p n = .ok (List.replicate n v) := by
  unfold rdAll
  rw [if_pos (by omega)]
  congr 1
  apply List.ext_getElem?
  intro i
  by_cases hi : i < n
  · rw [List.getElem?_take_of_lt hi, List.getElem?_drop, hv _ (by omega) (by omega), List.getElem?_replicate, if_pos hi]
  · rw [List.getElem?_eq_none (by simp; omega), List.getElem?_eq_none (by simp; omega)]

/-- composition of two effects -/
theorem Eff.seq {L : Nat} {g : Nat → α} {f k : List α → Res (List α)} {D D' : Nat → Prop} (h : Eff L g f D) (h' : Eff L g k D') :
    Eff L g (fun out => f out >>= k) (fun p => D p ∨ D' p) := by
  intro out hl
  obtain ⟨o1, e1, l1, a1, b1⟩ := h out hl
  obtain ⟨o2, e2, l2, a2, b2⟩ := h' o1 l1
  refine ⟨o2, by simp only [e1, Res.bind_ok, e2], l2, ?_, ?_⟩
  · intro p hp
    by_cases hd : D' p
    · exact a2 p hd
    · rw [b2 p hd]; exact a1 p (hp.resolve_right hd)
  · intro p hp
    rw [b2 p (fun h => hp (.inr h)), b1 p (fun h => hp (.inl h))]

theorem fillUnits_eff {L : Nat} {v : α} {g : Nat → α} (d : Nat) : ∀ (p N w : Nat), p + N * w ≤ L → (∀ q, p ≤ q → q < p + N * w → g q = v) →
    Eff L g (fun out => fillUnits d out p N (List.replicate w v)) (fun q => p ≤ q ∧ q < p + N * w) := by
  induction d with
  | zero =>
    intro p N w h hg
    have hb : ∀ i, i < N → i * w + w ≤ N * w := by
      intro i hi
      have := Nat.mul_le_mul_right w (show i + 1 ≤ N by omega)
      rw [Nat.add_mul] at this; omega
    refine (Eff.loop (f := fun out i => wrAll out (p + i * w) (List.replicate w v)) (n := N) (D := fun i q => p + i * w ≤ q ∧ q < p + i * w + w)
      (fun i hi => ?_)).congr ?_ ?_
    · have := hb i hi
      exact wrAll_eff (by omega) (fun q h1 h2 => hg q (by omega) (by omega))
    · intro out _; simp only [fillUnits, List.length_replicate]
    · intro q
      constructor
      · rintro ⟨h1, h2⟩
        have hw : 0 < w := by
          rcases Nat.eq_zero_or_pos w with rfl | h
          · omega
          · exact h
        have hq : (q - p) / w < N := (Nat.div_lt_iff_lt_mul hw).2 (by omega)
        have e1 := Nat.div_add_mod' (q - p) w
        have e2 := Nat.mod_lt (q - p) hw
        exact ⟨(q - p) / w, hq, by omega, by omega⟩
      · rintro ⟨i, hi, h1, h2⟩
        have := hb i hi
        exact ⟨by omega, by omega⟩
  | succ d ih =>
    intro p N w h hg
    rcases Nat.lt_or_ge 1 N with hN | hN
    · obtain ⟨k, r, hr, hk⟩ : ∃ k r, r < 2 ∧ N = 2 + k * 2 + r := ⟨(N - 2) / 2, (N - 2) % 2, by omega, by omega⟩
      have hNw : N * w = 2 * w + k * (2 * w) + r * w := by rw [hk]; ring
      have hk2 : (N - 2) / 2 = k := by omega
      intro out hl
      obtain ⟨o1, e1, l1, a1, b1⟩ := wrAll_eff (L := L) (p := p) (w := w) (v := v) (g := g) (by omega) (fun q h1 h2 => hg q h1 (by omega)) out hl
      obtain ⟨o2, e2, l2, a2, b2⟩ := wrAll_eff (L := L) (p := p + w) (w := w) (v := v) (g := g) (by omega)
        (fun q h1 h2 => hg q (by omega) (by omega)) o1 l1
      beta_reduce at e1 a1 b1 e2 a2 b2
      have hv : ∀ q, p ≤ q → q < p + 2 * w → o2[q]? = some v := by
        intro q h1 h2
        rw [← hg q h1 (by omega)]
        by_cases hq : p + w ≤ q
        · exact a2 q ⟨hq, by omega⟩
        · rw [b2 q (fun h => hq h.1)]; exact a1 q ⟨h1, by omega⟩
      have e3 := rdAll_eq (p := p) (n := 2 * w) (v := v) l2 (by omega) hv
      obtain ⟨o3, e4, l3, a3, b3⟩ := ih (p + 2 * w) k (2 * w) (by omega) (fun q h1 h2 => hg q (by omega) (by omega)) o2 l2
      beta_reduce at e4 a3 b3
      have base : fillUnits (d + 1) out p N (List.replicate w v) =
          (if N % 2 ≠ 0 then wrAll o3 (p + (N - 1) * w) (List.replicate w v) else .ok o3) := by
        simp only [fillUnits, List.length_replicate]
        rw [if_pos hN, e1, Res.bind_ok, e2, Res.bind_ok, e3, Res.bind_ok, hk2, e4, Res.bind_ok]
      have hin : ∀ q, p ≤ q → q < p + (2 * w + k * (2 * w)) → o3[q]? = some (g q) := by
        intro q h1 h2
        by_cases hq : p + 2 * w ≤ q
        · exact a3 q ⟨hq, by omega⟩
        · rw [b3 q (fun h => hq h.1), hv q h1 (by omega), hg q h1 (by omega)]
      have hout : ∀ q, ¬ (p ≤ q ∧ q < p + (2 * w + k * (2 * w))) → o3[q]? = out[q]? := by
        intro q hq
        rw [b3 q (by omega), b2 q (by omega), b1 q (by omega)]
      rcases Nat.eq_zero_or_pos r with h0 | h0
      · subst h0
        refine ⟨o3, ?_, l3, ?_, ?_⟩
        · simp only; rw [base, if_neg (by omega)]
        · rintro q ⟨h1, h2⟩; exact hin q h1 (by omega)
        · intro q hq; exact hout q (by omega)
      · have h1' : r = 1 := by omega
        subst h1'
        have hlast : (N - 1) * w = 2 * w + k * (2 * w) := by
          rw [show N - 1 = 2 + k * 2 by omega]; ring
        obtain ⟨o4, e5, l4, a4, b4⟩ := wrAll_eff (L := L) (p := p + (N - 1) * w) (w := w) (v := v) (g := g) (by omega)
          (fun q h1 h2 => hg q (by omega) (by omega)) o3 l3
        beta_reduce at e5 a4 b4
        refine ⟨o4, ?_, l4, ?_, ?_⟩
        · simp only; rw [base, if_pos (by omega), e5]
        · rintro q ⟨h1, h2⟩
          by_cases hq : p + (N - 1) * w ≤ q
          · exact a4 q ⟨hq, by omega⟩
          · rw [b4 q (fun h => hq h.1)]; exact hin q h1 (by omega)
        · intro q hq
          rw [b4 q (by omega)]; exact hout q (by omega)
    · rcases Nat.eq_zero_or_pos N with h0 | h0
      · subst h0
        intro out hl
        exact ⟨out, by simp [fillUnits], hl, by intro p hp; omega, fun _ _ => rfl⟩
      · have : N = 1 := by omega
        subst this
        refine (wrAll_eff (L := L) (p := p) (w := w) (v := v) (g := g) (by omega) (fun q h1 h2 => hg q h1 (by omega))).congr ?_ ?_
        · intro out _; simp [fillUnits]
        · intro q; omega

theorem Eff.whole {L : Nat} {g : Nat → α} {f : List α → Res (List α)} {D : Nat → Prop} (h : Eff L g f D) (hD : ∀ p, p < L → D p)
    {dst : List α} (hl : dst.length = L) : f dst = .ok ((List.range L).map g) := by
  obtain ⟨o, e, l, a, -⟩ := h dst hl
  rw [e]
  congr 1
  apply List.ext_getElem?
  intro i
  by_cases hi : i < L
  · rw [a i (hD i hi)]; simp [hi]
  · rw [List.getElem?_eq_none (by omega), List.getElem?_eq_none (by simp; omega)]

theorem ints_length' (l : List Nat) : (ints l).length = l.length := by simp [ints]

theorem modReads_ok {L O : List Nat} (hL : L.length = O.length) (hlp : ∀ x ∈ L, 0 < x) (hop : ∀ x ∈ O, 0 < x)
    (hlb : prod L ≤ 2147483647) (hob : prod O ≤ 2147483647) (n i : Nat) (hn : i + n ≤ prod O) :
    modReads (ints (wts L)) (ints L) (ints O) n (ints (unlin O (i % prod O))) =
      .ok ((List.range n).map fun k => bidx (L.zip O) (i + k)) := by
  induction n generalizing i with
  | zero => rfl
  | succ n ih =>
    have hi : i < prod O := by omega
    have hc := unlin_inBounds hi
    have hcb : ∀ x ∈ unlin O i, x ≤ 2147483647 := by
      intro x hx
      obtain ⟨k, hk, rfl⟩ := List.mem_iff_getElem.1 hx
      have h1 := inBounds_iff.1 hc
      have h2 := h1.2 k (by omega) hk
      have h3 : O[k]'(by omega) ≤ prod O := by
        have hm : O[k]'(by omega) ∈ O := List.getElem_mem _
        obtain ⟨a, b, e⟩ := List.append_of_mem hm
        conv => rhs; rw [e, prod_append]
        simp only [prod]
        have p1 : 0 < prod a := prod_pos fun y hy => hop y (by rw [e]; simp [hy])
        have p2 : 0 < prod b := prod_pos fun y hy => hop y (by rw [e]; simp [hy])
        calc O[k]'(by omega) = 1 * (O[k]'(by omega) * 1) := by omega
          _ ≤ _ := Nat.mul_le_mul p1 (Nat.mul_le_mul_left _ p2)
      omega
    unfold modReads modIndexR
    have hinc := increase_unlin hop i
    rw [Nat.mod_eq_of_lt hi] at hinc ⊢
    have hlen := hc.length
    rw [if_neg (by rw [ints_length', ints_length']; omega), modIndex_ok hL hlp hlb hc hcb]
    simp only [Res.bind_ok]
    rw [hinc, ih (i + 1) (by omega)]
    simp only [Res.bind_ok]
    rw [List.range_succ_eq_map, ← bidx_eq L O hL]
    simp [Function.comp_def, Nat.add_comm, Nat.add_left_comm]

theorem modPositions_ok {L O : List Nat} (hL : L.length = O.length) (hlp : ∀ x ∈ L, 0 < x) (hop : ∀ x ∈ O, 0 < x)
    (hlb : prod L ≤ 2147483647) (hob : prod O ≤ 2147483647) :
    modPositions L O = .ok ((List.range (prod O)).map (bidx (L.zip O))) := by
  unfold modPositions
  show (weights (ints L) >>= fun w => prod32 1 (ints O) >>= fun cnt => modReads w (ints L) (ints O) cnt.toNat (iterStart (ints O))) = _
  rw [weights_ok (fits_of_pos hlp hlb)]
  have := prod32_ok (noOverflow_of_pos hop hob).pfits
  simp only [Int.natCast_one, Nat.one_mul] at this
  rw [Res.bind_ok, this]
  simp only [Res.bind_ok, Int.toNat_natCast]
  rw [iterStart_unlin hop, modReads_ok hL hlp hop hlb hob (prod O) 0 (by omega)]
  simp

theorem bidx_lt {L O : List Nat} (hL : L.length = O.length) (hp : ∀ x ∈ L, 0 < x) {i : Nat} (hi : i < prod O) :
    bidx (L.zip O) i < prod L := by
  rw [bidx_eq L O hL]
  exact lin_lt (wrap_inBounds hL hp (unlin_inBounds hi))

theorem broadcastScalar_ok {depth : Nat} {x : List α} {G : Nat → α} {n : Nat} {dst : List α} (hG : x[0]? = some (G 0)) (hd : dst.length = n) :
    broadcastScalar depth x n dst = .ok ((List.range n).map fun _ => G 0) := by
  unfold broadcastScalar
  rw [rd_ok hG, Res.bind_ok]
  have := fillUnits_eff (L := n) (v := G 0) (g := fun _ => G 0) depth 0 n 1 (by omega) (fun _ _ _ => rfl)
  exact this.whole (fun p hp => ⟨by omega, by omega⟩) hd

theorem broadcastBias_ok {depth : Nat} {x : List α} {G : Nat → α} {o : List Nat} {d : Nat} {dst : List α} (hdim : d < o.length)
    (hG : ∀ i, i < o.getD d 0 → x[i]? = some (G i)) (hd : dst.length = prod o) :
    broadcastBias depth x o d dst = .ok ((List.range (prod o)).map fun i => G (i / prod (o.drop (d + 1)) % o.getD d 0)) := by
  have hsplit : o = o.take d ++ o.getD d 0 :: o.drop (d + 1) := by
    conv => lhs; rw [← List.take_append_drop d o, List.drop_eq_getElem_cons hdim]
    simp [List.getD, List.getElem?_eq_getElem hdim]
  have hprod : prod o = prod (o.take d) * o.getD d 0 * prod (o.drop (d + 1)) := by
    conv => lhs; rw [hsplit, prod_append]
    simp only [prod]; ring
  unfold broadcastBias
  generalize hC : prod (o.drop (d + 1)) = C at *
  generalize hch : o.getD d 0 = ch at *
  generalize hN : prod (o.take d) = N at *
  have key : Eff (prod o) (fun i => G (i / C % ch)) (fun dst => loop (fun dst n => loop (fun dst c => do
      let v ← rd x c
      fillUnits depth dst ((n * ch + c) * C) C [v]) ch dst) N dst)
      (fun q => ∃ n, n < N ∧ ∃ c, c < ch ∧ (n * ch + c) * C ≤ q ∧ q < (n * ch + c) * C + C) := by
    refine Eff.loop fun n hn => Eff.loop (D := fun c q => (n * ch + c) * C ≤ q ∧ q < (n * ch + c) * C + C) fun c hc => ?_
    have hcell := cell2_lt hn hc
    have hle : (n * ch + c) * C + C ≤ prod o := by
      have := Nat.mul_le_mul_right C (show n * ch + c + 1 ≤ N * ch by omega)
      rw [Nat.add_mul, Nat.one_mul] at this; omega
    refine (fillUnits_eff (L := prod o) (v := G c) depth ((n * ch + c) * C) C 1 (by omega) ?_).congr ?_ ?_
    · intro q h1 h2
      rw [Nat.mul_one] at h2
      have hq : q / C = n * ch + c := by
        apply Nat.div_eq_of_lt_le
        · omega
        · rw [Nat.add_mul, Nat.one_mul]; omega
      simp only [hq]
      rw [Nat.mul_comm n ch, Nat.mul_add_mod, Nat.mod_eq_of_lt hc]
    · intro out _
      rw [rd_ok (hG c hc), Res.bind_ok]; rfl
    · intro q; rw [Nat.mul_one]
  have hcover : ∀ p, p < prod o → ∃ n, n < N ∧ ∃ c, c < ch ∧ (n * ch + c) * C ≤ p ∧ p < (n * ch + c) * C + C := by
    intro p hp
    rw [hprod] at hp
    have hC0 : 0 < C := by
      rcases Nat.eq_zero_or_pos C with h | h
      · rw [h] at hp; omega
      · exact h
    have hch0 : 0 < ch := by
      rcases Nat.eq_zero_or_pos ch with h | h
      · rw [h] at hp; simp at hp
      · exact h
    have h1 : p / C < N * ch := (Nat.div_lt_iff_lt_mul hC0).2 hp
    have h2 : p / C / ch < N := (Nat.div_lt_iff_lt_mul hch0).2 h1
    have e := Nat.div_add_mod' (p / C) ch
    have e2 := Nat.div_add_mod' p C
    refine ⟨p / C / ch, h2, p / C % ch, Nat.mod_lt _ hch0, ?_, ?_⟩
    · rw [e]; omega
    · rw [e]; have := Nat.mod_lt p hC0; omega
  by_cases hC1 : C = 1
  · subst hC1
    simp only [if_true]
    rw [← key.whole hcover hd]
    have : ∀ (v : α) (dst : List α) (p : Nat), fillUnits depth dst (p * 1) 1 [v] = wr dst p v := by
      intro v dst p
      have hw : wrAll dst p [v] = wr dst p v := by
        simp only [wrAll, wr, List.length_singleton]
        by_cases h : p < dst.length
        · rw [if_pos (by omega), if_pos h, List.set_eq_take_append_cons_drop, if_pos h]; simp
        · rw [if_neg (by omega), if_neg h]
      cases depth with
      | zero => simp only [fillUnits, loop, Res.bind_ok, Nat.mul_one, Nat.zero_mul, Nat.add_zero]; exact hw
      | succ k => simp only [fillUnits, Nat.mul_one]; simpa using hw
    simp only [this]
  · rw [if_neg hC1]
    exact key.whole hcover hd

theorem broadcastGeneral_ok {x : List α} {G : Nat → α} {s o : List Nat} {dst : List α} (hL : s.length = o.length) (hsp : ∀ e ∈ s, 0 < e)
    (hop : ∀ e ∈ o, 0 < e) (hsb : prod s ≤ 2147483647) (hob : prod o ≤ 2147483647) (hG : ∀ i, i < prod s → x[i]? = some (G i))
    (hd : dst.length = prod o) :
    broadcastGeneral x s o dst = .ok ((List.range (prod o)).map fun i => G (bidx (s.zip o) i)) := by
  unfold broadcastGeneral
  rw [modPositions_ok hL hsp hop hsb hob, Res.bind_ok, List.length_map, List.length_range]
  refine loop_fill hd fun i d hi hdl => ?_
  rw [rd_ok (v := bidx (s.zip o) i) (by simp [hi]), Res.bind_ok, rd_ok (hG _ (bidx_lt hL hsp hi)), Res.bind_ok, wr_ok _ (by omega)]

theorem broadcastDispatch_ok {depth : Nat} {x : List α} {G : Nat → α} {dst : List α} (ds : List Dim3) (hok : ∀ d ∈ ds, Ok3 d)
    (hb : oprod ds ≤ 2147483647) (hG : ∀ i, i < prod (ds.map fun d => d.2.1) → x[i]? = some (G i)) (hd : dst.length = oprod ds) :
    broadcastDispatch depth x (ds.map fun d => d.2.1) (ds.map fun d => d.2.2) dst =
      .ok ((List.range (oprod ds)).map fun i => G (bidx (ds.map ro) i)) := by
  have hrp : ∀ x ∈ ds.map (fun d => d.2.1), 0 < x := by
    simp only [List.mem_map, forall_exists_index, and_imp, forall_apply_eq_imp_iff₂]
    exact fun x hx => (hok x hx).2.2.2.1
  have hop : ∀ x ∈ ds.map (fun d => d.2.2), 0 < x := by
    simp only [List.mem_map, forall_exists_index, and_imp, forall_apply_eq_imp_iff₂]
    exact fun x hx => (hok x hx).out_pos
  have l2 : prod (ds.map fun d => d.2.1) ≤ oprod ds := prod_le_of_le (by simp) fun j hj => by
    simp only [List.length_map] at hj
    rw [getD_map_nat _ _ _ hj, getD_map_nat _ _ _ hj]
    obtain ⟨h1, h2, h3, h4, h5⟩ := hok _ (List.getElem_mem hj)
    omega
  unfold broadcastDispatch
  by_cases h1 : prod (ds.map fun d => d.2.1) = 1
  · rw [if_pos h1, broadcastScalar_ok (G := G) (hG 0 (by omega)) hd]
    congr 1
    apply List.map_congr_left
    intro i _
    rw [bidx_zero]
    simp only [List.mem_map, forall_exists_index, and_imp, forall_apply_eq_imp_iff₂, ro]
    exact fun x hx => all_one_of_prod h1 _ (List.mem_map_of_mem (f := fun d => d.2.1) hx)
  · rw [if_neg h1]
    cases hB : isBias (ds.map fun d => d.2.2) (ds.map fun d => d.2.1) with
    | none =>
      rw [← zip_ro]
      exact broadcastGeneral_ok (by simp) hrp hop (by omega) hb hG hd
    | some d =>
      obtain ⟨b1, b2, b3, b4⟩ := bias_shape hB hrp
      simp only [List.length_map] at b1 b4
      simp only
      rw [broadcastBias_ok (by simpa using b1) (fun i hi => hG i (by omega)) hd]
      congr 1
      apply List.map_congr_left
      intro i _
      congr 1
      have hsplit : ds.map ro = (ds.take d).map ro ++ ((ds.map fun d => d.2.2).getD d 0, (ds.map fun d => d.2.2).getD d 0)
          :: (ds.drop (d + 1)).map ro := by
        conv => lhs; rw [← List.take_append_drop d ds, List.drop_eq_getElem_cons b1]
        rw [List.map_append, List.map_cons]
        congr 2
        have e := b2.trans b3.symm
        rw [getD_map_nat _ _ _ b1, getD_map_nat _ _ _ b1] at e
        rw [getD_map_nat _ _ _ b1]
        show (ds[d].2.1, ds[d].2.2) = _
        rw [e]
      rw [hsplit, bidx_bias]
      · rw [ps_ro, ← List.map_drop]
      · intro p hp
        simp only [List.mem_map] at hp
        obtain ⟨x, hx, rfl⟩ := hp
        obtain ⟨j, hj, rfl⟩ := List.mem_iff_getElem.1 hx
        simp only [List.length_take] at hj
        have := b4 j (by omega) (by omega)
        rw [getD_map_nat _ _ _ (by omega)] at this
        simpa [ro] using this
      · intro p hp
        simp only [List.mem_map] at hp
        obtain ⟨x, hx, rfl⟩ := hp
        obtain ⟨j, hj, rfl⟩ := List.mem_iff_getElem.1 hx
        simp only [List.length_drop] at hj
        have := b4 (d + 1 + j) (by omega) (by omega)
        rw [getD_map_nat _ _ _ (by omega)] at this
        simpa [ro] using this

end Verif.Kernels
