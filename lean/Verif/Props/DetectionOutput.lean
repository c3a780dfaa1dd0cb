import Verif.Kernels.DetectionKeep
import Verif.Props.Yolo
/-!
# C84: detection_output
-/
namespace Verif.Props
open Verif.Core Verif.Spec Verif.Kernels

/-- four numbers as a box -/
def boxOf (f : Nat → Rat) : NBox := ⟨f 0, f 1, f 2, f 3⟩

theorem boxFrom_ok {data : List Rat} {at' : Nat} {f : Nat → Rat} (h : ∀ j, j < 4 → data[at' + j]? = some (f j)) : boxFrom data at' = .ok (boxOf f) := by
  have h0 := h 0 (by omega)
  have h1 := h 1 (by omega)
  have h2 := h 2 (by omega)
  have h3 := h 3 (by omega)
  rw [Nat.add_zero] at h0
  simp only [boxFrom, rd, h0, h1, h2, h3, Res.bind_ok, boxOf]

theorem detPriors_ok {q : DetParams} {N P : Nat} (h1 : P * q.locs * 4 ≤ 2147483647) (h2 : P * q.classes ≤ 2147483647) :
    detPriors q [N, P * q.locs * 4] [N, P * q.classes] [1, 2, P * 4] = .ok P := by
  unfold detPriors
  have e : P * 4 / 4 = P := by omega
  simp only [rd, List.getElem?_cons_zero, List.getElem?_cons_succ, Res.bind_ok, e]
  rw [if_pos trivial, int32_ok (by unfold I32; norm_cast; generalize P * q.locs = m at *; omega), Res.bind_ok,
    int32_ok (by unfold I32; norm_cast; generalize P * q.locs = m at *; omega), Res.bind_ok,
    if_pos (by norm_cast), int32_ok (by unfold I32; norm_cast; generalize P * q.classes = m at *; omega), Res.bind_ok, if_pos (by norm_cast)]

variable {N P : Nat} {X Y Z : List Nat → Rat}

/-- the prediction for a label and a prior of an image; a prior; its variances -/
def predOf (X : List Nat → Rat) (i p c : Nat) : NBox := boxOf fun j => X [i, p, c, j]
def priorOf (Z : List Nat → Rat) (p : Nat) : NBox := boxOf fun j => Z [0, p, j]
def varOf (Z : List Nat → Rat) (p : Nat) : NBox := boxOf fun j => Z [1, p, j]

/-- the rows of an image -/
def imageRows (A : DetArith) (q : DetParams) (Y : List Nat → Rat) (D : Nat → Nat → Nat → NBox) (sel : Nat → List Nat) (i : Nat) : List (List Rat) :=
  (List.range q.classes).flatMap fun c => (sel c).map fun p => detRowOf A.fl i c (Y [i, p, c]) (D i (if q.share then 0 else c) p)

theorem detPrior_ok {data : List Rat} (hZ : Holds [2, P, 4] data Z) :
    detPrior data P = .ok ((List.range P).map (priorOf Z), (List.range P).map (varOf Z)) := by
  unfold detPrior
  rw [forEach_ok (g := priorOf Z) ?_, Res.bind_ok, forEach_ok (g := varOf Z) ?_, Res.bind_ok]
  · intro p hp
    rw [List.mem_range] at hp
    apply boxFrom_ok
    intro j hj
    have := hZ.2 [1, p, j] ⟨by omega, hp, hj, trivial⟩
    rw [← this]
    congr 1
    simp only [lin, prod]; ring
  · intro p hp
    rw [List.mem_range] at hp
    apply boxFrom_ok
    intro j hj
    have := hZ.2 [0, p, j] ⟨by omega, hp, hj, trivial⟩
    rw [← this]
    congr 1
    simp only [lin, prod]; ring

theorem detLoc_ok {data : List Rat} {L : Nat} (hX : Holds [N, P, L, 4] data X) {i c : Nat} (hi : i < N) (hc : c < L) :
    detLoc data P L i c = .ok ((List.range P).map fun p => predOf X i p c) := by
  unfold detLoc
  apply forEach_ok
  intro p hp
  rw [List.mem_range] at hp
  apply boxFrom_ok
  intro j hj
  have := hX.2 [i, p, c, j] ⟨hi, hp, hc, hj, trivial⟩
  rw [← this]
  congr 1
  simp only [lin, prod]; ring

theorem conf_at {data : List Rat} {K : Nat} (hY : Holds [N, P, K] data Y) {i p c : Nat} (hi : i < N) (hp : p < P) (hc : c < K) :
    data[i * (P * K) + (p * K + c)]? = some (Y [i, p, c]) := by
  rw [← hY.2 [i, p, c] ⟨hi, hp, hc, trivial⟩]
  congr 1
  simp only [lin, prod]; ring

theorem detScores_ok {data : List Rat} {K : Nat} (hY : Holds [N, P, K] data Y) {i c : Nat} (hi : i < N) (hc : c < K) :
    detScores data P K i c = .ok ((List.range P).map fun p => Y [i, p, c]) := by
  unfold detScores
  apply forEach_ok
  intro p hp
  rw [List.mem_range] at hp
  rw [rd, conf_at hY hi hp hc]

/-- what is decoded for a label -/
def decOf (q : DetParams) (P : Nat) (D : Nat → Nat → NBox) (c : Nat) : Option (List NBox) :=
  if (if q.share then -1 else (c : Int)) = q.bg then none else some ((List.range P).map (D c))

theorem detDecodeImage_ok {A : DetArith} {q : DetParams} {data : List Rat} {i : Nat} {D : Nat → Nat → NBox} (hX : Holds [N, P, q.locs, 4] data X)
    (hi : i < N) (hP : 0 < P)
    (hD : ∀ c p, c < q.locs → p < P → (if q.share then -1 else (c : Int)) ≠ q.bg →
      detDecode A q.code q.encoded (priorOf Z p) (varOf Z p) (predOf X i p c) = .ok (D c p)) :
    detDecodeImage A q data ((List.range P).map (priorOf Z)) ((List.range P).map (varOf Z)) P i = .ok ((List.range q.locs).map (decOf q P D)) := by
  unfold detDecodeImage
  apply forEach_ok
  intro c hc
  rw [List.mem_range] at hc
  rw [detLoc_ok hX hi hc, Res.bind_ok]
  unfold detDecodeLabel decOf
  by_cases hb : (if q.share then -1 else (c : Int)) = q.bg
  · rw [if_pos hb, if_pos hb]
  · rw [if_neg hb, if_neg hb, if_neg (by omega)]
    unfold detDecodes
    rw [if_pos (by simp), if_pos (by simp), forEach_ok (g := D c) ?_, Res.bind_ok]
    · simp
    · intro p hp
      have hp' : p < P := by simpa using hp
      simp only [rd, List.getElem?_map, List.getElem?_range hp', Option.map_some, Res.bind_ok]
      exact hD c p hc hp' hb

theorem Survivors.nodup {A : DetArith} {q : DetParams} {n : Nat} {s : Nat → Rat} {B : Nat → NBox} {kept : List Nat} (h : Survivors A q n s B kept) :
    kept.Nodup := by
  apply h.order.imp
  intro a b hab e
  exact Ahead.irrefl (e ▸ hab)

theorem detFake_ok (A : DetArith) (N : Nat) :
    detFake A N (List.replicate (N * 7) (-1)) = .ok ((List.range N).flatMap fun (i : Nat) => [A.fl i, -1, -1, -1, -1, -1, -1]) := by
  unfold detFake
  have key : ∀ n m, loop (fun b (i : Nat) => wr b (i * 7) (A.fl i)) n (List.replicate ((n + m) * 7) (-1)) =
      .ok ((List.range n).flatMap (fun (i : Nat) => [A.fl i, -1, -1, -1, -1, -1, -1]) ++ List.replicate (m * 7) (-1)) := by
    intro n
    induction n with
    | zero => intro m; simp [loop]
    | succ n ih =>
      intro m
      unfold loop
      rw [show n + 1 + m = n + (m + 1) by omega, ih (m + 1), Res.bind_ok]
      have hl : ((List.range n).flatMap fun (i : Nat) => [A.fl i, -1, -1, -1, -1, -1, -1]).length = n * 7 := by
        rw [block_length (m := 7) (fun _ _ => rfl), List.length_range]
      rw [wr_ok _ (by rw [List.length_append, hl, List.length_replicate]; omega), List.set_append_right _ _ (by omega), hl, Nat.sub_self,
        List.range_succ, List.flatMap_append, List.flatMap_singleton]
      have : (m + 1) * 7 = m * 7 + 1 + 1 + 1 + 1 + 1 + 1 + 1 := by omega
      rw [this]
      simp only [List.replicate_succ, List.set_cons_zero, List.append_assoc, List.cons_append, List.nil_append]
  have := key N 0
  simpa using this

/-- **C84, detection_output.** Location predictions `X`, confidences `Y`, priors and variances `Z`; `D` are the boxes decoded from them (see
`C84_corner`, `C84_center_size`, `C84_corner_size`). Every class but the background is suppressed by itself; then the best `keep_top_k` of every
image are taken; the output has one row per detection, images and classes in order, or one row per image that says there are none. -/
theorem C84_output (A : DetArith) {psort : (Nat → Nat → Bool) → Nat → List Nat → List Nat} (hps : SortContract psort) {q : DetParams}
    {loc conf prior : Operand Rat} {D : Nat → Nat → Nat → NBox} {fresh : Nat → List Rat}
    (hl : loc.shape = [N, P * q.locs * 4]) (hc : conf.shape = [N, P * q.classes]) (hp : prior.shape = [1, 2, P * 4])
    (hX : Holds [N, P, q.locs, 4] loc.data X) (hY : Holds [N, P, q.classes] conf.data Y) (hZ : Holds [2, P, 4] prior.data Z)
    (h32 : P * q.locs * 4 ≤ 2147483647) (h32' : P * q.classes ≤ 2147483647) (hP : 0 < P) (hbg : q.share = true → q.bg ≠ -1)
    (hD : ∀ i c p, i < N → c < q.locs → p < P → (q.share = false → (c : Int) ≠ q.bg) →
      detDecode A q.code q.encoded (priorOf Z p) (varOf Z p) (predOf X i p c) = .ok (D i c p))
    (hfresh : ∀ n, (fresh n).length = n) :
    ∃ (found sel : Nat → Nat → List Nat) (rows : List (List Rat)),
      (∀ i c, i < N → c < q.classes → (c : Int) = q.bg → found i c = []) ∧
      (∀ i c, i < N → c < q.classes → (c : Int) ≠ q.bg →
        Survivors A q P (fun p => Y [i, p, c]) (fun p => D i (if q.share then 0 else c) p) (found i c)) ∧
      (∀ i, i < N → Best q.keep q.classes (fun c p => Y [i, p, c]) (found i) (sel i)) ∧
      rows = ((List.range N).flatMap fun i => imageRows A q Y D (sel i) i) ∧
      detRun A psort q loc conf prior fresh = .ok
        (if rows = [] then ([1, 1, N, 7], (List.range N).flatMap fun (i : Nat) => [A.fl i, -1, -1, -1, -1, -1, -1])
         else ([1, 1, rows.length, 7], rows.flatten)) := by
  have hlocs : ∀ c, c < q.classes → (if q.share then 0 else c) < q.locs := by
    intro c hc; unfold DetParams.locs; split <;> omega
  -- decoding
  have hdec : ∀ i, i < N → detDecodeImage A q loc.data ((List.range P).map (priorOf Z)) ((List.range P).map (varOf Z)) P i =
      .ok ((List.range q.locs).map (decOf q P (D i))) := by
    intro i hi
    apply detDecodeImage_ok hX hi hP
    intro c p hc hp hb
    apply hD i c p hi hc hp
    intro hs
    simpa [hs] using hb
  have hdecAt : ∀ i c, i < N → c < q.classes → (c : Int) ≠ q.bg →
      rd ((List.range q.locs).map (decOf q P (D i))) (if q.share then 0 else c) = .ok (some ((List.range P).map (D i (if q.share then 0 else c)))) := by
    intro i c hi hc hb
    simp only [rd, List.getElem?_map, List.getElem?_range (hlocs c hc), Option.map_some]
    unfold decOf
    rw [if_neg]
    cases hs : q.share
    · simpa using hb
    · simpa using (hbg hs).symm
  -- one label
  have hlab : ∀ i, i < N → ∀ c ∈ List.range q.classes, ∃ ps,
      detLabel A q conf.data ((List.range q.locs).map (decOf q P (D i))) P i c = .ok ps ∧
      (((c : Int) = q.bg → ps = []) ∧ ((c : Int) ≠ q.bg →
        Survivors A q P (fun p => Y [i, p, c]) (fun p => D i (if q.share then 0 else c) p) ps)) := by
    intro i hi c hc
    rw [List.mem_range] at hc
    unfold detLabel
    by_cases hb : (c : Int) = q.bg
    · exact ⟨[], by rw [if_pos hb], fun _ => rfl, fun h => absurd hb h⟩
    · rw [if_neg hb, if_neg (by omega), detScores_ok hY hi hc, Res.bind_ok, hdecAt i c hi hc hb, Res.bind_ok]
      obtain ⟨kept, e, hk⟩ := detNms_ok (A := A) (q := q) (boxes := (List.range P).map (D i (if q.share then 0 else c)))
        (scores := (List.range P).map fun p => Y [i, p, c]) (B := fun p => D i (if q.share then 0 else c) p) (s := fun p => Y [i, p, c]) (n := P)
        (by simp) (by simp) (fun p hp => by rw [List.getElem?_map, List.getElem?_range hp]; rfl)
        (fun p hp => by rw [List.getElem?_map, List.getElem?_range hp]; rfl)
      exact ⟨kept, e, fun h => absurd h hb, fun _ => hk⟩
  have hfound : ∀ i, ∃ g : Nat → List Nat, i < N →
      forEach (fun c => detLabel A q conf.data ((List.range q.locs).map (decOf q P (D i))) P i c) (List.range q.classes) =
        .ok ((List.range q.classes).map g) ∧
      ∀ c ∈ List.range q.classes, ((c : Int) = q.bg → g c = []) ∧ ((c : Int) ≠ q.bg →
        Survivors A q P (fun p => Y [i, p, c]) (fun p => D i (if q.share then 0 else c) p) (g c)) := by
    intro i
    by_cases hi : i < N
    · obtain ⟨g, e, hg⟩ := forEach_choose (hlab i hi)
      exact ⟨g, fun _ => ⟨e, hg⟩⟩
    · exact ⟨fun _ => [], fun h => absurd h hi⟩
  choose found hfound using hfound
  have hfD : ∀ i c, c < q.classes → ((List.range q.classes).map (found i)).getD c [] = found i c := by
    intro i c hc
    rw [List.getD_eq_getElem?_getD, List.getElem?_map, List.getElem?_range hc]; rfl
  let keptOf : Nat → List (List Nat) := fun i =>
    detKeep psort (fun c p => conf.data.getD (i * (P * q.classes) + (p * q.classes + c)) 0) q.keep ((List.range q.classes).map (found i))
  have hcf : ∀ i c p, i < N → p < P → c < q.classes → conf.data.getD (i * (P * q.classes) + (p * q.classes + c)) 0 = Y [i, p, c] := by
    intro i c p hi hp hc
    rw [List.getD_eq_getElem?_getD, conf_at hY hi hp hc]; rfl
  have hfp : ∀ i c p, i < N → c < q.classes → p ∈ found i c → p < P := by
    intro i c p hi hc hp
    obtain ⟨h1, h2⟩ := (hfound i hi).2 c (List.mem_range.2 hc)
    by_cases hb : (c : Int) = q.bg
    · rw [h1 hb] at hp; simp at hp
    · exact (((h2 hb).stays p).1 hp).1.1
  have hnod : ∀ i c, i < N → c < q.classes → (found i c).Nodup ∧ (found i c).Pairwise fun a b => Y [i, b, c] ≤ Y [i, a, c] := by
    intro i c hi hc
    obtain ⟨h1, h2⟩ := (hfound i hi).2 c (List.mem_range.2 hc)
    by_cases hb : (c : Int) = q.bg
    · rw [h1 hb]; exact ⟨List.nodup_nil, List.Pairwise.nil⟩
    · refine ⟨(h2 hb).nodup, (h2 hb).order.imp ?_⟩
      rintro a b (h | ⟨h, _⟩)
      · exact le_of_lt h
      · exact le_of_eq h.symm
  have hkeep : ∀ i, i < N → (keptOf i).length = q.classes ∧
      Best q.keep q.classes (fun c p => Y [i, p, c]) (found i) (fun c => (keptOf i).getD c []) := by
    intro i hi
    obtain ⟨h1, h2⟩ := detKeep_ok hps (s := fun c p => conf.data.getD (i * (P * q.classes) + (p * q.classes + c)) 0) (keep := q.keep)
      (found := (List.range q.classes).map (found i))
      (fun c hc => by
        simp only [List.length_map, List.length_range] at hc
        rw [hfD i c hc]; exact (hnod i c hi hc).1)
      (fun c hc => by
        simp only [List.length_map, List.length_range] at hc
        rw [hfD i c hc]
        apply (hnod i c hi hc).2.imp_of_mem
        intro a b ha hb h
        rw [hcf i c a hi (hfp i c a hi hc ha) hc, hcf i c b hi (hfp i c b hi hc hb) hc]
        exact h)
    simp only [List.length_map, List.length_range] at h1 h2
    have htot : totalOf q.classes (fun c => ((List.range q.classes).map (found i)).getD c []) = totalOf q.classes (found i) := by
      unfold totalOf
      congr 1
      apply List.map_congr_left
      intro c hc
      beta_reduce
      rw [hfD i c (List.mem_range.1 hc)]
    have hsub : ∀ c p, c < q.classes → p ∈ (keptOf i).getD c [] → p ∈ found i c := by
      intro c p hc hp
      have := (h2.sub c hc).2 p hp
      rwa [hfD i c hc] at this
    refine ⟨h1, ?_, ?_, ?_, ?_, ?_⟩
    · intro h c hc
      rw [← htot] at h
      have := h2.all h c hc
      rw [hfD i c hc] at this
      exact this
    · intro ha hb
      exact h2.count ha (by rw [htot]; exact hb)
    · intro c hc
      exact ⟨(h2.sub c hc).1, fun p hp => hsub c p hc hp⟩
    · intro c hc
      apply (h2.descend c hc).imp_of_mem
      intro a b ha hb h
      rwa [hcf i c a hi (hfp i c a hi hc (hsub c a hc ha)) hc, hcf i c b hi (hfp i c b hi hc (hsub c b hc hb)) hc] at h
    · intro c p hc hp c' p' hc' hf hn
      have := h2.best c p hc hp c' p' hc' (by rw [hfD i c' hc']; exact hf) hn
      rwa [hcf i c p hi (hfp i c p hi hc (hsub c p hc hp)) hc, hcf i c' p' hi (hfp i c' p' hi hc' hf) hc'] at this
  refine ⟨found, fun i c => (keptOf i).getD c [], _, ?_, ?_, fun i hi => (hkeep i hi).2, rfl, ?_⟩
  · intro i c hi hc hb
    exact ((hfound i hi).2 c (List.mem_range.2 hc)).1 hb
  · intro i c hi hc hb
    exact ((hfound i hi).2 c (List.mem_range.2 hc)).2 hb
  · unfold detRun
    rw [hl, hc, hp, detPriors_ok h32 h32', Res.bind_ok]
    simp only [rd, List.getElem?_cons_zero]
    simp only [Res.bind_ok]
    rw [detPrior_ok hZ, Res.bind_ok, forEach_ok (g := fun i => (List.range q.locs).map (decOf q P (D i))) (fun i hi => hdec i (List.mem_range.1 hi)),
      Res.bind_ok, forEach_ok (g := keptOf) ?_, Res.bind_ok]
    · -- the output
      have hsum : ((((List.range N).map keptOf).map fun l => (l.map List.length).sum)).sum =
          ((List.range N).flatMap fun i => imageRows A q Y D (fun c => (keptOf i).getD c []) i).length := by
        rw [List.length_flatMap, List.map_map]
        congr 1
        apply List.map_congr_left
        intro i hi
        have hkl := (hkeep i (List.mem_range.1 hi)).1
        simp only [Function.comp, imageRows, List.length_flatMap, List.length_map]
        congr 1
        apply List.ext_getElem
        · simp [hkl]
        · intro c h1 h2
          simp only [List.getElem_map, List.getElem_range]
          rw [List.getD_eq_getElem?_getD, List.getElem?_eq_getElem (by simpa using h1)]
          rfl
      unfold detOutput
      simp only
      rw [hsum]
      by_cases hr : ((List.range N).flatMap fun i => imageRows A q Y D (fun c => (keptOf i).getD c []) i) = []
      · rw [if_pos (by rw [hr]; rfl), if_pos hr, detFake_ok, Res.bind_ok]
      · rw [if_neg (fun h => hr (List.length_eq_zero_iff.1 h)), if_neg hr]
        have hem : Emits (fun st => loop (fun st i => do
            let d ← rd ((List.range N).map fun i => (List.range q.locs).map (decOf q P (D i))) i
            let ch ← rd ((List.range N).map keptOf) i
            detPutImage A q conf.data P i d ch st) N st)
            ((List.range N).flatMap fun i => (List.range q.classes).flatMap fun c => ((keptOf i).getD c []).flatMap fun p =>
              detRowOf A.fl i c (Y [i, p, c]) (D i (if q.share then 0 else c) p)) := by
          apply Emits.loop
          intro i hi
          have hkl := (hkeep i hi).1
          have : Emits (detPutImage A q conf.data P i ((List.range q.locs).map (decOf q P (D i))) (keptOf i))
              ((List.range q.classes).flatMap fun c => ((keptOf i).getD c []).flatMap fun p =>
                detRowOf A.fl i c (Y [i, p, c]) (D i (if q.share then 0 else c) p)) := by
            apply Emits.loop
            intro c hc
            have hg : rd (keptOf i) c = .ok ((keptOf i).getD c []) := by
              rw [rd, List.getD_eq_getElem?_getD, List.getElem?_eq_getElem (by omega)]; rfl
            simp only [hg, Res.bind_ok]
            unfold detPutLabel
            by_cases hb : (c : Int) = q.bg
            · have h0 : (keptOf i).getD c [] = [] := by
                apply List.eq_nil_iff_forall_not_mem.2
                intro p hp
                have h1 := ((hkeep i hi).2.sub c hc).2 p hp
                rw [((hfound i hi).2 c (List.mem_range.2 hc)).1 hb] at h1
                simp at h1
              rw [h0]
              simp only [if_pos hb]
              exact Emits.nil
            · simp only [if_neg hb, detScores_ok hY hi hc, hdecAt i c hi hc hb, Res.bind_ok]
              have hpp : ∀ p ∈ (keptOf i).getD c [], p < P := fun p hp => hfp i c p hi hc (((hkeep i hi).2.sub c hc).2 p hp)
              apply detRows_emits A (s := fun p => Y [i, p, c]) (B := fun p => D i (if q.share then 0 else c) p) i c
              · intro p hp
                rw [List.getElem?_map, List.getElem?_range (hpp p hp)]; rfl
              · intro p hp
                rw [List.getElem?_map, List.getElem?_range (hpp p hp)]; rfl
          simp only [rd, List.getElem?_map, List.getElem?_range hi, Option.map_some, Res.bind_ok]
          exact this
        have hflat : ((List.range N).flatMap fun i => (List.range q.classes).flatMap fun c => ((keptOf i).getD c []).flatMap fun p =>
              detRowOf A.fl i c (Y [i, p, c]) (D i (if q.share then 0 else c) p)) =
            ((List.range N).flatMap fun i => imageRows A q Y D (fun c => (keptOf i).getD c []) i).flatten := by
          simp only [imageRows, List.flatMap_def, List.flatten_flatten, List.map_map, Function.comp_def, List.map_flatten]
        rw [hflat] at hem
        have hrl : ∀ r ∈ ((List.range N).flatMap fun i => imageRows A q Y D (fun c => (keptOf i).getD c []) i), r.length = 7 := by
          intro r hr
          simp only [imageRows, List.mem_flatMap, List.mem_map] at hr
          obtain ⟨i, _, c, _, p, _, rfl⟩ := hr
          rfl
        have hlenF := block_length (g := fun r : List Rat => r) (m := 7) hrl
        rw [List.flatMap_id'] at hlenF
        have := hem [] (fresh (((List.range N).flatMap fun i => imageRows A q Y D (fun c => (keptOf i).getD c []) i).length * 7))
          (by rw [hfresh, hlenF])
        simp only [List.nil_append, List.length_nil] at this
        rw [this, Res.bind_ok]
        simp only
        rw [List.drop_of_length_le (by rw [hfresh, hlenF]), List.append_nil]
    · intro i hi
      have hi' := List.mem_range.1 hi
      simp only [List.getElem?_map, List.getElem?_range hi', Option.map_some, Res.bind_ok]
      unfold detImage
      rw [(hfound i hi').1, Res.bind_ok]

/-- arithmetic without rounding; `e` is the exponential function -/
def exactDet (e : Rat → Rat) : DetArith := ⟨id, id, fun v s => e v * s⟩

/-- one image, two priors, two classes of which the first is the background -/
def twoPriors : DetParams := ⟨2, true, 0, 1, true, -1, 1 / 4, 1 / 2, 1, -1⟩
def twoPriorsLoc : Operand Rat := ⟨10, [1, 8], [0, 0, 0, 0, 0, 0, 1, 0]⟩
def twoPriorsConf : Operand Rat := ⟨10, [1, 4], [1 / 2, 1 / 2, 1 / 4, 3 / 4]⟩
def twoPriorsPrior : Operand Rat := ⟨10, [1, 2, 8], [0, 0, 1, 1, 2, 0, 3, 1, 1, 1, 1, 1, 1, 1, 1, 1]⟩

example : ∃ X Y Z, Holds [1, 2, twoPriors.locs, 4] twoPriorsLoc.data X ∧ Holds [1, 2, twoPriors.classes] twoPriorsConf.data Y ∧
    Holds [2, 2, 4] twoPriorsPrior.data Z ∧ twoPriorsLoc.shape = [1, 2 * twoPriors.locs * 4] ∧ twoPriorsConf.shape = [1, 2 * twoPriors.classes] ∧
    (∀ i c p, i < 1 → c < twoPriors.locs → p < 2 → (twoPriors.share = false → (c : Int) ≠ twoPriors.bg) →
      detDecode (exactDet id) twoPriors.code twoPriors.encoded (priorOf Z p) (varOf Z p) (predOf X i p c) =
        .ok ⟨(priorOf Z p).xmin + X [i, p, c, 0], (priorOf Z p).ymin + X [i, p, c, 1], (priorOf Z p).xmax + X [i, p, c, 2],
          (priorOf Z p).ymax + X [i, p, c, 3]⟩) := by
  refine ⟨fun c => twoPriorsLoc.data.getD (lin [1, 2, 1, 4] c) default, fun c => twoPriorsConf.data.getD (lin [1, 2, 2] c) default,
    fun c => twoPriorsPrior.data.getD (lin [2, 2, 4] c) default, holds_exists rfl, holds_exists rfl, holds_exists rfl, rfl, rfl, ?_⟩
  · intro i c p _ _ _ _
    rfl

/-- the run of this case: the second prior first, by its score -/
example (psort : (Nat → Nat → Bool) → Nat → List Nat → List Nat) :
    detRun (exactDet id) psort twoPriors twoPriorsLoc twoPriorsConf twoPriorsPrior (fun n => List.replicate n 0) =
      .ok ([1, 1, 2, 7], [0, 1, 3 / 4, 2, 0, 4, 1, 0, 1, 1 / 2, 0, 0, 1, 1]) := by
  have : detRun (exactDet id) (fun _ _ l => l) twoPriors twoPriorsLoc twoPriorsConf twoPriorsPrior (fun n => List.replicate n 0) =
      .ok ([1, 1, 2, 7], [0, 1, 3 / 4, 2, 0, 4, 1, 0, 1, 1 / 2, 0, 0, 1, 1]) := by decide +kernel
  exact this

/-! ## what survives is apart -/

theorem lowered_le {fl : Rat → Rat} {eta nms : Rat} (hm : ∀ u v, u ≤ v → fl u ≤ fl v) (hi : ∀ u, fl (fl u) = fl u) (h1 : eta ≤ 1)
    (hn : fl nms = nms) (n : Nat) : lowered fl eta nms n ≤ nms ∧ fl (lowered fl eta nms n) = lowered fl eta nms n := by
  induction n with
  | zero => exact ⟨le_refl _, hn⟩
  | succ n ih =>
    unfold lowered
    split
    next h =>
      refine ⟨?_, hi _⟩
      have h2 : lowered fl eta nms n * eta ≤ lowered fl eta nms n := by nlinarith [h.2]
      exact le_trans (le_trans (hm _ _ h2) (le_of_eq ih.2)) ih.1
    next => exact ih

theorem detWithin_mono {A : DetArith} {t t' : Rat} (h : t ≤ t') {a b : NBox} (hw : detWithin A t a b = true) : detWithin A t' a b = true := by
  unfold detWithin at hw ⊢
  simp only at hw ⊢
  split_ifs at hw ⊢
  · simp only [decide_eq_true_eq] at hw ⊢; exact ⟨hw.1, le_trans hw.2 h⟩
  · simp only [decide_eq_true_eq] at hw ⊢; exact le_trans hw h

/-- **C84, apart.** Of two survivors of a class the one with the lower score overlaps the other by at most the threshold: also when the
threshold adapts, since it only falls. `hm`, `hi`, `hn` say that rounding is monotone and keeps rounded numbers, and that the threshold is
a `float`. -/
theorem C84_apart {A : DetArith} {q : DetParams} {n : Nat} {s : Nat → Rat} {B : Nat → NBox} {kept : List Nat} (h : Survivors A q n s B kept)
    (hm : ∀ u v, u ≤ v → A.fl u ≤ A.fl v) (hi : ∀ u, A.fl (A.fl u) = A.fl u) (hn : A.fl q.nms = q.nms) (he : q.eta ≤ 1)
    {a b : Nat} (ha : a ∈ kept) (hb : b ∈ kept) (hab : a ≠ b) :
    detWithin A q.nms (B a) (B b) = true ∨ detWithin A q.nms (B b) (B a) = true := by
  have key : ∀ a b, a ∈ kept → b ∈ kept → Ahead s b a → detWithin A q.nms (B a) (B b) = true := by
    intro a b ha hb hab
    exact detWithin_mono (lowered_le hm hi he hn _).1 (((h.stays a).1 ha).2 b hb hab)
  rcases lt_trichotomy (s a) (s b) with h1 | h1 | h1
  · exact Or.inl (key a b ha hb (Or.inl h1))
  · rcases Nat.lt_or_gt_of_ne hab with h2 | h2
    · exact Or.inr (key b a hb ha (Or.inr ⟨h1, h2⟩))
    · exact Or.inl (key a b ha hb (Or.inr ⟨h1.symm, h2⟩))
  · exact Or.inr (key b a hb ha (Or.inl h1))

/-- two of three boxes survive: the second overlaps the first by more than the threshold -/
example : Survivors (exactDet id) { twoPriors with eta := 1 / 2, nms := 3 / 4 } 3 (fun p => 1 - p / 8)
    (fun p => if p = 2 then ⟨5, 0, 6, 1⟩ else ⟨0, 0, 1, 1⟩) [0, 2] := by
  refine ⟨by decide +kernel, ?_⟩
  intro p
  by_cases hp : p < 3
  · have : p = 0 ∨ p = 1 ∨ p = 2 := by omega
    rcases this with rfl | rfl | rfl <;> (unfold Ranked; decide +kernel)
  · constructor
    · intro h
      simp only [List.mem_cons, List.not_mem_nil, or_false] at h
      omega
    · rintro ⟨⟨h, _⟩, _⟩
      exact absurd h hp

/-- **C84, best of an image.** What is not kept of an image has no higher score than what is kept: see `Best`; if nothing may be kept,
`keep_top_k` of zero, the output says there is no detection. -/
theorem C84_keep_none {K : Nat} {s : Nat → Nat → Rat} {found sel : Nat → List Nat} (h : Best 0 K s found sel) {c : Nat} (hc : c < K) : sel c = [] := by
  have h0 : totalOf K sel = 0 := by
    by_cases ht : totalOf K found = 0
    · have := h.all (Or.inr (by omega))
      unfold totalOf at ht ⊢
      rw [← ht]
      congr 1
      apply List.map_congr_left
      intro c hc
      rw [this c (List.mem_range.1 hc)]
    · have := h.count (le_refl _) (by omega)
      omega
  unfold totalOf at h0
  rw [List.sum_eq_zero_iff] at h0
  exact List.length_eq_zero_iff.1 (h0 _ (List.mem_map.2 ⟨c, List.mem_range.2 hc, rfl⟩))

example : Best 1 2 (fun c _ => c) (fun _ => [0]) (fun c => if c = 1 then [0] else []) := by
  refine ⟨?_, ?_, ?_, ?_, ?_⟩
  · rintro (h | h) <;> revert h <;> decide
  · intro _ _; decide
  · intro c _; constructor
    · split <;> simp
    · intro p hp; split at hp <;> simp_all
  · intro c _; split <;> simp
  · intro c p _ hp c' p' hc' _ _
    have : c = 1 := by by_contra h; simp [h] at hp
    subst this
    have : (c' : Rat) ≤ 1 := by exact_mod_cast (by omega : c' ≤ 1)
    simpa using this

/-! ## decoding, without rounding -/

/-- **C84, corner coding.** Every corner of the prior is moved by the prediction, times the variance unless that is encoded in the target. -/
theorem C84_corner_partial (e : Rat → Rat) (encoded : Bool) (b v x : NBox) :
    detDecode (exactDet e) 1 encoded b v x = .ok (if encoded then
        ⟨b.xmin + x.xmin, b.ymin + x.ymin, b.xmax + x.xmax, b.ymax + x.ymax⟩
      else ⟨b.xmin + v.xmin * x.xmin, b.ymin + v.ymin * x.ymin, b.xmax + v.xmax * x.xmax, b.ymax + v.ymax * x.ymax⟩) := by
  cases encoded <;> rfl

/-- **C84, center coding.** For a prior with an area the centre is moved relative to the size, and the size is scaled by the exponential. -/
theorem C84_center_size_partial (e : Rat → Rat) (encoded : Bool) (b v x : NBox) (hw : b.xmin < b.xmax) (hh : b.ymin < b.ymax)
    {vx vy vw vh : Rat} (hv : if encoded then vx = 1 ∧ vy = 1 ∧ vw = 1 ∧ vh = 1 else vx = v.xmin ∧ vy = v.ymin ∧ vw = v.xmax ∧ vh = v.ymax) :
    ∃ r, detDecode (exactDet e) 2 encoded b v x = .ok r ∧
      Extent r.xmin r.xmax ((b.xmin + b.xmax) / 2 + vx * x.xmin * (b.xmax - b.xmin)) (e (vw * x.xmax) * (b.xmax - b.xmin)) ∧
      Extent r.ymin r.ymax ((b.ymin + b.ymax) / 2 + vy * x.ymin * (b.ymax - b.ymin)) (e (vh * x.ymax) * (b.ymax - b.ymin)) := by
  unfold detDecode
  have hw' : 0 < (exactDet e).fl (b.xmax - b.xmin) := sub_pos.2 hw
  have hh' : 0 < (exactDet e).fl (b.ymax - b.ymin) := sub_pos.2 hh
  rw [if_neg (by decide), if_pos rfl]
  simp only
  rw [if_pos hw', if_pos hh']
  refine ⟨_, rfl, ?_⟩
  cases encoded
  · simp only [Bool.false_eq_true, if_false] at hv
    obtain ⟨rfl, rfl, rfl, rfl⟩ := hv
    simp only [exactDet, Extent, detCentre, detExtent, detOffset, Bool.false_eq_true, if_false, id]
    refine ⟨⟨?_, ?_⟩, ?_, ?_⟩ <;> ring
  · simp only [if_true] at hv
    obtain ⟨rfl, rfl, rfl, rfl⟩ := hv
    simp only [exactDet, Extent, detCentre, detExtent, detOffset, if_true, id, one_mul]
    refine ⟨⟨?_, ?_⟩, ?_, ?_⟩ <;> ring

/-- **C84, corner coding relative to the size.** For a prior with an area every corner is moved relative to the size of the prior. -/
theorem C84_corner_size_partial (e : Rat → Rat) (encoded : Bool) (b v x : NBox) (hw : b.xmin < b.xmax) (hh : b.ymin < b.ymax) :
    detDecode (exactDet e) 3 encoded b v x = .ok (if encoded then
        ⟨b.xmin + x.xmin * (b.xmax - b.xmin), b.ymin + x.ymin * (b.ymax - b.ymin), b.xmax + x.xmax * (b.xmax - b.xmin),
          b.ymax + x.ymax * (b.ymax - b.ymin)⟩
      else ⟨b.xmin + v.xmin * x.xmin * (b.xmax - b.xmin), b.ymin + v.ymin * x.ymin * (b.ymax - b.ymin),
        b.xmax + v.xmax * x.xmax * (b.xmax - b.xmin), b.ymax + v.ymax * x.ymax * (b.ymax - b.ymin)⟩) := by
  unfold detDecode
  have hw' : 0 < (exactDet e).fl (b.xmax - b.xmin) := sub_pos.2 hw
  have hh' : 0 < (exactDet e).fl (b.ymax - b.ymin) := sub_pos.2 hh
  rw [if_neg (by decide), if_neg (by decide), if_pos rfl]
  simp only
  rw [if_pos hw', if_pos hh']
  cases encoded <;> rfl

example : detDecode (exactDet fun v => 1 + v) 2 false ⟨0, 0, 2, 4⟩ ⟨1 / 2, 1 / 2, 1 / 4, 1 / 4⟩ ⟨1, 1, 2, 4⟩ = .ok ⟨1 / 2, 0, 7 / 2, 8⟩ ∧
    detDecode (exactDet id) 3 false ⟨0, 0, 2, 4⟩ ⟨1 / 2, 1 / 2, 1 / 4, 1 / 4⟩ ⟨1, 1, 2, 4⟩ = .ok ⟨1, 2, 3, 8⟩ := by decide +kernel

/-- **C84, refused.** Priors without an area, for the codings relative to a size, and unknown codings. The size is the rounded difference. -/
theorem C84_decode_rejects (A : DetArith) (encoded : Bool) (b v x : NBox) (code : Int)
    (h : code < 1 ∨ 3 < code ∨ (code ≠ 1 ∧ (A.fl (b.xmax - b.xmin) ≤ 0 ∨ A.fl (b.ymax - b.ymin) ≤ 0))) :
    detDecode A code encoded b v x = .err := by
  unfold detDecode
  rcases h with h | h | ⟨h, hs⟩
  · rw [if_neg (by omega), if_neg (by omega), if_neg (by omega)]
  · rw [if_neg (by omega), if_neg (by omega), if_neg (by omega)]
  · rw [if_neg h]
    simp only
    rcases hs with hs | hs
    · split_ifs with h1 h2 h3 h4 h5 h6 <;> first | rfl | (exfalso; linarith)
    · split_ifs with h1 h2 h3 h4 h5 h6 <;> first | rfl | (exfalso; linarith)

example : (exactDet id).fl ((2 : Rat) - 2) ≤ 0 := by decide +kernel

/-! ## overlap, without rounding -/

/-- **C84, overlap.** For boxes whose corners are in order, the test compares the area of the intersection with that of the union. -/
theorem C84_overlap_partial (e : Rat → Rat) {t : Rat} {a b : NBox} (ht : 0 ≤ t) (ha : a.xmin ≤ a.xmax ∧ a.ymin ≤ a.ymax)
    (hb : b.xmin ≤ b.xmax ∧ b.ymin ≤ b.ymax) :
    detWithin (exactDet e) t a b = true ↔
      common a.xmin a.xmax b.xmin b.xmax * common a.ymin a.ymax b.ymin b.ymax ≤
        t * ((a.xmax - a.xmin) * (a.ymax - a.ymin) + (b.xmax - b.xmin) * (b.ymax - b.ymin) -
          common a.xmin a.xmax b.xmin b.xmax * common a.ymin a.ymax b.ymin b.ymax) := by
  obtain ⟨ha1, ha2⟩ := ha
  obtain ⟨hb1, hb2⟩ := hb
  have hsz : ∀ c : NBox, c.xmin ≤ c.xmax → c.ymin ≤ c.ymax → detSize (exactDet e) c = (c.xmax - c.xmin) * (c.ymax - c.ymin) := by
    intro c h1 h2
    unfold detSize
    rw [if_neg (by rw [not_or, not_lt, not_lt]; exact ⟨h1, h2⟩)]
    rfl
  have hle : ∀ lo hi lo' hi' : Rat, lo ≤ hi → lo' ≤ hi' → 0 ≤ common lo hi lo' hi' ∧ common lo hi lo' hi' ≤ hi - lo ∧ common lo hi lo' hi' ≤ hi' - lo' := by
    intro lo hi lo' hi' h h'
    unfold common
    refine ⟨le_max_left _ _, max_le (by linarith) ?_, max_le (by linarith) ?_⟩
    · linarith [min_le_left hi hi', le_max_left lo lo']
    · linarith [min_le_right hi hi', le_max_right lo lo']
  obtain ⟨p1, p2, p3⟩ := hle _ _ _ _ ha1 hb1
  obtain ⟨q1, q2, q3⟩ := hle _ _ _ _ ha2 hb2
  have hIa : common a.xmin a.xmax b.xmin b.xmax * common a.ymin a.ymax b.ymin b.ymax ≤ (a.xmax - a.xmin) * (a.ymax - a.ymin) :=
    mul_le_mul p2 q2 q1 (by linarith)
  have hIb : common a.xmin a.xmax b.xmin b.xmax * common a.ymin a.ymax b.ymin b.ymax ≤ (b.xmax - b.xmin) * (b.ymax - b.ymin) :=
    mul_le_mul p3 q3 q1 (by linarith)
  have hm : ∀ lo hi lo' hi' : Rat, hi < lo' ∨ hi' < lo → common lo hi lo' hi' = 0 := by
    intro lo hi lo' hi' h
    unfold common
    apply max_eq_left
    rcases h with h | h
    · linarith [min_le_left hi hi', le_max_right lo lo']
    · linarith [min_le_right hi hi', le_max_left lo lo']
  have hz : common a.xmin a.xmax b.xmin b.xmax * common a.ymin a.ymax b.ymin b.ymax = 0 →
      (0 ≤ t ↔ common a.xmin a.xmax b.xmin b.xmax * common a.ymin a.ymax b.ymin b.ymax ≤
        t * ((a.xmax - a.xmin) * (a.ymax - a.ymin) + (b.xmax - b.xmin) * (b.ymax - b.ymin) -
          common a.xmin a.xmax b.xmin b.xmax * common a.ymin a.ymax b.ymin b.ymax)) := by
    intro h
    rw [h]
    refine ⟨fun _ => ?_, fun _ => ht⟩
    have h1 : 0 ≤ (a.xmax - a.xmin) * (a.ymax - a.ymin) := mul_nonneg (by linarith) (by linarith)
    have h2 : 0 ≤ (b.xmax - b.xmin) * (b.ymax - b.ymin) := mul_nonneg (by linarith) (by linarith)
    exact mul_nonneg ht (by linarith)
  unfold detWithin detMeet
  by_cases hd : a.xmax < b.xmin ∨ b.xmax < a.xmin ∨ a.ymax < b.ymin ∨ b.ymax < a.ymin
  · rw [if_pos hd]
    have h0 : common a.xmin a.xmax b.xmin b.xmax * common a.ymin a.ymax b.ymin b.ymax = 0 := by
      rcases hd with h | h | h | h
      · rw [hm a.xmin a.xmax b.xmin b.xmax (Or.inl h), zero_mul]
      · rw [hm a.xmin a.xmax b.xmin b.xmax (Or.inr h), zero_mul]
      · rw [hm a.ymin a.ymax b.ymin b.ymax (Or.inl h), mul_zero]
      · rw [hm a.ymin a.ymax b.ymin b.ymax (Or.inr h), mul_zero]
    rw [← hz h0]
    have h00 : ¬ (0 < (exactDet e).fl ((0 : Rat) - 0) ∧ 0 < (exactDet e).fl ((0 : Rat) - 0)) := by
      rintro ⟨h, _⟩
      simp [exactDet] at h
    simp only
    rw [if_neg h00, decide_eq_true_eq]
  · rw [if_neg hd]
    simp only [not_or, not_lt] at hd
    have hx : common a.xmin a.xmax b.xmin b.xmax = min a.xmax b.xmax - max a.xmin b.xmin := by
      unfold common
      apply max_eq_right
      have : max a.xmin b.xmin ≤ min a.xmax b.xmax := max_le (le_min ha1 hd.2.1) (le_min hd.1 hb1)
      linarith
    have hy : common a.ymin a.ymax b.ymin b.ymax = min a.ymax b.ymax - max a.ymin b.ymin := by
      unfold common
      apply max_eq_right
      have : max a.ymin b.ymin ≤ min a.ymax b.ymax := max_le (le_min ha2 hd.2.2.2) (le_min hd.2.2.1 hb2)
      linarith
    change (if 0 < min a.xmax b.xmax - max a.xmin b.xmin ∧ 0 < min a.ymax b.ymax - max a.ymin b.ymin then
      decide (detSize (exactDet e) a + detSize (exactDet e) b -
          (min a.xmax b.xmax - max a.xmin b.xmin) * (min a.ymax b.ymax - max a.ymin b.ymin) ≠ 0 ∧
        (min a.xmax b.xmax - max a.xmin b.xmin) * (min a.ymax b.ymax - max a.ymin b.ymin) / (detSize (exactDet e) a + detSize (exactDet e) b -
          (min a.xmax b.xmax - max a.xmin b.xmin) * (min a.ymax b.ymax - max a.ymin b.ymin)) ≤ t)
      else decide (0 ≤ t)) = true ↔ _
    rw [hsz a ha1 ha2, hsz b hb1 hb2]
    rw [← hx, ← hy]
    split
    next hp =>
      rw [decide_eq_true_eq]
      have hI := mul_pos hp.1 hp.2
      generalize common a.xmin a.xmax b.xmin b.xmax * common a.ymin a.ymax b.ymin b.ymax = I at *
      generalize (a.xmax - a.xmin) * (a.ymax - a.ymin) = S at *
      generalize (b.xmax - b.xmin) * (b.ymax - b.ymin) = T at *
      have hpos : 0 < S + T - I := by linarith
      rw [div_le_iff₀ hpos]
      exact ⟨fun h => h.2, fun h => ⟨ne_of_gt hpos, h⟩⟩
    next hp =>
      rw [decide_eq_true_eq]
      apply hz
      rw [not_and_or, not_lt, not_lt] at hp
      rcases hp with h | h
      · rw [le_antisymm h p1, zero_mul]
      · rw [le_antisymm h q1, mul_zero]

example : detWithin (exactDet id) (1 / 3) ⟨0, 0, 2, 1⟩ ⟨1, 0, 3, 1⟩ = true ∧ detWithin (exactDet id) (1 / 4) ⟨0, 0, 2, 1⟩ ⟨1, 0, 3, 1⟩ = false := by
  decide +kernel

/-! ## what is refused, and what is not -/

/-- **C84, refused.** A negative threshold and an `eta` outside (0, 1]. -/
theorem C84_init (p : DetParams) : (∃ q, detInit p = .ok q) ↔ 0 ≤ p.nms ∧ 0 < p.eta ∧ p.eta ≤ 1 := by
  unfold detInit
  split_ifs with h1 h2 h3
  · exact ⟨fun _ => ⟨h1, h2, h3⟩, fun _ => ⟨p, rfl⟩⟩
  · exact ⟨fun ⟨q, h⟩ => (by cases h), fun ⟨_, _, h⟩ => absurd h h3⟩
  · exact ⟨fun ⟨q, h⟩ => (by cases h), fun ⟨_, h, _⟩ => absurd h h2⟩
  · exact ⟨fun ⟨q, h⟩ => (by cases h), fun ⟨h, _⟩ => absurd h h1⟩

example : 0 ≤ twoPriors.nms ∧ 0 < twoPriors.eta ∧ twoPriors.eta ≤ 1 := by decide +kernel

/-- **C84, refused.** Different numbers of images; numbers of predictions that do not fit the number of priors. -/
theorem C84_rejects (A : DetArith) (psort : (Nat → Nat → Bool) → Nat → List Nat → List Nat) (q : DetParams) {loc conf prior : Operand Rat}
    {N N' M M' S d0 d1 : Nat} {tl tc tp : List Nat} (fresh : Nat → List Rat) (hl : loc.shape = N :: M :: tl) (hc : conf.shape = N' :: M' :: tc)
    (hp : prior.shape = d0 :: d1 :: S :: tp) (h32 : S / 4 * q.locs * 4 ≤ 2147483647) (h32' : S / 4 * q.classes ≤ 2147483647)
    (h : N ≠ N' ∨ M ≠ S / 4 * q.locs * 4 ∨ M' ≠ S / 4 * q.classes) :
    detRun A psort q loc conf prior fresh = .err ∧ ∀ dt, detInfer q dt loc.shape conf.shape prior.shape = .err := by
  have key : detPriors q loc.shape conf.shape prior.shape = .err := by
    unfold detPriors
    rw [hl, hc, hp]
    simp only [rd, List.getElem?_cons_zero, List.getElem?_cons_succ, Res.bind_ok]
    by_cases h1 : N = N'
    · rw [if_pos h1, int32_ok (by unfold I32; norm_cast; generalize S / 4 * q.locs = m at *; omega), Res.bind_ok,
        int32_ok (by unfold I32; norm_cast; generalize S / 4 * q.locs = m at *; omega), Res.bind_ok]
      by_cases h2 : M = S / 4 * q.locs * 4
      · rw [if_pos (by rw [h2]; norm_cast), int32_ok (by unfold I32; norm_cast; generalize S / 4 * q.classes = m at *; omega), Res.bind_ok]
        have h3 : M' ≠ S / 4 * q.classes := by tauto
        rw [if_neg]
        intro hE
        exact h3 (by exact_mod_cast hE.symm)
      · rw [if_neg]
        intro hE
        exact h2 (by exact_mod_cast hE.symm)
    · rw [if_neg h1]
  constructor
  · unfold detRun; rw [key]; rfl
  · intro dt; unfold detInfer; rw [key]; rfl

example : ([1, 8] : List Nat) = 1 :: 8 :: [] ∧ 8 ≠ 12 / 4 * twoPriors.locs * 4 := by decide

/-- **C84, announced shape.** Shape inference always announces one row, of the element type of the first operand. -/
theorem C84_infer {q : DetParams} {N P : Nat} (dt : Nat) (h32 : P * q.locs * 4 ≤ 2147483647) (h32' : P * q.classes ≤ 2147483647) :
    detInfer q dt [N, P * q.locs * 4] [N, P * q.classes] [1, 2, P * 4] = .ok (dt, [1, 1, 1, 7]) := by
  unfold detInfer
  rw [detPriors_ok h32 h32', Res.bind_ok]

/-- **C84, announced shape, refuted**: the run of `twoPriors` returns two rows. -/
theorem C84_infer_false (psort : (Nat → Nat → Bool) → Nat → List Nat → List Nat) :
    (∃ out, detRun (exactDet id) psort twoPriors twoPriorsLoc twoPriorsConf twoPriorsPrior (fun n => List.replicate n 0) = .ok ([1, 1, 2, 7], out)) ∧
    detInfer twoPriors 11 twoPriorsLoc.shape twoPriorsConf.shape twoPriorsPrior.shape = .ok (11, [1, 1, 1, 7]) := by
  refine ⟨⟨[0, 1, 3 / 4, 2, 0, 4, 1, 0, 1, 1 / 2, 0, 0, 1, 1], ?_⟩, by decide⟩
  have : detRun (exactDet id) (fun _ _ l => l) twoPriors twoPriorsLoc twoPriorsConf twoPriorsPrior (fun n => List.replicate n 0) =
      .ok ([1, 1, 2, 7], [0, 1, 3 / 4, 2, 0, 4, 1, 0, 1, 1 / 2, 0, 0, 1, 1]) := by decide +kernel
  exact this

/-- **C84, no priors, refuted**: with an image and no priors the run is undefined, instead of reporting that nothing is detected. -/
theorem C84_no_priors_false (A : DetArith) (psort : (Nat → Nat → Bool) → Nat → List Nat → List Nat) (fresh : Nat → List Rat) :
    detRun A psort twoPriors ⟨10, [1, 0], []⟩ ⟨10, [1, 0], []⟩ ⟨10, [1, 2, 0], []⟩ fresh = .ub := rfl

/-- **C84, background, refuted**: the label -1, commonly used for no background, is refused when locations are shared. -/
theorem C84_no_background_false (A : DetArith) (psort : (Nat → Nat → Bool) → Nat → List Nat → List Nat) (fresh : Nat → List Rat) :
    detRun A psort { twoPriors with bg := -1 } twoPriorsLoc twoPriorsConf twoPriorsPrior fresh = .err := rfl

/-- **C84, priors, refuted**: an operand of priors without variances is accepted and read past its end. -/
theorem C84_variance_false (A : DetArith) (psort : (Nat → Nat → Bool) → Nat → List Nat → List Nat) (fresh : Nat → List Rat) :
    detRun A psort twoPriors twoPriorsLoc twoPriorsConf ⟨10, [1, 1, 8], [0, 0, 1, 1, 2, 0, 3, 1]⟩ fresh = .ub := rfl

/-- **C84, layout, refuted**: trailing extents of the predictions are ignored. The second image of these two is read from the middle of the first
one's predictions: its box is reported as (2, 2, 3, 3) plus the prior. -/
theorem C84_layout_false (psort : (Nat → Nat → Bool) → Nat → List Nat → List Nat) :
    detRun (exactDet id) psort twoPriors ⟨10, [2, 4, 2], [0, 0, 0, 0, 2, 2, 2, 2, 9, 9, 9, 9, 9, 9, 9, 9]⟩ ⟨10, [2, 2], [0, 1, 0, 1]⟩
      ⟨10, [1, 2, 4], [0, 0, 1, 1, 1, 1, 1, 1]⟩ (fun n => List.replicate n 0) = .ok ([1, 1, 2, 7], [0, 1, 1, 0, 0, 1, 1, 1, 1, 1, 2, 2, 3, 3]) := by
  have : detRun (exactDet id) (fun _ _ l => l) twoPriors ⟨10, [2, 4, 2], [0, 0, 0, 0, 2, 2, 2, 2, 9, 9, 9, 9, 9, 9, 9, 9]⟩ ⟨10, [2, 2], [0, 1, 0, 1]⟩
      ⟨10, [1, 2, 4], [0, 0, 1, 1, 1, 1, 1, 1]⟩ (fun n => List.replicate n 0) = .ok ([1, 1, 2, 7], [0, 1, 1, 0, 0, 1, 1, 1, 1, 1, 2, 2, 3, 3]) := by
    decide +kernel
  exact this

end Verif.Props
