import Verif.Concurrency.SplitBins
/-!
# C26: range splitting
-/
namespace Verif.Props
open Verif.Core Verif.Concurrency

/-- the indices `a, a+1, …, b-1` in order -/
def indices (a b : Int) : List Int := (List.range (b - a).toNat).map fun (i : Nat) => a + (i : Int)

theorem indices_nil {a b : Int} (h : b ≤ a) : indices a b = [] := by
  simp [indices, show (b - a).toNat = 0 by omega]

theorem indices_append {a b c : Int} (h1 : a ≤ b) (h2 : b ≤ c) : indices a b ++ indices b c = indices a c := by
  unfold indices
  obtain ⟨m, rfl⟩ : ∃ m : Nat, b = a + m := ⟨(b - a).toNat, by omega⟩
  obtain ⟨n, rfl⟩ : ∃ n : Nat, c = a + m + n := ⟨(c - (a + m)).toNat, by omega⟩
  rw [show (a + (m : Int) - a).toNat = m by omega, show (a + (m : Int) + n - (a + m)).toNat = n by omega,
    show (a + (m : Int) + n - a).toNat = m + n by omega, List.range_add, List.map_append, List.map_map]
  congr 1
  apply List.map_congr_left
  intro i _
  simp only [Function.comp]
  push_cast
  omega

theorem mem_indices {a b i : Int} : i ∈ indices a b ↔ a ≤ i ∧ i < b := by
  unfold indices
  simp only [List.mem_map, List.mem_range]
  constructor
  · rintro ⟨k, hk, rfl⟩; omega
  · intro h; exact ⟨(i - a).toNat, by omega, by omega⟩

/-- the rounded-up quotient computed through a double is the exact one -/
theorem ceil_nearest {d b : Int} {q : ℚ} (hd : 0 < d) (hd' : d < 2 ^ 53) (hb : 0 < b)
    (hq : NearestDouble ((d : ℚ) / b) q) : ⌈q⌉ = ⌈(d : ℚ) / b⌉ := by
  have hbq : (0 : ℚ) < b := by exact_mod_cast hb
  have hdq : (0 : ℚ) < d := by exact_mod_cast hd
  have hxpos : (0 : ℚ) < (d : ℚ) / b := div_pos hdq hbq
  set x : ℚ := (d : ℚ) / b with hx
  by_cases hint : x = ⌈x⌉
  · rw [hq.int ⌈x⌉ ?_ hint]
    have h1 : x ≤ d := by
      rw [hx, div_le_iff₀ hbq]
      have : (1 : ℚ) ≤ b := by exact_mod_cast hb
      nlinarith
    have h2 : ⌈x⌉ ≤ d := Int.ceil_le.2 (by exact_mod_cast h1)
    have h3 : 0 ≤ ⌈x⌉ := Int.ceil_nonneg hxpos.le
    rw [abs_of_nonneg h3]
    omega
  · have herr : |q - x| < 1 / b := by
      refine lt_of_le_of_lt hq.rel ?_
      rw [abs_of_pos hxpos, hx, div_div, div_lt_div_iff₀ (by positivity) hbq]
      have : (d : ℚ) < 2 ^ 53 := by exact_mod_cast hd'
      nlinarith
    rw [abs_lt] at herr
    -- x is at least 1/b away from the integers on both sides
    have hxb : x * b = d := by rw [hx]; field_simp
    set n := ⌈x⌉ with hn
    have hle : x ≤ n := Int.le_ceil x
    have hlt : x < n := lt_of_le_of_ne hle hint
    have hgt : (n : ℚ) - 1 < x := by
      have := Int.ceil_lt_add_one x
      rw [← hn] at this; linarith
    have h1 : (d : ℚ) < n * b := by rw [← hxb]; exact mul_lt_mul_of_pos_right hlt hbq
    have h1' : d + 1 ≤ n * b := by
      have : d < n * b := by exact_mod_cast h1
      omega
    have h2 : ((n : ℚ) - 1) * b < d := by rw [← hxb]; exact mul_lt_mul_of_pos_right hgt hbq
    have h2' : (n - 1) * b + 1 ≤ d := by
      have : (n - 1) * b < d := by exact_mod_cast h2
      omega
    have h1q : (d : ℚ) + 1 ≤ n * b := by exact_mod_cast h1'
    have h2q : ((n : ℚ) - 1) * b + 1 ≤ d := by exact_mod_cast h2'
    have hinv : 1 / (b : ℚ) * b = 1 := by field_simp
    rw [Int.ceil_eq_iff]
    constructor
    · have : ((n : ℚ) - 1) * b < q * b := by nlinarith
      exact lt_of_mul_lt_mul_right this hbq.le
    · have : q * b ≤ n * b := by nlinarith
      exact le_of_mul_le_mul_right this hbq

/-- the loop's bins, from `anchor` on -/
theorem splitLoop_spec {second step : Int} (hs : 1 ≤ step) (hmax : second + step ≤ 2147483647) :
    ∀ (fuel : Nat) (anchor : Int) (acc : List (Int × Int)), -2147483648 ≤ anchor → anchor < second →
      (second - anchor).toNat < fuel →
      ∃ bs, splitLoop second step fuel anchor acc = some (.ok (acc ++ bs)) ∧
        bs.flatMap (fun r => indices r.1 r.2) = indices anchor second ∧ (∀ r ∈ bs, r.1 < r.2) ∧
        (bs.length : Int) * step < second - anchor + step := by
  intro fuel
  induction fuel with
  | zero => intro anchor acc _ _ h; omega
  | succ fuel ih =>
    intro anchor acc hlo hlt hf
    have hi : int32 (anchor + step) = .ok (anchor + step) := int32_ok ⟨by omega, by omega⟩
    rw [splitLoop, hi]
    simp only []
    by_cases hn : anchor + step < second
    · rw [if_pos hn]
      obtain ⟨bs, e, hc, hne, hlen⟩ := ih (anchor + step) (acc ++ [(anchor, anchor + step)]) (by omega) hn (by omega)
      refine ⟨(anchor, anchor + step) :: bs, by rw [e]; simp, ?_, ?_, ?_⟩
      · rw [List.flatMap_cons, hc]
        exact indices_append (by omega) (by omega)
      · intro r hr
        rcases List.mem_cons.1 hr with rfl | h
        · simp only; omega
        · exact hne r h
      · rw [List.length_cons]
        push_cast
        rw [add_mul]
        omega
    · rw [if_neg hn, if_pos hlt]
      refine ⟨[(anchor, second)], rfl, by simp, ?_, ?_⟩
      · simpa using hlt
      · simp; omega

/-- **C26** For every range and bin count for which `second` plus the step still fits in an `int`, splitting gives
non-empty ranges whose concatenation is exactly the indices of the range in order (so they are consecutive, disjoint and
cover every index once), at most `bins` of them. -/
theorem C26_split_bins_partial (first second bins : Int) (q : ℚ) (h1 : I32 first) (h2 : I32 second) (h3 : I32 bins)
    (hq : NearestDouble (((second - first : Int) : ℚ) / bins) q)
    (hmax : second + ⌈((second - first : Int) : ℚ) / bins⌉ ≤ 2147483647) :
    ∃ bs, (∀ fuel, (second - first).toNat < fuel → splitBins fuel q first second bins = some (.ok bs)) ∧
      bs.flatMap (fun r => indices r.1 r.2) = indices first second ∧
      (∀ r ∈ bs, r.1 < r.2) ∧ bs.length ≤ (max bins 1).toNat := by
  unfold I32 at h1 h2 h3
  unfold splitBins
  by_cases hle : second ≤ first
  · refine ⟨[], fun _ _ => by rw [if_pos hle], ?_, by simp, by simp⟩
    rw [indices_nil hle]; rfl
  by_cases hb : bins ≤ 1
  · refine ⟨[(first, second)], fun _ _ => by rw [if_neg hle, if_pos hb], by simp, ?_, ?_⟩
    · simp; omega
    · simp
  have hdq : (0 : ℚ) < ((second - first : Int) : ℚ) := by exact_mod_cast (by omega : 0 < second - first)
  have hbq : (0 : ℚ) < (bins : ℚ) := by exact_mod_cast (by omega : 0 < bins)
  have hceil := ceil_nearest (d := second - first) (b := bins) (q := q) (by omega) (by omega) (by omega) hq
  set step := ⌈((second - first : Int) : ℚ) / bins⌉ with hstep
  have hpos : 1 ≤ step := by
    have : 0 < step := Int.ceil_pos.2 (div_pos hdq hbq)
    omega
  have hcover : second - first ≤ bins * step := by
    have h := Int.le_ceil (((second - first : Int) : ℚ) / bins)
    rw [← hstep, div_le_iff₀ hbq] at h
    have : second - first ≤ step * bins := by exact_mod_cast h
    rwa [mul_comm] at this
  have key : ∀ fuel, (second - first).toNat < fuel → splitLoop second step fuel first [] =
      splitLoop second step ((second - first).toNat + 1) first [] := by
    intro fuel hf
    -- more fuel does not change a finished loop
    have mono : ∀ (f : Nat) (a : Int) (acc : List (Int × Int)) (r : Res (List (Int × Int))),
        splitLoop second step f a acc = some r → ∀ g, f ≤ g → splitLoop second step g a acc = some r := by
      intro f
      induction f with
      | zero => intro a acc r h; simp [splitLoop] at h
      | succ f ih =>
        intro a acc r h g hg
        obtain ⟨g', rfl⟩ : ∃ g', g = g' + 1 := ⟨g - 1, by omega⟩
        rw [splitLoop] at h ⊢
        cases hi : int32 (a + step) with
        | ok nx =>
          rw [hi] at h
          simp only at h ⊢
          by_cases hc : nx < second
          · rw [if_pos hc] at h ⊢
            exact ih _ _ _ h _ (by omega)
          · rw [if_neg hc] at h ⊢; exact h
        | err => rw [hi] at h; exact h
        | ub => rw [hi] at h; exact h
    obtain ⟨bs, e, -⟩ := splitLoop_spec hpos hmax ((second - first).toNat + 1) first [] (by omega) (by omega) (by omega)
    rw [e, mono _ _ _ _ e fuel (by omega)]
  obtain ⟨bs, e, hc, hne, hlen⟩ :=
    splitLoop_spec hpos hmax ((second - first).toNat + 1) first [] (by omega) (by omega) (by omega)
  refine ⟨bs, ?_, hc, hne, ?_⟩
  · intro fuel hf
    rw [if_neg hle, if_neg hb, hceil]
    simp only []
    rw [if_neg (by omega), key fuel hf, e]; rfl
  · have : (bs.length : Int) * step < bins * step + step := by omega
    have : (bs.length : Int) < bins + 1 := by
      by_contra hcon
      have h4 : (bins + 1) * step ≤ (bs.length : Int) * step := by
        apply mul_le_mul_of_nonneg_right <;> omega
      rw [add_mul, one_mul] at h4
      omega
    omega

/-- ten iterations over three bins: the quotient 10/3 is not exact, any allowed rounding of it will do -/
example : NearestDouble (((10 - 0 : Int) : ℚ) / (3 : Int)) (10 / 3) ∧ I32 0 ∧ I32 10 ∧ I32 3 ∧
    (10 : Int) + ⌈((10 - 0 : Int) : ℚ) / (3 : Int)⌉ ≤ 2147483647 ∧
    splitBins 11 (10 / 3) 0 10 3 = some (.ok [(0, 4), (4, 8), (8, 10)]) := by
  have hc : ⌈(10 / 3 : ℚ)⌉ = 4 := by rw [Int.ceil_eq_iff]; norm_num
  refine ⟨⟨by norm_num, fun _ _ _ => by norm_num⟩, by decide, by decide, by decide, ?_, ?_⟩
  · rw [show ((10 - 0 : Int) : ℚ) / (3 : Int) = 10 / 3 by norm_num, hc]; norm_num
  · unfold splitBins
    rw [hc]
    rfl

/-- **C26, negation of the unrestricted claim** Near the top of the `int` range the loop's `anchor + step` overflows:
splitting `[0, 2147483647)` in two is undefined. -/
theorem C26_overflow_false : ∃ q, NearestDouble (((2147483647 - 0 : Int) : ℚ) / (2 : Int)) q ∧
    splitBins 5 q 0 2147483647 2 = some .ub := by
  refine ⟨2147483647 / 2, ⟨by norm_num, fun _ _ _ => by norm_num⟩, ?_⟩
  have hc : ⌈(2147483647 / 2 : ℚ)⌉ = 1073741824 := by rw [Int.ceil_eq_iff]; norm_num
  unfold splitBins
  rw [hc]
  rfl

theorem lsplitLoop_spec {second step : Nat} (hs : 1 ≤ step) (hmax : second + step ≤ 2 ^ 64) :
    ∀ (fuel anchor : Nat) (acc : List (Nat × Nat)), anchor < second → second - anchor < fuel →
      ∃ bs, (∀ g, fuel ≤ g → lsplitLoop second step g anchor acc = some (acc ++ bs)) ∧
        bs.flatMap (fun r => List.range' r.1 (r.2 - r.1)) = List.range' anchor (second - anchor) ∧ (∀ r ∈ bs, r.1 < r.2) ∧
        bs.length * step < second - anchor + step := by
  intro fuel
  induction fuel with
  | zero => intro anchor acc _ h; omega
  | succ fuel ih =>
    intro anchor acc hlt hf
    have hm : (anchor + step) % 2 ^ 64 = anchor + step := Nat.mod_eq_of_lt (by omega)
    by_cases hn : anchor + step < second
    · obtain ⟨bs, e, hc, hne, hlen⟩ := ih (anchor + step) (acc ++ [(anchor, anchor + step)]) hn (by omega)
      refine ⟨(anchor, anchor + step) :: bs, ?_, ?_, ?_, ?_⟩
      · intro g hg
        obtain ⟨g', rfl⟩ : ∃ g', g = g' + 1 := ⟨g - 1, by omega⟩
        rw [lsplitLoop, hm]
        rw [if_pos hn, e g' (by omega)]
        simp
      · rw [List.flatMap_cons, hc]
        simp only
        rw [show anchor + step - anchor = step by omega, show second - anchor = step + (second - (anchor + step)) by omega]
        have := List.range'_append (s := anchor) (m := step) (n := second - (anchor + step)) (step := 1)
        rw [Nat.one_mul] at this
        exact this
      · intro r hr
        rcases List.mem_cons.1 hr with rfl | h
        · simp only; omega
        · exact hne r h
      · rw [List.length_cons, add_mul]
        omega
    · refine ⟨[(anchor, second)], ?_, by simp, by simpa using hlt, by simp; omega⟩
      intro g hg
      obtain ⟨g', rfl⟩ : ∃ g', g = g' + 1 := ⟨g - 1, by omega⟩
      rw [lsplitLoop, hm]
      rw [if_neg hn, if_pos hlt]

/-- **C26, sizes**: the splitting of ranges of `size_t` gives non-empty ranges whose concatenation is exactly the indices
of the range, at most `bins` of them, for every range below 2^53 (where the two conversions to double and the difference
are exact) and every bin count. -/
theorem C26_lsplit_bins_partial (first second bins : Nat) (q : ℚ) (h2 : second < 2 ^ 53)
    (hq : NearestDouble ((((second : Int) - (first : Int) : Int) : ℚ) / ((bins : Int) : ℚ)) q) :
    ∃ bs, (∀ fuel, second - first < fuel → lsplitBins fuel q first second bins = some (some bs)) ∧
      bs.flatMap (fun r => List.range' r.1 (r.2 - r.1)) = List.range' first (second - first) ∧
      (∀ r ∈ bs, r.1 < r.2) ∧ bs.length ≤ max bins 1 := by
  unfold lsplitBins
  by_cases hle : second ≤ first
  · refine ⟨[], fun _ _ => by rw [if_pos hle], ?_, by simp, by simp⟩
    rw [show second - first = 0 by omega]; rfl
  by_cases hb : bins ≤ 1
  · refine ⟨[(first, second)], fun _ _ => by rw [if_neg hle, if_pos hb], by simp, ?_, by simp⟩
    simp; omega
  have hceil := ceil_nearest (d := (second : Int) - first) (b := bins) (q := q) (by omega) (by omega) (by omega) hq
  have hdq : (0 : ℚ) < (((second : Int) - (first : Int) : Int) : ℚ) := by exact_mod_cast (by omega : 0 < (second : Int) - first)
  have hbq : (0 : ℚ) < ((bins : Int) : ℚ) := by exact_mod_cast (by omega : 0 < bins)
  have hpos : 0 < ⌈(((second : Int) - (first : Int) : Int) : ℚ) / ((bins : Int) : ℚ)⌉ := Int.ceil_pos.2 (div_pos hdq hbq)
  have hcover : (second : Int) - first ≤ ⌈(((second : Int) - (first : Int) : Int) : ℚ) / ((bins : Int) : ℚ)⌉ * bins := by
    have h := Int.le_ceil ((((second : Int) - (first : Int) : Int) : ℚ) / ((bins : Int) : ℚ))
    rw [div_le_iff₀ hbq] at h
    exact_mod_cast h
  have hup : ⌈(((second : Int) - (first : Int) : Int) : ℚ) / ((bins : Int) : ℚ)⌉ ≤ (second : Int) - first := by
    apply Int.ceil_le.2
    rw [div_le_iff₀ hbq]
    have : (1 : ℚ) ≤ ((bins : Int) : ℚ) := by exact_mod_cast (by omega : (1 : Int) ≤ bins)
    nlinarith
  rw [hceil]
  generalize ⌈(((second : Int) - (first : Int) : Int) : ℚ) / ((bins : Int) : ℚ)⌉ = step at *
  obtain ⟨n, rfl⟩ : ∃ n : Nat, step = (n : Int) := ⟨step.toNat, by omega⟩
  obtain ⟨bs, e, hc, hne, hlen⟩ :=
    lsplitLoop_spec (second := second) (step := n) (by omega) (by omega) (second - first + 1) first [] (by omega) (by omega)
  refine ⟨bs, ?_, hc, hne, ?_⟩
  · intro fuel hf
    rw [if_neg hle, if_neg hb, if_neg (by omega)]
    simp only []
    rw [if_neg (by omega), Int.toNat_natCast, e fuel (by omega)]
    rfl
  · have h5 : second - first ≤ n * bins := by
      have : ((second - first : Nat) : Int) ≤ ((n * bins : Nat) : Int) := by push_cast; omega
      exact_mod_cast this
    have h6 : bs.length * n < (bins + 1) * n := by rw [add_mul, Nat.mul_comm bins n]; omega
    have := Nat.lt_of_mul_lt_mul_right h6
    omega

example : NearestDouble ((((10 : Nat) : Int) - ((0 : Nat) : Int) : Int) / (((3 : Nat) : Int) : ℚ)) (10 / 3) ∧
    lsplitBins 11 (10 / 3) 0 10 3 = some (some [(0, 4), (4, 8), (8, 10)]) := by
  have hc : ⌈(10 / 3 : ℚ)⌉ = 4 := by rw [Int.ceil_eq_iff]; norm_num
  refine ⟨⟨by norm_num, fun _ _ _ => by norm_num⟩, ?_⟩
  unfold lsplitBins
  rw [hc]
  rfl

/-- **C26, sizes, negation of the unrestricted claim** Splitting all of `size_t` in three: both ends become 2^64 and 0 as
doubles, the third of 2^64 is rounded down by 341, and after three bins `anchor + step` wraps: the loop goes on with a bin
that ends before it starts. -/
theorem C26_lsplit_wrap_false : ∃ q : ℚ, NearestDouble ((2 ^ 64 : ℚ) / 3) q ∧
    ∀ fuel bs, lsplitBins fuel q 0 (2 ^ 64 - 1) 3 = some (some bs) → ∃ r ∈ bs, r.2 < r.1 := by
  refine ⟨6148914691236516864, ⟨by norm_num [abs_le], ?_⟩, ?_⟩
  · intro n hn h
    exfalso
    have h3 : (2 ^ 64 : ℚ) = n * 3 := by rw [← h]; norm_num
    have : (2 ^ 64 : Int) = n * 3 := by exact_mod_cast h3
    omega
  · intro fuel bs
    have hc : ⌈(6148914691236516864 : ℚ)⌉ = 6148914691236516864 := by
      rw [show (6148914691236516864 : ℚ) = ((6148914691236516864 : Int) : ℚ) by norm_num, Int.ceil_intCast]
    unfold lsplitBins
    rw [hc]
    have acc_mem : ∀ (f a : Nat) (acc l : List (Nat × Nat)) (st se : Nat), lsplitLoop se st f a acc = some l → ∀ r ∈ acc, r ∈ l := by
      intro f
      induction f with
      | zero => intro a acc l st se h; simp [lsplitLoop] at h
      | succ f ih =>
        intro a acc l st se h r hr
        rw [lsplitLoop] at h
        split at h
        · exact ih _ _ _ _ _ h r (by simp [hr])
        · split at h <;> (simp only [Option.some.injEq] at h; subst h; simp [hr])
    rw [if_neg (by norm_num), if_neg (by norm_num), if_neg (by norm_num)]
    simp only []
    rw [if_neg (by norm_num)]
    intro h
    rw [Option.map_eq_some_iff] at h
    obtain ⟨l, h, hb⟩ := h
    obtain rfl : l = bs := by simpa using hb
    rw [show Int.toNat 6148914691236516864 = 6148914691236516864 by rfl] at h
    rcases fuel with _ | _ | _ | _ | fuel
    · simp [lsplitLoop] at h
    · simp [lsplitLoop] at h
    · simp [lsplitLoop] at h
    · simp [lsplitLoop] at h
    · have := acc_mem fuel 6148914691236515840 [(0, 6148914691236516864), (6148914691236516864, 12297829382473033728),
          (12297829382473033728, 18446744073709550592), (18446744073709550592, 6148914691236515840)] l 6148914691236516864 (2 ^ 64 - 1) (by
        rw [← h]
        simp [lsplitLoop])
      exact ⟨(18446744073709550592, 6148914691236515840), this _ (by simp), by norm_num⟩

end Verif.Props
