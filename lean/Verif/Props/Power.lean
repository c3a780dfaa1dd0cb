import Verif.Runtime.Power
/-!
# C106: power modes choose the processors they name, and the thread number follows
-/
namespace Verif.Props.Power
open Verif.Core Verif.Runtime.Power

/-! ## specification -/

/-- half way between the slowest and the fastest of the processors `0, …, n - 1` -/
def IsMid (n : Nat) (f : Nat → Int) (mid : Int) : Prop :=
  ∃ a b, a < n ∧ b < n ∧ (∀ k, k < n → f k ≤ f a ∧ f b ≤ f k) ∧ mid = (f a + f b).tdiv 2

/-- the processors of a mode -/
def InMode (n : Nat) (f : Nat → Int) (mid : Int) : Mode → Nat → Prop
  | .balance, k => k < n
  | .bigcore, k => k < n ∧ mid ≤ f k
  | .littlecore, k => k < n ∧ f k < mid
  | .other _, _ => False

/-- all frequencies can be read (and their sum is an `int`) -/
structure Readable (m : Machine) (f : Nat → Int) : Prop where
  some' : 1 ≤ m.cpus
  freq : ∀ k, k < m.cpus → m.freq k = some (f k)
  small : ∀ k, k < m.cpus → -1073741824 ≤ f k ∧ f k ≤ 1073741823

/-- the states of the module after any calls -/
inductive Reach (m : Machine) : Cpu → Prop where
  | start : Reach m .start
  | call {c} (sched : Nat → Bool) (mode : Mode) : Reach m c → Reach m (setPowerMode m sched mode c).1.1

/-! ## the sort -/

theorem pass_perm (x : Nat × Int) (r : List (Nat × Int)) : ((pass x r).1 :: (pass x r).2).Perm (x :: r) := by
  induction r generalizing x with
  | nil => exact .refl _
  | cons y r ih =>
    rw [pass]
    split
    · exact (List.Perm.swap _ _ _).trans (((ih y).cons x))
    · exact (List.Perm.swap _ _ _).trans (((ih x).cons y).trans (List.Perm.swap _ _ _))

theorem pass_max (x : Nat × Int) (r : List (Nat × Int)) : ∀ y ∈ x :: r, y.2 ≤ (pass x r).1.2 := by
  induction r generalizing x with
  | nil => intro y hy; simp at hy; subst hy; exact Int.le_refl _
  | cons z r ih =>
    intro y hy
    rw [pass]
    split
    · rename_i h
      simp only [List.mem_cons] at hy
      rcases hy with rfl | rfl | hy
      · exact Int.le_trans (Int.le_of_lt h) (ih z z (by simp))
      · exact ih y y (by simp)
      · exact ih z y (by simp [hy])
    · rename_i h
      simp only [List.mem_cons] at hy
      rcases hy with rfl | rfl | hy
      · exact ih y y (by simp)
      · exact Int.le_trans (Int.not_lt.mp h) (ih x x (by simp))
      · exact ih x y (by simp [hy])

theorem sort_perm : ∀ (l : List (Nat × Int)), (sortBig l).Perm l
  | [] => by rw [sortBig]
  | x :: r => by
    rw [sortBig]
    exact ((sort_perm (pass x r).2).cons _).trans (pass_perm x r)
termination_by l => l.length
decreasing_by rw [pass_length]; simp

theorem sort_sorted : ∀ (l : List (Nat × Int)), (sortBig l).Pairwise fun a b => b.2 ≤ a.2
  | [] => by rw [sortBig]; exact .nil
  | x :: r => by
    rw [sortBig, List.pairwise_cons]
    refine ⟨fun y hy => ?_, sort_sorted (pass x r).2⟩
    exact pass_max x r y ((pass_perm x r).mem_iff.mp (List.mem_cons_of_mem _ ((sort_perm _).mem_iff.mp hy)))
termination_by l => l.length
decreasing_by rw [pass_length]; simp

theorem readFreqs_ok {m : Machine} {f : Nat → Int} : ∀ (left i : Nat), (∀ k, i ≤ k → k < i + left → m.freq k = some (f k)) →
    readFreqs m i left = .ok ((List.range' i left).map fun k => (k, f k))
  | 0, _, _ => rfl
  | left + 1, i, h => by
    rw [readFreqs, h i (by omega) (by omega)]
    simp only
    rw [readFreqs_ok left (i + 1) fun k h1 h2 => h k (by omega) (by omega)]
    simp [List.range'_succ]

theorem readFreqs_error {m : Machine} {k : Nat} (hk : m.freq k = none) (hb : ∀ j, j < k → m.freq j ≠ none) :
    ∀ (left i : Nat), i ≤ k → k < i + left → readFreqs m i left = .error k
  | 0, _, _, _ => by omega
  | left + 1, i, h1, h2 => by
    rw [readFreqs]
    by_cases e : i = k
    · subst e; rw [hk]
    · cases hf : m.freq i with
      | none => exact absurd hf (hb i (by omega))
      | some v =>
        simp only
        rw [readFreqs_error hk hb left (i + 1) (by omega) (by omega)]

/-! ## the states -/

/-- the vectors have been filled: all processors, faster ones first, split in the middle -/
structure Split (n : Nat) (f : Nat → Int) (mid : Int) (c : Cpu) : Prop where
  perm : c.sorted.Perm (List.range n)
  order : c.sorted.Pairwise fun a b => f b ≤ f a
  both : c.big ++ c.little = c.sorted
  mem : ∀ k, k < n → (k ∈ c.big ↔ mid ≤ f k)
  some' : c.big ≠ []

/-- nothing done yet, or split -/
def Ready (n : Nat) (f : Nat → Int) (mid : Int) (c : Cpu) : Prop := (c.sorted = [] ∧ c.big = [] ∧ c.little = []) ∨ Split n f mid c

theorem tdiv2 (x : Int) : x ≤ 2 * x.tdiv 2 + 1 ∧ 2 * x.tdiv 2 ≤ x + 1 ∧ (0 ≤ x → 2 * x.tdiv 2 ≤ x) := by
  rcases Int.le_total 0 x with h | h
  · rw [Int.tdiv_eq_ediv_of_nonneg h]; omega
  · have : x.tdiv 2 = -((-x) / 2) := by
      rw [← Int.tdiv_eq_ediv_of_nonneg (by omega : 0 ≤ -x), Int.neg_tdiv, Int.neg_neg]
    rw [this]; omega

theorem isMid_unique {n : Nat} {f : Nat → Int} {x y : Int} (hx : IsMid n f x) (hy : IsMid n f y) : x = y := by
  obtain ⟨a, b, ha, hb, h, rfl⟩ := hx
  obtain ⟨a', b', ha', hb', h', rfl⟩ := hy
  have := h a' ha'; have := h' a ha; have := h b' hb'; have := h' b hb
  rw [show f a = f a' by omega, show f b = f b' by omega]

theorem filter_split {l : List (Nat × Int)} (h : l.Pairwise fun a b => b.2 ≤ a.2) (mid : Int) :
    (l.filter fun p => p.2 ≥ mid) ++ (l.filter fun p => ¬ p.2 ≥ mid) = l := by
  induction l with
  | nil => rfl
  | cons x r ih =>
    rw [List.pairwise_cons] at h
    by_cases hx : x.2 ≥ mid
    · have h2 := ih h.2
      simp only [List.filter_cons, hx, decide_true, if_true, not_true_eq_false, decide_false, Bool.false_eq_true, if_false, List.cons_append, h2]
    · have : (r.filter fun p => p.2 ≥ mid) = [] := by
        rw [List.filter_eq_nil_iff]
        intro y hy
        have := h.1 y hy
        simp; omega
      have h2 := ih h.2
      rw [this, List.nil_append] at h2
      simp only [List.filter_cons, hx, decide_false, Bool.false_eq_true, if_false, not_false_eq_true, decide_true, if_true, this, List.nil_append, h2]

theorem split_ok {m : Machine} {f : Nat → Int} (hr : Readable m f) {c : Cpu} (hb : c.big = []) (hl : c.little = []) :
    ∃ mid c', IsMid m.cpus f mid ∧ splitCpu m c = .ok (.ok c') ∧ Split m.cpus f mid c' ∧ c'.mode = c.mode ∧ c'.isSet = c.isSet ∧ c'.omp = c.omp := by
  have hread := readFreqs_ok (m := m) (f := f) m.cpus 0 fun k _ h => hr.freq k (by omega)
  rw [← List.range_eq_range'] at hread
  generalize hL : (List.range m.cpus).map (fun k => (k, f k)) = L at hread
  have hp := sort_perm L
  have hs := sort_sorted L
  have hmem : ∀ p, p ∈ sortBig L ↔ p.1 < m.cpus ∧ p.2 = f p.1 := by
    intro p
    rw [hp.mem_iff, ← hL]
    simp only [List.mem_map, List.mem_range]
    constructor
    · rintro ⟨k, hk, rfl⟩; exact ⟨hk, rfl⟩
    · rintro ⟨h1, h2⟩; exact ⟨p.1, h1, by rw [← h2]⟩
  have hne : sortBig L ≠ [] := by
    intro e
    have := (hmem (0, f 0)).mpr ⟨by have := hr.some'; omega, rfl⟩
    rw [e] at this; cases this
  obtain ⟨a, r, hS⟩ := List.exists_cons_of_ne_nil hne
  have hmax : ∀ p ∈ sortBig L, p.2 ≤ a.2 := by
    intro p hpm
    rw [hS] at hpm hs
    rw [List.pairwise_cons] at hs
    simp only [List.mem_cons] at hpm
    rcases hpm with rfl | hpm
    · exact Int.le_refl _
    · exact hs.1 p hpm
  have hmin : ∀ p ∈ sortBig L, ((sortBig L).getLast hne).2 ≤ p.2 := by
    intro p hpm
    have e := List.dropLast_concat_getLast hne
    rw [← e] at hs hpm
    rw [List.pairwise_append] at hs
    simp only [List.mem_append, List.mem_singleton] at hpm
    rcases hpm with hpm | rfl
    · exact hs.2.2 p hpm _ (by simp)
    · exact Int.le_refl _
  generalize hb' : (sortBig L).getLast hne = b at hmin
  have ham : a ∈ sortBig L := by rw [hS]; simp
  have hbm : b ∈ sortBig L := by rw [← hb']; exact List.getLast_mem hne
  obtain ⟨ha1, ha2⟩ := (hmem a).mp ham
  obtain ⟨hb1, hb2⟩ := (hmem b).mp hbm
  have hI : int32 (a.2 + b.2) = .ok (a.2 + b.2) := by
    apply int32_ok
    have := hr.small _ ha1; have := hr.small _ hb1
    unfold I32; omega
  have hmid : IsMid m.cpus f ((a.2 + b.2).tdiv 2) := by
    refine ⟨a.1, b.1, ha1, hb1, fun k hk => ?_, by rw [ha2, hb2]⟩
    have h1 := hmax _ ((hmem (k, f k)).mpr ⟨hk, rfl⟩)
    have h2 := hmin _ ((hmem (k, f k)).mpr ⟨hk, rfl⟩)
    simp only at h1 h2
    omega
  refine ⟨_, { c with
      sorted := (sortBig L).map (·.1)
      big := c.big ++ ((sortBig L).filter fun p => p.2 ≥ (a.2 + b.2).tdiv 2).map (·.1)
      little := c.little ++ ((sortBig L).filter fun p => ¬ p.2 ≥ (a.2 + b.2).tdiv 2).map (·.1) }, hmid, ?_, ?_, rfl, rfl, rfl⟩
  · unfold splitCpu
    rw [hread]
    simp only
    rw [show (sortBig L).head? = some a by rw [hS]; rfl, List.getLast?_eq_some_getLast hne, hb']
    simp only [hI, Res.bind_ok]
  · refine ⟨?_, ?_, ?_, ?_, ?_⟩
    · have := hp.map (·.1)
      have e : L.map (·.1) = List.range m.cpus := by rw [← hL, List.map_map]; simp [Function.comp_def]
      rw [e] at this
      exact this
    · rw [List.pairwise_map]
      refine hs.imp_of_mem fun {x y} hx hy h => ?_
      rw [← ((hmem x).mp hx).2, ← ((hmem y).mp hy).2]; exact h
    · simp only [hb, hl, List.nil_append]
      rw [← List.map_append, filter_split hs]
    · intro k hk
      simp only [hb, List.nil_append, List.mem_map, List.mem_filter, decide_eq_true_eq]
      constructor
      · rintro ⟨p, ⟨h1, h2⟩, rfl⟩
        rw [← ((hmem p).mp h1).2]; exact h2
      · intro h
        exact ⟨(k, f k), ⟨(hmem _).mpr ⟨hk, rfl⟩, h⟩, rfl⟩
    · have h1 : b.2 ≤ a.2 := hmin a ham
      have : a.1 ∈ ((sortBig L).filter fun p => p.2 ≥ (a.2 + b.2).tdiv 2).map (·.1) := by
        simp only [List.mem_map, List.mem_filter, decide_eq_true_eq]
        refine ⟨a, ⟨ham, ?_⟩, rfl⟩
        have : (a.2 + b.2).tdiv 2 ≤ a.2 := by have := tdiv2 (a.2 + b.2); omega
        exact this
      simp only [hb, List.nil_append]
      intro e
      rw [e] at this; cases this

theorem prepare_ok {m : Machine} {f : Nat → Int} (hr : Readable m f) {mid : Int} (hmid : IsMid m.cpus f mid) {c : Cpu} (h : Ready m.cpus f mid c) :
    ∃ c', prepare m c = (c', .ret true) ∧ Split m.cpus f mid c' ∧ c'.mode = c.mode ∧ c'.isSet = c.isSet ∧ c'.omp = c.omp := by
  unfold prepare
  rcases h with ⟨h1, h2, h3⟩ | h
  · obtain ⟨mid', c', hm, hs, hq, e⟩ := split_ok hr h2 h3
    rw [isMid_unique hm hmid] at hq
    rw [if_pos h1, hs]
    exact ⟨c', rfl, hq, e⟩
  · rw [if_neg]
    · exact ⟨c, rfl, h, rfl, rfl, rfl⟩
    · intro e
      have := h.both
      rw [e] at this
      exact h.some' (List.append_eq_nil_iff.mp this).1

theorem split_len {n : Nat} {f : Nat → Int} {mid : Int} {c : Cpu} (h : Split n f mid c) (hn : 1 ≤ n) (mode : Mode) :
    (chosen c mode).Nodup ∧ ∀ k, k ∈ chosen c mode ↔ InMode n f mid mode k := by
  have hnd : c.sorted.Nodup := h.perm.nodup_iff.mpr List.nodup_range
  have hm : ∀ k, k ∈ c.sorted ↔ k < n := fun k => by rw [h.perm.mem_iff, List.mem_range]
  have hnd' := hnd
  rw [← h.both, List.nodup_append] at hnd'
  have hbig : ∀ k, k ∈ c.big ↔ k < n ∧ mid ≤ f k := by
    intro k
    constructor
    · intro hk
      have : k < n := (hm k).mp (by rw [← h.both]; simp [hk])
      exact ⟨this, (h.mem k this).mp hk⟩
    · rintro ⟨h1, h2⟩; exact (h.mem k h1).mpr h2
  cases mode with
  | balance => exact ⟨hnd, hm⟩
  | bigcore => exact ⟨hnd'.1, hbig⟩
  | littlecore =>
    refine ⟨hnd'.2.1, fun k => ?_⟩
    show k ∈ c.little ↔ k < n ∧ f k < mid
    constructor
    · intro hk
      have h1 : k < n := (hm k).mp (by rw [← h.both]; simp [hk])
      have h2 : k ∉ c.big := fun hb => hnd'.2.2 k hb k hk rfl
      exact ⟨h1, by have := mt (h.mem k h1).mpr h2; omega⟩
    · rintro ⟨h1, h2⟩
      have h3 := (hm k).mpr h1
      rw [← h.both, List.mem_append] at h3
      rcases h3 with h3 | h3
      · have := (h.mem k h1).mp h3; omega
      · exact h3
  | other _ => exact ⟨List.nodup_nil, fun k => by simp [chosen, InMode]⟩

/-- the number of threads of a call that pins `k` processors -/
def threadsOf (m : Machine) (k : Nat) : Nat := if m.openmp then k else 1

theorem call_spec {m : Machine} {f : Nat → Int} (hr : Readable m f) {mid : Int} (hmid : IsMid m.cpus f mid) {c : Cpu} (h : Ready m.cpus f mid c)
    (sched : Nat → Bool) (mode : Mode) :
    ∃ (c1 : Cpu) (ids : List Nat), Split m.cpus f mid c1 ∧ c1.mode = c.mode ∧ c1.isSet = c.isSet ∧ c1.omp = c.omp ∧ ids = chosen c1 mode ∧ ids.Nodup ∧ (∀ k, k ∈ ids ↔ InMode m.cpus f mid mode k) ∧
      (if (mode ≠ .balance ∧ ∀ k, k < m.cpus → mid ≤ f k) ∨ ids = [] then setPowerMode m sched mode c = ((c1, []), .ret false)
       else if m.android = true ∧ ∀ i, i < threadsOf m ids.length → sched i = true then
         setPowerMode m sched mode c = (({ c1 with omp := if m.openmp then some ids.length else c.omp, mode := mode, isSet := true }, List.replicate (threadsOf m ids.length) ids), .ret true)
       else setPowerMode m sched mode c = (({ c1 with omp := if m.openmp then some ids.length else c.omp },
         if m.android then List.replicate (threadsOf m ids.length) ids else []), .ret false)) := by
  obtain ⟨c1, hp, hs, e1, e2, e3⟩ := prepare_ok hr hmid h
  obtain ⟨hnd, hmem⟩ := split_len hs hr.some' mode
  obtain ⟨-, hlit⟩ := split_len hs hr.some' .littlecore
  have hle : c1.little = [] ↔ ∀ k, k < m.cpus → mid ≤ f k := by
    rw [List.eq_nil_iff_forall_not_mem]
    constructor
    · intro hq k hk
      have := mt (hlit k).mpr (hq k)
      simp only [InMode, not_and, Int.not_lt] at this
      exact this hk
    · intro hq k hk
      have := (hlit k).mp hk
      simp only [InMode] at this
      have := hq k this.1; omega
  refine ⟨c1, chosen c1 mode, hs, e1, e2, e3, rfl, hnd, hmem, ?_⟩
  unfold setPowerMode
  rw [hp]
  simp only
  by_cases g1 : mode ≠ .balance ∧ ∀ k, k < m.cpus → mid ≤ f k
  · rw [if_pos (.inl g1), if_pos ⟨hle.mpr g1.2, g1.1⟩]
  rw [if_neg (show ¬ (c1.little = [] ∧ mode ≠ .balance) from fun hq => g1 ⟨hq.2, hle.mp hq.1⟩)]
  by_cases g2 : chosen c1 mode = []
  · rw [if_pos (.inr g2), if_pos (by simp [g2])]
  have hl0 : ¬ (chosen c1 mode).length = 0 := by simpa using g2
  rw [if_neg (by rintro (h | h); exact g1 h; exact g2 h), if_neg hl0]
  have hall : ((List.range (if m.openmp = true then (chosen c1 mode).length else 1)).all fun i => m.android && sched i) = true ↔
      (m.android = true ∧ ∀ i, i < threadsOf m (chosen c1 mode).length → sched i = true) := by
    rw [List.all_eq_true]
    unfold threadsOf
    have hpos : 0 < (if m.openmp = true then (chosen c1 mode).length else 1) := by
      have : 0 < (chosen c1 mode).length := List.length_pos_iff.mpr g2
      split <;> omega
    constructor
    · intro hq
      refine ⟨?_, fun i hi => ?_⟩
      · have := hq 0 (List.mem_range.mpr hpos); simp at this; exact this.1
      · have := hq i (List.mem_range.mpr hi); simp at this; exact this.2
    · rintro ⟨h1, h2⟩ i hi
      simp [h1, h2 i (List.mem_range.mp hi)]
  by_cases g3 : m.android = true ∧ ∀ i, i < threadsOf m (chosen c1 mode).length → sched i = true
  · rw [if_pos g3, if_pos (hall.mpr g3)]
    cases ho : m.openmp <;> simp [g3.1, threadsOf, ho, ← e3]
  · rw [if_neg g3, if_neg (mt hall.mp g3)]
    cases ho : m.openmp <;> simp [threadsOf, ho, ← e3]

theorem split_omp {n : Nat} {f : Nat → Int} {mid : Int} {c : Cpu} (h : Split n f mid c) (o : Option Nat) (mo : Mode) (s : Bool) :
    Split n f mid { c with omp := o, mode := mo, isSet := s } := ⟨h.perm, h.order, h.both, h.mem, h.some'⟩

/-- every state that calls lead to is ready -/
theorem reach_ready {m : Machine} {f : Nat → Int} (hr : Readable m f) {mid : Int} (hmid : IsMid m.cpus f mid) {c : Cpu} (h : Reach m c) :
    Ready m.cpus f mid c := by
  induction h with
  | start => exact .inl ⟨rfl, rfl, rfl⟩
  | @call c sched mode _ ih =>
    obtain ⟨c1, ids, hs, -, -, -, -, -, -, h⟩ := call_spec hr hmid ih sched mode
    right
    split at h
    · rw [h]; exact hs
    · split at h
      · rw [h]; exact split_omp hs _ _ _
      · rw [h]; exact split_omp hs _ c1.mode c1.isSet

theorem mid_exists {n : Nat} (hn : 1 ≤ n) (f : Nat → Int) : ∃ mid, IsMid n f mid := by
  have : ∀ n, 1 ≤ n → ∃ a b, a < n ∧ b < n ∧ ∀ k, k < n → f k ≤ f a ∧ f b ≤ f k := by
    intro n
    induction n with
    | zero => omega
    | succ n ih =>
      intro _
      by_cases h0 : n = 0
      · subst h0; exact ⟨0, 0, by omega, by omega, fun k hk => by rw [show k = 0 by omega]; omega⟩
      · obtain ⟨a, b, ha, hb, h⟩ := ih (by omega)
        refine ⟨if f a < f n then n else a, if f n < f b then n else b, by split <;> omega, by split <;> omega, fun k hk => ?_⟩
        by_cases e : k = n
        · subst e; constructor <;> split <;> omega
        · have := h k (by omega)
          constructor <;> split <;> omega
  obtain ⟨a, b, h1, h2, h3⟩ := this n hn
  exact ⟨_, a, b, h1, h2, h3, rfl⟩

/-! ## C106 -/

/-- **C106, modes.** After any calls on a machine whose frequencies can be read, a call for a mode never throws; it succeeds exactly on Android, for a mode
with processors (for big or little cores: with processors below the middle), if the scheduler accepts every thread; then each thread has asked for exactly the
processors of the mode and the mode is remembered; otherwise the mode stays. -/
theorem C106_modes {m : Machine} {f : Nat → Int} (hr : Readable m f) {c : Cpu} (hc : Reach m c) (sched : Nat → Bool) (mode : Mode) :
    ∃ mid, IsMid m.cpus f mid ∧ ∃ ids : List Nat, ids.Nodup ∧ (∀ k, k ∈ ids ↔ InMode m.cpus f mid mode k) ∧
      ∃ (c' : Cpu) (asked : List (List Nat)) (b : Bool), setPowerMode m sched mode c = ((c', asked), .ret b) ∧
        (b = true ↔ m.android = true ∧ ids ≠ [] ∧ (mode = .balance ∨ ∃ k, k < m.cpus ∧ f k < mid) ∧
          ∀ i, i < (if m.openmp then ids.length else 1) → sched i = true) ∧
        (b = true → c'.mode = mode ∧ c'.isSet = true ∧ asked = List.replicate (if m.openmp then ids.length else 1) ids) ∧
        (b = false → c'.mode = c.mode ∧ c'.isSet = c.isSet) := by
  obtain ⟨mid, hmid⟩ := mid_exists hr.some' f
  obtain ⟨c1, ids, hs, e1, e2, e3, -, hnd, hmem, h⟩ := call_spec hr hmid (reach_ready hr hmid hc) sched mode
  refine ⟨mid, hmid, ids, hnd, hmem, ?_⟩
  split at h
  · rename_i g
    refine ⟨_, _, _, h, ?_, by simp, fun _ => ⟨e1, e2⟩⟩
    constructor
    · simp
    · rintro ⟨-, h1, h2, -⟩
      rcases g with ⟨g1, g2⟩ | g
      · rcases h2 with h2 | ⟨k, hk, hk'⟩
        · exact absurd h2 g1
        · have := g2 k hk; omega
      · exact absurd g h1
  · rename_i g
    have g1 : mode = .balance ∨ ∃ k, k < m.cpus ∧ f k < mid := by
      by_cases hb : mode = .balance
      · exact .inl hb
      · right
        apply Classical.byContradiction
        intro hq
        refine g (.inl ⟨hb, fun k hk => ?_⟩)
        exact Int.not_lt.mp fun h => hq ⟨k, hk, h⟩
    have g2 : ids ≠ [] := fun e => g (.inr e)
    split at h
    · rename_i g3
      exact ⟨_, _, _, h, ⟨fun _ => ⟨g3.1, g2, g1, g3.2⟩, fun _ => rfl⟩, fun _ => ⟨rfl, rfl, rfl⟩, by simp⟩
    · rename_i g3
      refine ⟨_, _, _, h, ⟨by simp, fun ⟨q1, _, _, q2⟩ => absurd ⟨q1, q2⟩ g3⟩, by simp, fun _ => ⟨e1, e2⟩⟩

/-- **C106, split.** After any successful call the processors are all listed, faster ones first; the big ones are those at or above the middle and there is one;
the numbers of big and little processors add up to all. -/
theorem C106_split {m : Machine} {f : Nat → Int} (hr : Readable m f) {c : Cpu} (hc : Reach m c) (hset : c.isSet = true) :
    c.sorted.Perm (List.range m.cpus) ∧ (c.sorted.Pairwise fun a b => f b ≤ f a) ∧ c.big ++ c.little = c.sorted ∧
      1 ≤ bigNum c ∧ bigNum c + littleNum c = m.cpus ∧ ∀ a ∈ c.big, ∀ b ∈ c.little, f b < f a := by
  obtain ⟨mid, hmid⟩ := mid_exists hr.some' f
  have hs : Split m.cpus f mid c := by
    rcases reach_ready hr hmid hc with ⟨h1, -, -⟩ | h
    · exfalso
      clear hmid mid
      cases hc with
      | start => cases hset
      | @call c sched mode hc =>
        obtain ⟨mid, hmid⟩ := mid_exists hr.some' f
        obtain ⟨c1, ids, hs, -, -, -, -, -, -, h⟩ := call_spec hr hmid (reach_ready hr hmid hc) sched mode
        have hne : c1.sorted ≠ [] := by
          rw [← hs.both]
          intro e
          exact hs.some' (List.append_eq_nil_iff.mp e).1
        split at h
        · rw [h] at h1; exact hne h1
        · split at h <;> (rw [h] at h1; exact hne h1)
    · exact h
  obtain ⟨-, hb⟩ := split_len hs hr.some' .bigcore
  obtain ⟨-, hl⟩ := split_len hs hr.some' .littlecore
  have hlen : c.big.length + c.little.length = m.cpus := by
    rw [← List.length_append, hs.both, hs.perm.length_eq, List.length_range]
  refine ⟨hs.perm, hs.order, hs.both, ?_, ?_, ?_⟩
  · have := List.length_pos_iff.mpr hs.some'
    simp only [bigNum, hset, if_true]; omega
  · simp only [bigNum, littleNum, hset, if_true]; omega
  · intro a ha b hb'
    have h1 := (hb a).mp ha
    have h2 := (hl b).mp hb'
    simp only [InMode] at h1 h2
    omega

/-- **C106, one kind of processors.** With frequencies that are not negative there are little processors exactly if two frequencies differ by more than one;
otherwise the modes for big and little cores are refused. -/
theorem C106_uniform {m : Machine} {f : Nat → Int} (hr : Readable m f) (hpos : ∀ k, k < m.cpus → 0 ≤ f k) (mid : Int) (hmid : IsMid m.cpus f mid) :
    (∃ k, InMode m.cpus f mid .littlecore k) ↔ ∃ a b, a < m.cpus ∧ b < m.cpus ∧ f b + 1 < f a := by
  obtain ⟨a, b, ha, hb, h, rfl⟩ := hmid
  have := hpos a ha
  have := hpos b hb
  have := tdiv2 (f a + f b)
  constructor
  · rintro ⟨k, h1, h2⟩
    have := h k h1
    refine ⟨a, b, ha, hb, ?_⟩
    omega
  · rintro ⟨x, y, hx, hy, hxy⟩
    have := h x hx
    have := h y hy
    exact ⟨b, hb, by omega⟩

/-- **C106, threads of a workbench.** Setting a mode on a workbench succeeds exactly if the mode was set; then it computes with one thread for each processor of the mode
(a pool of that size), otherwise its threads stay. -/
theorem C106_bench {m : Machine} {f : Nat → Int} (hr : Readable m f) {c : Cpu} (hc : Reach m c) (sched : Nat → Bool) (mode : Mode) (b : Ctx) :
    ∃ mid, IsMid m.cpus f mid ∧ ∃ ids : List Nat, ids.Nodup ∧ (∀ k, k ∈ ids ↔ InMode m.cpus f mid mode k) ∧
      ∃ (c' : Cpu) (b' : Ctx) (ok : Bool), benchPowerMode m sched mode c b = ((c', b'), .ret ok) ∧
        (setPowerMode m sched mode c).2 = .ret ok ∧
        (ok = true → ids ≠ [] ∧ b' = { b with threads := ids.length, pool := some ids.length }) ∧ (ok = false → b' = b) := by
  obtain ⟨mid, hmid⟩ := mid_exists hr.some' f
  obtain ⟨c1, ids, hs, e1, e2, e3, hids, hnd, hmem, h⟩ := call_spec hr hmid (reach_ready hr hmid hc) sched mode
  refine ⟨mid, hmid, ids, hnd, hmem, ?_⟩
  unfold benchPowerMode
  split at h
  · rw [h]; exact ⟨_, _, _, rfl, rfl, by simp, by simp⟩
  · rename_i g
    have g2 : ids ≠ [] := fun e => g (.inr e)
    have hl : 0 < ids.length := List.length_pos_iff.mpr g2
    split at h
    · rw [h]
      refine ⟨_, _, _, rfl, rfl, fun _ => ⟨g2, ?_⟩, by simp⟩
      have set_pos : ∀ (n : Nat) (b : Ctx), 0 < n → setThreads m n b = { b with threads := n, pool := some n } := by
        intro n b hn
        unfold setThreads
        simp only
        rw [if_neg (by omega), if_neg (by omega)]
        simp
      cases mode with
      | balance =>
        have : ids.length = m.cpus := by rw [hids]; show c1.sorted.length = _; rw [hs.perm.length_eq, List.length_range]
        simp only
        rw [this]
        exact set_pos _ _ (by omega)
      | bigcore =>
        have hids : ids = c1.big := hids
        simp only [bigNum, if_true, ← hids]
        exact set_pos _ _ hl
      | littlecore =>
        have hids : ids = c1.little := hids
        simp only [littleNum, if_true, ← hids]
        exact set_pos _ _ hl
      | other _ => exact absurd hids g2
    · rw [h]; exact ⟨_, _, _, rfl, rfl, by simp, by simp⟩

/-- **C106 fails when a frequency cannot be read.** The call throws, but leaves the list of processors as if it were complete: from then on the mode for all
processors "succeeds" and pins every thread to the processors before the unreadable one (and processor 0), and the modes for big and little cores fail for ever. -/
theorem C106_unreadable_false {m : Machine} {k : Nat} (hk : k < m.cpus) (hn : m.freq k = none) (hb : ∀ j, j < k → m.freq j ≠ none) (sched : Nat → Bool) (mode : Mode) :
    ∃ c, setPowerMode m sched mode .start = ((c, []), .thrown) ∧
      (∀ i, (setPowerMode m (fun _ => true) .balance c).2 = .ret true ∧
        ∀ asked ∈ (setPowerMode m (fun _ => true) .balance c).1.2, i ∈ asked → i = 0 ∨ i < k) ∧
      ∀ s, (setPowerMode m s .bigcore c).2 = .ret false ∧ (setPowerMode m s .littlecore c).2 = .ret false := by
  have hand : m.android = true := by
    cases h : m.android with
    | true => rfl
    | false => simp [Machine.freq, h] at hn
  have hread := readFreqs_error hn hb m.cpus 0 (by omega) (by omega)
  refine ⟨{ Cpu.start with sorted := List.range k ++ List.replicate (m.cpus - k) 0 }, ?_, fun i => ?_, fun s => ?_⟩
  · simp [setPowerMode, prepare, splitCpu, hread, Cpu.start]
  · have hne : ¬ (List.range k ++ List.replicate (m.cpus - k) 0 = []) := by
      intro e
      have := congrArg List.length e
      simp at this; omega
    have hlen : ¬ (List.range k ++ List.replicate (m.cpus - k) 0).length = 0 := by simp; omega
    have key : setPowerMode m (fun _ => true) .balance { Cpu.start with sorted := List.range k ++ List.replicate (m.cpus - k) 0 } =
        (((setPowerMode m (fun _ => true) .balance { Cpu.start with sorted := List.range k ++ List.replicate (m.cpus - k) 0 }).1.1,
          List.replicate (if m.openmp then (List.range k ++ List.replicate (m.cpus - k) 0).length else 1) (List.range k ++ List.replicate (m.cpus - k) 0)), .ret true) := by
      unfold setPowerMode prepare
      simp only
      rw [if_neg hne]
      simp only [chosen, ne_eq, not_true_eq_false, and_false, if_false, hand, Bool.true_and, Bool.and_true]
      rw [if_neg hlen, if_pos (by simp)]
      simp
    rw [key]
    refine ⟨rfl, fun asked ha hi => ?_⟩
    rw [(List.mem_replicate.mp ha).2] at hi
    simp only [List.mem_append, List.mem_range, List.mem_replicate] at hi
    omega
  · have hne : ¬ (List.range k ++ List.replicate (m.cpus - k) 0 = []) := by
      intro e
      have := congrArg List.length e
      simp at this; omega
    constructor <;>
    · unfold setPowerMode prepare
      simp only
      rw [if_neg hne]
      simp [Cpu.start]

/-- **C106 fails outside Android.** On Linux, which the code names as supported, no mode can ever be set; with OpenMP the refused call for all processors still
changes the number of OpenMP threads. -/
theorem C106_linux_false {m : Machine} (ha : m.android = false) (hn : 1 ≤ m.cpus) {c : Cpu} (hc : Reach m c) (sched : Nat → Bool) (mode : Mode) :
    (setPowerMode m sched mode c).2 = .ret false ∧
      (m.openmp = true → (setPowerMode m sched .balance c).1.1.omp = some m.cpus) := by
  have hr : Readable m fun _ => -1 := ⟨hn, fun k _ => by simp [Machine.freq, ha], fun _ _ => by omega⟩
  obtain ⟨mid, hmid⟩ := mid_exists hr.some' (fun _ => (-1 : Int))
  constructor
  · obtain ⟨c1, ids, -, -, -, -, -, -, -, h⟩ := call_spec hr hmid (reach_ready hr hmid hc) sched mode
    rw [ha] at h
    split at h
    · rw [h]
    · split at h
      · rename_i g; cases g.1
      · rw [h]
  · intro ho
    obtain ⟨c1, ids, hs, -, -, -, hids, -, hmem, h⟩ := call_spec hr hmid (reach_ready hr hmid hc) sched .balance
    have hids : ids = c1.sorted := hids
    have hlen : ids.length = m.cpus := by rw [hids, hs.perm.length_eq, List.length_range]
    rw [ha] at h
    split at h
    · rename_i g
      rcases g with ⟨g, -⟩ | g
      · exact absurd rfl g
      · rw [g] at hlen; simp at hlen; omega
    · split at h
      · rename_i g; cases g.1
      · rw [h]; simp [ho, hlen]

/-- **C106 fails when the scheduler refuses one of several threads.** The call answers no and the mode stays, but every thread has asked for the
processors of the new mode (those accepted stay pinned), and the number of OpenMP threads has changed. -/
theorem C106_refused_false {m : Machine} {f : Nat → Int} (hr : Readable m f) (ha : m.android = true) (ho : m.openmp = true) {c : Cpu} (hc : Reach m c)
    (sched : Nat → Bool) {i : Nat} (hi : i < m.cpus) (hs : sched i = false) :
    ∃ (c' : Cpu) (ids : List Nat), setPowerMode m sched .balance c = ((c', List.replicate m.cpus ids), .ret false) ∧ (∀ k, k ∈ ids ↔ k < m.cpus) ∧
      c'.mode = c.mode ∧ c'.omp = some m.cpus := by
  obtain ⟨mid, hmid⟩ := mid_exists hr.some' f
  obtain ⟨c1, ids, hsp, e1, -, -, hids, -, hmem, h⟩ := call_spec hr hmid (reach_ready hr hmid hc) sched .balance
  have hids : ids = c1.sorted := hids
  have hlen : ids.length = m.cpus := by rw [hids, hsp.perm.length_eq, List.length_range]
  have ht : threadsOf m ids.length = m.cpus := by simp [threadsOf, ho, hlen]
  rw [ht, hlen] at h
  split at h
  · rename_i g
    rcases g with ⟨g, -⟩ | g
    · exact absurd rfl g
    · rw [g] at hlen; simp at hlen; omega
  · split at h
    · rename_i g; rw [g.2 i hi] at hs; cases hs
    · exact ⟨_, ids, h, fun k => (hmem k), e1, by simp [ho]⟩

/-! ## contexts -/

/-- a context that can compute: at least one thread, and a pool with as many -/
def Healthy (c : Ctx) : Prop := 1 ≤ c.threads ∧ c.pool = some c.threads.toNat

/-- **C106, contexts.** A thread number above 0 is taken as it is, 0 means one and a negative one all processors (8 without OpenMP); a context made new, set, cloned or
moved has a pool of just its number of threads; a clone has the number of the original and controllers of its own; an assignment by move gives the number over. -/
theorem C106_context (m : Machine) (hp : 1 ≤ m.procs) :
    (∀ (n : Int) (c : Ctx), Healthy (setThreads m n c) ∧
      (setThreads m n c).threads = (if 0 < n then n else if n = 0 then 1 else if m.openmp then m.procs else 8) ∧
      (setThreads m n c).flow = c.flow ∧ (setThreads m n c).dynamic = c.dynamic) ∧
    (∀ (v : Option Int) (c : Ctx), newCtx m (some v) = some c → Healthy c ∧ (v = none → c.threads = 4) ∧ ∀ n, v = some n → 0 < n → c.threads = n) ∧
    (∀ (v : Option Int) (fresh : Nat → Nat) (c : Ctx), Healthy c → ∃ d, cloneCtx m (some v) fresh c = some d ∧ Healthy d ∧ d.threads = c.threads ∧
      d.flow = c.flow.map fresh ∧ d.dynamic = c.dynamic.map fresh) ∧
    (∀ c d : Ctx, moveAssign c d = (d, c) ∧ (moveCtor d).1 = d) := by
  have hset : ∀ (n : Int) (c : Ctx), Healthy (setThreads m n c) ∧
      (setThreads m n c).threads = (if 0 < n then n else if n = 0 then 1 else if m.openmp then (m.procs : Int) else 8) ∧
      (setThreads m n c).flow = c.flow ∧ (setThreads m n c).dynamic = c.dynamic := by
    intro n c
    have e : (setThreads m n c).threads = (if 0 < n then n else if n = 0 then 1 else if m.openmp then (m.procs : Int) else 8) := by
      unfold setThreads
      simp only
      rcases Int.lt_trichotomy n 0 with h | h | h
      · rw [if_pos h, if_neg (show ¬ 0 < n by omega), if_neg (show ¬ n = 0 by omega)]
      · subst h; rfl
      · rw [if_neg (show ¬ n < 0 by omega), if_neg (show ¬ n = 0 by omega), if_pos h]
    refine ⟨⟨?_, rfl⟩, e, rfl, rfl⟩
    rw [e]
    split
    · omega
    · split
      · omega
      · split <;> omega
  refine ⟨hset, ?_, ?_, fun c d => ⟨rfl, rfl⟩⟩
  · intro v c h
    simp only [newCtx, Option.some.injEq] at h
    subst h
    obtain ⟨h1, h2, -, -⟩ := hset (v.getD 4) .husk
    refine ⟨h1, ?_, ?_⟩
    · rintro rfl; rw [h2]; rfl
    · rintro n rfl hn; rw [h2]; simp [hn]
  · intro v fresh c ⟨h1, h2⟩
    refine ⟨_, rfl, ⟨h1, ?_⟩, rfl, rfl, rfl⟩
    simp [h2]

/-- **C106 fails for a context moved from by construction.** It has no pool: asking for it is undefined; its clone has a pool of another size than its number of
threads. -/
theorem C106_moved_false (m : Machine) (d : Ctx) (fresh : Nat → Nat) :
    threadPool (moveCtor d).2 = .ub ∧ ∃ c, cloneCtx m (some none) fresh (moveCtor d).2 = some c ∧ c.threads = 1 ∧ c.pool = some 4 ∧ ¬ Healthy c := by
  refine ⟨rfl, _, rfl, rfl, rfl, ?_⟩
  rintro ⟨-, h⟩
  cases h

/-- **C106 fails with a text in the environment.** If `TENNIS_NUMBER_THREADS` is no number, no context (and so no workbench) can be made or cloned. -/
theorem C106_environment_false (m : Machine) (fresh : Nat → Nat) (c : Ctx) : newCtx m none = none ∧ cloneCtx m none fresh c = none := ⟨rfl, rfl⟩

/-! ## examples -/

/-- a phone with four slow and two fast processors -/
def phone : Machine := ⟨true, true, 6, fun k => some (if k < 4 then 1800000 else 2400000), 6⟩

theorem phone_readable : Readable phone (fun k => if k < 4 then 1800000 else 2400000) :=
  ⟨by decide, fun _ _ => rfl, fun k _ => by show _ ∧ _; split <;> omega⟩

example : setPowerMode phone (fun _ => true) .bigcore .start =
    ((⟨[4, 5, 2, 3, 0, 1], [4, 5], [2, 3, 0, 1], .bigcore, true, some 2⟩, [[4, 5], [4, 5]]), .ret true) := by decide +kernel

example : (benchPowerMode phone (fun _ => true) .littlecore .start ⟨4, some 4, none, none⟩).1.2 = ⟨4, some 4, none, none⟩ ∧
    (benchPowerMode phone (fun _ => true) .bigcore .start ⟨4, some 4, none, none⟩).1.2 = ⟨2, some 2, none, none⟩ := by decide +kernel

example : (setPowerMode phone (fun i => i != 1) .bigcore .start).2 = .ret false := by decide +kernel

/-- reading the third frequency fails: the first call throws, the next one pins to processors 0 and 1 -/
example : setPowerMode { phone with file := fun k => if k = 2 then none else some 1 } (fun _ => true) .balance
      (setPowerMode { phone with file := fun k => if k = 2 then none else some 1 } (fun _ => true) .balance .start).1.1 =
    ((⟨[0, 1, 0, 0, 0, 0], [], [], .balance, true, some 6⟩, List.replicate 6 [0, 1, 0, 0, 0, 0]), .ret true) := by decide +kernel

example : Healthy ⟨4, some 4, some 0, some 1⟩ := ⟨by decide, rfl⟩

end Verif.Props.Power
