import Verif.Concurrency.Parallel
import Verif.Props.SplitBins
import Mathlib.Data.List.Nodup
/-!
# C27: parallel loops equal sequential loops
-/
namespace Verif.Props
open Verif.Core Verif.Concurrency

variable {σ ω : Type}

/-- operations done by the sequential loop -/
def sequentialOps (ops : Int → List ω) (b e : Int) : List ω := (indices b e).flatMap ops

theorem rangeOps_eq (ops : Int → List ω) (a b : Int) : rangeOps ops a b = (indices a b).flatMap ops := by
  unfold rangeOps indices
  rw [List.flatMap_map]

/-- an operation that commutes with all of `l` can be done first -/
theorem foldl_front (f : σ → ω → σ) (x : ω) (l : List ω) (h : ∀ y ∈ l, ∀ s, f (f s x) y = f (f s y) x) (s : σ) :
    f (l.foldl f s) x = l.foldl f (f s x) := by
  induction l generalizing s with
  | nil => rfl
  | cons y t ih =>
    simp only [List.foldl_cons]
    rw [ih (fun z hz => h z (by simp [hz])), ← h y (by simp)]

theorem interleave_foldl (f : σ → ω → σ) {ls : List (List ω)} {out : List ω} (h : Interleave ls out)
    (hc : ∀ (j k : Nat) (lj lk : List ω), j ≠ k → ls[j]? = some lj → ls[k]? = some lk → ∀ x ∈ lj, ∀ y ∈ lk, ∀ s,
      f (f s x) y = f (f s y) x) (s : σ) : out.foldl f s = ls.flatten.foldl f s := by
  induction h generalizing s with
  | done h0 =>
    rename_i ls
    have : ls.flatten = [] := by
      rw [List.flatten_eq_nil_iff]; exact h0
    rw [this]
  | @step ls out rest x k hk _ ih =>
    have hklt := (List.getElem?_eq_some_iff.1 hk).1
    have hkel : ls[k] = x :: rest := (List.getElem?_eq_some_iff.1 hk).2
    rw [List.foldl_cons, ih]
    · -- pull x in front of the lists before number k
      have hsplit : ls = ls.take k ++ (x :: rest) :: ls.drop (k + 1) := by
        rw [← hkel]; simp
      have hset : ls.set k rest = ls.take k ++ rest :: ls.drop (k + 1) := List.set_eq_take_append_cons_drop .. |>.trans (by
        rw [if_pos hklt])
      rw [hset]
      conv_rhs => rw [hsplit]
      simp only [List.flatten_append, List.flatten_cons, List.foldl_append, List.cons_append, List.foldl_cons]
      rw [foldl_front f]
      intro y hy s'
      obtain ⟨l, hl, hyl⟩ := List.mem_flatten.1 hy
      obtain ⟨j, hj, he⟩ := List.getElem_of_mem hl
      have hjk : j < k := by simp at hj; omega
      have : ls[j]? = some l := by
        rw [List.getElem?_eq_getElem (by omega)]
        rw [List.getElem_take] at he
        rw [he]
      exact hc k j (x :: rest) l (by omega) hk this x (by simp) y hyl s'
    · intro j j' lj lk hne hj hj' y hy z hz s'
      have back : ∀ (i : Nat) (l : List ω) (u : ω), (ls.set k rest)[i]? = some l → u ∈ l →
          ∃ l', ls[i]? = some l' ∧ u ∈ l' := by
        intro i l u hi hu
        by_cases hki : k = i
        · subst hki
          rw [List.getElem?_set_self hklt] at hi
          cases hi
          exact ⟨_, hk, by simp [hu]⟩
        · rw [List.getElem?_set_ne hki] at hi
          exact ⟨l, hi, hu⟩
      obtain ⟨a, ha, hya⟩ := back j lj y hj hy
      obtain ⟨b, hb, hzb⟩ := back j' lk z hj' hz
      exact hc j j' a b hne ha hb y hya z hzb s'

theorem interleave_perm {ls : List (List ω)} {out : List ω} (h : Interleave ls out) : out.Perm ls.flatten := by
  induction h with
  | done h0 => rw [List.flatten_eq_nil_iff.2 h0]
  | @step ls out rest x k hk _ ih =>
    have hklt := (List.getElem?_eq_some_iff.1 hk).1
    have hkel : ls[k] = x :: rest := (List.getElem?_eq_some_iff.1 hk).2
    have hsplit : ls = ls.take k ++ (x :: rest) :: ls.drop (k + 1) := by
      rw [← hkel]; simp
    have hset : ls.set k rest = ls.take k ++ rest :: ls.drop (k + 1) := List.set_eq_take_append_cons_drop .. |>.trans (by
      rw [if_pos hklt])
    rw [hset] at ih
    conv_rhs => rw [hsplit]
    simp only [List.flatten_append, List.flatten_cons] at ih ⊢
    refine (ih.cons x).trans ?_
    simp only [List.cons_append]
    exact List.perm_middle.symm

theorem nodup_indices (a b : Int) : (indices a b).Nodup := by
  unfold indices
  apply List.Nodup.map _ List.nodup_range
  intro x y h
  simp only at h
  omega

/-- the assumptions under which ranges are split correctly (see C26) -/
structure SplitOk (n : Nat) (q : ℚ) (b e : Int) : Prop where
  b32 : I32 b
  e32 : I32 e
  n32 : I32 n
  near : NearestDouble (((e - b : Int) : ℚ) / (n : Int)) q
  max : e + ⌈((e - b : Int) : ℚ) / (n : Int)⌉ ≤ 2147483647

theorem splitBins_mono {q : ℚ} {b e bins : Int} {f g : Nat} {r : Res (List (Int × Int))} (hfg : f ≤ g)
    (h : splitBins f q b e bins = some r) : splitBins g q b e bins = some r := by
  have mono : ∀ (second step : Int) (f : Nat) (a : Int) (acc : List (Int × Int)) (r : Res (List (Int × Int))),
      splitLoop second step f a acc = some r → ∀ g, f ≤ g → splitLoop second step g a acc = some r := by
    intro second step f
    induction f with
    | zero => intro a acc r h; simp [splitLoop] at h
    | succ f ih =>
      intro a acc r h g hg
      obtain ⟨g', rfl⟩ : ∃ g', g = g' + 1 := ⟨g - 1, by omega⟩
      rw [splitLoop] at h ⊢
      cases hi : int32 (a + step) with
      | ok nx =>
        rw [hi] at h
        simp only at h ⊢
        by_cases hc : nx < second
        · rw [if_pos hc] at h ⊢
          exact ih _ _ _ h _ (by omega)
        · rw [if_neg hc] at h ⊢; exact h
      | err => rw [hi] at h; exact h
      | ub => rw [hi] at h; exact h
  unfold splitBins at h ⊢
  split
  · rw [if_pos ‹_›] at h; exact h
  · rw [if_neg ‹_›] at h
    split
    · rw [if_pos ‹_›] at h; exact h
    · rw [if_neg ‹_›] at h
      exact mono _ _ _ _ _ _ h _ hfg

/-- the tasks' operations, concatenated, are the loop's operations -/
theorem bins_flatten {n : Nat} {q : ℚ} {b e : Int} (ok : SplitOk n q b e) {fuel : Nat} {bins : List (Int × Int)}
    (h : splitBins fuel q b e n = some (.ok bins)) : bins.flatMap (fun r => indices r.1 r.2) = indices b e := by
  obtain ⟨bs, hbs, hcov, -, -⟩ := C26_split_bins_partial b e n q ok.b32 ok.e32 ok.n32 ok.near ok.max
  have h1 := hbs (max fuel ((e - b).toNat + 1)) (by omega)
  rw [splitBins_mono (by omega) h] at h1
  cases h1
  exact hcov

/-- **C27 (once)** Whatever the pool and the schedule, the operations executed by a parallel loop are those of the
sequential loop, each exactly as often. -/
theorem C27_each_once_partial (pool : Option Nat) (q : ℚ) (ops : Int → List ω) (b e : Int) (sched : List ω)
    (hok : ∀ n, pool = some n → SplitOk n q b e) (h : ParallelRun pool q ops b e sched) :
    sched.Perm (sequentialOps ops b e) := by
  cases h with
  | inline _ => rw [rangeOps_eq]; exact List.Perm.refl _
  | @tasks n fuel bins _ ht hb hi =>
    have hp : pool = some n := by
      unfold tryParallel at ht
      split at ht
      · cases ht
      · split at ht
        · cases ht
        · split at ht
          · cases ht; rfl
          · cases ht
    have := interleave_perm hi
    unfold sequentialOps
    rw [← bins_flatten (hok n hp) hb, List.flatMap_assoc]
    refine this.trans ?_
    rw [← List.flatMap_def]
    simp only [rangeOps_eq]
    exact List.Perm.refl _

/-- **C27** If the operations of different iterations commute, a parallel loop ends in the state in which the sequential
loop ends, for every range, pool and interleaving. -/
theorem C27_parallel_eq_sequential_partial (f : σ → ω → σ) (pool : Option Nat) (q : ℚ) (ops : Int → List ω) (b e : Int)
    (sched : List ω) (hok : ∀ n, pool = some n → SplitOk n q b e)
    (hind : ∀ i ∈ indices b e, ∀ j ∈ indices b e, i ≠ j → ∀ x ∈ ops i, ∀ y ∈ ops j, ∀ s, f (f s x) y = f (f s y) x)
    (h : ParallelRun pool q ops b e sched) (s : σ) :
    sched.foldl f s = (sequentialOps ops b e).foldl f s := by
  cases h with
  | inline _ => rw [rangeOps_eq]; rfl
  | @tasks n fuel bins _ ht hb hi =>
    have hp : pool = some n := by
      unfold tryParallel at ht
      split at ht
      · cases ht
      · split at ht
        · cases ht
        · split at ht
          · cases ht; rfl
          · cases ht
    have hfl := bins_flatten (hok n hp) hb
    rw [interleave_foldl f hi]
    · unfold sequentialOps
      rw [← hfl, List.flatMap_assoc, ← List.flatMap_def]
      simp only [rangeOps_eq]
    · intro j k lj lk hjk hj hk x hx y hy s'
      rw [List.getElem?_map, Option.map_eq_some_iff] at hj hk
      obtain ⟨rj, hrj, rfl⟩ := hj
      obtain ⟨rk, hrk, rfl⟩ := hk
      rw [rangeOps_eq, List.mem_flatMap] at hx hy
      obtain ⟨i1, hi1, hx⟩ := hx
      obtain ⟨i2, hi2, hy⟩ := hy
      have hmem : ∀ (r : Int × Int), r ∈ bins → ∀ i ∈ indices r.1 r.2, i ∈ indices b e := by
        intro r hr i hi
        rw [← hfl]; exact List.mem_flatMap.2 ⟨r, hr, hi⟩
      refine hind i1 (hmem _ (List.mem_of_getElem? hrj) _ hi1) i2 (hmem _ (List.mem_of_getElem? hrk) _ hi2) ?_ x hx y hy s'
      -- indices of different bins differ
      intro hEq
      subst hEq
      have hnd := nodup_indices b e
      rw [← hfl] at hnd
      have hdis : ∀ (l : List (Int × Int)), (l.flatMap fun r => indices r.1 r.2).Nodup → ∀ (j k : Nat) (rj rk : Int × Int),
          j < k → l[j]? = some rj → l[k]? = some rk → i1 ∈ indices rj.1 rj.2 → i1 ∈ indices rk.1 rk.2 → False := by
        intro l
        induction l with
        | nil => intro _ j k rj rk _ h; simp at h
        | cons r l ih =>
          intro hn j k rj rk hjk hj hk h1 h2
          rw [List.flatMap_cons, List.nodup_append] at hn
          obtain ⟨k', rfl⟩ : ∃ k', k = k' + 1 := ⟨k - 1, by omega⟩
          rw [List.getElem?_cons_succ] at hk
          cases j with
          | zero =>
            simp only [List.getElem?_cons_zero, Option.some.injEq] at hj
            subst hj
            exact hn.2.2 i1 h1 i1 (List.mem_flatMap.2 ⟨rk, List.mem_of_getElem? hk, h2⟩) rfl
          | succ j =>
            rw [List.getElem?_cons_succ] at hj
            exact ih hn.2.1 j k' rj rk (by omega) hj hk h1 h2
      rcases Nat.lt_or_gt_of_ne hjk with h | h
      · exact hdis bins hnd j k rj rk h hrj hrk hi1 hi2
      · exact hdis bins hnd k j rk rj h hrk hrj hi2 hi1

/-- the hypotheses are met, e.g. by four iterations each writing its own cell, on a pool of two workers, with the second
task running first -/
example : ∃ sched, ParallelRun (some 2) 2 (fun i => [(i.toNat, i)]) 0 4 sched ∧ SplitOk 2 2 0 4 ∧
    sched = [((2 : Nat), (2 : Int)), (0, 0), (3, 3), (1, 1)] ∧
    sched.foldl (fun (s : List Int) w => s.set w.1 w.2) [9, 9, 9, 9] = [0, 1, 2, 3] := by
  have hc : ⌈(2 : ℚ)⌉ = 2 := by rw [Int.ceil_eq_iff]; norm_num
  refine ⟨_, ParallelRun.tasks (n := 2) (fuel := 5) (bins := [(0, 2), (2, 4)]) rfl ?_ ?_, ⟨by decide, by decide, by decide,
    ⟨by norm_num, fun _ _ _ => by norm_num⟩, ?_⟩, rfl, rfl⟩
  · unfold splitBins
    rw [hc]
    rfl
  · show Interleave [[((0 : Nat), (0 : Int)), (1, 1)], [(2, 2), (3, 3)]] _
    exact .step 1 rfl (.step 0 rfl (.step 1 rfl (.step 0 rfl (.done (by simp)))))
  · rw [show (((4 - 0 : Int) : ℚ) / ((2 : Nat) : Int)) = 2 by norm_num, hc]; norm_num

end Verif.Props
