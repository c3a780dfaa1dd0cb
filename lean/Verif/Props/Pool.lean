import Verif.Concurrency.Pool
import Verif.Props.RwMutex
import Mathlib.Data.List.Nodup
import Mathlib.Data.List.Perm.Subperm
/-!
# C29: the thread pool
-/
namespace Verif.Props
open Verif.Concurrency

/-- the worker has taken, or been given, a task that is not yet accounted for -/
def WPc.busy : WPc → Bool
  | .assigned _ | .running _ | .executed _ => true
  | _ => false

/-- the worker holds task `t` before its end -/
def WPc.has (t : Nat) : WPc → Bool
  | .assigned t' | .running t' => t' == t
  | _ => false

def WPc.runs (t : Nat) : WPc → Bool
  | .running t' => t' == t
  | _ => false

def WPc.inTask : WPc → Bool
  | .running _ => true
  | _ => false

def CPc.onWorker (w : Nat) : CPc → Bool
  | .loaded w' _ => w' == w
  | _ => false

def CPc.onTask (t : Nat) : CPc → Bool
  | .loaded _ t' => t' == t
  | _ => false

/-- bookkeeping of a reachable pool with `n` workers -/
structure PInv (n : Nat) (s : Pool) : Prop where
  len : s.workers.length = n
  /-- every worker has exactly one token: free, promised to one client, or busy -/
  token : ∀ (w : Nat) (p : WPc), s.workers[w]? = some p →
    s.free.count w + s.clients.countP (CPc.onWorker w) + (if WPc.busy p then 1 else 0) = 1
  range : ∀ w ∈ s.free, w < n
  crange : ∀ c ∈ s.clients, ∀ w t, c = .loaded w t → w < n
  /-- every submitted task is in exactly one place -/
  task : ∀ t, s.clients.countP (CPc.onTask t) + s.workers.countP (WPc.has t) + s.ended.countP (·.1 == t) =
    if t < s.next then 1 else 0
  started : ∀ t, s.started.countP (·.1 == t) = s.workers.countP (WPc.runs t) + s.ended.countP (·.1 == t)
  /-- started and not ended on a worker: what it is running -/
  one : ∀ w, s.started.countP (·.2 == w) = s.ended.countP (·.2 == w) +
    (match s.workers[w]? with | some p => if WPc.inTask p then 1 else 0 | none => 0)
  run : ∀ w t, s.workers[w]? = some (.running t) → (t, w) ∈ s.started
  sub : ∀ e ∈ s.ended, e ∈ s.started

theorem PInv.init (n m : Nat) : PInv n (Pool.init n m) := by
  have hc : ∀ f : CPc → Bool, f .ready = false → (List.replicate m CPc.ready).countP f = 0 := by
    intro f hf
    rw [List.countP_eq_zero]
    intro a ha
    rw [(List.mem_replicate.1 ha).2, hf]; simp
  have hw : ∀ f : WPc → Bool, f .idle = false → (List.replicate n WPc.idle).countP f = 0 := by
    intro f hf
    rw [List.countP_eq_zero]
    intro a ha
    rw [(List.mem_replicate.1 ha).2, hf]; simp
  constructor
  · simp [Pool.init]
  · intro w p hp
    simp only [Pool.init] at hp ⊢
    have hlt := (List.getElem?_eq_some_iff.1 hp).1
    rw [List.length_replicate] at hlt
    rw [List.getElem?_replicate, if_pos hlt] at hp
    cases hp
    rw [hc _ rfl]
    simp [WPc.busy, hlt, List.count_range] 
  · simp [Pool.init]
  · intro c hcm w t h
    simp only [Pool.init] at hcm
    rw [(List.mem_replicate.1 hcm).2] at h
    cases h
  · intro t
    simp only [Pool.init]
    rw [hc _ rfl, hw _ rfl]; simp
  · intro t
    simp only [Pool.init]
    rw [hw _ rfl]; simp
  · intro w
    simp only [Pool.init]
    split
    · next p hp =>
      have hlt := (List.getElem?_eq_some_iff.1 hp).1
      rw [List.length_replicate] at hlt
      rw [List.getElem?_replicate, if_pos hlt] at hp
      cases hp
      simp [WPc.inTask]
    · simp
  · intro w t hp
    simp only [Pool.init] at hp
    rw [List.getElem?_replicate] at hp
    split at hp <;> cases hp
  · simp [Pool.init]

theorem set_cases {β : Type} {l : List β} {i j : Nat} {b x : β} (h : (l.set i b)[j]? = some x) :
    (j = i ∧ x = b) ∨ (j ≠ i ∧ l[j]? = some x) := by
  by_cases hij : i = j
  · subst hij
    rw [List.getElem?_set] at h
    simp only [if_true] at h
    split at h
    · cases h; exact .inl ⟨rfl, rfl⟩
    · cases h
  · rw [List.getElem?_set_ne hij] at h
    exact .inr ⟨Ne.symm hij, h⟩

/-- a step of worker `w` alone, from `p` to `q`, preserves the per-worker record of what runs -/
theorem inTask_set {l : List WPc} {w : Nat} {p q : WPc} (hp : l[w]? = some p) (w' : Nat) :
    (match (l.set w q)[w']? with | some p => if WPc.inTask p then 1 else 0 | none => 0) +
      (if w' = w then (if WPc.inTask p then 1 else 0) else 0) =
    (match l[w']? with | some p => if WPc.inTask p then 1 else 0 | none => 0) +
      (if w' = w then (if WPc.inTask q then 1 else 0) else 0) := by
  by_cases h : w' = w
  · subst h
    have hlt := (List.getElem?_eq_some_iff.1 hp).1
    rw [List.getElem?_set_self hlt, hp]
    simp only [if_true]
    omega
  · rw [List.getElem?_set_ne (Ne.symm h)]
    simp [h]

theorem PInv.step {n : Nat} {s t : Pool} (hi : PInv n s) (h : Pool.Step s t) : PInv n t := by
  have hw := hi.len
  cases h with
  | load c w rest hc hf =>
    have hwn : w < n := hi.range w (by rw [hf]; simp)
    have kc : ∀ f : CPc → Bool, (s.clients.set c (.loaded w s.next)).countP f + (if f .ready then 1 else 0) =
        s.clients.countP f + (if f (.loaded w s.next) then 1 else 0) := fun f => countP_set' f _ c _ _ hc
    refine { hi with token := ?_, range := ?_, crange := ?_, task := ?_ }
    · intro w' p hp
      have h1 := hi.token w' p hp
      have h2 := kc (CPc.onWorker w')
      rw [hf, List.count_cons] at h1
      simp only [CPc.onWorker, beq_iff_eq] at h1 h2 ⊢
      simp only [Bool.false_eq_true, if_false] at h2
      omega
    · intro w' hw'; exact hi.range w' (by rw [hf]; simp [hw'])
    · intro c' hc' w' t' he
      rcases List.mem_or_eq_of_mem_set hc' with h' | h'
      · exact hi.crange c' h' w' t' he
      · rw [h'] at he; cases he; exact hwn
    · intro t'
      have h1 := hi.task t'
      have h2 := kc (CPc.onTask t')
      simp only [CPc.onTask, beq_iff_eq, Bool.false_eq_true, if_false] at h2
      simp only
      by_cases ht : t' = s.next
      · subst ht; simp only [if_true] at h2; simp only [Nat.lt_irrefl, if_false] at h1
        rw [if_pos (by omega)]; omega
      · rw [if_neg (Ne.symm ht)] at h2
        by_cases hlt : t' < s.next
        · rw [if_pos hlt] at h1; rw [if_pos (by omega)]; omega
        · rw [if_neg hlt] at h1; rw [if_neg (by omega)]; omega
  | assign c w t' p hc hp hq =>
    have hon : 1 ≤ s.clients.countP (CPc.onWorker w) :=
      List.countP_pos_iff.2 ⟨_, List.mem_of_getElem? hc, by simp [CPc.onWorker]⟩
    have htok := hi.token w p hp
    have hidle : p = .idle := by
      rcases hq with h | ⟨t'', rfl⟩
      · exact h
      · simp only [WPc.busy, if_true] at htok; omega
    subst hidle
    have hwlt := (List.getElem?_eq_some_iff.1 hp).1
    have kc : ∀ f : CPc → Bool, (s.clients.set c .ready).countP f + (if f (.loaded w t') then 1 else 0) =
        s.clients.countP f + (if f .ready then 1 else 0) := fun f => countP_set' f _ c _ _ hc
    have kw : ∀ f : WPc → Bool, (s.workers.set w (.assigned t')).countP f + (if f .idle then 1 else 0) =
        s.workers.countP f + (if f (.assigned t') then 1 else 0) := fun f => countP_set' f _ w _ _ hp
    refine { len := by simpa using hw, token := ?_, range := hi.range, crange := ?_, task := ?_, started := ?_, one := ?_,
             run := ?_, sub := hi.sub }
    · intro w' p' hp'
      have h2 := kc (CPc.onWorker w')
      simp only [CPc.onWorker, beq_iff_eq, Bool.false_eq_true, if_false] at h2
      simp only
      rcases set_cases hp' with ⟨rfl, rfl⟩ | ⟨hne, hold⟩
      · simp only [WPc.busy, if_true, Bool.false_eq_true, if_false] at h2 htok ⊢
        omega
      · have h1 := hi.token w' p' hold
        rw [if_neg (Ne.symm hne)] at h2
        omega
    · intro c' hc' w' t'' he
      rcases List.mem_or_eq_of_mem_set hc' with h' | h'
      · exact hi.crange c' h' w' t'' he
      · rw [h'] at he; cases he
    · intro t''
      have h1 := hi.task t''
      have h2 := kc (CPc.onTask t'')
      have h3 := kw (WPc.has t'')
      simp only [CPc.onTask, WPc.has, beq_iff_eq, Bool.false_eq_true, if_false] at h2 h3
      simp only
      omega
    · intro t''
      have h1 := hi.started t''
      have h3 := kw (WPc.runs t'')
      simp only [WPc.runs, Bool.false_eq_true, if_false, beq_iff_eq] at h3
      simp only
      omega
    · intro w'
      have h1 := hi.one w'
      have h2 := inTask_set (q := .assigned t') hp w'
      simp only [WPc.inTask, Bool.false_eq_true, if_false, ite_self, Nat.add_zero] at h1 h2 ⊢
      rw [h1, h2]
    · intro w' t'' hp'
      rcases set_cases hp' with ⟨rfl, h'⟩ | ⟨-, h'⟩
      · cases h'
      · exact hi.run w' t'' h'
  | start w t' hp =>
    have kw : ∀ f : WPc → Bool, (s.workers.set w (.running t')).countP f + (if f (.assigned t') then 1 else 0) =
        s.workers.countP f + (if f (.running t') then 1 else 0) := fun f => countP_set' f _ w _ _ hp
    refine { len := by simpa using hw, token := ?_, range := hi.range, crange := hi.crange, task := ?_, started := ?_, one := ?_,
             run := ?_, sub := ?_ }
    · intro w' p' hp'
      rcases set_cases hp' with ⟨rfl, rfl⟩ | ⟨-, hold⟩
      · have := hi.token w' _ hp
        simp only [WPc.busy, Bool.false_eq_true, if_false, if_true] at this ⊢
        exact this
      · exact hi.token w' p' hold
    · intro t''
      have h1 := hi.task t''
      have h3 := kw (WPc.has t'')
      simp only [WPc.has, beq_iff_eq] at h3
      simp only
      omega
    · intro t''
      have h1 := hi.started t''
      have h3 := kw (WPc.runs t'')
      simp only [WPc.runs, Bool.false_eq_true, if_false, beq_iff_eq] at h3
      simp only [List.countP_cons, beq_iff_eq]
      omega
    · intro w'
      have h1 := hi.one w'
      have h2 := inTask_set (q := .running t') hp w'
      simp only [WPc.inTask, Bool.false_eq_true, if_false, ite_self, Nat.add_zero, if_true] at h1 h2 ⊢
      simp only [List.countP_cons, beq_iff_eq]
      rw [h2, h1]
      by_cases hww : w' = w
      · simp [hww]; omega
      · simp [hww, Ne.symm hww]
    · intro w' t'' hp'
      rcases set_cases hp' with ⟨rfl, h'⟩ | ⟨-, h'⟩
      · cases h'; simp
      · exact List.mem_cons_of_mem _ (hi.run w' t'' h')
    · intro e he; exact List.mem_cons_of_mem _ (hi.sub e he)
  | finish w t' hp =>
    have kw : ∀ f : WPc → Bool, (s.workers.set w (.executed t')).countP f + (if f (.running t') then 1 else 0) =
        s.workers.countP f + (if f (.executed t') then 1 else 0) := fun f => countP_set' f _ w _ _ hp
    refine { len := by simpa using hw, token := ?_, range := hi.range, crange := hi.crange, task := ?_, started := ?_, one := ?_,
             run := ?_, sub := ?_ }
    · intro w' p' hp'
      rcases set_cases hp' with ⟨rfl, rfl⟩ | ⟨-, hold⟩
      · have := hi.token w' _ hp
        simp only [WPc.busy, Bool.false_eq_true, if_false, if_true] at this ⊢
        exact this
      · exact hi.token w' p' hold
    · intro t''
      have h1 := hi.task t''
      have h3 := kw (WPc.has t'')
      simp only [WPc.has, Bool.false_eq_true, if_false, beq_iff_eq] at h3
      simp only [List.countP_cons, beq_iff_eq]
      omega
    · intro t''
      have h1 := hi.started t''
      have h3 := kw (WPc.runs t'')
      simp only [WPc.runs, Bool.false_eq_true, if_false, beq_iff_eq] at h3
      simp only [List.countP_cons, beq_iff_eq]
      omega
    · intro w'
      have h1 := hi.one w'
      have h2 := inTask_set (q := .executed t') hp w'
      simp only [WPc.inTask, Bool.false_eq_true, if_false, ite_self, Nat.add_zero, if_true] at h1 h2 ⊢
      simp only [List.countP_cons, beq_iff_eq]
      rw [h1, ← h2]
      by_cases hww : w' = w
      · simp [hww]; omega
      · simp [hww, Ne.symm hww]
    · intro w' t'' hp'
      rcases set_cases hp' with ⟨rfl, h'⟩ | ⟨-, h'⟩
      · cases h'
      · exact hi.run w' t'' h'
    · intro e he
      rcases List.mem_cons.1 he with rfl | he
      · exact hi.run w t' hp
      · exact hi.sub e he
  | recycle w t' hp =>
    have hwlt := (List.getElem?_eq_some_iff.1 hp).1
    have kw : ∀ f : WPc → Bool, (s.workers.set w (.recycled t')).countP f + (if f (.executed t') then 1 else 0) =
        s.workers.countP f + (if f (.recycled t') then 1 else 0) := fun f => countP_set' f _ w _ _ hp
    refine { len := by simpa using hw, token := ?_, range := ?_, crange := hi.crange, task := ?_, started := ?_, one := ?_,
             run := ?_, sub := hi.sub }
    · intro w' p' hp'
      simp only [List.count_cons, beq_iff_eq]
      rcases set_cases hp' with ⟨rfl, rfl⟩ | ⟨hne, hold⟩
      · have := hi.token w' _ hp
        simp only [WPc.busy, if_true, Bool.false_eq_true, if_false] at this ⊢
        omega
      · have := hi.token w' p' hold
        rw [if_neg (Ne.symm hne)]
        omega
    · intro w' hw'
      rcases List.mem_cons.1 hw' with rfl | h'
      · omega
      · exact hi.range w' h'
    · intro t''
      have h1 := hi.task t''
      have h3 := kw (WPc.has t'')
      simp only [WPc.has, Bool.false_eq_true, if_false, beq_iff_eq] at h3
      simp only
      omega
    · intro t''
      have h1 := hi.started t''
      have h3 := kw (WPc.runs t'')
      simp only [WPc.runs, Bool.false_eq_true, if_false, beq_iff_eq] at h3
      simp only
      omega
    · intro w'
      have h1 := hi.one w'
      have h2 := inTask_set (q := .recycled t') hp w'
      simp only [WPc.inTask, Bool.false_eq_true, if_false, ite_self, Nat.add_zero] at h1 h2 ⊢
      rw [h1, h2]
    · intro w' t'' hp'
      rcases set_cases hp' with ⟨rfl, h'⟩ | ⟨-, h'⟩
      · cases h'
      · exact hi.run w' t'' h'
  | clear w t' hp =>
    have kw : ∀ f : WPc → Bool, (s.workers.set w .idle).countP f + (if f (.recycled t') then 1 else 0) =
        s.workers.countP f + (if f .idle then 1 else 0) := fun f => countP_set' f _ w _ _ hp
    refine { len := by simpa using hw, token := ?_, range := hi.range, crange := hi.crange, task := ?_, started := ?_, one := ?_,
             run := ?_, sub := hi.sub }
    · intro w' p' hp'
      rcases set_cases hp' with ⟨rfl, rfl⟩ | ⟨-, hold⟩
      · have := hi.token w' _ hp
        simp only [WPc.busy, Bool.false_eq_true, if_false, if_true] at this ⊢
        exact this
      · exact hi.token w' p' hold
    · intro t''
      have h1 := hi.task t''
      have h3 := kw (WPc.has t'')
      simp only [WPc.has, Bool.false_eq_true, if_false, beq_iff_eq] at h3
      simp only
      omega
    · intro t''
      have h1 := hi.started t''
      have h3 := kw (WPc.runs t'')
      simp only [WPc.runs, Bool.false_eq_true, if_false, beq_iff_eq] at h3
      simp only
      omega
    · intro w'
      have h1 := hi.one w'
      have h2 := inTask_set (q := .idle) hp w'
      simp only [WPc.inTask, Bool.false_eq_true, if_false, ite_self, Nat.add_zero] at h1 h2 ⊢
      rw [h1, h2]
    · intro w' t'' hp'
      rcases set_cases hp' with ⟨rfl, h'⟩ | ⟨-, h'⟩
      · cases h'
      · exact hi.run w' t'' h'

theorem PInv.reach {n m : Nat} {s : Pool} (h : Pool.Reach n m s) : PInv n s := by
  induction h with
  | init => exact PInv.init n m
  | step _ hs ih => exact ih.step hs

/-- **C29 (at most once, one worker)** In every reachable state, for any number of workers and clients: a task has
started at most once and ended at most once, and it ended on the worker on which it started. -/
theorem C29_once {n m : Nat} {s : Pool} (h : Pool.Reach n m s) (t : Nat) :
    s.started.countP (·.1 == t) ≤ 1 ∧ s.ended.countP (·.1 == t) ≤ 1 ∧ ∀ w, (t, w) ∈ s.ended → (t, w) ∈ s.started := by
  have hi := PInv.reach h
  have h1 := hi.task t
  have h2 := hi.started t
  have h3 : s.workers.countP (WPc.runs t) ≤ s.workers.countP (WPc.has t) := by
    apply List.countP_mono_left
    intro p _ hp
    cases p <;> simp_all [WPc.runs, WPc.has]
  refine ⟨?_, ?_, fun w hw => hi.sub _ hw⟩
  · split at h1 <;> omega
  · split at h1 <;> omega

/-- **C29 (one at a time)** A worker has at most one task started and not ended. -/
theorem C29_one_at_a_time {n m : Nat} {s : Pool} (h : Pool.Reach n m s) (w : Nat) :
    s.ended.countP (·.2 == w) ≤ s.started.countP (·.2 == w) ∧
    s.started.countP (·.2 == w) ≤ s.ended.countP (·.2 == w) + 1 := by
  have := (PInv.reach h).one w
  rw [this]
  constructor
  · omega
  · split
    · split <;> omega
    · omega

/-- when every worker is free, every submitted task has ended -/
theorem all_ended {n : Nat} {s : Pool} (hi : PInv n s) (hall : ∀ w, w < n → 1 ≤ s.free.count w) :
    ∀ t, t < s.next → ∃ w, (t, w) ∈ s.ended := by
  have hidle : ∀ (w : Nat) (p : WPc), s.workers[w]? = some p → WPc.busy p = false ∧ s.clients.countP (CPc.onWorker w) = 0 := by
    intro w p hp
    have hlt := (List.getElem?_eq_some_iff.1 hp).1
    have h1 := hi.token w p hp
    have h2 := hall w (by rw [← hi.len]; exact hlt)
    constructor
    · cases hb : WPc.busy p with
      | false => rfl
      | true => rw [hb] at h1; simp only [if_true] at h1; omega
    · omega
  intro t ht
  have h1 := hi.task t
  rw [if_pos ht] at h1
  have h2 : s.workers.countP (WPc.has t) = 0 := by
    rw [List.countP_eq_zero]
    intro p hp hb
    obtain ⟨w, hw, he⟩ := List.getElem_of_mem hp
    have := (hidle w p (by rw [List.getElem?_eq_getElem hw, he])).1
    cases p <;> simp_all [WPc.has, WPc.busy]
  have h3 : s.clients.countP (CPc.onTask t) = 0 := by
    rw [List.countP_eq_zero]
    intro c hc hb
    cases c with
    | ready => simp [CPc.onTask] at hb
    | loaded w t' =>
      have hwn := hi.crange _ hc w t' rfl
      rw [← hi.len] at hwn
      have := (hidle w _ (List.getElem?_eq_getElem hwn)).2
      rw [List.countP_eq_zero] at this
      exact this _ hc (by simp [CPc.onWorker])
  have h4 : 0 < s.ended.countP (·.1 == t) := by omega
  obtain ⟨⟨t', w⟩, he, hb⟩ := List.countP_pos_iff.1 h4
  simp only [beq_iff_eq] at hb
  subst hb
  exact ⟨w, he⟩

/-- **C29 (join)** In every reachable state in which `join` may return, every task submitted so far has ended. -/
theorem C29_join {n m : Nat} {s : Pool} (h : Pool.Reach n m s) (hj : s.CanJoin) :
    ∀ t, t < s.next → ∃ w, (t, w) ∈ s.ended := by
  have hi := PInv.reach h
  apply all_ended hi
  have hnd : s.free.Nodup := by
    rw [List.nodup_iff_count_le_one]
    intro w
    by_cases hw : w < n
    · rw [← hi.len] at hw
      have := hi.token w _ (List.getElem?_eq_getElem hw)
      omega
    · rw [List.count_eq_zero.2]
      · omega
      · intro hm; exact hw (hi.range w hm)
  have hperm : s.free.Perm (List.range n) := by
    apply List.Subperm.perm_of_length_le (List.Nodup.subperm hnd ?_) ?_
    · intro w hw; exact List.mem_range.2 (hi.range w hw)
    · rw [List.length_range, hj, hi.len]; exact Nat.le_refl n
  intro w hw
  rw [List.one_le_count_iff]
  exact hperm.mem_iff.2 (List.mem_range.2 hw)

/-- work left to do for the tasks submitted so far -/
def todo (s : Pool) : Nat :=
  (s.clients.map fun c => match c with | .ready => 0 | .loaded _ _ => 5).sum +
  (s.workers.map fun p => match p with
    | .idle => 0 | .recycled _ => 1 | .executed _ => 2 | .running _ => 3 | .assigned _ => 4).sum

theorem sum_set {β : Type} (f : β → Nat) (l : List β) (i : Nat) (a b : β) (h : l[i]? = some a) :
    ((l.set i b).map f).sum + f a = (l.map f).sum + f b := by
  induction l generalizing i with
  | nil => simp at h
  | cons x t ih =>
    cases i with
    | zero =>
      simp only [List.getElem?_cons_zero, Option.some.injEq] at h
      subst h
      simp only [List.set_cons_zero, List.map_cons, List.sum_cons]; omega
    | succ i =>
      simp only [List.getElem?_cons_succ] at h
      have := ih i h
      simp only [List.set_cons_succ, List.map_cons, List.sum_cons]; omega

/-- a step that is not the submission of a further task -/
def QuietStep (s t : Pool) : Prop := Pool.Step s t ∧ t.next = s.next

/-- **C29 (every task runs)** From every reachable state the tasks submitted so far need only finitely many more steps
(every step other than a further submission decreases `todo`), and as long as one of them has not ended some such step is
possible. So, if the threads keep being scheduled and the tasks return, every submitted task ends, and `join` returns. -/
theorem C29_every_task_runs {n m : Nat} {s : Pool} (h : Pool.Reach n m s) :
    (∀ t, QuietStep s t → todo t < todo s) ∧
    ((∃ t, QuietStep s t) ∨ ((∀ t, t < s.next → ∃ w, (t, w) ∈ s.ended) ∧ s.CanJoin)) := by
  have hi := PInv.reach h
  constructor
  · rintro t ⟨hs, hn⟩
    cases hs with
    | load c w rest hc hf => simp only at hn; omega
    | assign c w t' p hc hp hq =>
      have h1 := sum_set (fun c => match c with | CPc.ready => 0 | .loaded _ _ => 5) s.clients c _ .ready hc
      have h2 := sum_set (fun p => match p with
        | WPc.idle => 0 | .recycled _ => 1 | .executed _ => 2 | .running _ => 3 | .assigned _ => 4) s.workers w _
        (.assigned t') hp
      simp only [todo]
      rcases hq with rfl | ⟨_, rfl⟩ <;> simp only at h1 h2 <;> omega
    | start w t' hp =>
      have h2 := sum_set (fun p => match p with
        | WPc.idle => 0 | .recycled _ => 1 | .executed _ => 2 | .running _ => 3 | .assigned _ => 4) s.workers w _
        (.running t') hp
      simp only [todo]
      simp only at h2; omega
    | finish w t' hp =>
      have h2 := sum_set (fun p => match p with
        | WPc.idle => 0 | .recycled _ => 1 | .executed _ => 2 | .running _ => 3 | .assigned _ => 4) s.workers w _
        (.executed t') hp
      simp only [todo]
      simp only at h2; omega
    | recycle w t' hp =>
      have h2 := sum_set (fun p => match p with
        | WPc.idle => 0 | .recycled _ => 1 | .executed _ => 2 | .running _ => 3 | .assigned _ => 4) s.workers w _
        (.recycled t') hp
      simp only [todo]
      simp only at h2; omega
    | clear w t' hp =>
      have h2 := sum_set (fun p => match p with
        | WPc.idle => 0 | .recycled _ => 1 | .executed _ => 2 | .running _ => 3 | .assigned _ => 4) s.workers w _
        .idle hp
      simp only [todo]
      simp only at h2; omega
  · by_cases hw : ∃ (w : Nat) (p : WPc), s.workers[w]? = some p ∧ p ≠ .idle
    · obtain ⟨w, p, hp, hne⟩ := hw
      left
      cases p with
      | idle => exact absurd rfl hne
      | assigned t => exact ⟨_, .start w t hp, rfl⟩
      | running t => exact ⟨_, .finish w t hp, rfl⟩
      | executed t => exact ⟨_, .recycle w t hp, rfl⟩
      | recycled t => exact ⟨_, .clear w t hp, rfl⟩
    · have hidle : ∀ w, w < n → s.workers[w]? = some .idle := by
        intro w hwn
        rw [← hi.len] at hwn
        have h1 := List.getElem?_eq_getElem hwn
        by_cases h2 : s.workers[w] = .idle
        · rw [h1, h2]
        · exact absurd ⟨w, _, h1, h2⟩ hw
      by_cases hc : ∃ (c w t : Nat), s.clients[c]? = some (CPc.loaded w t)
      · obtain ⟨c, w, t, hc⟩ := hc
        left
        have hwn := hi.crange _ (List.mem_of_getElem? hc) w t rfl
        exact ⟨_, .assign c w t _ hc (hidle w hwn) (.inl rfl), rfl⟩
      · right
        have hfree : ∀ w, w < n → s.free.count w = 1 := by
          intro w hwn
          have h1 := hi.token w _ (hidle w hwn)
          have h2 : s.clients.countP (CPc.onWorker w) = 0 := by
            rw [List.countP_eq_zero]
            intro c hcm hb
            obtain ⟨k, hk, he⟩ := List.getElem_of_mem hcm
            cases c with
            | ready => simp [CPc.onWorker] at hb
            | loaded w' t' => exact hc ⟨k, w', t', by rw [List.getElem?_eq_getElem hk, he]⟩
          simp only [WPc.busy, Bool.false_eq_true, if_false] at h1
          omega
        refine ⟨all_ended hi fun w hw => Nat.le_of_eq (hfree w hw).symm, ?_⟩
        have hperm : s.free.Perm (List.range n) := by
          rw [List.perm_iff_count]
          intro w
          by_cases hwn : w < n
          · rw [hfree w hwn, List.count_eq_one_of_mem List.nodup_range (List.mem_range.2 hwn)]
          · rw [List.count_eq_zero.2, List.count_eq_zero.2]
            · simpa using hwn
            · intro hm; exact hwn (hi.range w hm)
        show s.free.length = s.workers.length
        rw [hperm.length_eq, List.length_range, hi.len]

/-- two workers, two clients: both have submitted, one task runs, the other is assigned -/
example : ∃ s, Pool.Reach 2 2 s ∧ s.workers = [.running 0, .assigned 1] ∧ s.next = 2 ∧ s.started = [(0, 0)] := by
  have h0 : Pool.Reach 2 2 ⟨[0, 1], [.idle, .idle], [.ready, .ready], 0, [], []⟩ := .init
  have h1 := h0.step (.load 0 0 [1] rfl rfl)
  have h2 := h1.step (.load 1 1 [] rfl rfl)
  have h3 := h2.step (.assign 0 0 0 .idle rfl rfl (.inl rfl))
  have h4 := h3.step (.assign 1 1 1 .idle rfl rfl (.inl rfl))
  have h5 := h4.step (.start 0 0 rfl)
  exact ⟨_, h5, rfl, rfl, rfl⟩

/-- a state in which `join` returns after a task has run -/
example : ∃ s, Pool.Reach 1 1 s ∧ s.CanJoin ∧ s.next = 1 ∧ s.ended = [(0, 0)] := by
  have h0 : Pool.Reach 1 1 ⟨[0], [.idle], [.ready], 0, [], []⟩ := .init
  have h1 := h0.step (.load 0 0 [] rfl rfl)
  have h2 := h1.step (.assign 0 0 0 .idle rfl rfl (.inl rfl))
  have h3 := h2.step (.start 0 0 rfl)
  have h4 := h3.step (.finish 0 0 rfl)
  have h5 := h4.step (.recycle 0 0 rfl)
  exact ⟨_, h5, rfl, rfl, rfl⟩

/-- **C29, negation for destruction** The destructor clears the flag and notifies without taking the mutex: if that falls
between the worker's test and its wait, the worker sleeps for ever and the destructor never returns (no step, other
than a spurious wake-up of the condition variable, is possible). -/
theorem C29_destructor_hangs_false : ∃ s, Worker.Reach s ∧ s.dtor = 2 ∧ s.pc ≠ .exited ∧ ∀ t, ¬Worker.Step s t := by
  have h0 : Worker.Reach ⟨true, none, .check, 0, []⟩ := .init
  have h1 : Worker.Reach ⟨true, none, .toWait, 0, []⟩ := h0.step (.checkWait rfl rfl rfl)
  have h2 : Worker.Reach ⟨false, none, .toWait, 1, []⟩ := h1.step (.dtorFlag rfl)
  have h3 : Worker.Reach ⟨false, none, .toWait, 2, []⟩ := h2.step (.dtorNotify rfl)
  have h4 : Worker.Reach ⟨false, none, .waiting, 2, []⟩ := h3.step (.sleep rfl)
  refine ⟨_, h4, rfl, by decide, ?_⟩
  intro t ht
  cases ht <;> simp_all

/-- **C29, negation for destruction** A task submitted just before destruction is dropped: the destructor returns and the
task never ran. -/
theorem C29_destructor_drops_false : ∃ s, Worker.Reach s ∧ s.dtor = 3 ∧ s.task = some 7 ∧ s.ran = [] := by
  have h0 : Worker.Reach ⟨true, none, .check, 0, []⟩ := .init
  have h1 : Worker.Reach ⟨true, none, .toWait, 0, []⟩ := h0.step (.checkWait rfl rfl rfl)
  have h2 : Worker.Reach ⟨true, none, .waiting, 0, []⟩ := h1.step (.sleep rfl)
  have h3 : Worker.Reach ⟨true, some 7, .check, 0, []⟩ := h2.step (.run 7 rfl rfl)
  have h4 : Worker.Reach ⟨false, some 7, .check, 1, []⟩ := h3.step (.dtorFlag rfl)
  have h5 : Worker.Reach ⟨false, some 7, .check, 2, []⟩ := h4.step (.dtorNotify rfl)
  have h6 : Worker.Reach ⟨false, some 7, .checkRun, 2, []⟩ := h5.step (.checkGo rfl (by simp))
  have h7 : Worker.Reach ⟨false, some 7, .exited, 2, []⟩ := h6.step (.stop rfl rfl)
  exact ⟨_, h7.step (.dtorJoin rfl rfl), rfl, rfl, rfl⟩

/-- what holds of a worker that is not being destroyed -/
theorem worker_alive {s : Worker} (h : Worker.Reach s) (hd : s.dtor = 0) :
    s.isRunning = true ∧ (s.pc = .toWait ∨ s.pc = .waiting → s.task = none) ∧ (s.pc = .checkRun → s.task ≠ none) ∧
      s.pc ≠ .exited := by
  induction h with
  | init => simp [Worker.init]
  | @step s t _ hs ih =>
    cases hs with
    | run t h1 h2 => simp [(ih h2).1]
    | checkWait h1 h2 h3 => have := ih hd; simp_all
    | checkGo h1 h2 => have := ih hd; simp_all
    | sleep h1 => have := ih hd; simp_all
    | stop h1 h2 => have := ih hd; simp_all
    | work t h1 h2 h3 => have := ih hd; simp_all
    | dtorFlag h1 => simp at hd
    | dtorNotify h1 => simp at hd
    | dtorJoin h1 h2 => simp at hd

/-- **C29 (an assigned task is run).** As long as the pool is not destroyed, a worker that has been given a task is never
asleep, is never stuck, and runs exactly that task next: every step it takes either keeps the task or runs it, and
running it is at most two of its own steps away. -/
theorem C29_assigned_task_runs {s : Worker} (h : Worker.Reach s) (hd : s.dtor = 0) {t : Nat} (ht : s.task = some t) :
    (s.pc = .checkRun ∨ ∃ m, Worker.Step s m ∧ m.pc = .checkRun ∧ m.task = some t ∧ m.dtor = 0 ∧ m.ran = s.ran) ∧
    (∀ m, Worker.Step s m → m.dtor = 0 → (m.task = some t ∧ m.ran = s.ran) ∨ (m.task = none ∧ m.ran = t :: s.ran)) ∧
    (s.pc = .checkRun → ∃ m, Worker.Step s m ∧ m.task = none ∧ m.ran = t :: s.ran ∧ m.dtor = 0) := by
  obtain ⟨h1, h2, h3, h4⟩ := worker_alive h hd
  refine ⟨?_, ?_, ?_⟩
  · cases hp : s.pc with
    | check => exact Or.inr ⟨_, .checkGo hp (by simp [ht]), rfl, ht, hd, rfl⟩
    | toWait => have := h2 (Or.inl hp); rw [ht] at this; cases this
    | waiting => have := h2 (Or.inr hp); rw [ht] at this; cases this
    | checkRun => exact Or.inl rfl
    | exited => exact absurd hp h4
  · intro m hm hd'
    cases hm with
    | run t' e1 e2 => have := h2 (Or.inr e1); rw [ht] at this; cases this
    | checkWait e1 e2 e3 => exact Or.inl ⟨ht, rfl⟩
    | checkGo e1 e2 => exact Or.inl ⟨ht, rfl⟩
    | sleep e1 => exact Or.inl ⟨ht, rfl⟩
    | stop e1 e2 => rw [h1] at e2; cases e2
    | work t' e1 e2 e3 =>
      rw [ht] at e3
      cases e3
      exact Or.inr ⟨rfl, rfl⟩
    | dtorFlag e1 => simp at hd'
    | dtorNotify e1 => simp at hd'
    | dtorJoin e1 e2 => simp at hd'
  · intro hp
    exact ⟨_, .work t hp h1 ht, rfl, rfl, hd⟩

example : ∃ s, Worker.Reach s ∧ s.dtor = 0 ∧ s.task = some 7 := by
  have h0 : Worker.Reach ⟨true, none, .check, 0, []⟩ := .init
  have h1 : Worker.Reach ⟨true, none, .toWait, 0, []⟩ := h0.step (.checkWait rfl rfl rfl)
  have h2 : Worker.Reach ⟨true, none, .waiting, 0, []⟩ := h1.step (.sleep rfl)
  exact ⟨_, h2.step (.run 7 rfl rfl), rfl, rfl⟩

end Verif.Props
