import Verif.Concurrency.RwMutex
/-!
# C28: the read/write lock
-/
namespace Verif.Props
open Verif.Concurrency

/-- number of threads at a place -/
def RW.at (s : RW) (p : RPc) : Nat := s.pcs.countP (· == p)

theorem countP_set' {β : Type} (f : β → Bool) (l : List β) (i : Nat) (a b : β) (h : l[i]? = some a) :
    (l.set i b).countP f + (if f a then 1 else 0) = l.countP f + (if f b then 1 else 0) := by
  induction l generalizing i with
  | nil => simp at h
  | cons x t ih =>
    cases i with
    | zero =>
      simp only [List.getElem?_cons_zero, Option.some.injEq] at h
      subst h
      simp only [List.set_cons_zero, List.countP_cons]
      omega
    | succ i =>
      simp only [List.getElem?_cons_succ] at h
      have := ih i h
      simp only [List.set_cons_succ, List.countP_cons]
      omega

/-- the invariant in numbers: `m_read_count`, `m_write_count`, `m_writing`, then the numbers of threads reading, blocked
and woken in `lock_write`, writing, blocked in `lock_read` -/
def RWNum (rc wc w rd ww wk wr rw : Nat) : Prop :=
  rc = rd ∧ wc = ww + wk + wr ∧ w = wr ∧ w ≤ 1 ∧ (w = 0 ∨ rc = 0) ∧ (wc ≠ 0 ∨ rw = 0) ∧
  (wc = 0 ∨ rc ≠ 0 ∨ w ≠ 0 ∨ wk ≠ 0)

/-- counters agree with where the threads are; nobody sleeps who could go on -/
def RWInv (s : RW) : Prop :=
  RWNum s.rc s.wc s.writing.toNat (RW.at s .reading) (RW.at s .wWait) (RW.at s .wWoken) (RW.at s .writing) (RW.at s .rWait)

/-- how moving one thread changes the numbers -/
theorem move_counts (l : List RPc) (i : Nat) (a b : RPc) (h : l[i]? = some a) (p : RPc) :
    (l.set i b).countP (· == p) + (if a = p then 1 else 0) = l.countP (· == p) + (if b = p then 1 else 0) := by
  have := countP_set' (· == p) l i a b h
  simpa using this

theorem wakeOne_counts {l l' : List RPc} (h : RW.WakeOne l l') :
    (∀ p, p ≠ .wWait → p ≠ .wWoken → l'.countP (· == p) = l.countP (· == p)) ∧
    l'.countP (· == RPc.wWait) + l'.countP (· == RPc.wWoken) = l.countP (· == RPc.wWait) + l.countP (· == RPc.wWoken) ∧
    (0 < l.countP (· == RPc.wWait) + l.countP (· == RPc.wWoken) → 0 < l'.countP (· == RPc.wWoken)) := by
  cases h with
  | some j hj =>
    refine ⟨?_, ?_, ?_⟩
    · intro p h1 h2
      have := countP_set' (· == p) l j _ .wWoken hj
      simpa [Ne.symm h1, Ne.symm h2, beq_iff_eq] using this
    · have h1 := countP_set' (· == RPc.wWait) l j _ .wWoken hj
      have h2 := countP_set' (· == RPc.wWoken) l j _ .wWoken hj
      simp at h1 h2
      omega
    · intro _
      have h2 := countP_set' (· == RPc.wWoken) l j _ .wWoken hj
      simp at h2
      omega
  | none hn =>
    refine ⟨fun _ _ _ => rfl, rfl, ?_⟩
    have : l.countP (· == RPc.wWait) = 0 := by
      rw [List.countP_eq_zero]
      intro a ha hb
      simp only [beq_iff_eq] at hb
      exact hn (hb ▸ ha)
    omega

theorem wakeReaders_counts (l : List RPc) :
    (RW.wakeReaders l).countP (· == RPc.rWait) = 0 ∧
    ∀ p, p ≠ .rWait → p ≠ .rWoken → (RW.wakeReaders l).countP (· == p) = l.countP (· == p) := by
  unfold RW.wakeReaders
  constructor
  · rw [List.countP_eq_zero]
    intro a ha
    obtain ⟨b, -, rfl⟩ := List.mem_map.1 ha
    split <;> simp_all
  · intro p h1 h2
    rw [List.countP_map]
    apply List.countP_congr
    intro q _
    simp only [Function.comp]
    by_cases h : q = .rWait
    · subst h; simp [Ne.symm h1, Ne.symm h2]
    · rw [if_neg h]

theorem RWInv.step {s t : RW} (hi : RWInv s) (h : RW.Step s t) : RWInv t := by
  unfold RWInv RW.at at *
  cases h with
  | lockRead i h =>
    unfold RW.tryRead
    split
    · have key := move_counts s.pcs i _ .reading h
      have k1 := key .reading; have k2 := key .wWait; have k3 := key .wWoken; have k4 := key .writing; have k5 := key .rWait
      simp only [reduceCtorEq, if_true, if_false] at k1 k2 k3 k4 k5
      unfold RWNum at *
      simp only []
      omega
    · have key := move_counts s.pcs i _ .rWait h
      have k1 := key .reading; have k2 := key .wWait; have k3 := key .wWoken; have k4 := key .writing; have k5 := key .rWait
      simp only [reduceCtorEq, if_true, if_false] at k1 k2 k3 k4 k5
      unfold RWNum at *
      simp only []
      omega
  | recheckRead i h =>
    unfold RW.tryRead
    split
    · have key := move_counts s.pcs i _ .reading h
      have k1 := key .reading; have k2 := key .wWait; have k3 := key .wWoken; have k4 := key .writing; have k5 := key .rWait
      simp only [reduceCtorEq, if_true, if_false] at k1 k2 k3 k4 k5
      unfold RWNum at *
      simp only []
      omega
    · have key := move_counts s.pcs i _ .rWait h
      have k1 := key .reading; have k2 := key .wWait; have k3 := key .wWoken; have k4 := key .writing; have k5 := key .rWait
      simp only [reduceCtorEq, if_true, if_false] at k1 k2 k3 k4 k5
      unfold RWNum at *
      simp only []
      omega
  | lockWrite i h =>
    unfold RW.tryWrite
    split
    · next hc =>
      have key := move_counts s.pcs i _ .writing h
      have k1 := key .reading; have k2 := key .wWait; have k3 := key .wWoken; have k4 := key .writing; have k5 := key .rWait
      simp only [reduceCtorEq, if_true, if_false] at k1 k2 k3 k4 k5 hc
      have hwt : s.writing.toNat = 0 := by rw [hc.2]; rfl
      unfold RWNum at *
      simp only [Bool.toNat_true]
      omega
    · next hc =>
      have key := move_counts s.pcs i _ .wWait h
      have k1 := key .reading; have k2 := key .wWait; have k3 := key .wWoken; have k4 := key .writing; have k5 := key .rWait
      simp only [reduceCtorEq, if_true, if_false] at k1 k2 k3 k4 k5 hc
      have hwt : s.rc ≠ 0 ∨ s.writing.toNat ≠ 0 := by
        cases hw : s.writing <;> simp_all
      unfold RWNum at *
      simp only []
      omega
  | recheckWrite i h =>
    unfold RW.tryWrite
    split
    · next hc =>
      have key := move_counts s.pcs i _ .writing h
      have k1 := key .reading; have k2 := key .wWait; have k3 := key .wWoken; have k4 := key .writing; have k5 := key .rWait
      simp only [reduceCtorEq, if_true, if_false] at k1 k2 k3 k4 k5
      have hwt : s.writing.toNat = 0 := by rw [hc.2]; rfl
      unfold RWNum at *
      simp only [Bool.toNat_true]
      omega
    · next hc =>
      have key := move_counts s.pcs i _ .wWait h
      have k1 := key .reading; have k2 := key .wWait; have k3 := key .wWoken; have k4 := key .writing; have k5 := key .rWait
      simp only [reduceCtorEq, if_true, if_false] at k1 k2 k3 k4 k5
      have hwt : s.rc ≠ 0 ∨ s.writing.toNat ≠ 0 := by
        cases hw : s.writing <;> simp_all
      unfold RWNum at *
      simp only []
      omega
  | releaseRead i l h hl =>
    have key := move_counts s.pcs i _ .idle h
    have k1 := key .reading; have k2 := key .wWait; have k3 := key .wWoken; have k4 := key .writing; have k5 := key .rWait
    simp only [reduceCtorEq, if_true, if_false] at k1 k2 k3 k4 k5
    split at hl
    · obtain ⟨hp, hsum, hwk⟩ := wakeOne_counts hl
      have p1 := hp .reading (by decide) (by decide)
      have p2 := hp .writing (by decide) (by decide)
      have p3 := hp .rWait (by decide) (by decide)
      unfold RWNum at *
      simp only []
      omega
    · subst hl
      unfold RWNum at *
      simp only []
      omega
  | releaseWrite i l h hl =>
    have key := move_counts s.pcs i _ .idle h
    have k1 := key .reading; have k2 := key .wWait; have k3 := key .wWoken; have k4 := key .writing; have k5 := key .rWait
    simp only [reduceCtorEq, if_true, if_false] at k1 k2 k3 k4 k5
    split at hl
    · subst hl
      obtain ⟨h0, hp⟩ := wakeReaders_counts (s.pcs.set i .idle)
      have p1 := hp .reading (by decide) (by decide)
      have p2 := hp .writing (by decide) (by decide)
      have p3 := hp .wWait (by decide) (by decide)
      have p4 := hp .wWoken (by decide) (by decide)
      unfold RWNum at *
      simp only [Bool.toNat_false]
      omega
    · obtain ⟨hp, hsum, hwk⟩ := wakeOne_counts hl
      have p1 := hp .reading (by decide) (by decide)
      have p2 := hp .writing (by decide) (by decide)
      have p3 := hp .rWait (by decide) (by decide)
      unfold RWNum at *
      simp only [Bool.toNat_false]
      omega
  | spuriousRead i h =>
    have key := move_counts s.pcs i _ .rWoken h
    have k1 := key .reading; have k2 := key .wWait; have k3 := key .wWoken; have k4 := key .writing; have k5 := key .rWait
    simp only [reduceCtorEq, if_true, if_false] at k1 k2 k3 k4 k5
    unfold RWNum at *
    simp only []
    omega
  | spuriousWrite i h =>
    have key := move_counts s.pcs i _ .wWoken h
    have k1 := key .reading; have k2 := key .wWait; have k3 := key .wWoken; have k4 := key .writing; have k5 := key .rWait
    simp only [reduceCtorEq, if_true, if_false] at k1 k2 k3 k4 k5
    unfold RWNum at *
    simp only []
    omega

theorem RWInv.reach {n : Nat} {s : RW} (h : RW.Reach n s) : RWInv s := by
  induction h with
  | init =>
    have : ∀ p, p ≠ RPc.idle → RW.at (RW.init n) p = 0 := by
      intro p hp
      unfold RW.at RW.init
      rw [List.countP_eq_zero]
      intro a ha
      rw [(List.mem_replicate.1 ha).2]
      simpa using Ne.symm hp
    unfold RWInv
    rw [this _ (by decide), this _ (by decide), this _ (by decide), this _ (by decide), this _ (by decide)]
    simp [RWNum, RW.init]
  | step _ hs ih => exact ih.step hs

/-- two different threads at the same place are counted twice -/
theorem two_le_countP {β : Type} (f : β → Bool) (l : List β) (i j : Nat) (a b : β) (hij : i ≠ j) (hi : l[i]? = some a)
    (hj : l[j]? = some b) (ha : f a) (hb : f b) : 2 ≤ l.countP f := by
  induction l generalizing i j with
  | nil => simp at hi
  | cons x t ih =>
    have one : ∀ (k : Nat) (c : β), t[k]? = some c → f c → 1 ≤ t.countP f := by
      intro k c hk hc
      exact List.countP_pos_iff.2 ⟨c, List.mem_of_getElem? hk, hc⟩
    rw [List.countP_cons]
    cases i with
    | zero =>
      cases j with
      | zero => omega
      | succ j =>
        simp only [List.getElem?_cons_zero, Option.some.injEq] at hi
        simp only [List.getElem?_cons_succ] at hj
        have := one j b hj hb
        rw [hi, if_pos ha]; omega
    | succ i =>
      simp only [List.getElem?_cons_succ] at hi
      cases j with
      | zero =>
        simp only [List.getElem?_cons_zero, Option.some.injEq] at hj
        have := one i a hi ha
        rw [hj, if_pos hb]; omega
      | succ j =>
        simp only [List.getElem?_cons_succ] at hj
        have := ih i j (by omega) hi hj
        omega

/-- **C28 (exclusion)** In every reachable state, with any number of threads: while a thread is inside a write section, no
other thread is inside a read or write section. -/
theorem C28_exclusion {n : Nat} {s : RW} (h : RW.Reach n s) (i j : Nat) (hij : i ≠ j)
    (hi : s.pcs[i]? = some .writing) : s.pcs[j]? ≠ some .writing ∧ s.pcs[j]? ≠ some .reading := by
  have inv := RWInv.reach h
  unfold RWInv RWNum RW.at at inv
  have h1 : 1 ≤ s.pcs.countP (· == RPc.writing) := List.countP_pos_iff.2 ⟨_, List.mem_of_getElem? hi, by simp⟩
  constructor
  · intro hj
    have := two_le_countP (· == RPc.writing) s.pcs i j _ _ hij hi hj (by simp) (by simp)
    omega
  · intro hj
    have : 1 ≤ s.pcs.countP (· == RPc.reading) := List.countP_pos_iff.2 ⟨_, List.mem_of_getElem? hj, by simp⟩
    omega

/-- a thread is inside a read or write section -/
def Holds (p : RPc) : Prop := p = .reading ∨ p = .writing
/-- a thread is blocked in, or on its way through, `lock_read` or `lock_write` -/
def Waits (p : RPc) : Prop := p = .rWait ∨ p = .rWoken ∨ p = .wWait ∨ p = .wWoken

/-- **C28 (no lost wake-up)** In every reachable state: if a thread waits and no thread is inside a section, then some
waiting thread has been woken already (no further notification or spurious wake-up is needed) and its next step takes
the lock. -/
theorem C28_progress {n : Nat} {s : RW} (h : RW.Reach n s) (hw : ∃ (i : Nat) (p : RPc), s.pcs[i]? = some p ∧ Waits p)
    (hf : ∀ (i : Nat) (p : RPc), s.pcs[i]? = some p → ¬Holds p) :
    ∃ (i : Nat) (t : RW), s.pcs[i]? ≠ some .rWait ∧ s.pcs[i]? ≠ some .wWait ∧ RW.Step s t ∧ (∃ q, t.pcs[i]? = some q ∧ Holds q) ∧
      ∀ j, j ≠ i → t.pcs[j]? = s.pcs[j]? := by
  have inv := RWInv.reach h
  unfold RWInv RWNum RW.at at inv
  have hr0 : s.pcs.countP (· == RPc.reading) = 0 := by
    rw [List.countP_eq_zero]
    intro a ha hb
    obtain ⟨k, hk, he⟩ := List.getElem_of_mem ha
    exact hf k a (by rw [List.getElem?_eq_getElem hk, he]) (.inl (by simpa using hb))
  have hw0 : s.pcs.countP (· == RPc.writing) = 0 := by
    rw [List.countP_eq_zero]
    intro a ha hb
    obtain ⟨k, hk, he⟩ := List.getElem_of_mem ha
    exact hf k a (by rw [List.getElem?_eq_getElem hk, he]) (.inr (by simpa using hb))
  have hwr : s.writing = false := by
    cases hq : s.writing with
    | false => rfl
    | true => rw [hq, Bool.toNat_true] at inv; omega
  rw [hwr, Bool.toNat_false] at inv
  by_cases hwc : s.wc = 0
  · -- only readers, all woken
    obtain ⟨i, p, hp, hwait⟩ := hw
    have hilt := (List.getElem?_eq_some_iff.1 hp).1
    have pos : 1 ≤ s.pcs.countP (· == p) := List.countP_pos_iff.2 ⟨p, List.mem_of_getElem? hp, by simp⟩
    have : p = .rWoken := by
      rcases hwait with rfl | rfl | rfl | rfl
      · omega
      · rfl
      · omega
      · omega
    subst this
    refine ⟨i, s.tryRead i, by rw [hp]; simp, by rw [hp]; simp, .recheckRead i hp, ⟨.reading, ?_, .inl rfl⟩, ?_⟩
    · simp [RW.tryRead, hwc, hilt]
    · intro j hj
      simp only [RW.tryRead, hwc, if_true]
      rw [List.getElem?_set_ne (Ne.symm hj)]
  · have hpos : 0 < s.pcs.countP (· == RPc.wWoken) := by omega
    obtain ⟨a, ha, hb⟩ := List.countP_pos_iff.1 hpos
    simp only [beq_iff_eq] at hb
    subst hb
    obtain ⟨i, hilt, he⟩ := List.getElem_of_mem ha
    have hp : s.pcs[i]? = some .wWoken := by rw [List.getElem?_eq_getElem hilt, he]
    have hrc : s.rc = 0 := by omega
    refine ⟨i, s.tryWrite i, by rw [hp]; simp, by rw [hp]; simp, .recheckWrite i hp, ⟨.writing, ?_, .inr rfl⟩, ?_⟩
    · simp [RW.tryWrite, hrc, hwr, hilt]
    · intro j hj
      simp only [RW.tryWrite, hrc, hwr, and_self, if_true]
      rw [List.getElem?_set_ne (Ne.symm hj)]

/-- a state in which the hypotheses hold: a writer waited for a reader, the reader left -/
example : ∃ s, RW.Reach 2 s ∧ s.pcs = [.idle, .wWoken] := by
  have h0 : RW.Reach 2 ⟨[.idle, .idle], 0, 0, false⟩ := .init
  have h1 : RW.Reach 2 ⟨[.reading, .idle], 1, 0, false⟩ := h0.step (.lockRead 0 rfl)
  have h2 : RW.Reach 2 ⟨[.reading, .wWait], 1, 1, false⟩ := h1.step (.lockWrite 1 rfl)
  have h3 : RW.Reach 2 ⟨[.idle, .wWoken], 0, 1, false⟩ := h2.step (.releaseRead 0 _ rfl (by
    rw [if_pos ⟨rfl, by decide⟩]
    exact RW.WakeOne.some (l := [.idle, .wWait]) 1 rfl))
  exact ⟨_, h3, rfl⟩

/-- **C28 (sharing)** Any number of threads can be inside read sections at once. -/
theorem C28_sharing (n : Nat) : ∃ s, RW.Reach n s ∧ ∀ i, i < n → s.pcs[i]? = some .reading := by
  have key : ∀ m, m ≤ n → RW.Reach n ⟨List.replicate m .reading ++ List.replicate (n - m) .idle, m, 0, false⟩ := by
    intro m
    induction m with
    | zero => intro _; exact .init
    | succ m ih =>
      intro hm
      have h := (ih (by omega)).step (.lockRead m (by
        rw [List.getElem?_append_right (by simp)]
        simp only [List.length_replicate, Nat.sub_self]
        rw [List.getElem?_eq_getElem (by simp; omega)]
        simp))
      have e : RW.tryRead ⟨List.replicate m .reading ++ List.replicate (n - m) .idle, m, 0, false⟩ m =
          ⟨List.replicate (m + 1) .reading ++ List.replicate (n - (m + 1)) .idle, m + 1, 0, false⟩ := by
        simp only [RW.tryRead, if_true]
        congr 1
        rw [List.set_append_right _ _ (by simp)]
        simp only [List.length_replicate, Nat.sub_self]
        rw [show n - m = (n - (m + 1)) + 1 by omega, List.replicate_succ, List.set_cons_zero, List.replicate_succ']
        simp
      rwa [e] at h
  refine ⟨_, key n (Nat.le_refl n), ?_⟩
  intro i hi
  rw [List.getElem?_append_left (by simpa using hi)]
  rw [List.getElem?_eq_getElem (by simpa using hi)]
  simp

end Verif.Props
