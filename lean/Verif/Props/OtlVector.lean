import Verif.Utils.OtlVector
/-!
# C31: the inline vector
-/
namespace Verif.Props
open Verif.Core Verif.Utils

variable {α : Type}

/-- what the calls mean on lists (as for `std::vector`); no answer where the call is not allowed on a list -/
def listStep (l : List α) : OVec.Op α → Option (List α)
  | .push x => some (l ++ [x])
  | .pop => if l = [] then none else some l.dropLast
  | .clear => some []
  | .resize n x => some (l.take n ++ List.replicate (n - l.length) x)
  | .erase i => if i < l.length then some (l.take i ++ l.drop (i + 1)) else none
  | .eraseRange i j => if i ≤ j ∧ j ≤ l.length then some (l.take i ++ l.drop j) else none
  | .insert i x => if i ≤ l.length then some (l.take i ++ x :: l.drop i) else none
  | .insertRange _ i xs => if i ≤ l.length then some (l.take i ++ xs ++ l.drop i) else none
  | .set i x => if i < l.length then some (l.set i x) else none

/-- the vector of capacity `N` holds the list -/
structure Rep (N : Nat) (v : OVec α) (l : List α) : Prop where
  cap : v.buf.length = N
  size : v.size = l.length
  val : v.buf.take l.length = l
  fits : l.length ≤ N

theorem Rep.len {N : Nat} {v : OVec α} {l : List α} (r : Rep N v l) : v.len = l.length := by
  unfold OVec.len; rw [r.size]; simp

theorem Rep.buf {N : Nat} {v : OVec α} {l : List α} (r : Rep N v l) : ∃ t, v.buf = l ++ t ∧ l.length + t.length = N := by
  refine ⟨v.buf.drop l.length, ?_, ?_⟩
  · have h := List.take_append_drop l.length v.buf
    rw [r.val] at h; exact h.symm
  · rw [List.length_drop, r.cap]; have := r.fits; omega

theorem Rep.mk' {N : Nat} {b l t : List α} {n : Int} (hb : b = l ++ t) (hn : n = l.length) (hN : b.length = N) :
    Rep N ⟨b, n⟩ l := by
  subst hb
  refine ⟨hN, hn, by simp, ?_⟩
  rw [← hN]; simp

theorem fromRangeLoop_ok (N : Nat) (xs : List α) : ∀ (n : Nat) (b : List α) (l : List α), b.length = N → n = l.length →
    (∃ t, b = l ++ t) → l.length + xs.length ≤ N →
    ∃ v, OVec.fromRangeLoop N xs n b = .ok v ∧ Rep N v (l ++ xs) := by
  induction xs with
  | nil =>
    intro n b l hb hn ⟨t, ht⟩ hl
    refine ⟨_, rfl, ?_⟩
    exact Rep.mk' (t := t) (by simpa using ht) (by simp [hn]) hb
  | cons x xs ih =>
    intro n b l hb hn ⟨t, ht⟩ hl
    simp only [List.length_cons] at hl
    subst hn
    rw [OVec.fromRangeLoop, if_neg (by omega), OVec.store, if_pos (by omega), Res.bind_ok]
    have hx : ∃ t', b.set l.length x = (l ++ [x]) ++ t' := by
      cases t with
      | nil => rw [ht] at hb; simp at hb; omega
      | cons y t => exact ⟨t, by rw [ht]; simp⟩
    obtain ⟨v, e, r⟩ := ih (l.length + 1) (b.set l.length x) (l ++ [x]) (by simpa using hb) (by simp) hx (by simp; omega)
    exact ⟨v, e, by simpa using r⟩

theorem fillLoop_ok' (N : Nat) (x : α) : ∀ (k i : Nat) (b l : List α), b.length = N → i = l.length → (∃ t, b = l ++ t) →
    i + k ≤ N → ∃ b' t, OVec.fillLoop x k i b = .ok b' ∧ b'.length = N ∧ b' = l ++ List.replicate k x ++ t := by
  intro k
  induction k with
  | zero => intro i b l hb _ ⟨t, ht⟩ _; exact ⟨b, t, rfl, hb, by simpa using ht⟩
  | succ k ih =>
    intro i b l hb hi ⟨t, ht⟩ hk
    subst hi
    rw [OVec.fillLoop, OVec.store, if_pos (by omega), Res.bind_ok]
    have hx : ∃ t', b.set l.length x = (l ++ [x]) ++ t' := by
      cases t with
      | nil => rw [ht] at hb; simp at hb; omega
      | cons y t => exact ⟨t, by rw [ht]; simp⟩
    obtain ⟨b', t', e, h1, h2⟩ := ih (l.length + 1) (b.set l.length x) (l ++ [x]) (by simpa using hb) (by simp) hx (by omega)
    refine ⟨b', t', e, h1, ?_⟩
    rw [h2, List.replicate_succ]; simp

theorem blit_mid (p o t xs : List α) (h : xs.length ≤ (o ++ t).length) :
    OVec.blit (p ++ (o ++ t)) p.length xs = .ok (p ++ xs ++ (o ++ t).drop xs.length) := by
  unfold OVec.blit
  rw [if_pos (by simp at h ⊢; omega)]
  congr 1
  rw [List.take_left, List.drop_append]
  simp

/-- erasing cells `i … i+n-1` of the list -/
theorem Rep.eraseN {N : Nat} {v : OVec α} {l : List α} (r : Rep N v l) (i n : Nat) (h : i + n ≤ l.length) :
    ∃ w, v.eraseN i n = .ok w ∧ Rep N w (l.take i ++ l.drop (i + n)) := by
  obtain ⟨t, ht, htN⟩ := r.buf
  unfold OVec.eraseN
  rw [r.len]
  simp only
  have hng : ¬ (n + i > l.length) := by omega
  have hng2 : ¬ (l.length < i + n) := by omega
  simp only [hng, hng2, if_false]
  have hc : OVec.cells v.buf (i + n) (l.length - i - n) = .ok (l.drop (i + n)) := by
    unfold OVec.cells
    rw [if_pos (by rw [r.cap]; omega), ht, List.drop_append_of_le_length h]
    rw [List.take_append_of_le_length (by simp; omega), List.take_of_length_le (by simp; omega)]
  rw [hc, Res.bind_ok]
  have hsplit : v.buf = l.take i ++ (l.drop i ++ t) := by rw [ht, ← List.append_assoc, List.take_append_drop]
  have hi : (l.take i).length = i := by simp; omega
  have := blit_mid (l.take i) (l.drop i) t (l.drop (i + n)) (by simp; omega)
  rw [hi, ← hsplit] at this
  rw [this, Res.bind_ok]
  refine ⟨_, rfl, Rep.mk' (t := (l.drop i ++ t).drop (l.drop (i + n)).length) rfl ?_ ?_⟩
  · rw [r.size]; simp; omega
  · simp; omega

/-- opening a gap of `xs.length` cells at `i` and writing `xs` there -/
theorem Rep.gap {N : Nat} {v : OVec α} {l : List α} (r : Rep N v l) (i : Nat) (xs : List α) (hi : i ≤ l.length)
    (hfit : l.length + xs.length ≤ N) :
    ∃ b b', OVec.cells v.buf i (l.length - i) = .ok (l.drop i) ∧ OVec.blit v.buf (i + xs.length) (l.drop i) = .ok b ∧
      b.length = N ∧ OVec.blit b i xs = .ok b' ∧ Rep N ⟨b', v.size + xs.length⟩ (l.take i ++ xs ++ l.drop i) ∧
      b'.length = N ∧ (∀ x, xs = [x] → OVec.store b i x = .ok b') := by
  obtain ⟨t, ht, htN⟩ := r.buf
  have hc : OVec.cells v.buf i (l.length - i) = .ok (l.drop i) := by
    unfold OVec.cells
    rw [if_pos (by rw [r.cap]; omega), ht, List.drop_append_of_le_length hi]
    rw [List.take_append_of_le_length (by simp), List.take_of_length_le (by simp)]
  have hb : OVec.blit v.buf (i + xs.length) (l.drop i) =
      .ok (v.buf.take (i + xs.length) ++ l.drop i ++ v.buf.drop (l.length + xs.length)) := by
    unfold OVec.blit
    rw [if_pos (by rw [r.cap]; simp; omega)]
    congr 2
    simp only [List.length_drop]
    congr 1; omega
  have hlen : (v.buf.take (i + xs.length) ++ l.drop i ++ v.buf.drop (l.length + xs.length)).length = N := by
    have := r.cap
    simp; omega
  have htake : (v.buf.take (i + xs.length) ++ l.drop i ++ v.buf.drop (l.length + xs.length)).take i = l.take i := by
    rw [List.append_assoc, List.take_append_of_le_length (by have := r.cap; simp; omega), List.take_take,
      Nat.min_eq_left (by omega), ht, List.take_append_of_le_length hi]
  have hdrop : (v.buf.take (i + xs.length) ++ l.drop i ++ v.buf.drop (l.length + xs.length)).drop (i + xs.length) =
      l.drop i ++ v.buf.drop (l.length + xs.length) := by
    have h0 : (v.buf.take (i + xs.length)).length = i + xs.length := by have := r.cap; simp; omega
    rw [List.append_assoc]
    exact List.drop_left' h0
  have hb' : OVec.blit (v.buf.take (i + xs.length) ++ l.drop i ++ v.buf.drop (l.length + xs.length)) i xs =
      .ok (l.take i ++ xs ++ (l.drop i ++ v.buf.drop (l.length + xs.length))) := by
    unfold OVec.blit
    rw [if_pos (by rw [hlen]; omega), htake, hdrop]
  have hb'len : (l.take i ++ xs ++ (l.drop i ++ v.buf.drop (l.length + xs.length))).length = N := by
    have := r.cap
    simp; omega
  refine ⟨_, _, hc, hb, hlen, hb', ?_, hb'len, ?_⟩
  · refine Rep.mk' (t := v.buf.drop (l.length + xs.length)) (by simp) ?_ hb'len
    rw [r.size]; simp; omega
  · rintro x rfl
    unfold OVec.store
    rw [if_pos (by rw [hlen]; simp at hfit; omega)]
    congr 1
    rw [List.set_eq_take_append_cons_drop, if_pos (by rw [hlen]; simp at hfit; omega), htake]
    simp only [List.length_singleton] at hdrop ⊢
    rw [hdrop]
    simp

/-- **C31 (list behaviour)** On a vector of capacity `N` holding a list, every call other than `resize` that is allowed on
the list and whose result fits in `N` elements succeeds, stays inside the buffer and gives the vector holding the result
list. -/
theorem C31_step_partial (N : Nat) (v : OVec α) (l l' : List α) (op : OVec.Op α) (r : Rep N v l)
    (hraw : ∀ raw i xs, op = .insertRange raw i xs → raw.length = N) (hop : ∀ n x, op ≠ .resize n x)
    (h : listStep l op = some l') (hfit : l'.length ≤ N) : ∃ v', v.step op = .ok v' ∧ Rep N v' l' := by
  obtain ⟨t, ht, htN⟩ := r.buf
  cases op with
  | push x =>
    simp only [listStep, Option.some.injEq] at h
    subst h
    simp only [List.length_append, List.length_singleton] at hfit
    simp only [OVec.step, OVec.push]
    rw [r.size, if_pos (by omega), OVec.store, if_pos (by rw [r.cap]; simp; omega), Res.bind_ok]
    refine ⟨_, rfl, ?_⟩
    cases t with
    | nil => simp at htN; omega
    | cons y t =>
      refine Rep.mk' (t := t) ?_ (by simp) (by simpa using r.cap)
      rw [ht]; simp
  | pop =>
    simp only [listStep] at h
    split at h
    · cases h
    · next hne =>
      cases h
      have hpos : 0 < l.length := List.length_pos_iff.2 hne
      refine ⟨_, rfl, ?_⟩
      refine Rep.mk' (t := l.drop (l.length - 1) ++ t) ?_ ?_ r.cap
      · rw [ht, ← List.append_assoc, List.dropLast_eq_take, List.take_append_drop]
      · rw [r.size]; simp; omega
  | clear =>
    simp only [listStep, Option.some.injEq] at h
    subst h
    exact ⟨_, rfl, Rep.mk' (t := v.buf) rfl rfl r.cap⟩
  | resize n x => exact absurd rfl (hop n x)
  | erase i =>
    simp only [listStep] at h
    split at h
    · cases h
      exact r.eraseN i 1 (by omega)
    · cases h
  | eraseRange i j =>
    simp only [listStep] at h
    split at h
    · next hij =>
      cases h
      simp only [OVec.step, OVec.eraseRange]
      rw [if_neg (by omega)]
      have := r.eraseN i (j - i) (by omega)
      rwa [show i + (j - i) = j by omega] at this
    · cases h
  | insert i x =>
    simp only [listStep] at h
    split at h
    · next hi =>
      cases h
      have hfit' : l.length + 1 ≤ N := by simp at hfit; omega
      obtain ⟨b, b', h1, h2, h3, h4, h5, h6, h7⟩ := r.gap i [x] hi (by simpa using hfit')
      simp only [OVec.step, OVec.insert]
      rw [if_neg (by rw [r.cap]; omega), r.len, if_neg (by omega), h1, Res.bind_ok]
      simp only [List.length_singleton] at h2
      rw [h2, Res.bind_ok, h7 x rfl, Res.bind_ok]
      refine ⟨_, rfl, ?_⟩
      simpa using h5
    · cases h
  | insertRange raw i xs =>
    simp only [listStep] at h
    split at h
    · next hi =>
      cases h
      have hfit' : l.length + xs.length ≤ N := by simp at hfit; omega
      have hrl := hraw raw i xs rfl
      obtain ⟨w, e, rw'⟩ := fromRangeLoop_ok N xs 0 raw [] hrl rfl ⟨raw, rfl⟩ (by simp; omega)
      simp only [List.nil_append] at rw'
      obtain ⟨b, b', h1, h2, h3, h4, h5, h6, h7⟩ := r.gap i xs hi hfit'
      simp only [OVec.step, OVec.insertRange, OVec.fromRange, hrl]
      rw [e, Res.bind_ok, rw'.len, if_neg (by rw [r.cap]; omega), r.len, if_neg (by omega), h1, Res.bind_ok, h2, Res.bind_ok]
      have hz : OVec.cells w.buf 0 xs.length = .ok xs := by
        unfold OVec.cells
        rw [if_pos (by rw [rw'.cap]; omega), List.drop_zero, rw'.val]
      rw [hz, Res.bind_ok, h4, Res.bind_ok]
      exact ⟨_, rfl, h5⟩
    · cases h
  | set i x =>
    simp only [listStep] at h
    split at h
    · next hi =>
      cases h
      simp only [OVec.step, OVec.set, OVec.store]
      rw [if_pos (by rw [r.cap]; have := r.fits; omega), Res.bind_ok]
      refine ⟨_, rfl, Rep.mk' (t := t) ?_ (by rw [r.size]; simp) (by simpa using r.cap)⟩
      rw [ht, List.set_append_left _ _ hi]
    · cases h

/-- list meaning of a sequence, as long as every intermediate list fits -/
def listRun (N : Nat) (l : List α) : List (OVec.Op α) → Option (List α)
  | [] => some l
  | op :: t =>
    match listStep l op with
    | none => none
    | some l' => if l'.length ≤ N then listRun N l' t else none

/-- **C31 (sequences)** -/
theorem C31_sequence_partial (N : Nat) (raw : List α) (hraw : raw.length = N) (ops : List (OVec.Op α)) (l : List α)
    (hop : ∀ op ∈ ops, (∀ n x, op ≠ .resize n x) ∧ ∀ raw' i xs, op = .insertRange raw' i xs → raw'.length = N)
    (h : listRun N [] ops = some l) :
    ∃ v, (OVec.new raw).run ops = .ok v ∧ v.len = l.length ∧ ∀ i, i < l.length → (v.get i).bind .ok = (match l[i]? with | some x => .ok x | none => .ub) := by
  have key : ∀ (ops : List (OVec.Op α)) (v : OVec α) (l0 l : List α), Rep N v l0 →
      (∀ op ∈ ops, (∀ n x, op ≠ .resize n x) ∧ ∀ raw' i xs, op = .insertRange raw' i xs → raw'.length = N) →
      listRun N l0 ops = some l → ∃ v', v.run ops = .ok v' ∧ Rep N v' l := by
    intro ops
    induction ops with
    | nil => intro v l0 l r _ h; cases h; exact ⟨v, rfl, r⟩
    | cons op t ih =>
      intro v l0 l r hop h
      simp only [listRun] at h
      split at h
      · cases h
      · next l1 h1 =>
        split at h
        · next hf =>
          obtain ⟨v1, e1, r1⟩ := C31_step_partial N v l0 l1 op r (hop op (by simp)).2 (hop op (by simp)).1 h1 hf
          obtain ⟨v2, e2, r2⟩ := ih v1 l1 l r1 (fun o ho => hop o (by simp [ho])) h
          exact ⟨v2, by simp only [OVec.run, e1, Res.bind_ok, e2], r2⟩
        · cases h
  obtain ⟨v, e, r⟩ := key ops (OVec.new raw) [] l ⟨hraw, rfl, rfl, by simp⟩ hop h
  refine ⟨v, e, r.len, ?_⟩
  intro i hi
  obtain ⟨t, ht, -⟩ := r.buf
  unfold OVec.get
  rw [ht, List.getElem?_append_left hi, List.getElem?_eq_getElem hi]
  rfl

example : listRun 3 [] ([.push 1, .push 3, .insert 1 2, .erase 0] : List (OVec.Op Nat)) = some [2, 3] := by decide
example : (OVec.new [9, 9, 9]).run ([.push 1, .push 3, .insert 1 2, .erase 0] : List (OVec.Op Nat)) = .ok ⟨[2, 3, 3], 2⟩ := by rfl

/-- **C31 (construction from an initializer list)** is checked: too long is an error, otherwise the list is held. -/
theorem C31_initializer_list (raw xs : List α) :
    (raw.length < xs.length → OVec.fromList raw xs = .err) ∧
    (xs.length ≤ raw.length → ∃ v, OVec.fromList raw xs = .ok v ∧ Rep raw.length v xs) := by
  constructor
  · intro h; rw [OVec.fromList, if_pos h]
  · intro h
    rw [OVec.fromList, if_neg (by omega)]
    obtain ⟨v, e, r⟩ := fromRangeLoop_ok raw.length xs 0 raw [] rfl rfl ⟨raw, rfl⟩ (by simpa using h)
    exact ⟨v, e, by simpa using r⟩

example : OVec.fromList [0, 0] [1, 2, 3] = .err := rfl

/-- **C31, negation** Construction from a longer `std::vector` or iterator range (e.g. a shape of 8 dimensions) never raises
the error: it writes past the buffer, whatever the capacity and the elements. -/
theorem C31_range_overflow_false (raw xs : List α) (h : raw.length < xs.length) : OVec.fromRange raw xs = .ub := by
  have key : ∀ (xs : List α) (n : Nat) (b : List α), b.length = raw.length → n ≤ raw.length → raw.length < n + xs.length →
      OVec.fromRangeLoop raw.length xs n b = .ub := by
    intro xs
    induction xs with
    | nil => intro n b _ _ h; simp at h; omega
    | cons x xs ih =>
      intro n b hb hn h
      simp only [List.length_cons] at h
      rw [OVec.fromRangeLoop, if_neg (by omega), OVec.store]
      by_cases hlt : n < b.length
      · rw [if_pos hlt, Res.bind_ok]
        exact ih (n + 1) _ (by simpa using hb) (by omega) (by omega)
      · rw [if_neg hlt]; rfl
  exact key xs 0 raw rfl (by omega) (by omega)

/-- **C31, negation** Pushing to a full vector, inserting into a full vector before its end, and resizing beyond the capacity
write past the buffer instead of raising an error. -/
theorem C31_push_insert_resize_false (N : Nat) (v : OVec α) (l : List α) (r : Rep N v l) (x : α) (hfull : l.length = N) :
    v.push x = .ub ∧ (∀ i, i < N → v.insert i x = .ub) ∧ ∀ n, N < n → v.resize n x = .ub := by
  refine ⟨?_, ?_, ?_⟩
  · unfold OVec.push
    rw [r.size, if_pos (by omega), OVec.store, if_neg (by rw [r.cap]; simp; omega)]; rfl
  · intro i hi
    unfold OVec.insert
    rw [if_neg (by rw [r.cap]; omega), r.len, if_neg (by omega)]
    unfold OVec.cells
    rw [if_pos (by rw [r.cap]; omega), Res.bind_ok]
    unfold OVec.blit
    rw [if_neg (by have := r.cap; simp; omega)]; rfl
  · intro n hn
    unfold OVec.resize OVec.fill
    have key : ∀ (k i : Nat) (b : List α), b.length = N → i ≤ N → N < i + k → OVec.fillLoop x k i b = .ub := by
      intro k
      induction k with
      | zero => intro i b _ _ h; omega
      | succ k ih =>
        intro i b hb hi h
        rw [OVec.fillLoop, OVec.store]
        by_cases hlt : i < b.length
        · rw [if_pos hlt, Res.bind_ok]
          exact ih (i + 1) _ (by simpa using hb) (by omega) (by omega)
        · rw [if_neg hlt]; rfl
    rw [key n 0 v.buf r.cap (by omega) (by omega)]; rfl

example : Rep 2 (⟨[1, 2], 2⟩ : OVec Nat) [1, 2] := ⟨rfl, rfl, rfl, by decide⟩

/-- **C31, negation** `resize` within the capacity does not keep the elements: it makes every element the fill value. -/
theorem C31_resize_false (N : Nat) (v : OVec α) (l : List α) (r : Rep N v l) (n : Nat) (hn : n ≤ N) (x : α) :
    ∃ v', v.resize n x = .ok v' ∧ Rep N v' (List.replicate n x) := by
  unfold OVec.resize OVec.fill
  obtain ⟨b, t, e, hb, ht⟩ := fillLoop_ok' N x n 0 v.buf [] r.cap rfl ⟨v.buf, rfl⟩ (by omega)
  rw [e, Res.bind_ok]
  refine ⟨_, rfl, Rep.mk' (t := t) (by simpa using ht) (by simp) hb⟩

/-- concretely: growing [1, 2] to three elements gives [0, 0, 0], on lists it gives [1, 2, 0] -/
example : (⟨[1, 2, 9], 2⟩ : OVec Nat).step (.resize 3 0) = .ok ⟨[0, 0, 0], 3⟩ ∧
    listStep [1, 2] (.resize 3 0) = some [1, 2, 0] := ⟨rfl, rfl⟩

end Verif.Props
