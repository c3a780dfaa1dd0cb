import Verif.Encryption.StreamLemmas
/-! # Reading arbitrary files -/
namespace Verif.Encryption
open Verif.Core

/-- the last 16 bytes -/
def last16 (l : List UInt8) : List UInt8 := l.drop (l.length - 16)

variable {dec : List UInt8 → List UInt8}

/-- the block that will be taken for the last one ends in a byte that is at most 16 -/
def TailOk (dec : List UInt8 → List UInt8) (rest second : List UInt8) : Prop :=
  rest.length % 16 ≠ 0 ∨ (rest = [] ∧ (second ≠ [] → (second.getD 15 0).toNat ≤ 16)) ∨
    (rest ≠ [] ∧ ((dec (last16 rest)).getD 15 0).toNat ≤ 16)

/-- the state of a reader between reads -/
structure Safe (dec : List UInt8 → List UInt8) (r : Reader) : Prop where
  master : r.master.length = 16
  offset : 0 ≤ r.offset
  le : r.offset ≤ r.datalen
  datalen : r.datalen ≤ 16
  second : r.second = [] ∨ r.second.length = 16
  tail : r.eof = false → TailOk dec r.rest r.second

theorem tailOk_take {rest second : List UInt8} (h : TailOk dec rest second) (hl : 16 ≤ rest.length) :
    TailOk dec (rest.drop 16) (dec (rest.take 16)) := by
  rcases h with h | ⟨h, _⟩ | ⟨_, h⟩
  · left; rw [List.length_drop]; omega
  · subst h; simp at hl
  · by_cases hd : rest.drop 16 = []
    · right; left
      refine ⟨hd, fun _ => ?_⟩
      have : rest.length = 16 := by
        have := congrArg List.length hd
        simp at this; omega
      rw [List.take_of_length_le (by omega)]
      rw [last16, this] at h
      exact h
    · by_cases hm : (rest.drop 16).length % 16 = 0
      · right; right
        refine ⟨hd, ?_⟩
        have hne : (rest.drop 16).length ≠ 0 := fun hc => hd (List.length_eq_zero_iff.1 hc)
        have : last16 (rest.drop 16) = last16 rest := by
          unfold last16
          rw [List.drop_drop, List.length_drop]
          rw [List.length_drop] at hm hne
          congr 1; omega
        rw [this]; exact h
      · exact .inl hm

/-- the states met inside the loop -/
structure Inside (dec : List UInt8 → List UInt8) (r : Reader) : Prop where
  master : r.master.length = 16
  second : r.second = [] ∨ r.second.length = 16
  eof : r.eof = false
  tail : TailOk dec r.rest r.second

theorem fetch_short (r : Reader) (he : r.eof = false) (h : r.rest.length < 16) :
    r.fetch = ⟨[], true, r.master, r.datalen, r.offset, r.rest⟩ := by
  unfold Reader.fetch
  rw [he, if_neg (by simp), if_pos h]

theorem fetch_full (r : Reader) (he : r.eof = false) (h : ¬ r.rest.length < 16) :
    r.fetch = ⟨r.rest.drop 16, false, r.master, r.datalen, r.offset, r.rest.take 16⟩ := by
  unfold Reader.fetch
  rw [he, if_neg (by simp), if_neg h]

theorem first_safe (hdec : ∀ b : List UInt8, b.length = 16 → (dec b).length = 16) (r : Reader) (h : Inside dec r) :
    r.first dec = .err ∨ (r.first dec = .ok none ∧ r.second = [] ∧ r.rest = []) ∨
      ∃ r1, r.first dec = .ok (some r1) ∧ Inside dec r1 ∧ r1.second.length = 16 ∧
      r1.rest.length + 16 = r.rest.length + r.second.length ∧ r1.datalen = r.datalen ∧ r1.offset = r.offset := by
  unfold Reader.first
  rcases h.second with hs | hs
  · rw [if_pos (by rw [hs]; rfl)]
    by_cases hl : r.rest.length < 16
    · rw [fetch_short r h.eof hl]
      simp only
      by_cases h0 : r.rest.length = 0
      · rw [if_pos h0, if_pos trivial]; right; left; exact ⟨rfl, hs, List.length_eq_zero_iff.1 h0⟩
      · rw [if_neg h0, if_pos (by omega)]; simp
    · rw [fetch_full r h.eof hl]
      simp only
      have ht : (r.rest.take 16).length = 16 := by rw [List.length_take]; omega
      rw [if_neg (by omega), if_neg (by omega)]
      right; right
      refine ⟨_, rfl, ⟨h.master, .inr (hdec _ ht), rfl, tailOk_take h.tail (by omega)⟩, hdec _ ht, ?_, rfl, rfl⟩
      simp only [List.length_drop, hs, List.length_nil]; omega
  · rw [if_neg (by omega)]
    exact .inr (.inr ⟨r, rfl, h, hs, by rw [hs], rfl, rfl⟩)

/-- after `advance`: the last block, or another one is in `m_second` -/
theorem advance_safe (hdec : ∀ b : List UInt8, b.length = 16 → (dec b).length = 16) (r : Reader) (h : Inside dec r)
    (hs : r.second.length = 16) :
    r.advance dec = .err ∨
      (r.rest = [] ∧ ∃ p : Nat, p ≤ 16 ∧ r.advance dec = .ok (⟨[], true, r.second, 16 - (p : Int), 0, []⟩, true)) ∨
      (16 ≤ r.rest.length ∧ ∃ r1, r.advance dec = .ok (r1, false) ∧ Inside dec r1 ∧ r1.second.length = 16 ∧ r1.rest = r.rest.drop 16 ∧
        r1.datalen = 16 ∧ r1.offset = 0) := by
  unfold Reader.advance
  by_cases hl : r.rest.length < 16
  · simp only
    rw [fetch_short { r with master := r.second, datalen := 16, offset := 0 } h.eof hl]
    simp only
    by_cases h0 : r.rest.length = 0
    · have hr : r.rest = [] := List.length_eq_zero_iff.1 h0
      rw [if_pos h0, if_pos trivial]
      right; left
      refine ⟨hr, _, ?_, by rw [hr]⟩
      rcases h.tail with ht | ⟨_, ht⟩ | ⟨ht, _⟩
      · omega
      · exact ht (by intro hc; rw [hc] at hs; simp at hs)
      · exact absurd hr ht
    · rw [if_neg h0, if_pos (by omega)]; simp
  · simp only
    rw [fetch_full { r with master := r.second, datalen := 16, offset := 0 } h.eof hl]
    simp only
    have ht : (r.rest.take 16).length = 16 := by rw [List.length_take]; omega
    rw [if_neg (by omega), if_neg (by omega)]
    right; right
    exact ⟨by omega, _, rfl, ⟨hs, .inr (hdec _ ht), rfl, tailOk_take h.tail (by omega)⟩, hdec _ ht, rfl, rfl, rfl⟩

theorem deliver_safe (size : Nat) (buf : List UInt8) (r : Reader) (hsz : buf.length < size) (h : size + 16 < 2147483648)
    (h0 : 0 ≤ r.datalen) (h16 : r.datalen ≤ 16) (hm : r.master.length = 16) :
    (size ≤ buf.length + r.datalen ∧ ∃ out, out.length = size ∧
      r.deliver size buf = .ok (out, { r with offset := size - buf.length }, true)) ∨
    (buf.length + r.datalen < size ∧ ∃ out : List UInt8, (out.length : Int) = buf.length + r.datalen ∧
      r.deliver size buf = .ok (out, { r with offset := 0, datalen := 0 }, false)) := by
  by_cases hge : (size : Int) ≤ buf.length + r.datalen
  · left
    exact ⟨hge, _, by rw [List.length_append, List.length_take]; omega, deliver_full size buf r size (by omega) hsz h0 h16 hm hge⟩
  · right
    exact ⟨by omega, _, by rw [List.length_append, List.length_take]; omega, deliver_part size buf r size (by omega) hsz h0 h16 hm hge⟩

/-- what is left of the file, in bytes -/
def Reader.remaining (r : Reader) : Int := r.datalen - r.offset + r.second.length + r.rest.length

theorem loop_safe (hdec : ∀ b : List UInt8, b.length = 16 → (dec b).length = 16) (size : Nat) (hsize : size + 16 < 2147483648)
    (fuel : Nat) (r : Reader) (buf : List UInt8) (h : Inside dec r) (hd : r.datalen = r.offset) (hsz : buf.length ≤ size)
    (ho : 0 ≤ r.offset) (hdl : r.datalen ≤ 16)
    (hf : r.rest.length + (if r.second = [] then 1 else 2) ≤ fuel) :
    r.loop dec size fuel buf = .err ∨ ∃ out r', r.loop dec size fuel buf = .ok (out, r') ∧ Safe dec r' ∧ out.length ≤ size ∧
      (r.rest.length % 16 ≠ 0 → out.length = size ∧ r'.eof = false ∧ r'.rest.length % 16 ≠ 0 ∧
        r'.remaining + size = r.remaining + buf.length) := by
  induction fuel generalizing r buf with
  | zero => split at hf <;> omega
  | succ fuel ih =>
    unfold Reader.loop
    by_cases hlt : buf.length < size
    · rw [if_pos hlt]
      rcases first_safe hdec r h with e | ⟨e, e2, e3⟩ | ⟨r1, e, hi, hs1, hsum, hd1, ho1⟩
      · left; rw [e]; rfl
      · -- nothing left
        right
        rw [e, Res.bind_ok]
        refine ⟨_, _, rfl, ?_, by omega, fun hm => ?_⟩
        · rw [fetch_short r h.eof (by rw [e3]; simp)]
          exact ⟨h.master, ho, by simp only; omega, hdl, .inl e3, fun hc => by simp at hc⟩
        · rw [e3] at hm; simp at hm
      · rw [e, Res.bind_ok]
        simp only
        have hmod : r.rest.length % 16 = r1.rest.length % 16 := by
          rcases h.second with hx | hx
          · rw [hx] at hsum; simp at hsum; omega
          · omega
        rcases advance_safe hdec r1 hi hs1 with e2 | ⟨hr, p, hp, e2⟩ | ⟨h16, r2, e2, hi2, hs2, hr2, hd2, ho2⟩
        · left; rw [e2]; rfl
        · right
          rw [e2, Res.bind_ok]
          have hno : ¬ r.rest.length % 16 ≠ 0 := by rw [hmod, hr]; simp
          rcases deliver_safe size buf ⟨[], true, r1.second, 16 - (p : Int), 0, []⟩ hlt hsize (by simp only; omega) (by simp only; omega) hs1
            with ⟨hge, out, hol, e3⟩ | ⟨hge, out, hol, e3⟩
          · simp only at hge
            rw [e3, Res.bind_ok, if_pos (by simp)]
            exact ⟨_, _, rfl, ⟨hs1, by simp only; omega, by simp only; omega, by simp only; omega, .inl rfl, fun hc => by simp at hc⟩, by simp only; omega,
              fun hm => absurd hm hno⟩
          · simp only at hge hol
            rw [e3, Res.bind_ok, if_pos (by simp)]
            exact ⟨_, _, rfl, ⟨hs1, by simp, by simp, by simp, .inl rfl, fun hc => by simp at hc⟩, by simp only; omega, fun hm => absurd hm hno⟩
        · rw [e2, Res.bind_ok]
          have hl2 : r2.rest.length + 16 = r1.rest.length := by rw [hr2, List.length_drop]; omega
          rcases deliver_safe size buf r2 hlt hsize (by omega) (by omega) hi2.master with ⟨hge, out, hol, e3⟩ | ⟨hge, out, hol, e3⟩
          · rw [e3, Res.bind_ok, if_pos (by simp)]
            right
            refine ⟨_, _, rfl, ⟨hi2.master, by simp only; omega, by simp only; omega, by simp only; omega, hi2.second, fun _ => hi2.tail⟩,
              by simp only; omega, fun hm => ⟨hol, hi2.eof, by simp only; omega, ?_⟩⟩
            unfold Reader.remaining
            simp only
            omega
          · rw [e3, Res.bind_ok, if_neg (by simp)]
            simp only
            have hfu : r2.rest.length + 2 ≤ fuel := by
              have : r.second.length ≤ 16 := by rcases h.second with hx | hx <;> simp [hx]
              split at hf <;> omega
            rcases ih { r2 with offset := 0, datalen := 0 } out ⟨hi2.master, hi2.second, hi2.eof, hi2.tail⟩ rfl (by omega) (by simp) (by simp)
              (by simp only; split <;> omega) with e4 | ⟨o, r', e4, hsafe, hlen, himp⟩
            · exact .inl e4
            · refine .inr ⟨o, r', e4, hsafe, hlen, fun hm => ?_⟩
              obtain ⟨a1, a2, a3, a4⟩ := himp (by simp only; omega)
              refine ⟨a1, a2, a3, ?_⟩
              rw [a4]
              unfold Reader.remaining
              simp only
              omega
    · rw [if_neg hlt]
      right
      exact ⟨_, _, rfl, ⟨h.master, by omega, by omega, by omega, h.second, fun _ => h.tail⟩, by omega, fun hm =>
        ⟨by omega, h.eof, hm, by omega⟩⟩

theorem read_safe (hdec : ∀ b : List UInt8, b.length = 16 → (dec b).length = 16) (r : Reader) (size : Nat)
    (hsize : size + 16 < 2147483648) (h : Safe dec r) :
    r.read dec size = .err ∨ ∃ out r', r.read dec size = .ok (out, r') ∧ Safe dec r' ∧ out.length ≤ size ∧
      (r.eof = false → r.rest.length % 16 ≠ 0 → out.length = size ∧ r'.eof = false ∧ r'.rest.length % 16 ≠ 0 ∧
        r'.remaining + size = r.remaining) := by
  obtain ⟨hm, ho, hle, hd, hs, ht⟩ := h
  unfold Reader.read
  rw [toSize_of_nonneg (by omega)]
  by_cases hge : r.datalen - r.offset ≥ size
  · rw [if_pos hge]
    unfold Reader.copy
    rw [if_pos ⟨ho, by omega, by rw [hm]; omega⟩, Res.bind_ok]
    right
    have hl : ((r.master.drop r.offset.toNat).take (size : Int).toNat).length = size := by
      rw [List.length_take, List.length_drop]; omega
    refine ⟨_, _, rfl, ⟨hm, by simp only; omega, by simp only; omega, hd, hs, ht⟩, by omega, fun h1 h2 => ⟨hl, h1, h2, ?_⟩⟩
    unfold Reader.remaining
    simp only
    omega
  · rw [if_neg hge]
    have hstep : ∃ a r2, r.drain = .ok (a, r2) ∧ (a.length : Int) = r.datalen - r.offset ∧ r2.datalen = r2.offset ∧ 0 ≤ r2.offset ∧ r2.datalen ≤ 16 ∧
        r2.master = r.master ∧ r2.second = r.second ∧ r2.rest = r.rest ∧ r2.eof = r.eof := by
      unfold Reader.drain Reader.copy
      split
      · rw [if_pos ⟨ho, by omega, by rw [hm]; omega⟩, Res.bind_ok]
        exact ⟨_, _, rfl, by rw [List.length_take, List.length_drop]; omega, rfl, by simp, by simp, rfl, rfl, rfl, rfl⟩
      · exact ⟨_, _, rfl, by simp; omega, by omega, ho, hd, rfl, rfl, rfl, rfl⟩
    obtain ⟨a, r2, e, ha, k1, k2, k3, k4, k5, k6, k7⟩ := hstep
    rw [e, Res.bind_ok]
    simp only
    by_cases he : r.eof = true
    · rw [if_pos (by rw [k7, he])]
      split
      · refine .inr ⟨a, r2, rfl, ⟨by rw [k4]; exact hm, k2, by omega, k3, by rw [k5]; exact hs, fun hc => ?_⟩, by omega, fun hc => ?_⟩
        · rw [k7, he] at hc; cases hc
        · rw [he] at hc; cases hc
      · exact .inl rfl
    · have he' : r.eof = false := by simpa using he
      rw [if_neg (by rw [k7]; exact he)]
      rcases loop_safe hdec size hsize (r2.rest.length + 2) r2 a ⟨by rw [k4]; exact hm, by rw [k5]; exact hs, by rw [k7]; exact he',
        by rw [k6, k5]; exact ht he'⟩ k1 (by omega) k2 k3 (by split <;> omega) with e2 | ⟨out, r', e2, hsafe, hlen, himp⟩
      · exact .inl e2
      · refine .inr ⟨out, r', e2, hsafe, hlen, fun _ hmod => ?_⟩
        obtain ⟨a1, a2, a3, a4⟩ := himp (by rw [k6]; exact hmod)
        refine ⟨a1, a2, a3, ?_⟩
        unfold Reader.remaining at a4 ⊢
        rw [k6, k5] at a4
        omega

end Verif.Encryption
