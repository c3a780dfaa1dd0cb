import Verif.Encryption.Stream
import Mathlib.Tactic.Ring
/-! # Lemmas about the encrypted streams -/
namespace Verif.Encryption
open Verif.Core

/-- all blocks have 16 bytes -/
def Blocks (bs : List (List UInt8)) : Prop := ∀ b ∈ bs, b.length = 16

variable {enc dec : List UInt8 → List UInt8}

theorem Blocks.flatten_length {bs : List (List UInt8)} (h : Blocks bs) : bs.flatten.length = 16 * bs.length := by
  induction bs with
  | nil => rfl
  | cons b bs ih =>
    have := ih fun x hx => h x (by simp [hx])
    have := h b (by simp)
    simp only [List.flatten_cons, List.length_append, List.length_cons]
    omega

theorem Blocks.map {bs : List (List UInt8)} (h : Blocks bs) (he : ∀ b : List UInt8, b.length = 16 → (enc b).length = 16) :
    Blocks (bs.map enc) := by
  intro b hb
  obtain ⟨c, hc, rfl⟩ := List.mem_map.1 hb
  exact he c (h c hc)

/-! ## Writer -/

/-- what has been written: encrypted blocks in the file, the rest in `master` -/
def Writer.Has (enc : List UInt8 → List UInt8) (w : Writer) (data : List UInt8) : Prop :=
  w.master.length ≤ 16 ∧ ∃ bs, Blocks bs ∧ w.file = (bs.map enc).flatten ∧ bs.flatten ++ w.master = data

theorem writeLoop_has (enc : List UInt8 → List UInt8) (fuel : Nat) (w : Writer) (buf data : List UInt8)
    (hf : buf.length + (if w.master.length = 16 then 2 else 1) ≤ fuel) (h : w.Has enc data) :
    ∃ w', w.writeLoop enc fuel buf = .ok w' ∧ w'.Has enc (data ++ buf) := by
  induction fuel generalizing w buf data with
  | zero => split at hf <;> omega
  | succ fuel ih =>
    unfold Writer.writeLoop
    split
    · rename_i hb
      subst hb
      exact ⟨w, rfl, by simpa using h⟩
    · rename_i hb
      have hb' : 0 < buf.length := List.length_pos_iff.2 hb
      obtain ⟨hl, bs, hbs, hfile, hdata⟩ := h
      split
      · exact ⟨_, rfl, by simp; omega, bs, hbs, hfile, by simp [← hdata]⟩
      · rename_i hlt
        have hblk : (w.master ++ buf.take (16 - w.master.length)).length = 16 := by simp; omega
        obtain ⟨w', e, hw'⟩ := ih ⟨w.file ++ enc (w.master ++ buf.take (16 - w.master.length)), []⟩
          (buf.drop (16 - w.master.length)) (data ++ buf.take (16 - w.master.length))
          (by
            simp only [List.length_nil, List.length_drop]
            rw [if_neg (by omega)]
            split at hf <;> omega)
          ⟨by simp, bs ++ [w.master ++ buf.take (16 - w.master.length)], by
            intro b hb
            rcases List.mem_append.1 hb with h | h
            · exact hbs b h
            · simp at h; rw [h]; exact hblk, by simp [hfile], by simp [← hdata]⟩
        refine ⟨w', e, ?_⟩
        rw [List.append_assoc, List.take_append_drop] at hw'
        exact hw'

theorem write_has (enc : List UInt8 → List UInt8) (w : Writer) (buf data : List UInt8) (h : w.Has enc data) :
    ∃ w', w.write enc buf = .ok w' ∧ w'.Has enc (data ++ buf) :=
  writeLoop_has enc _ w buf data (by split <;> omega) h

/-- the file of `data`: encrypted blocks of the padded data -/
def IsFile (enc : List UInt8 → List UInt8) (file data : List UInt8) : Prop :=
  ∃ bs p, Blocks bs ∧ 1 ≤ p ∧ p ≤ 16 ∧ bs.flatten = data ++ List.replicate p (UInt8.ofNat p) ∧ file = (bs.map enc).flatten

theorem close_isFile (enc : List UInt8 → List UInt8) (w : Writer) (data : List UInt8) (h : w.Has enc data) :
    IsFile enc (w.close enc) data := by
  obtain ⟨hl, bs, hbs, hfile, hdata⟩ := h
  unfold Writer.close
  by_cases h16 : w.master.length = 16
  · refine ⟨bs ++ [w.master, List.replicate 16 16], 16, ?_, by omega, by omega, ?_, ?_⟩
    · intro b hb
      simp only [List.mem_append, List.mem_cons, List.not_mem_nil, or_false] at hb
      rcases hb with hb | rfl | rfl
      · exact hbs b hb
      · exact h16
      · simp
    · rw [List.flatten_append, ← hdata]; simp
    · simp [h16, hfile]
  · refine ⟨bs ++ [w.master ++ List.replicate (16 - w.master.length) (UInt8.ofNat (16 - w.master.length))],
      16 - w.master.length, ?_, by omega, by omega, ?_, ?_⟩
    · intro b hb
      simp only [List.mem_append, List.mem_cons, List.not_mem_nil, or_false] at hb
      rcases hb with hb | rfl
      · exact hbs b hb
      · simp; omega
    · rw [List.flatten_append, ← hdata]; simp
    · simp [h16, hfile]

/-! ## Reader -/

/-- the blocks not consumed yet: the first may be decrypted in `second` already -/
def Reader.Pending (enc : List UInt8 → List UInt8) (r : Reader) (bs : List (List UInt8)) : Prop :=
  r.eof = false ∧ Blocks bs ∧
    ((r.second = [] ∧ r.rest = (bs.map enc).flatten) ∨
      ∃ b bs', bs = b :: bs' ∧ r.second = b ∧ r.rest = (bs'.map enc).flatten)

/-- `data` is what is left in `m_master` -/
def Reader.Left (r : Reader) (data : List UInt8) : Prop :=
  r.master.length = 16 ∧ 0 ≤ r.offset ∧ r.offset ≤ r.datalen ∧ r.datalen ≤ 16 ∧
    data = (r.master.drop r.offset.toNat).take (r.datalen - r.offset).toNat

/-- `data` is what the reader will deliver -/
def Reader.Has (enc : List UInt8 → List UInt8) (r : Reader) (data : List UInt8) : Prop :=
  (r.eof = true ∧ r.second = [] ∧ r.Left data) ∨
    ∃ bs p a e, r.Pending enc bs ∧ 1 ≤ p ∧ p ≤ 16 ∧ bs.flatten = e ++ List.replicate p (UInt8.ofNat p) ∧
      r.Left a ∧ data = a ++ e

/-- the cipher and its inverse, on blocks -/
structure Inverse (enc dec : List UInt8 → List UInt8) : Prop where
  length : ∀ b, b.length = 16 → (enc b).length = 16
  inv : ∀ b, b.length = 16 → dec (enc b) = b

theorem new_has (file data : List UInt8) (h : IsFile enc file data) : (Reader.new file).Has enc data := by
  obtain ⟨bs, p, hbs, h1, h2, hf, rfl⟩ := h
  exact .inr ⟨bs, p, [], data, ⟨rfl, hbs, .inl ⟨rfl, rfl⟩⟩, h1, h2, hf, ⟨by simp [Reader.new], by simp [Reader.new],
    by simp [Reader.new], by simp [Reader.new], by simp [Reader.new]⟩, rfl⟩

theorem first_ok (hi : Inverse enc dec) (r : Reader) (b : List UInt8) (bs : List (List UInt8)) (h : r.Pending enc (b :: bs)) :
    ∃ r', r.first dec = .ok (some r') ∧ r'.second = b ∧ r'.rest = (bs.map enc).flatten ∧ r'.eof = false := by
  obtain ⟨he, hb, h⟩ := h
  have hb0 : b.length = 16 := hb b (by simp)
  have hel := hi.length b hb0
  unfold Reader.first
  rcases h with ⟨hs, hr⟩ | ⟨b', bs', hbs, hs, hr⟩
  · rw [if_pos (by simp [hs])]
    have hrest : r.rest = enc b ++ (bs.map enc).flatten := by rw [hr]; simp
    have hf : r.fetch = { r with second := enc b, rest := (bs.map enc).flatten } := by
      unfold Reader.fetch
      rw [if_neg (by simp [he]), if_neg (by rw [hrest]; simp; omega)]
      rw [hrest, List.take_left' hel, List.drop_left' hel]
    simp only [hf]
    rw [if_neg (by omega), if_neg (by omega)]
    exact ⟨_, rfl, hi.inv b hb0, rfl, he⟩
  · cases hbs
    rw [if_neg (by rw [hs]; omega)]
    exact ⟨r, rfl, hs, hr, he⟩

theorem replicate_tail {x : List UInt8} {b : List UInt8} {p : Nat} (hp : 1 ≤ p) (hb : b.length = 16)
    (h : b = x ++ List.replicate p (UInt8.ofNat p)) : b.getD 15 0 = UInt8.ofNat p := by
  have hl : x.length + p = 16 := by rw [h] at hb; simpa using hb
  rw [h, List.getD_eq_getElem?_getD, List.getElem?_append_right (by omega), List.getElem?_replicate]
  rw [if_pos (by omega)]
  rfl

theorem toSize_of_nonneg {x : Int} (h : 0 ≤ x) : toSize x = x := if_neg (by omega)

theorem fits_int {n m size : Nat} {x : Int} (h : min size (n + m) + 16 < 2147483648) (h1 : n < size) (h2 : (n : Int) ≤ x) (h3 : x ≤ n + 16) :
    I32 x := by
  unfold I32; omega

theorem toNat_ofNat {p : Nat} (h : p ≤ 16) : (UInt8.ofNat p).toNat = p := by simp; omega

theorem deliver_full (size : Nat) (buf : List UInt8) (r : Reader) (m : Nat) (h : min size (buf.length + m) + 16 < 2147483648)
    (hsz : buf.length < size) (h0 : 0 ≤ r.datalen) (h16 : r.datalen ≤ 16) (hm : r.master.length = 16)
    (hge : (size : Int) ≤ buf.length + r.datalen) :
    r.deliver size buf = .ok (buf ++ r.master.take (size - buf.length), { r with offset := size - buf.length }, true) := by
  unfold Reader.deliver
  rw [int32_ok (fits_int h hsz (by omega) (by omega)), Res.bind_ok, toSize_of_nonneg (by omega), if_pos hge]
  unfold Reader.copy
  rw [if_pos ⟨by omega, by omega, by omega⟩, Res.bind_ok]
  simp only [Int.toNat_zero, List.drop_zero]
  rw [show ((size : Int) - (buf.length : Int)).toNat = size - buf.length by omega]

theorem deliver_part (size : Nat) (buf : List UInt8) (r : Reader) (m : Nat) (h : min size (buf.length + m) + 16 < 2147483648)
    (hsz : buf.length < size) (h0 : 0 ≤ r.datalen) (h16 : r.datalen ≤ 16) (hm : r.master.length = 16)
    (hge : ¬ (size : Int) ≤ buf.length + r.datalen) :
    r.deliver size buf = .ok (buf ++ r.master.take r.datalen.toNat, { r with offset := 0, datalen := 0 }, false) := by
  unfold Reader.deliver
  rw [int32_ok (fits_int h hsz (by omega) (by omega)), Res.bind_ok, toSize_of_nonneg (by omega), if_neg hge]
  unfold Reader.copy
  rw [if_pos ⟨by omega, by omega, by omega⟩, Res.bind_ok]
  simp only [Int.toNat_zero, List.drop_zero]

theorem advance_last (r : Reader) (b e : List UInt8) (p : Nat) (hs : r.second = b) (hr : r.rest = []) (he : r.eof = false)
    (hb : b.length = 16) (hp : 1 ≤ p) (hp' : p ≤ 16) (hfl : b = e ++ List.replicate p (UInt8.ofNat p)) :
    r.advance dec = .ok (⟨[], true, b, 16 - (p : Int), 0, []⟩, true) := by
  have hlast := replicate_tail hp hb hfl
  have hto := toNat_ofNat hp'
  rw [List.getD_eq_getElem?_getD] at hlast
  unfold Reader.advance Reader.fetch
  simp only [hr, he, hs]
  simp [hlast, hto]

theorem advance_next (hi : Inverse enc dec) (r : Reader) (b b1 : List UInt8) (bs : List (List UInt8)) (hs : r.second = b)
    (hr : r.rest = ((b1 :: bs).map enc).flatten) (he : r.eof = false) (hb1 : b1.length = 16) :
    r.advance dec = .ok (⟨(bs.map enc).flatten, false, b, 16, 0, b1⟩, false) := by
  have hrest : r.rest = enc b1 ++ (bs.map enc).flatten := by rw [hr]; simp
  have hel := hi.length b1 hb1
  have hf : ({ r with master := r.second, datalen := 16, offset := 0 } : Reader).fetch =
      ⟨(bs.map enc).flatten, false, b, 16, 0, enc b1⟩ := by
    unfold Reader.fetch
    simp only [he]
    rw [if_neg (by simp), if_neg (by rw [hrest]; simp; omega), hrest, List.take_left' hel, List.drop_left' hel, hs]
  unfold Reader.advance
  simp only [hf]
  rw [if_neg (by omega), if_neg (by omega), hi.inv b1 hb1]

theorem loop_ok (hi : Inverse enc dec) (size : Nat) (bs : List (List UInt8)) (fuel : Nat) (r : Reader)
    (buf e : List UInt8) (p : Nat) (hf : bs.length < fuel) (hne : bs ≠ []) (h : r.Pending enc bs) (hp : 1 ≤ p) (hp' : p ≤ 16)
    (hfl : bs.flatten = e ++ List.replicate p (UInt8.ofNat p)) (hsz : buf.length < size)
    (hmax : min size (buf.length + e.length) + 16 < 2147483648) :
    ∃ r', r.loop dec size fuel buf = .ok (buf ++ e.take (size - buf.length), r') ∧ r'.Has enc (e.drop (size - buf.length)) ∧
      (e.length < size - buf.length → r'.eof = true) := by
  induction bs generalizing fuel r buf e with
  | nil => exact absurd rfl hne
  | cons b bs ih =>
    obtain ⟨fuel, rfl⟩ : ∃ k, fuel = k + 1 := ⟨fuel - 1, by omega⟩
    obtain ⟨r1, e1, hs1, hr1, he1⟩ := first_ok hi r b bs h
    have hb0 : b.length = 16 := h.2.1 b (by simp)
    have hbs : Blocks bs := fun x hx => h.2.1 x (by simp [hx])
    unfold Reader.loop
    rw [if_pos hsz, e1, Res.bind_ok]
    simp only
    cases bs with
    | nil =>
      -- the last block
      have hfl' : b = e ++ List.replicate p (UInt8.ofNat p) := by simpa using hfl
      have hel : e.length + p = 16 := by rw [hfl'] at hb0; simpa using hb0
      have htake : b.take e.length = e := by rw [hfl']; simp
      rw [advance_last r1 b e p hs1 (by rw [hr1]; rfl) he1 hb0 hp hp' hfl', Res.bind_ok]
      by_cases hge : (size : Int) ≤ buf.length + (16 - (p : Int))
      · have hn : size - buf.length ≤ e.length := by omega
        rw [deliver_full size buf _ e.length hmax hsz (by simp; omega) (by simp) hb0 hge, Res.bind_ok, if_pos (.inl rfl)]
        have ht : b.take (size - buf.length) = e.take (size - buf.length) := by
          rw [← htake, List.take_take, Nat.min_eq_left hn]
        refine ⟨_, by rw [ht], .inl ⟨rfl, rfl, hb0, by simp; omega, by simp; omega, by simp, ?_⟩, fun _ => rfl⟩
        simp only
        rw [show ((size : Int) - (buf.length : Int)).toNat = size - buf.length by omega,
          show ((16 : Int) - p - (size - buf.length)).toNat = e.length - (size - buf.length) by omega]
        conv => lhs; rw [← htake, List.drop_take]
      · have hn : e.length ≤ size - buf.length := by omega
        rw [deliver_part size buf _ e.length hmax hsz (by simp; omega) (by simp) hb0 hge, Res.bind_ok, if_pos (.inr rfl)]
        simp only
        rw [show ((16 : Int) - (p : Int)).toNat = e.length by omega, htake]
        refine ⟨_, by rw [List.take_of_length_le hn], .inl ⟨rfl, rfl, hb0, by simp, by simp, by simp, ?_⟩, fun _ => rfl⟩
        rw [List.drop_eq_nil_of_le hn]; simp
    | cons b1 bs =>
      have hb1 : b1.length = 16 := hbs b1 (by simp)
      -- the data continues after this block
      have hlen : 16 * (bs.length + 2) = e.length + p := by
        have := h.2.1.flatten_length
        rw [hfl] at this
        simp at this; omega
      have hetake : e.take 16 = b := by
        have : (e ++ List.replicate p (UInt8.ofNat p)).take 16 = b := by
          rw [← hfl]; simp only [List.flatten_cons]; exact List.take_left' hb0
        rw [List.take_append_of_le_length (by omega)] at this
        exact this
      have hedrop : (b1 :: bs).flatten = e.drop 16 ++ List.replicate p (UInt8.ofNat p) := by
        have : (e ++ List.replicate p (UInt8.ofNat p)).drop 16 = (b1 :: bs).flatten := by
          rw [← hfl]; rw [List.flatten_cons]; exact List.drop_left' hb0
        rw [← this, List.drop_append_of_le_length (by omega)]
      have hpend : ∀ d o : Int, (⟨(bs.map enc).flatten, false, b, d, o, b1⟩ : Reader).Pending enc (b1 :: bs) :=
        fun _ _ => ⟨rfl, hbs, .inr ⟨b1, bs, rfl, rfl, rfl⟩⟩
      rw [advance_next hi r1 b b1 bs hs1 hr1 he1 hb1, Res.bind_ok]
      by_cases hge : (size : Int) ≤ buf.length + 16
      · have hn : size - buf.length ≤ 16 := by omega
        rw [deliver_full size buf _ e.length hmax hsz (by simp) (by simp) hb0 hge, Res.bind_ok, if_pos (.inl rfl)]
        have ht : b.take (size - buf.length) = e.take (size - buf.length) := by
          rw [← hetake, List.take_take, Nat.min_eq_left hn]
        refine ⟨_, by rw [ht], .inr ⟨b1 :: bs, p, (b.drop (size - buf.length)).take (16 - (size - buf.length)), e.drop 16, hpend _ _, hp, hp', hedrop,
          ⟨hb0, by simp; omega, by simp; omega, by simp, ?_⟩, ?_⟩, fun hlt => by omega⟩
        · simp only
          rw [show ((size : Int) - (buf.length : Int)).toNat = size - buf.length by omega,
            show ((16 : Int) - (size - buf.length)).toNat = 16 - (size - buf.length) by omega]
        · rw [List.take_of_length_le (by simp; omega), ← hetake]
          conv => lhs; rw [← List.take_append_drop 16 e]
          rw [List.drop_append_of_le_length (by simp; omega)]
      · rw [deliver_part size buf _ e.length hmax hsz (by simp) (by simp) hb0 hge, Res.bind_ok, if_neg (by simp)]
        simp only
        rw [List.take_of_length_le (by rw [hb0]; decide)]
        obtain ⟨r', e', hh, hd⟩ := ih fuel ⟨(bs.map enc).flatten, false, b, 0, 0, b1⟩
          (buf ++ b) (e.drop 16) (by simp at hf ⊢; omega) (by simp) (hpend _ _) hedrop (by rw [List.length_append]; omega)
          (by rw [List.length_append, List.length_drop]; omega)
        refine ⟨r', ?_, ?_, ?_⟩
        · rw [e']
          congr 2
          rw [List.append_assoc]
          congr 1
          rw [List.length_append, hb0]
          conv => lhs; rw [← hetake]
          rw [show size - buf.length = 16 + (size - (buf.length + 16)) by omega, List.take_add]
        · rw [List.length_append, hb0, List.drop_drop] at hh
          rw [show size - buf.length = 16 + (size - (buf.length + 16)) by omega]
          exact hh
        · intro hlt
          apply hd
          rw [List.length_append, List.length_drop, hb0]; omega

/-- what `read` does on a reader that will deliver `data` -/
theorem read_ok (hi : Inverse enc dec) (r : Reader) (size : Nat) (data : List UInt8) (h : r.Has enc data)
    (hmax : min size data.length + 16 < 2147483648) :
    (data = [] ∧ 0 < size ∧ r.eof = true ∧ r.read dec size = .err) ∨
      ∃ r', r.read dec size = .ok (data.take size, r') ∧ r'.Has enc (data.drop size) ∧
        (data.length < size → r'.eof = true) ∧ (r.eof = true → r'.eof = true) := by
  -- what is in `m_master`, and the rest
  obtain ⟨a, e, hleft, hdata, hrest⟩ : ∃ a e, r.Left a ∧ data = a ++ e ∧
      ((r.eof = true ∧ r.second = [] ∧ e = []) ∨ ∃ bs p, r.Pending enc bs ∧ 1 ≤ p ∧ p ≤ 16 ∧
        bs.flatten = e ++ List.replicate p (UInt8.ofNat p)) := by
    rcases h with ⟨h1, h2, h3⟩ | ⟨bs, p, a, e, h1, h2, h3, h4, h5, h6⟩
    · exact ⟨data, [], h3, by simp, .inl ⟨h1, h2, rfl⟩⟩
    · exact ⟨a, e, h5, h6, .inr ⟨bs, p, h1, h2, h3, h4⟩⟩
  obtain ⟨hm, ho, hod, hd, ha⟩ := hleft
  have hal : (a.length : Int) = r.datalen - r.offset := by
    rw [ha, List.length_take, List.length_drop, hm]; omega
  -- with `m` in the master, the rest as it was
  have again : ∀ (d o : Int) (x : List UInt8), ({ r with datalen := d, offset := o } : Reader).Left x →
      ({ r with datalen := d, offset := o } : Reader).Has enc (x ++ e) := by
    intro d o x hx
    rcases hrest with ⟨h1, h2, h3⟩ | ⟨bs, p, h1, h2, h3, h4⟩
    · exact .inl ⟨h1, h2, by rw [h3, List.append_nil]; exact hx⟩
    · exact .inr ⟨bs, p, x, e, ⟨h1.1, h1.2.1, h1.2.2⟩, h2, h3, h4, hx, rfl⟩
  unfold Reader.read
  rw [toSize_of_nonneg (by omega)]
  by_cases hge : r.datalen - r.offset ≥ size
  · rw [if_pos hge]
    have hc : r.copy r.offset size = .ok (a.take size) := by
      unfold Reader.copy
      rw [if_pos ⟨ho, by omega, by rw [hm]; omega⟩, ha, List.take_take]
      congr 2
      omega
    rw [hc, Res.bind_ok]
    right
    refine ⟨{ r with offset := r.offset + size }, by rw [hdata, List.take_append_of_le_length (by omega)], ?_, fun hlt => ?_, id⟩
    · rw [hdata, List.drop_append_of_le_length (by omega)]
      refine again r.datalen _ _ ⟨hm, by simp; omega, by simp; omega, hd, ?_⟩
      simp only
      rw [ha, List.drop_take, List.drop_drop]
      congr 2 <;> omega
    · rw [hdata, List.length_append] at hlt; omega
  · rw [if_neg hge]
    have hstep : r.drain = .ok (a, if r.datalen - r.offset > 0 then { r with offset := 0, datalen := 0 } else r) := by
      unfold Reader.drain
      split
      · have hc : r.copy r.offset (r.datalen - r.offset) = .ok a := by
          unfold Reader.copy
          rw [if_pos ⟨ho, by omega, by rw [hm]; omega⟩, ha]
        rw [hc, Res.bind_ok]
      · have : a = [] := List.length_eq_zero_iff.1 (by omega)
        rw [this]
    rw [hstep, Res.bind_ok]
    simp only
    generalize hr2 : (if r.datalen - r.offset > 0 then ({ r with offset := 0, datalen := 0 } : Reader) else r) = r2
    have hr2' : r2.eof = r.eof ∧ r2.second = r.second ∧ r2.rest = r.rest ∧ r2.master = r.master ∧ r2.datalen - r2.offset = 0 ∧
        0 ≤ r2.offset ∧ r2.datalen ≤ 16 := by
      subst hr2; split
      · exact ⟨rfl, rfl, rfl, rfl, by simp, by simp, by simp⟩
      · exact ⟨rfl, rfl, rfl, rfl, by omega, ho, hd⟩
    obtain ⟨k1, k2, k3, k4, k5, k6, k7⟩ := hr2'
    rcases hrest with ⟨h1, h2, h3⟩ | ⟨bs, p, h1, h2, h3, h4⟩
    · rw [if_pos (by rw [k1, h1])]
      split
      · right
        refine ⟨r2, by rw [hdata, h3, List.append_nil, List.take_of_length_le (by omega)],
          .inl ⟨by rw [k1, h1], by rw [k2, h2], by rw [k4]; exact hm, k6, by omega, k7, ?_⟩, fun _ => by rw [k1, h1], fun _ => by rw [k1, h1]⟩
        rw [hdata, h3, List.append_nil, List.drop_eq_nil_of_le (by omega), k5]
        simp
      · left
        have : a = [] := List.length_eq_zero_iff.1 (by omega)
        exact ⟨by rw [hdata, this, h3]; rfl, by omega, h1, rfl⟩
    · rw [if_neg (by rw [k1, h1.1]; simp)]
      right
      have hbs : bs ≠ [] := by
        rintro rfl
        have : (e ++ List.replicate p (UInt8.ofNat p)).length = 0 := by rw [← h4]; rfl
        simp at this; omega
      have hfuel : bs.length < r2.rest.length + 2 := by
        rw [k3]
        rcases h1.2.2 with ⟨_, hr⟩ | ⟨b, bs', hb, _, hr⟩
        · rw [hr, (h1.2.1.map hi.length).flatten_length]; simp; omega
        · have : Blocks bs' := fun x hx => h1.2.1 x (by rw [hb]; simp [hx])
          rw [hr, (this.map hi.length).flatten_length, hb]; simp; omega
      have hp2 : r2.Pending enc bs := by
        refine ⟨by rw [k1]; exact h1.1, h1.2.1, ?_⟩
        rw [k2, k3]; exact h1.2.2
      have hasz : a.length < size := by omega
      obtain ⟨r', e', hh, hde⟩ := loop_ok hi size bs _ r2 a e p hfuel hbs hp2 h2 h3 h4 hasz
        (by rw [hdata, List.length_append] at hmax; exact hmax)
      refine ⟨r', ?_, ?_, fun hlt => ?_, fun hc => ?_⟩
      · rw [e', hdata, List.take_append, List.take_of_length_le (by omega : a.length ≤ size)]
      · rw [hdata, List.drop_append, List.drop_eq_nil_of_le (by omega), List.nil_append]; exact hh
      · apply hde; rw [hdata, List.length_append] at hlt; omega
      · rw [h1.1] at hc; cases hc

/-- with nothing left and the end of the file seen, `read` refuses -/
theorem read_end (r : Reader) (size : Nat) (h : r.Has enc []) (he : r.eof = true) (hs : 0 < size) : r.read dec size = .err := by
  have hleft : r.Left [] := by
    rcases h with ⟨_, _, h⟩ | ⟨bs, p, a, e, h1, _⟩
    · exact h
    · rw [h1.1] at he; cases he
  obtain ⟨hm, ho, hod, hd, ha⟩ := hleft
  have h0 : r.datalen - r.offset = 0 := by
    have := congrArg List.length ha
    rw [List.length_take, List.length_drop, hm] at this
    simp at this; omega
  unfold Reader.read Reader.drain
  rw [h0, if_neg (by unfold toSize; simp; omega), if_neg (by simp), Res.bind_ok]
  simp only
  rw [if_pos he]
  rfl

end Verif.Encryption
