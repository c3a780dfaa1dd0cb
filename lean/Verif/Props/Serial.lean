import Verif.Module.Bubble
import Verif.Compiler.ScheduleLemmas
/-! # Properties of serialisation -/
namespace Verif.Props
open Verif.Core Verif.Compiler Verif.Module

/-! ## C11: tensors -/

/-- **C11, full statement** for one tensor: whatever follows in the stream, whatever the tensor read into held
before and whatever fresh memory contains, reading what was written gives the tensor back and leaves exactly the
rest of the stream. -/
def TensorRoundTrip (t : Tensor) : Prop :=
  ∀ (junk : Nat → UInt8) (self : Tensor) (rest : List UInt8),
    readTensor junk self (writeTensor t ++ rest) = .ok t rest

/-- **C11 (partial).** Proved for every tensor, single or packed, of any element type, rank up to 7 and field
count below 2^32. Missing: fields that are packed themselves, for which it is false, see
`C11_nested_pack_false`. -/
theorem C11_tensor_round_trip_partial (t : Tensor) (h : TensorOk t) : TensorRoundTrip t :=
  fun junk self rest => readTensor_ok junk self t h rest

/-- a packed tensor: a 2×3 `INT16` matrix and a string -/
def sampleTensor : Tensor :=
  .mk ⟨3, [2, 3], [1, 0, 2, 0, 3, 0, 4, 0, 5, 0, 255, 255]⟩ [.mk ⟨13, [3], [97, 98, 99]⟩ []]

theorem sampleTensor_ok : TensorOk sampleTensor where
  own := ⟨by decide, by decide, by decide, ⟨6, by decide, by decide, by decide⟩⟩
  flat := by
    intro f hf
    simp only [sampleTensor, Tensor.fields, List.mem_cons, List.not_mem_nil, or_false] at hf
    subst hf
    exact ⟨rfl, ⟨by decide, by decide, by decide, ⟨3, by decide, by decide, by decide⟩⟩⟩
  count := by decide

example : TensorRoundTrip sampleTensor := C11_tensor_round_trip_partial _ sampleTensor_ok

/-- A tensor packed inside a packed tensor loses its own fields. -/
theorem C11_nested_pack_false :
    ∃ t : Tensor, (∀ f ∈ t.fields, TensorOk f) ∧ FieldOk t.own ∧ ¬ TensorRoundTrip t := by
  have hf : FieldOk ⟨13, [1], [97]⟩ := ⟨by decide, by decide, by decide, ⟨1, by decide, by decide, by decide⟩⟩
  let f : Field := ⟨13, [1], [97]⟩
  let inner : Tensor := .mk f [.mk f []]
  refine ⟨.mk f [inner], ?_, hf, ?_⟩
  · intro g hg
    simp only [Tensor.fields, List.mem_cons, List.not_mem_nil, or_false] at hg
    subst hg
    refine ⟨hf, ?_, by decide⟩
    intro k hk
    simp only [inner, Tensor.fields, List.mem_cons, List.not_mem_nil, or_false] at hk
    subst hk
    exact ⟨rfl, hf⟩
  · intro h
    -- the flattened tensor is written with the same bytes, and it does round trip
    have hflat : TensorOk (.mk f [.mk f []]) := by
      refine ⟨hf, ?_, by decide⟩
      intro k hk
      simp only [Tensor.fields, List.mem_cons, List.not_mem_nil, or_false] at hk
      subst hk
      exact ⟨rfl, hf⟩
    have hsame : writeTensor (.mk f [inner]) = writeTensor (.mk f [.mk f []]) := rfl
    have h1 := h (fun _ => 0) (.mk f []) []
    have h2 := C11_tensor_round_trip_partial _ hflat (fun _ => 0) (.mk f []) []
    rw [hsame, h2] at h1
    simp [inner] at h1

/-! ## C10: modules -/
section
variable {N : Type} [DecidableEq N]

/-- the nodes a saved module consists of -/
def PartOf (G : BGraph N) (m : Modl N) (n : N) : Prop :=
  n ∈ m.inputs ∨ n ∈ m.outputs ∨ ∃ r ∈ m.outputs, DependsOn G.toGraph r n

/-- **Specification.** `recs` and `m'` are `m` with its nodes renamed to positions in `nodes`: the same bubbles,
the same inputs of every node, the same module inputs and outputs in the same order. -/
structure SameModule (G : BGraph N) (m : Modl N) (nodes : List N) (m' : Modl Nat) (recs : List Rec) : Prop where
  distinct : nodes.Nodup
  parts : ∀ n, n ∈ nodes ↔ PartOf G m n
  count : recs.length = nodes.length
  node : ∀ (i : Nat) (n : N), nodes[i]? = some n → ∃ idx, recs[i]? = some (G.bubble n, idx) ∧
    idx.map (fun j => nodes[j]?) = (G.inputs n).map some
  inputs : m'.inputs.map (fun j => nodes[j]?) = m.inputs.map some
  outputs : m'.outputs.map (fun j => nodes[j]?) = m.outputs.map some

/-- **C10.** Saving a module and reading the file back gives the same module, and the reader stops exactly
behind the last byte written. The module is any that loading can produce (`C08`): everything its outputs need is
computable and the parameters needed are inputs; inputs have no inputs of their own; bubbles were built through
their interface; counts fit 32 bits. `sched` is whatever order the node listing chose. -/
theorem C10_module_round_trip (G : BGraph N) (m : Modl N) (fuel : Nat) (st : LSt N) (sched : List (N × Nat))
    (hwalk : walk G.toGraph fuel (walkInit m.outputs) = some st) (hsched : IsSchedule st sched)
    (hcomp : ∀ n, Needs G.toGraph m.outputs n → G.toGraph.kind n ≠ .param → G.toGraph.kind n ≠ .const →
      G.inputs n ≠ [])
    (hpar : ∀ n, Needs G.toGraph m.outputs n → G.toGraph.kind n = .param → n ∈ m.inputs)
    (hleaf : ∀ n ∈ m.inputs, G.inputs n = [])
    (hbub : ∀ n, PartOf G m n → Built (G.bubble n) ∧ (G.bubble n).params.length < 4294967296 ∧
      (G.inputs n).length < 4294967296)
    (hsize : ∀ l : List N, l.Nodup → (∀ n ∈ l, PartOf G m n) → l.length < 4294967296)
    (hin : m.inputs.length < 4294967296) (hout : m.outputs.length < 4294967296) :
    ∃ bytes, save G m (sched.map Prod.fst) = some bytes ∧
      ∃ nodes m' recs, SameModule G m nodes m' recs ∧
        ∀ (junk : Nat → UInt8) (cv : Conv) (rest : List UInt8),
          load junk cv (bytes ++ rest) = .ok (m', recs) rest := by
  obtain ⟨hnd, hmem, htopo⟩ := schedule_topo hwalk hsched
  let nodes := saveNodes (sched.map Prod.fst) m.inputs
  have hsn := saveNodes_spec (sched.map Prod.fst) m.inputs
  have hnodup : nodes.Nodup := hsn.1 hnd
  have hparts : ∀ n, n ∈ nodes ↔ PartOf G m n := by
    intro n
    rw [hsn.2 n, hmem n]
    unfold PartOf
    constructor
    · rintro ((h | h) | h)
      · exact .inr (.inl h)
      · exact .inr (.inr h)
      · exact .inl h
    · rintro (h | h | h)
      · exact .inr h
      · exact .inl (.inl h)
      · exact .inl (.inr h)
  have hlen : nodes.length < 4294967296 := hsize nodes hnodup (fun n hn => (hparts n).mp hn)
  have hinputs : ∀ n ∈ nodes, ∀ k ∈ G.inputs n, k ∈ nodes := by
    intro n hn k hk
    rw [hparts] at hn ⊢
    rcases hn with h | h | ⟨r, hr, h⟩
    · rw [hleaf n h] at hk; cases hk
    · exact .inr (.inr ⟨n, h, .direct hk⟩)
    · refine .inr (.inr ⟨r, hr, ?_⟩)
      clear hr
      induction h with
      | direct h => exact .trans h (.direct hk)
      | trans h _ ih => exact .trans h (ih hk)
  have hwn : ∀ n ∈ nodes, ∃ b, writeNode G nodes n = some b := by
    intro n hn
    unfold writeNode
    rw [mapM_index nodes _ (hinputs n hn)]
    exact ⟨_, rfl⟩
  have hbody : ∃ body, writeNodes G nodes = some body := by
    have : ∀ l : List N, (∀ n ∈ l, n ∈ nodes) → ∃ bs, l.mapM (writeNode G nodes) = some bs := by
      intro l
      induction l with
      | nil => intro _; exact ⟨[], rfl⟩
      | cons a as ih =>
        intro h
        obtain ⟨b, hb⟩ := hwn a (h a List.mem_cons_self)
        obtain ⟨bs, hbs⟩ := ih (fun n hn => h n (List.mem_cons_of_mem _ hn))
        exact ⟨b :: bs, by simp only [List.mapM_cons, hb, hbs]; rfl⟩
    obtain ⟨bs, hbs⟩ := this nodes (fun _ h => h)
    unfold writeNodes; rw [hbs]; exact ⟨_, rfl⟩
  obtain ⟨body, hbody⟩ := hbody
  have hinIn : ∀ n ∈ m.inputs, n ∈ nodes := fun n hn => (hparts n).mpr (.inl hn)
  have houtIn : ∀ n ∈ m.outputs, n ∈ nodes := fun n hn => (hparts n).mpr (.inr (.inl hn))
  have hidx : ∀ l : List N, (∀ n ∈ l, n ∈ nodes) →
      l.flatMap (fun n => le32 ((indexIn nodes n).getD 0)) = (l.map (pos nodes)).flatMap le32 := by
    intro l hl
    rw [List.flatMap_map]
    induction l with
    | nil => rfl
    | cons a as ih =>
      simp only [List.flatMap_cons, ih (fun n hn => hl n (List.mem_cons_of_mem _ hn)),
        indexIn_eq nodes a (hl a List.mem_cons_self), Option.getD_some]
  have hsave : save G m (sched.map Prod.fst) = some (headerBytes ++
      (le32 (m.inputs.map (pos nodes)).length ++ (m.inputs.map (pos nodes)).flatMap le32) ++
      (le32 (m.outputs.map (pos nodes)).length ++ (m.outputs.map (pos nodes)).flatMap le32) ++ body) := by
    unfold save
    simp only
    rw [show saveNodes (sched.map Prod.fst) m.inputs = nodes from rfl, hbody, hidx _ hinIn, hidx _ houtIn]
    simp only [List.length_map]
  let recs := nodes.map (recOf G nodes)
  have hrec : ∀ (i : Nat) (n : N), nodes[i]? = some n → recs[i]? = some (recOf G nodes n) := by
    intro i n h; simp [recs, h]
  have hback : ∀ l : List N, (∀ n ∈ l, n ∈ nodes) →
      (l.map (pos nodes)).map (fun j => nodes[j]?) = l.map some := by
    intro l hl
    rw [List.map_map]
    apply List.map_congr_left
    intro n hn
    exact getElem?_pos nodes n (hl n hn)
  refine ⟨_, hsave, nodes, ⟨m.inputs.map (pos nodes), m.outputs.map (pos nodes)⟩, recs,
    ⟨hnodup, hparts, by simp [recs], ?_, hback _ hinIn, hback _ houtIn⟩, ?_⟩
  · intro i n h
    exact ⟨_, hrec i n h, hback _ (hinputs n (List.mem_of_getElem? h))⟩
  · intro junk cv rest
    have hbok : ∀ n ∈ nodes, BubbleOk cv (G.bubble n) ∧ (G.inputs n).length < 4294967296 := by
      intro n hn
      obtain ⟨a, b, c⟩ := hbub n ((hparts n).mp hn)
      exact ⟨built_ok cv a b, c⟩
    have hposlt : ∀ l : List N, (∀ n ∈ l, n ∈ nodes) → ∀ i ∈ l.map (pos nodes), i < nodes.length := by
      intro l hl i hi
      obtain ⟨n, hn, rfl⟩ := List.mem_map.mp hi
      exact pos_lt nodes n (hl n hn)
    unfold load
    simp only [headerBytes, List.append_assoc]
    rw [bind_ok (readU32_le32 _ _ _ (by decide)), bind_ok (readU32_le32 _ _ _ (by decide)),
      bind_ok (readBytes_exact _ _ _ _ (by simp)), if_neg (by simp)]
    rw [← List.append_assoc (le32 _) (List.flatMap _ _) _,
      bind_ok (readList_ok (m.inputs.map (pos nodes)) _ (by simpa using hin)
      (fun i hi => by have := hposlt _ hinIn i hi; omega))]
    rw [← List.append_assoc (le32 _) (List.flatMap _ _) _,
      bind_ok (readList_ok (m.outputs.map (pos nodes)) _ (by simpa using hout)
      (fun i hi => by have := hposlt _ houtIn i hi; omega))]
    rw [bind_ok (readNodes_ok junk cv G nodes body rest hbody hbok hlen).1]
    have hall : ((m.inputs.map (pos nodes)).all (fun i => i < recs.length) &&
        (m.outputs.map (pos nodes)).all (fun i => i < recs.length)) = true := by
      simp only [Bool.and_eq_true, List.all_eq_true, decide_eq_true_eq, recs, List.length_map]
      exact ⟨hposlt _ hinIn, hposlt _ houtIn⟩
    rw [show nodes.map (recOf G nodes) = recs from rfl, if_pos hall]
    obtain ⟨r, hr⟩ := walkFuel_enough recs (m.outputs.map (pos nodes))
    have hpost := wloop_post _ _ (winit_inv _ _ _) r hr
    -- needs in the graph read back are needs in the original
    have hneeds : ∀ i, Needs (arenaGraph recs).toGraph (m.outputs.map (pos nodes)) i →
        ∃ n, nodes[i]? = some n ∧ Needs G.toGraph m.outputs n := by
      intro i hi
      induction hi with
      | root h =>
        obtain ⟨n, hn, rfl⟩ := List.mem_map.mp h
        exact ⟨n, getElem?_pos nodes n (houtIn n hn), .root hn⟩
      | @input i j h hp hc hi ih =>
        obtain ⟨n, hn, hneed⟩ := ih
        have hrn := hrec i n hn
        simp only [BGraph.toGraph, arenaGraph, hrn, recOf, List.mem_map] at hi hp hc
        obtain ⟨k, hk, rfl⟩ := hi
        have hkn := hinputs n (List.mem_of_getElem? hn) k hk
        exact ⟨k, getElem?_pos nodes k hkn, .input hneed hp hc hk⟩
    have hnotbad : ∀ i, Needs (arenaGraph recs).toGraph (m.outputs.map (pos nodes)) i →
        ¬ Bad (arenaGraph recs).toGraph (List.range recs.length) i := by
      intro i hi hb
      obtain ⟨n, hn, hneed⟩ := hneeds i hi
      have hilt : i < nodes.length := (List.getElem?_eq_some_iff.mp hn).1
      have hrn := hrec i n hn
      rcases hb with hb | ⟨⟨hp, hc⟩, hempty⟩
      · apply hb; simp [recs, hilt]
      · simp only [BGraph.toGraph, arenaGraph, hrn, recOf] at hp hc hempty
        exact hcomp n hneed hp hc (List.map_eq_nil_iff.mp hempty)
    cases r with
    | none =>
      obtain ⟨i, hi, hb⟩ := hpost
      exact absurd hb (hnotbad i hi)
    | some found =>
      rw [hr]
      simp only
      have hsub : ∀ i ∈ found, i ∈ m.inputs.map (pos nodes) := by
        intro i hi
        obtain ⟨hk, hneed⟩ := (hpost.2.1 i).mp hi
        obtain ⟨n, hn, hneed'⟩ := hneeds i hneed
        have hrn := hrec i n hn
        simp only [BGraph.toGraph, arenaGraph, hrn, recOf] at hk
        have hmi := hpar n hneed' hk
        refine List.mem_map.mpr ⟨n, hmi, ?_⟩
        have h1 := getElem?_pos nodes n (hinIn n hmi)
        obtain ⟨ha, hb⟩ := List.getElem?_eq_some_iff.mp h1
        exact (List.getElem?_inj ha hnodup).mp (h1.trans hn.symm)
      have hsort : sortNodes ((⟨[], []⟩ : Modl Nat).load found (m.outputs.map (pos nodes)))
          (m.inputs.map (pos nodes)) =
          some ⟨m.inputs.map (pos nodes), m.outputs.map (pos nodes)⟩ := by
        unfold sortNodes
        rw [if_pos]
        · rfl
        · simp only [Modl.load, List.nil_append, List.all_eq_true, decide_eq_true_eq]
          exact hsub
      rw [hsort]
      rfl

end

/-- a module with a shared parameter, a constant and a two-input operator used as two outputs -/
def sampleGraph : BGraph Nat where
  bubble
    | 0 => mkBubble (str "<param>") (str "x") [1, 3]
    | 1 => (mkBubble (str "<const>") (str "k") []).set (str "value") sampleTensor
    | _ => mkBubble (str "add") (str "y") []
  inputs | 2 => [0, 1] | _ => []

def sampleModule : Modl Nat := ⟨[0], [2, 2]⟩

theorem sample_part {n : Nat} (h : PartOf sampleGraph sampleModule n) : n = 0 ∨ n = 1 ∨ n = 2 := by
  have hi : ∀ n k, k ∈ sampleGraph.inputs n → k = 0 ∨ k = 1 := by
    intro n k hk
    match n with
    | 0 | 1 | n + 3 => simp [sampleGraph] at hk
    | 2 => simpa [sampleGraph] using hk
  have hd : ∀ n k, DependsOn sampleGraph.toGraph n k → k = 0 ∨ k = 1 := by
    intro n k h
    induction h with
    | direct h => exact hi _ _ h
    | trans _ _ ih => exact ih
  rcases h with h | h | ⟨r, -, h⟩
  · simp [sampleModule] at h; exact .inl h
  · simp [sampleModule] at h; exact .inr (.inr h)
  · rcases hd _ _ h with h | h
    · exact .inl h
    · exact .inr (.inl h)

theorem dep_snoc {N V : Type} {G : Graph N V} {r a b : N} (h : DependsOn G r a) (hi : b ∈ G.inputs a) :
    DependsOn G r b := by
  induction h with
  | direct h => exact .trans h (.direct hi)
  | trans h _ ih => exact .trans h (ih hi)

theorem needs_part {N : Type} [DecidableEq N] {G : BGraph N} {m : Modl N} {n : N}
    (h : Needs G.toGraph m.outputs n) : PartOf G m n := by
  right
  induction h with
  | root h => exact .inl h
  | @input a b _ _ _ hi ih =>
    right
    rcases ih with h | ⟨r, hr, hd⟩
    · exact ⟨a, h, .direct hi⟩
    · refine ⟨r, hr, ?_⟩
      exact dep_snoc hd hi

/-- the hypotheses of `C10_module_round_trip` hold for it -/
example : ∃ bytes, save sampleGraph sampleModule [1, 0, 2] = some bytes ∧
      ∃ nodes m' recs, SameModule sampleGraph sampleModule nodes m' recs ∧
        ∀ (junk : Nat → UInt8) (cv : Conv) (rest : List UInt8),
          load junk cv (bytes ++ rest) = .ok (m', recs) rest := by
  refine C10_module_round_trip sampleGraph sampleModule 10
    ⟨_, _, _⟩ [(1, 2), (0, 2), (2, 1)] rfl ⟨by decide, by decide⟩ ?_ ?_ ?_ ?_ ?_ (by decide) (by decide)
  · intro n hn hp hc
    have : PartOf sampleGraph sampleModule n := needs_part hn
    rcases sample_part this with rfl | rfl | rfl
    · exact absurd (by decide) hp
    · exact absurd (by decide) hc
    · decide
  · intro n hn hp
    have : PartOf sampleGraph sampleModule n := needs_part hn
    rcases sample_part this with rfl | rfl | rfl
    · decide
    · exact absurd hp (by decide)
    · exact absurd hp (by decide)
  · decide
  · intro n hn
    rcases sample_part hn with rfl | rfl | rfl
    · exact ⟨.make (by decide) (by decide) ⟨by decide, by decide⟩, by decide, by decide⟩
    · exact ⟨.set (.make (by decide) (by decide) ⟨by decide, by decide⟩) (by decide) (by decide) sampleTensor_ok,
        by decide, by decide⟩
    · exact ⟨.make (by decide) (by decide) ⟨by decide, by decide⟩, by decide, by decide⟩
  · intro l hl hp
    have := nodup_subset_length (b := [0, 1, 2]) hl (by
      intro n hn
      rcases sample_part (hp n hn) with rfl | rfl | rfl <;> simp)
    simp at this; omega

/-! ## C12: malformed files -/

/-- **C12 (partial): foreign files.** A file whose bytes 4–7 are not the magic number is rejected, whatever
else it contains and however short it is. -/
theorem C12_bad_magic_rejected_partial (junk : Nat → UInt8) (cv : Conv) (file : List UInt8)
    (h : (file.drop 4).take 4 ≠ le32 0x19910929) : load junk cv file = .err := by
  have hrd : ∀ a b c d : UInt8, rd32 a b c d = 0x19910929 → [a, b, c, d] = le32 0x19910929 := by
    intro a b c d he
    have ha := a.toNat_lt; have hb := b.toNat_lt; have hc := c.toNat_lt; have hd := d.toNat_lt
    simp only [rd32] at he
    have e1 : a.toNat = 0x29 := by omega
    have e2 : b.toNat = 0x09 := by omega
    have e3 : c.toNat = 0x91 := by omega
    have e4 : d.toNat = 0x19 := by omega
    simp only [le32, List.cons.injEq, and_true]
    refine ⟨?_, ?_, ?_, ?_⟩ <;> apply UInt8.toNat_inj.mp
    · rw [e1]; decide
    · rw [e2]; decide
    · rw [e3]; decide
    · rw [e4]; decide
  have fin : ∀ (code : Nat) (r : List UInt8), code ≠ 0x19910929 →
      (Rd.bind (readBytes (fun _ => 0) 120) fun _ =>
        if code ≠ 0x19910929 then Rd.err else
        readList.bind fun ins =>
        readList.bind fun outs =>
        (readNodes junk cv).bind fun recs =>
        if ins.all (fun i => i < recs.length) && outs.all (fun i => i < recs.length) then
          match graphWalker (arenaGraph recs).toGraph (List.range recs.length) (walkFuel recs outs) outs with
          | some (some found) =>
            match sortNodes ((⟨[], []⟩ : Modl Nat).load found outs) ins with
            | some m => Rd.pure (m, recs)
            | none => Rd.err
          | _ => Rd.err
        else Rd.ub) r = .err := by
    intro code r hc
    rw [bind_ok (m := readBytes (fun _ => 0) 120) (s := r) rfl, if_pos hc]; rfl
  have second : ∀ s : List UInt8, s.take 4 ≠ le32 0x19910929 →
      ∃ code r, readU32 (some 0) s = .ok code r ∧ code ≠ 0x19910929 := by
    intro s hs
    rcases s with _ | ⟨a, _ | ⟨b, _ | ⟨c, _ | ⟨d, r⟩⟩⟩⟩
    · exact ⟨0, [], rfl, by decide⟩
    · refine ⟨_, [], rfl, ?_⟩
      have := a.toNat_lt
      simp only [rd32]; simp; omega
    · refine ⟨_, [], rfl, ?_⟩
      have := a.toNat_lt; have := b.toNat_lt
      simp only [rd32]; simp; omega
    · refine ⟨_, [], rfl, ?_⟩
      have := a.toNat_lt; have := b.toNat_lt; have := c.toNat_lt
      simp only [rd32]; simp; omega
    · exact ⟨_, r, rfl, fun he => hs (by simpa using hrd a b c d he)⟩
  have first : ∃ fake r, readU32 (some 0) file = .ok fake r ∧ r = file.drop 4 := by
    rcases file with _ | ⟨a, _ | ⟨b, _ | ⟨c, _ | ⟨d, r⟩⟩⟩⟩
    · exact ⟨_, _, rfl, rfl⟩
    · exact ⟨_, _, rfl, rfl⟩
    · exact ⟨_, _, rfl, rfl⟩
    · exact ⟨_, _, rfl, rfl⟩
    · exact ⟨_, _, rfl, rfl⟩
  obtain ⟨fake, r, h1, rfl⟩ := first
  obtain ⟨code, r2, h2, hc⟩ := second _ h
  unfold load
  rw [bind_ok h1, bind_ok h2]
  exact fin code r2 hc

example : ((List.replicate 200 7 : List UInt8).drop 4).take 4 ≠ le32 0x19910929 := by decide

theorem bind_eq_ok {α β : Type} {m : Rd α} {f : α → Rd β} {s r : List UInt8} {b : β}
    (h : Rd.bind m f s = .ok b r) : ∃ a t, m s = .ok a t ∧ f a t = .ok b r := by
  unfold Rd.bind at h
  cases hm : m s with
  | ok a t => rw [hm] at h; exact ⟨a, t, rfl, h⟩
  | err => rw [hm] at h; cases h
  | ub => rw [hm] at h; cases h

/-- **C12 (partial): accepted tensors are well formed.** Whatever the bytes, if reading a field succeeds its
rank is at most 7 and its memory holds exactly the elements its shape announces. -/
theorem C12_accepted_tensor_partial (junk : Nat → UInt8) (s r : List UInt8) (f : Field)
    (h : readField junk s = .ok f r) :
    f.shape.length ≤ 7 ∧ ∃ c, count f.shape = some c ∧ f.mem.length = c.toNat * typeBytes f.dtype := by
  unfold readField at h
  cases s with
  | nil => cases h
  | cons d s =>
    simp only at h
    obtain ⟨rank, t, h1, h⟩ := bind_eq_ok h
    split at h
    · cases h
    · rename_i hrank
      obtain ⟨shape, t2, h2, h⟩ := bind_eq_ok h
      have hsl : ∀ k old (s : List UInt8) sh t, readSizes k old s = .ok sh t → sh.length = k := by
        intro k
        induction k with
        | zero => intro old s sh t h; cases h; rfl
        | succ k ih =>
          intro old s sh t h
          obtain ⟨n, t1, ha, h⟩ := bind_eq_ok h
          obtain ⟨l, t2, hb, h⟩ := bind_eq_ok h
          cases h
          simp [ih _ _ _ _ hb]
      cases hc : count shape with
      | none => rw [hc] at h; cases h
      | some c =>
        rw [hc] at h
        simp only at h
        split at h
        · cases h
        · obtain ⟨mem, t3, h3, h⟩ := bind_eq_ok h
          cases h
          refine ⟨by rw [hsl _ _ _ _ _ h2]; omega, c, hc, ?_⟩
          unfold readBytes at h3
          cases h3
          simp only [List.length_append, List.length_take, List.length_map, List.length_range]
          omega

/-- **C12 (partial): accepted modules are well formed.** Whatever the bytes, if loading succeeds then every
input index of every node and every module input and output is a node that was read, and every parameter the
outputs need is a module input. -/
theorem C12_accepted_module_partial (junk : Nat → UInt8) (cv : Conv) (s r : List UInt8) (m : Modl Nat)
    (recs : List Rec) (h : load junk cv s = .ok (m, recs) r) :
    (∀ rec ∈ recs, ∀ i ∈ rec.2, i < recs.length) ∧
    (∀ i ∈ m.inputs, i < recs.length) ∧ (∀ i ∈ m.outputs, i < recs.length) ∧
    ∀ n, Needs (arenaGraph recs).toGraph m.outputs n → (arenaGraph recs).toGraph.kind n = .param →
      n ∈ m.inputs := by
  unfold load at h
  obtain ⟨_, _, -, h⟩ := bind_eq_ok h
  obtain ⟨code, _, -, h⟩ := bind_eq_ok h
  obtain ⟨_, _, -, h⟩ := bind_eq_ok h
  split at h
  · cases h
  · obtain ⟨ins, _, -, h⟩ := bind_eq_ok h
    obtain ⟨outs, _, -, h⟩ := bind_eq_ok h
    obtain ⟨recs', _, hn, h⟩ := bind_eq_ok h
    split at h
    · rename_i hall
      simp only [Bool.and_eq_true, List.all_eq_true, decide_eq_true_eq] at hall
      obtain ⟨w, hw⟩ := walkFuel_enough recs' outs
      rw [hw] at h
      cases w with
      | none => cases h
      | some found =>
        simp only at h
        cases hs : sortNodes ((⟨[], []⟩ : Modl Nat).load found outs) ins with
        | none => rw [hs] at h; cases h
        | some m' =>
          rw [hs] at h
          cases h
          have hpost := wloop_post _ _ (winit_inv _ _ _) _ hw
          unfold sortNodes at hs
          split at hs
          · rename_i hsub
            cases hs
            simp only [Modl.load, List.nil_append, List.all_eq_true, decide_eq_true_eq] at hsub
            refine ⟨?_, hall.1, by simpa [Modl.load] using hall.2, ?_⟩
            · unfold readNodes at hn
              obtain ⟨_, _, -, hn⟩ := bind_eq_ok hn
              obtain ⟨recs2, _, -, hn⟩ := bind_eq_ok hn
              split at hn
              · rename_i hidx
                cases hn
                simpa only [List.all_eq_true, decide_eq_true_eq] using hidx
              · cases hn
            · intro n hneed hk
              simp only [Modl.load, List.nil_append] at hneed
              exact hsub n ((hpost.2.1 n).mpr ⟨hk, hneed⟩)
          · cases hs
    · cases h

/-- **C12, full statement**: reading a file that was cut short is an error. -/
def TruncationRejected : Prop :=
  ∀ (junk : Nat → UInt8) (t : Tensor), TensorOk t → ∀ k < (writeTensor t).length, ∀ self,
    readTensor junk self ((writeTensor t).take k) = .err

/-- It is not: a tensor file that lacks its last byte is accepted, the missing byte being whatever fresh memory
held. -/
theorem C12_truncation_false : ¬ TruncationRejected := by
  intro h
  have := h (fun _ => 0) sampleTensor sampleTensor_ok ((writeTensor sampleTensor).length - 1) (by decide)
    (.mk emptyField [])
  have h2 : ∀ junk, ∃ t, readTensor junk (.mk emptyField [])
      ((writeTensor sampleTensor).take ((writeTensor sampleTensor).length - 1)) = .ok t [] := by
    intro junk; exact ⟨_, rfl⟩
  obtain ⟨t, ht⟩ := h2 (fun _ => 0)
  rw [ht] at this; cases this

/-- A module file cut right behind its header is accepted as a module without inputs, outputs or nodes. -/
theorem C12_header_only_accepted_false (junk : Nat → UInt8) (cv : Conv) :
    load junk cv headerBytes = .ok (⟨[], []⟩, []) [] := by rfl

/-- An empty tensor file makes the reader use an uninitialised count. -/
theorem C12_empty_file_false (junk : Nat → UInt8) (self : Tensor) : readTensor junk self [] = .ub := rfl

/-- A tensor file announcing rank 8 makes the reader write behind the seven slots of a shape. -/
theorem C12_rank_eight_false (junk : Nat → UInt8) (self : Tensor) (rest : List UInt8) :
    readTensor junk self (le32 1 ++ [10] ++ le32 8 ++ rest) = .ub := by
  unfold readTensor
  rw [List.append_assoc, List.append_assoc, bind_ok (readU32_le32 _ _ _ (by decide))]
  rfl

/-- A module file whose only output refers to a node that does not exist makes the reader index a vector out of
range. -/
theorem C12_bad_index_false (junk : Nat → UInt8) (cv : Conv) :
    load junk cv (headerBytes ++ le32 0 ++ (le32 1 ++ le32 5) ++ le32 0) = .ub := by rfl

end Verif.Props
