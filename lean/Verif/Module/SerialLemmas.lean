import Verif.Module.Serial
import Verif.Module.LoadLemmas
/-! # Round-trip lemmas for the serialisation model -/
namespace Verif.Module
open Verif.Core Verif.Compiler

theorem ofNat_toNat (n : Nat) : (UInt8.ofNat n).toNat = n % 256 := by simp

theorem rd32_le32 (n : Nat) :
    rd32 (UInt8.ofNat n) (UInt8.ofNat (n / 256)) (UInt8.ofNat (n / 65536)) (UInt8.ofNat (n / 16777216))
      = n % 4294967296 := by
  simp only [rd32, ofNat_toNat]; omega

theorem readU32_le32 (o : Option Nat) (n : Nat) (r : List UInt8) (h : n < 4294967296) :
    readU32 o (le32 n ++ r) = .ok n r := by
  simp only [le32, List.cons_append, List.nil_append, readU32, rd32_le32]
  rw [Nat.mod_eq_of_lt h]

theorem toU32_lt (z : Int) : toU32 z < 4294967296 := by unfold toU32; omega

theorem ofU32_toU32 (z : Int) (h : isInt32 z) : ofU32 (toU32 z) = z := by
  unfold ofU32 toU32; unfold isInt32 at h; split <;> omega

theorem readBytes_exact (fill : Nat → UInt8) (l r : List UInt8) (n : Nat) (h : l.length = n) :
    readBytes fill n (l ++ r) = .ok l r := by
  subst h
  unfold readBytes
  have : l.length - (l ++ r).length = 0 := by simp
  rw [this]; simp

theorem bind_ok {α β : Type} {m : Rd α} {f : α → Rd β} {s r : List UInt8} {a : α} (h : m s = .ok a r) :
    Rd.bind m f s = f a r := by simp [Rd.bind, h]

theorem readSizes_ok (shape : List Int) (old : Nat) (r : List UInt8) (h : ∀ z ∈ shape, isInt32 z) :
    readSizes shape.length old (shape.flatMap (fun z => le32 (toU32 z)) ++ r) = .ok shape r := by
  induction shape generalizing old with
  | nil => rfl
  | cons z zs ih =>
    simp only [List.length_cons, readSizes, List.flatMap_cons, List.append_assoc]
    rw [bind_ok (readU32_le32 _ _ _ (toU32_lt z)),
      bind_ok (ih _ (fun z hz => h z (List.mem_cons_of_mem _ hz)))]
    rw [ofU32_toU32 z (h z List.mem_cons_self)]; rfl

/-- A tensor the library itself can have built: known element type, at most seven sizes, an element count that
does not overflow, and exactly that many elements. -/
structure FieldOk (f : Field) : Prop where
  dtype : f.dtype ≤ 32
  rank : f.shape.length ≤ 7
  sizes : ∀ z ∈ f.shape, isInt32 z
  mem : ∃ c, count f.shape = some c ∧ 0 ≤ c ∧ f.mem.length = c.toNat * typeBytes f.dtype

theorem readField_ok (junk : Nat → UInt8) (f : Field) (h : FieldOk f) (r : List UInt8) :
    readField junk (writeField f ++ r) = .ok f r := by
  obtain ⟨c, hc, h0, hm⟩ := h.mem
  have hd : (UInt8.ofNat f.dtype).toNat = f.dtype := by
    rw [ofNat_toNat]; have := h.dtype; omega
  unfold readField writeField
  simp only [List.cons_append, List.append_assoc]
  rw [bind_ok (readU32_le32 _ _ _ (by have := h.rank; omega))]
  rw [if_neg (by have := h.rank; omega)]
  rw [bind_ok (readSizes_ok _ _ _ h.sizes)]
  simp only [hc, hd, Option.getD_some]
  rw [if_neg (by omega), List.take_of_length_le (by omega), bind_ok (readBytes_exact _ _ _ _ hm)]
  rfl

theorem readFields_ok (junk : Nat → UInt8) (fs : List Tensor)
    (h : ∀ f ∈ fs, f.fields = [] ∧ FieldOk f.own) (r : List UInt8) :
    readFields junk fs.length (fs.flatMap (fun f => writeField f.own) ++ r) = .ok fs r := by
  induction fs with
  | nil => rfl
  | cons f fs ih =>
    simp only [List.length_cons, readFields, List.flatMap_cons, List.append_assoc]
    rw [bind_ok (readField_ok junk _ (h f List.mem_cons_self).2 _),
      bind_ok (ih (fun g hg => h g (List.mem_cons_of_mem _ hg)))]
    have := (h f List.mem_cons_self).1
    cases f; simp only [Tensor.fields] at this; subst this; rfl

/-- a tensor whose fields are not packed themselves -/
structure TensorOk (t : Tensor) : Prop where
  own : FieldOk t.own
  flat : ∀ f ∈ t.fields, f.fields = [] ∧ FieldOk f.own
  count : fieldsCount t < 4294967296

theorem readTensor_ok (junk : Nat → UInt8) (self t : Tensor) (h : TensorOk t) (r : List UInt8) :
    readTensor junk self (writeTensor t ++ r) = .ok t r := by
  unfold readTensor writeTensor
  rw [List.append_assoc, bind_ok (readU32_le32 _ _ _ h.count)]
  have hlen : (unpack t).length = fieldsCount t := by simp [unpack, fieldsCount, Nat.add_comm]
  have := readFields_ok junk (unpack t) (by
    intro f hf
    simp only [unpack, List.mem_cons] at hf
    rcases hf with rfl | hf
    · exact ⟨rfl, h.own⟩
    · exact h.flat f hf) r
  rw [hlen] at this
  rw [bind_ok this]
  cases t; rfl

theorem readParams_ok (junk : Nat → UInt8) (ps acc : List (Str × Tensor)) (old : Tensor) (r : List UInt8)
    (hnd : ((acc ++ ps).map Prod.fst).Nodup)
    (h : ∀ p ∈ ps, p.1.length < 4294967296 ∧ TensorOk p.2) :
    readParams junk ps.length old acc (ps.flatMap writeParam ++ r) = .ok (acc ++ ps) r := by
  induction ps generalizing old acc with
  | nil => simp [readParams, Rd.pure]
  | cons p ps ih =>
    simp only [List.length_cons, readParams, List.flatMap_cons, writeParam, List.append_assoc]
    obtain ⟨h1, h2⟩ := h p List.mem_cons_self
    rw [bind_ok (readU32_le32 _ _ _ h1), bind_ok (readBytes_exact _ _ _ _ rfl),
      bind_ok (readTensor_ok junk old p.2 h2 _)]
    have hnew : p.1 ∉ acc.map Prod.fst := by
      rw [List.map_append, List.nodup_append] at hnd
      intro hm
      exact hnd.2.2 _ hm _ (by simp) rfl
    rw [insertParam, if_neg hnew]
    have := ih (acc ++ [(p.1, p.2)]) p.2 (by simpa using hnd) (fun q hq => h q (List.mem_cons_of_mem _ hq))
    simpa using this

/-- A bubble whose cached operator name, node name and shape agree with its parameters, as the constructors and
setters keep them (see `built_ok`). -/
structure BubbleOk (cv : Conv) (b : Bubble) : Prop where
  keys : (b.params.map Prod.fst).Nodup
  count : b.params.length < 4294967296
  values : ∀ p ∈ b.params, p.1.length < 4294967296 ∧ TensorOk p.2
  op : (lookup b.params (str "#op")).bind tensorToString = some b.op
  name : (lookup b.params (str "#name")).bind tensorToString = some b.name
  shape : match lookup b.params (str "#shape") with
    | none => b.shape = []
    | some t => castI32 cv t = some b.shape ∧ b.shape.length ≤ 7
  outputs : outputCountOk cv b.params = true

theorem readBubble_ok (junk : Nat → UInt8) (cv : Conv) (b : Bubble) (h : BubbleOk cv b) (r : List UInt8) :
    readBubble junk cv (writeBubble b ++ r) = .ok b r := by
  unfold readBubble writeBubble
  rw [List.append_assoc, bind_ok (readU32_le32 _ _ _ h.count)]
  have := readParams_ok junk b.params [] (.mk emptyField []) r (by simpa using h.keys) h.values
  rw [List.nil_append] at this
  rw [bind_ok this]
  simp only [h.op, h.name, h.outputs, if_true]
  have hs : readShape cv b.params r = .ok b.shape r := by
    have := h.shape
    unfold readShape
    cases hl : lookup b.params (str "#shape") with
    | none => rw [hl] at this; simp only at this; rw [this]; rfl
    | some t =>
      rw [hl] at this; simp only at this
      simp only [this.1]
      rw [if_neg (by omega)]; rfl
  rw [bind_ok hs]
  rfl

theorem readIndices_ok (l : List Nat) (r : List UInt8) (h : ∀ i ∈ l, i < 4294967296) :
    readIndices l.length (l.flatMap le32 ++ r) = .ok l r := by
  induction l with
  | nil => rfl
  | cons i is ih =>
    simp only [List.length_cons, readIndices, List.flatMap_cons, List.append_assoc]
    rw [bind_ok (readU32_le32 _ _ _ (h i List.mem_cons_self)),
      bind_ok (ih (fun j hj => h j (List.mem_cons_of_mem _ hj)))]
    rfl

theorem readList_ok (l : List Nat) (r : List UInt8) (hl : l.length < 4294967296)
    (h : ∀ i ∈ l, i < 4294967296) : readList ((le32 l.length ++ l.flatMap le32) ++ r) = .ok l r := by
  unfold readList
  rw [List.append_assoc, bind_ok (readU32_le32 _ _ _ hl)]
  exact readIndices_ok l r h

section
variable {N : Type} [DecidableEq N]

/-- position of a node -/
def pos (nodes : List N) (n : N) : Nat := nodes.findIdx (fun m => m = n)

theorem indexIn_eq (nodes : List N) (n : N) (h : n ∈ nodes) : indexIn nodes n = some (pos nodes n) := by
  unfold indexIn pos
  rw [List.findIdx?_eq_some_iff_findIdx_eq]
  exact ⟨List.findIdx_lt_length_of_exists ⟨n, h, by simp⟩, rfl⟩

theorem indexIn_none (nodes : List N) (n : N) (h : n ∉ nodes) : indexIn nodes n = none := by
  unfold indexIn
  rw [List.findIdx?_eq_none_iff]
  intro m hm
  simp only [decide_eq_false_iff_not]
  rintro rfl; exact h hm

theorem pos_lt (nodes : List N) (n : N) (h : n ∈ nodes) : pos nodes n < nodes.length :=
  List.findIdx_lt_length_of_exists ⟨n, h, by simp⟩

theorem getElem?_pos (nodes : List N) (n : N) (h : n ∈ nodes) : nodes[pos nodes n]? = some n := by
  rw [List.getElem?_eq_getElem (pos_lt nodes n h)]
  have := List.findIdx_getElem (p := fun m => decide (m = n)) (w := pos_lt nodes n h)
  simp only [decide_eq_true_eq] at this
  exact congrArg some this

theorem mapM_index (nodes l : List N) (h : ∀ n ∈ l, n ∈ nodes) :
    l.mapM (indexIn nodes) = some (l.map (pos nodes)) := by
  induction l with
  | nil => rfl
  | cons a as ih =>
    simp only [List.mapM_cons, indexIn_eq nodes a (h a List.mem_cons_self),
      ih (fun n hn => h n (List.mem_cons_of_mem _ hn))]
    rfl

theorem mapM_index_some {nodes l : List N} {x : List Nat} (h : l.mapM (indexIn nodes) = some x) :
    ∀ n ∈ l, n ∈ nodes := by
  induction l generalizing x with
  | nil => intro n hn; cases hn
  | cons a as ih =>
    simp only [List.mapM_cons, Option.pure_def, Option.bind_eq_bind, Option.bind_eq_some_iff] at h
    obtain ⟨i, hi, l, hl, -⟩ := h
    intro n hn
    rcases List.mem_cons.mp hn with rfl | hn
    · apply Classical.byContradiction
      intro hc
      rw [indexIn_none nodes n hc] at hi; cases hi
    · exact ih hl n hn

/-- what one node becomes -/
def recOf (G : BGraph N) (nodes : List N) (n : N) : Rec := (G.bubble n, (G.inputs n).map (pos nodes))

theorem writeNode_some {G : BGraph N} {nodes : List N} {n : N} {b : List UInt8}
    (h : writeNode G nodes n = some b) :
    (∀ m ∈ G.inputs n, m ∈ nodes) ∧
    b = writeBubble (G.bubble n) ++ le32 (recOf G nodes n).2.length ++ (recOf G nodes n).2.flatMap le32 := by
  unfold writeNode at h
  cases hm : (G.inputs n).mapM (indexIn nodes) with
  | none => rw [hm] at h; cases h
  | some x =>
    rw [hm] at h
    have hin := mapM_index_some hm
    rw [mapM_index nodes _ hin] at hm
    cases hm
    simp only [Option.some.injEq] at h
    exact ⟨hin, h.symm⟩

theorem readRecs_ok (junk : Nat → UInt8) (cv : Conv) (G : BGraph N) (nodes l : List N) (bs : List (List UInt8))
    (old : Nat) (r : List UInt8) (h : l.mapM (writeNode G nodes) = some bs)
    (hb : ∀ n ∈ l, BubbleOk cv (G.bubble n) ∧ (G.inputs n).length < 4294967296)
    (hn : nodes.length < 4294967296) :
    readRecs junk cv l.length old (bs.flatten ++ r) = .ok (l.map (recOf G nodes)) r ∧
    ∀ n ∈ l, ∀ m ∈ G.inputs n, m ∈ nodes := by
  induction l generalizing bs old with
  | nil => simp at h; subst h; exact ⟨rfl, by simp⟩
  | cons a as ih =>
    simp only [List.mapM_cons, Option.pure_def, Option.bind_eq_bind, Option.bind_eq_some_iff] at h
    obtain ⟨b, hbb, bs', hbs, heq⟩ := h
    cases heq
    obtain ⟨hin, rfl⟩ := writeNode_some hbb
    obtain ⟨h1, h2⟩ := hb a List.mem_cons_self
    obtain ⟨ih1, ih2⟩ := ih bs' (recOf G nodes a).2.length hbs (fun n hn => hb n (List.mem_cons_of_mem _ hn))
    constructor
    · simp only [List.length_cons, readRecs, List.flatten_cons, List.append_assoc, List.map_cons]
      rw [bind_ok (readBubble_ok junk cv _ h1 _),
        bind_ok (readU32_le32 _ _ _ (by simp only [recOf, List.length_map]; exact h2)),
        bind_ok (readIndices_ok _ _ (by
          intro i hi
          simp only [recOf, List.mem_map] at hi
          obtain ⟨m, hm, rfl⟩ := hi
          have := pos_lt nodes m (hin m hm); omega)),
        bind_ok ih1]
      rfl
    · intro n hn
      rcases List.mem_cons.mp hn with rfl | hn
      · exact hin
      · exact ih2 n hn

theorem readNodes_ok (junk : Nat → UInt8) (cv : Conv) (G : BGraph N) (nodes : List N) (body r : List UInt8)
    (h : writeNodes G nodes = some body)
    (hb : ∀ n ∈ nodes, BubbleOk cv (G.bubble n) ∧ (G.inputs n).length < 4294967296)
    (hn : nodes.length < 4294967296) :
    readNodes junk cv (body ++ r) = .ok (nodes.map (recOf G nodes)) r ∧
      ∀ n ∈ nodes, ∀ m ∈ G.inputs n, m ∈ nodes := by
  unfold writeNodes at h
  cases hm : nodes.mapM (writeNode G nodes) with
  | none => rw [hm] at h; cases h
  | some bs =>
    rw [hm] at h
    simp only [Option.some.injEq] at h
    subst h
    obtain ⟨h1, h2⟩ := readRecs_ok junk cv G nodes nodes bs 0 r hm hb hn
    refine ⟨?_, h2⟩
    unfold readNodes
    rw [List.append_assoc, bind_ok (readU32_le32 _ _ _ hn), bind_ok h1, if_pos]
    · rfl
    · simp only [List.all_eq_true, List.mem_map, List.length_map, decide_eq_true_eq]
      rintro r ⟨n, hn, rfl⟩ i hi
      simp only [recOf, List.mem_map] at hi
      obtain ⟨m, hm, rfl⟩ := hi
      exact pos_lt nodes m (h2 n hn m hm)

theorem saveNodes_spec (sched inputs : List N) :
    (sched.Nodup → (saveNodes sched inputs).Nodup) ∧
    ∀ n, n ∈ saveNodes sched inputs ↔ n ∈ sched ∨ n ∈ inputs := by
  unfold saveNodes
  induction inputs generalizing sched with
  | nil => simp
  | cons a as ih =>
    simp only [List.foldl_cons]
    by_cases h : a ∈ sched
    · simp only [h, if_true]
      refine ⟨(ih sched).1, fun n => ?_⟩
      rw [(ih sched).2 n, List.mem_cons]
      constructor
      · rintro (h1 | h1)
        · exact .inl h1
        · exact .inr (.inr h1)
      · rintro (h1 | rfl | h1)
        · exact .inl h1
        · exact .inl h
        · exact .inr h1
    · simp only [h, if_false]
      refine ⟨fun hnd => (ih _).1 ?_, fun n => ?_⟩
      · rw [List.nodup_append]
        refine ⟨hnd, by simp, ?_⟩
        intro x hx y hy
        simp at hy; subst hy
        exact fun e => h (e ▸ hx)
      · rw [(ih _).2 n, List.mem_append, List.mem_cons, List.mem_cons]
        simp only [List.not_mem_nil, or_false, or_assoc]

/-- the sum of the numbers of inputs of unvisited nodes -/
def pend {V : Type} (G : Graph N V) (nodes walked : List N) : Nat :=
  ((nodes.filter (fun n => n ∉ walked)).map (fun n => (G.inputs n).length)).sum

theorem pend_cons_le {V : Type} (G : Graph N V) (nodes walked : List N) (n : N) :
    pend G nodes (n :: walked) ≤ pend G nodes walked := by
  unfold pend
  induction nodes with
  | nil => simp
  | cons a as ih =>
    simp only [List.mem_cons] at ih
    by_cases h1 : a ∈ walked
    · simp only [List.filter_cons, List.mem_cons, h1, or_true, not_true_eq_false, decide_false,
        Bool.false_eq_true, if_false]
      exact ih
    · by_cases h2 : a = n
      · simp only [List.filter_cons, List.mem_cons, h2, true_or, not_true_eq_false, decide_false,
          Bool.false_eq_true, if_false]
        split
        · simp only [List.map_cons, List.sum_cons]
          omega
        · exact ih
      · simp only [List.filter_cons, List.mem_cons, h1, h2, or_self, not_false_eq_true, decide_true, if_true,
          List.map_cons, List.sum_cons]
        omega

theorem pend_lt {V : Type} (G : Graph N V) (nodes walked : List N) (n : N) (h : n ∈ nodes) (hw : n ∉ walked) :
    pend G nodes (n :: walked) + (G.inputs n).length ≤ pend G nodes walked := by
  induction nodes with
  | nil => cases h
  | cons a as ih =>
    by_cases h2 : a = n
    · subst h2
      have := pend_cons_le G as walked a
      unfold pend at this ⊢
      simp only [List.filter_cons, List.mem_cons, hw, true_or, not_true_eq_false, decide_false,
          Bool.false_eq_true, if_false, not_false_eq_true, decide_true, if_true,
          List.map_cons, List.sum_cons] at this ⊢
      omega
    · have hn : n ∈ as := by
        rcases List.mem_cons.mp h with rfl | h
        · exact absurd rfl h2
        · exact h
      have := ih hn
      unfold pend at this ⊢
      by_cases h1 : a ∈ walked
      · simp only [List.filter_cons, List.mem_cons, h1, or_true, not_true_eq_false, decide_false,
          Bool.false_eq_true, if_false] at this ⊢
        exact this
      · simp only [List.filter_cons, List.mem_cons, h1, h2, or_self, not_false_eq_true, decide_true, if_true,
          List.map_cons, List.sum_cons] at this ⊢
        omega

/-- the walker needs no more iterations than there are outputs and edges -/
theorem wloop_fuel {V : Type} (G : Graph N V) (nodes : List N) (fuel : Nat) (st : WSt N)
    (h : st.queue.length + pend G nodes st.walked < fuel) : ∃ r, wloop G nodes fuel st = some r := by
  induction fuel generalizing st with
  | zero => omega
  | succ k ih =>
    obtain ⟨ins, q, walked⟩ := st
    cases q with
    | nil => exact ⟨_, rfl⟩
    | cons n q =>
      simp only [wloop, List.length_cons] at h ⊢
      cases hs : wstep G nodes ⟨ins, q, walked⟩ n with
      | none => exact ⟨_, rfl⟩
      | some st' =>
        simp only
        apply ih
        unfold wstep at hs
        simp only at hs
        split at hs
        · cases hs; simp only; omega
        · rename_i hw
          have hle := pend_cons_le G nodes walked n
          split at hs
          · cases hs
          · rename_i hn
            have hn' : n ∈ nodes := by
              apply Classical.byContradiction; exact fun hc => hn hc
            have hlt := pend_lt G nodes walked n hn' hw
            split at hs
            · cases hs; simp only; omega
            · split at hs
              · cases hs; simp only; omega
              · split at hs
                · cases hs
                · cases hs; simp only [List.length_append]; omega
end

theorem pend_range (recs : List Rec) :
    pend (arenaGraph recs).toGraph (List.range recs.length) [] = (recs.map (fun r => r.2.length)).sum := by
  unfold pend
  have : (List.range recs.length).filter (fun n => n ∉ ([] : List Nat)) = List.range recs.length := by
    rw [List.filter_eq_self]; intro a _; simp
  rw [this]
  congr 1
  apply List.ext_getElem
  · simp
  · intro i h1 h2
    simp only [List.length_map, List.length_range] at h1
    simp [BGraph.toGraph, arenaGraph, h1]

theorem walkFuel_enough (recs : List Rec) (outs : List Nat) :
    ∃ r, graphWalker (arenaGraph recs).toGraph (List.range recs.length) (walkFuel recs outs) outs = some r := by
  apply wloop_fuel
  simp only [pend_range, walkFuel]
  omega

end Verif.Module
