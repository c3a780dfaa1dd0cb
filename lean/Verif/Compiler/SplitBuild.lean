import Verif.Compiler.SplitLoop
/-!
# Building the fused graph
-/
namespace Verif.Compiler.Split
open Verif.Core Relation

theorem of_cons (t u : N) (l : List N) (L : Links) : Links.of ((t, l) :: L) u = if u = t then l else L.of u := by
  unfold Links.of
  by_cases h : u = t
  · subst h; simp
  · rw [if_neg h, List.lookup_cons]
    have : (u == t) = false := by simpa using h
    rw [this]

theorem links0_of {g : Gr} (hg : Ordered g) (n : Nat) : (links0 g).of (.orig n) = (g.inputs n).map N.orig := by
  have key : ∀ l : List Nat, Links.of (l.map fun n => (N.orig n, (g.inputs n).map N.orig)) (.orig n) = if n ∈ l then (g.inputs n).map N.orig else [] := by
    intro l
    induction l with
    | nil => rfl
    | cons x xs ih =>
      rw [List.map_cons, of_cons, ih]
      by_cases h : n = x
      · subst h; simp
      · have : (N.orig n = N.orig x) ↔ False := by simp [h]
        simp [this, h]
  unfold links0
  rw [key]
  split
  · rfl
  · rename_i h
    cases hin : g.inputs n with
    | nil => rfl
    | cons b bs => exact absurd (hg n b (by rw [hin]; exact List.mem_cons_self)).2 (fun h' => h (List.mem_range.mpr h'))

theorem links0_sub {g : Gr} (k : Nat) : (links0 g).of (.sub k) = [] := by
  have key : ∀ l : List Nat, Links.of (l.map fun n => (N.orig n, (g.inputs n).map N.orig)) (.sub k) = [] := by
    intro l
    induction l with
    | nil => rfl
    | cons x xs ih => rw [List.map_cons, of_cons, ih]; simp
  exact key _

theorem relink_of (m : N → N) (L : Links) (t u : N) : (relink m L t).of u = if u = t then (L.of t).map m else L.of u := by
  unfold relink; rw [of_cons]

theorem map_idem {m : N → N} (hm : ∀ x, m (m x) = m x) (l : List N) : (l.map m).map m = l.map m := by
  rw [List.map_map]; congr 1; funext x; exact hm x

theorem relinkList_of {m : N → N} (hm : ∀ x, m (m x) = m x) (want : N → Bool) (u : N) : ∀ (ts : List N) (L : Links),
    (ts.foldl (fun L t => if want t then relink m L t else L) L).of u = if u ∈ ts ∧ want u = true then (L.of u).map m else L.of u := by
  intro ts
  induction ts with
  | nil => intro L; simp
  | cons t ts ih =>
    intro L
    rw [List.foldl_cons, ih]
    by_cases hw : want t = true
    · rw [if_pos hw, relink_of]
      by_cases hu : u = t
      · subst hu
        rw [if_pos rfl, map_idem hm]
        simp [hw]
      · rw [if_neg hu]; simp [hu]
    · rw [if_neg hw]
      by_cases hu : u = t
      · subst hu; simp [hw]
      · simp [hu]

/-- nodes that can be consumers -/
def Cand (g : Gr) (k : Nat) : N → Prop
  | .orig n => n < g.size
  | .sub j => j < k + 1
  | _ => False

theorem mem_consumers {g : Gr} {k : Nat} {L : Links} {n : Nat} {u : N} : u ∈ consumers g k L n ↔ Cand g k u ∧ N.orig n ∈ L.of u := by
  unfold consumers
  rw [List.mem_filter, List.contains_iff_mem]
  apply and_congr_left
  intro _
  cases u <;> simp [Cand]

theorem relinkAll_of {g : Gr} {k : Nat} {m : N → N} (hm : ∀ x, m (m x) = m x) (want : N → Bool) (u : N) [Decidable (Cand g k u)] : ∀ (ns : List Nat) (L : Links),
    (relinkAll g k m want ns L).of u = if Cand g k u ∧ want u = true ∧ ∃ n ∈ ns, N.orig n ∈ L.of u then (L.of u).map m else L.of u := by
  intro ns
  induction ns with
  | nil => intro L; simp [relinkAll]
  | cons n ns ih =>
    intro L
    have e : relinkAll g k m want (n :: ns) L = relinkAll g k m want ns ((consumers g k L n).foldl (fun L t => if want t then relink m L t else L) L) := rfl
    rw [e, ih, relinkList_of hm]
    simp only [mem_consumers]
    by_cases hc : Cand g k u
    · by_cases hw : want u = true
      · by_cases hn : N.orig n ∈ L.of u
        · simp only [hc, hw, hn, true_and, and_self, if_true, map_idem hm, ite_self, List.mem_cons, exists_eq_or_imp, true_or]
        · simp only [hc, hw, hn, true_and, and_false, and_true, if_false, List.mem_cons, exists_eq_or_imp, false_or]
      · simp [hw]
    · simp [hc]

theorem mapSub_idem (k : Nat) (io : IO) (x : N) : mapSub k io (mapSub k io x) = mapSub k io x := by
  cases x with
  | orig n =>
    by_cases h1 : n ∈ io.outputs
    · have e : mapSub k io (.orig n) = outNode k io n := by unfold mapSub; simp only; rw [if_pos h1]
      rw [e]; unfold outNode; split <;> rfl
    · by_cases h2 : n ∈ io.inputs
      · have e : mapSub k io (.orig n) = .param k n := by unfold mapSub; simp only; rw [if_neg h1, if_pos h2]
        rw [e]; rfl
      · have e : mapSub k io (.orig n) = .orig n := by unfold mapSub; simp only; rw [if_neg h1, if_neg h2]
        rw [e, e]
  | _ => rfl

theorem newNodes_orig (k : Nat) (io : IO) (L : Links) (n : Nat) : (newNodes k io L).of (.orig n) = L.of (.orig n) := by
  unfold newNodes
  rw [of_cons, if_neg (by simp)]
  split
  · rfl
  · have : ∀ l : List Nat, Links.of ((l.map fun o => (N.field k o, [N.sub k])) ++ L) (.orig n) = L.of (.orig n) := by
      intro l
      induction l with
      | nil => rfl
      | cons x xs ih => rw [List.map_cons, List.cons_append, of_cons, if_neg (by simp), ih]
    exact this _

theorem newNodes_sub (k : Nat) (io : IO) (L : Links) : (newNodes k io L).of (.sub k) = io.inputs.map N.orig := by
  unfold newNodes
  rw [of_cons, if_pos rfl]

/-- no node of the group reads both an outside input and a node that is also read outside; no outside node reads both a result of the group and one of its inputs -/
structure Clean (g : Gr) (grp : Nat → Prop) (ins outs : List Nat) : Prop where
  inside : ∀ a x y, grp a → x ∈ g.inputs a → y ∈ g.inputs a → x ∈ ins → y ∉ outs
  outside : ∀ t x y, ¬ grp t → x ∈ g.inputs t → y ∈ g.inputs t → x ∈ outs → y ∉ ins

open Classical in
theorem buildOne_spec {g : Gr} (hg : Ordered g) {ru : Rule} {c : Color} {io : IO} (hpos : 0 < io.color) (hF : Fusable g ru (fun m => c m = io.color) io.inputs io.outputs)
    (hC : Clean g (fun m => c m = io.color) io.inputs io.outputs) :
    (∀ a, c a = io.color → (buildOne g c 0 io (links0 g)).of (.orig a) = (g.inputs a).map fun x => if c x = io.color then .orig x else .param 0 x) ∧
    (∀ t, c t ≠ io.color → (buildOne g c 0 io (links0 g)).of (.orig t) = (g.inputs t).map fun x => if c x = io.color then outNode 0 io x else .orig x) ∧
    (buildOne g c 0 io (links0 g)).of (.sub 0) = io.inputs.map N.orig := by
  have hmo : ∀ {n : Nat} {l : List Nat}, N.orig n ∈ l.map N.orig ↔ n ∈ l := by intro n l; simp
  have hIn : ∀ x, x ∈ io.inputs → c x ≠ io.color := fun x hx => ((hF.inputs x).mp hx).1
  have hOut : ∀ x, x ∈ io.outputs → c x = io.color := fun x hx => ((hF.outputs x).mp hx).1
  have hidem := mapSub_idem 0 io
  refine ⟨?_, ?_, ?_⟩
  · intro a ha
    have haS := (hF.members a ha).1
    unfold buildOne
    simp only
    rw [relinkAll_of hidem, if_neg (by simp [colorOf, ha]), relinkAll_of hidem, newNodes_orig, links0_of hg]
    split
    · rename_i h
      obtain ⟨_, _, b, hb, hba⟩ := h
      rw [hmo] at hba
      rw [List.map_map]
      apply List.map_congr_left
      intro x hx
      have hxo : x ∉ io.outputs := hC.inside a b x ha hba hx hb
      change mapSub 0 io (.orig x) = _
      unfold mapSub
      simp only
      rw [if_neg hxo]
      by_cases hxc : c x = io.color
      · rw [if_pos hxc, if_neg (fun h => hIn x h hxc)]
      · rw [if_neg hxc, if_pos ((hF.inputs x).mpr ⟨hxc, a, ha, hx⟩)]
    · rename_i h
      apply List.map_congr_left
      intro x hx
      by_cases hxc : c x = io.color
      · rw [if_pos hxc]
      · exfalso
        apply h
        exact ⟨haS, by simp [colorOf, ha], x, (hF.inputs x).mpr ⟨hxc, a, ha, hx⟩, hmo.mpr hx⟩
  · intro t ht
    unfold buildOne
    simp only
    rw [relinkAll_of hidem]
    have e : (relinkAll g 0 (mapSub 0 io) (fun t => colorOf c t == io.color) io.inputs (newNodes 0 io (links0 g))).of (.orig t) = (g.inputs t).map N.orig := by
      rw [relinkAll_of hidem, if_neg (by simp [colorOf, ht]), newNodes_orig, links0_of hg]
    rw [e]
    split
    · rename_i h
      obtain ⟨_, _, o, ho, hot⟩ := h
      rw [hmo] at hot
      rw [List.map_map]
      apply List.map_congr_left
      intro x hx
      have hxi : x ∉ io.inputs := hC.outside t o x ht hot hx ho
      change mapSub 0 io (.orig x) = _
      unfold mapSub
      simp only
      by_cases hxc : c x = io.color
      · rw [if_pos ((hF.outputs x).mpr ⟨hxc, t, ht, hx⟩), if_pos hxc]
      · rw [if_neg (fun h => hxc (hOut x h)), if_neg hxi, if_neg hxc]
    · rename_i h
      apply List.map_congr_left
      intro x hx
      by_cases hxc : c x = io.color
      · exfalso
        apply h
        refine ⟨(hg t x hx).2, by simp [colorOf, ht], x, (hF.outputs x).mpr ⟨hxc, t, ht, hx⟩, hmo.mpr hx⟩
      · rw [if_neg hxc]
  · unfold buildOne
    simp only
    have e : (relinkAll g 0 (mapSub 0 io) (fun t => colorOf c t == io.color) io.inputs (newNodes 0 io (links0 g))).of (.sub 0) = io.inputs.map N.orig := by
      rw [relinkAll_of hidem, if_neg ?_, newNodes_sub]
      rintro ⟨_, h, _⟩
      simp [colorOf] at h; omega
    rw [relinkAll_of hidem, if_neg ?_, e]
    rintro ⟨_, _, o, ho, h⟩
    rw [e, hmo] at h
    exact hIn o h (hOut o ho)

end Verif.Compiler.Split
