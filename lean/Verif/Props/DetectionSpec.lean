import Verif.Kernels.DetectionOutput
/-!
# C84: what detection_output selects
-/
namespace Verif.Props
open Verif.Kernels

/-- the order of candidates: by descending score, then by position -/
def Ahead (s : Nat → Rat) (a b : Nat) : Prop := s b < s a ∨ (s a = s b ∧ a < b)

instance (s : Nat → Rat) (a b : Nat) : Decidable (Ahead s a b) := inferInstanceAs (Decidable (_ ∨ _))

/-- position `p` of `n` has a score above `thr` and is among the first `topK` of these (among all of them if `topK` is negative) -/
def Ranked (n : Nat) (s : Nat → Rat) (thr : Rat) (topK : Int) (p : Nat) : Prop :=
  p < n ∧ thr < s p ∧ (0 ≤ topK → (((List.range n).filter fun q => decide (thr < s q ∧ Ahead s q p)).length : Int) < topK)

/-- the overlap allowed to the next box once `n` boxes are kept -/
def lowered (fl : Rat → Rat) (eta nms : Rat) : Nat → Rat
  | 0 => nms
  | n + 1 => if eta < 1 ∧ 1 / 2 < lowered fl eta nms n then fl (lowered fl eta nms n * eta) else lowered fl eta nms n

/-- greedy suppression in one class: in the order of the candidates, one stays if it overlaps none of those that stayed before it by more than
what is allowed at that point; `B` are the boxes and `s` the scores of the `n` priors -/
structure Survivors (A : DetArith) (q : DetParams) (n : Nat) (s : Nat → Rat) (B : Nat → NBox) (kept : List Nat) : Prop where
  order : kept.Pairwise (Ahead s)
  stays : ∀ p, p ∈ kept ↔ Ranked n s q.conf q.topK p ∧ ∀ k ∈ kept, Ahead s k p →
    detWithin A (lowered A.fl q.eta q.nms (kept.filter fun u => decide (Ahead s u p)).length) (B p) (B k) = true

/-- how many there are in all classes -/
def totalOf (K : Nat) (found : Nat → List Nat) : Nat := ((List.range K).map fun c => (found c).length).sum

/-- the best `keep` of an image: of `found` (per class), by score; all if `keep` is negative or there are not more -/
structure Best (keep : Int) (K : Nat) (s : Nat → Nat → Rat) (found sel : Nat → List Nat) : Prop where
  all : keep < 0 ∨ (totalOf K found : Int) ≤ keep → ∀ c, c < K → sel c = found c
  count : 0 ≤ keep → keep < totalOf K found → (totalOf K sel : Int) = keep
  sub : ∀ c, c < K → (sel c).Nodup ∧ ∀ p ∈ sel c, p ∈ found c
  descend : ∀ c, c < K → (sel c).Pairwise fun a b => s c b ≤ s c a
  best : ∀ c p, c < K → p ∈ sel c → ∀ c' p', c' < K → p' ∈ found c' → p' ∉ sel c' → s c' p' ≤ s c p

/-- one row of the output -/
def detRowOf (fl : Rat → Rat) (i c : Nat) (score : Rat) (b : NBox) : List Rat := [fl i, fl c, score, b.xmin, b.ymin, b.xmax, b.ymax]

end Verif.Props
