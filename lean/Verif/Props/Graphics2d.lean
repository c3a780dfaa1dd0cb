import Verif.Api.Graphics2d
import Verif.Kernels.Resample
import Mathlib.Tactic.FieldSimp
import Mathlib.Tactic.Ring
import Mathlib.Tactic.Linarith
import Mathlib.Tactic.NormNum
import Mathlib.Tactic.LinearCombination
import Mathlib.Analysis.SpecialFunctions.Trigonometric.Basic
import Mathlib.Analysis.Complex.Trigonometric
/-!
# C91: transformations of the plane

Specification: a transformation is what it does to points. Stacking transformations applies them one after the other, the
inverse undoes a transformation, the named ones move a point as their names say (a rotation multiplies the complex number
of the point by `exp (i * angle)`).
-/
namespace Verif.Props
open Verif.Api.Graphics2d

namespace G91

variable {K : Type} [Field K]

theorem trans_ext {A B : Trans2D K} (h0 : A.d0 = B.d0) (h1 : A.d1 = B.d1) (h2 : A.d2 = B.d2) (h3 : A.d3 = B.d3)
    (h4 : A.d4 = B.d4) (h5 : A.d5 = B.d5) (h6 : A.d6 = B.d6) (h7 : A.d7 = B.d7) (h8 : A.d8 = B.d8) : A = B := by
  cases A; cases B; simp_all

/-- the last row is 0 0 1 -/
def Affine (M : Trans2D K) : Prop := M.d6 = 0 ∧ M.d7 = 0 ∧ M.d8 = 1

/-- the signed change of areas -/
def det (M : Trans2D K) : K := M.d0 * M.d4 - M.d1 * M.d3

/-- apply transformations one after the other -/
def applyAll : List (Trans2D K) → Vec2D K → Vec2D K
  | [], p => p
  | M :: t, p => applyAll t (transform M p)

theorem transform_eq (M : Trans2D K) (p : Vec2D K) :
    transform M p = ⟨M.d0 * p.x + M.d1 * p.y + M.d2, M.d3 * p.x + M.d4 * p.y + M.d5⟩ := by
  simp [transform, transform3, Trans2D.data, Trans2D.at, Trans2D.toList]

theorem dot_eq (A B : Trans2D K) : dot A B =
    ⟨A.d0 * B.d0 + A.d1 * B.d3 + A.d2 * B.d6, A.d0 * B.d1 + A.d1 * B.d4 + A.d2 * B.d7, A.d0 * B.d2 + A.d1 * B.d5 + A.d2 * B.d8,
      A.d3 * B.d0 + A.d4 * B.d3 + A.d5 * B.d6, A.d3 * B.d1 + A.d4 * B.d4 + A.d5 * B.d7, A.d3 * B.d2 + A.d4 * B.d5 + A.d5 * B.d8,
      A.d6 * B.d0 + A.d7 * B.d3 + A.d8 * B.d6, A.d6 * B.d1 + A.d7 * B.d4 + A.d8 * B.d7, A.d6 * B.d2 + A.d7 * B.d5 + A.d8 * B.d8⟩ := by
  simp [dot, Trans2D.data, Trans2D.at, Trans2D.toList]

theorem dot_affine {A B : Trans2D K} (ha : Affine A) (hb : Affine B) : Affine (dot A B) := by
  obtain ⟨a6, a7, a8⟩ := ha
  obtain ⟨b6, b7, b8⟩ := hb
  rw [dot_eq]
  simp [Affine, a6, a7, a8, b6, b7, b8]

theorem transform_dot {A B : Trans2D K} (hb : Affine B) (p : Vec2D K) :
    transform (dot A B) p = transform A (transform B p) := by
  obtain ⟨b6, b7, b8⟩ := hb
  simp only [transform_eq, dot_eq, b6, b7, b8, Vec2D.mk.injEq]
  constructor <;> ring

end G91
open G91

section
variable {K : Type} [Field K]

/-- C91, matrices: `dot` and `transform` of a 3D vector are the matrix product -/
theorem C91_dot (A B : Trans2D K) (p : Vec3D K) : transform3 (dot A B) p = transform3 A (transform3 B p) := by
  rw [dot_eq]
  simp only [transform3, Trans2D.data, Trans2D.at, Trans2D.toList, Vec3D.mk.injEq]
  simp
  refine ⟨?_, ?_, ?_⟩ <;> ring

/-- C91, stacking: transformations stacked on the identity, in any number, apply one after the other, and the result has
the last row 0 0 1 again -/
theorem C91_stack (Ms : List (Trans2D K)) (h : ∀ M ∈ Ms, Affine M) :
    Affine (Ms.foldl stack identity) ∧ ∀ p, transform (Ms.foldl stack identity) p = applyAll Ms p := by
  suffices H : ∀ (Ms : List (Trans2D K)) (A : Trans2D K), Affine A → (∀ M ∈ Ms, Affine M) →
      Affine (Ms.foldl stack A) ∧ ∀ p, transform (Ms.foldl stack A) p = applyAll Ms (transform A p) by
    obtain ⟨h1, h2⟩ := H Ms identity (by simp [Affine, identity]) h
    refine ⟨h1, fun p => ?_⟩
    rw [h2 p]
    congr 1
    simp [transform_eq, identity]
  intro Ms
  induction Ms with
  | nil => intro A ha _; exact ⟨ha, fun _ => rfl⟩
  | cons M t ih =>
    intro A ha hm
    have hM : Affine M := hm M (by simp)
    obtain ⟨h1, h2⟩ := ih (stack A M) (dot_affine hM ha) (fun N hN => hm N (by simp [hN]))
    refine ⟨h1, fun p => ?_⟩
    rw [List.foldl_cons, h2 p, stack, transform_dot ha]
    rfl

example : transform ([scale 2 3, translate 10 0, reflectX true true].foldl stack identity) (⟨1, 1⟩ : Vec2D Rat) = ⟨12, -3⟩ ∧
    ∀ M ∈ ([scale 2 3, translate 10 0, reflectX true true] : List (Trans2D Rat)), Affine M := by
  refine ⟨by decide +kernel, ?_⟩
  simp [Affine, scale, translate, reflectX]

/-- a matrix with another last row is not a transformation of points: the third component is thrown away -/
theorem C91_stack_projective_false : ∃ (A B : Trans2D Rat) (p : Vec2D Rat), Affine A ∧
    transform (stack B A) p ≠ transform A (transform B p) :=
  ⟨translate 1 0, ⟨1, 0, 0, 0, 1, 0, 0, 0, 2⟩, ⟨0, 0⟩, by simp [Affine, translate], by decide +kernel⟩

/-- C91, what the named transformations do -/
theorem C91_named (p : Vec2D K) (a b : K) (fx fy : Bool) :
    transform identity p = p ∧ transform (translate a b) p = ⟨p.x + a, p.y + b⟩ ∧
    transform (scale a b) p = ⟨a * p.x, b * p.y⟩ ∧ transform (scale1 a) p = ⟨a * p.x, a * p.y⟩ ∧
    transform (shear a b) p = ⟨p.x + a * p.y, p.y + b * p.x⟩ ∧ transform (shearX a) p = ⟨p.x + a * p.y, p.y⟩ ∧
    transform (shearY a) p = ⟨p.x, p.y + a * p.x⟩ ∧
    transform (reflect fx fy) p = ⟨if fx then -p.x else p.x, if fy then -p.y else p.y⟩ ∧
    transform reflectOrigin p = ⟨-p.x, -p.y⟩ ∧ transform (reflectX fx fy) p = ⟨p.x, -p.y⟩ ∧
    transform (reflectY fx fy) p = ⟨-p.x, p.y⟩ := by
  cases p
  refine ⟨?_, ?_, ?_, ?_, ?_, ?_, ?_, ?_, ?_, ?_, ?_⟩ <;>
    simp [transform_eq, identity, translate, scale, scale1, shear, shearX, shearY, reflect, reflectOrigin, reflectX, reflectY] <;>
    first
      | ring
      | (constructor <;> split <;> simp)

/-- C91, affinity: all of them can be stacked -/
theorem C91_affine (a b : K) (fx fy : Bool) : Affine (identity : Trans2D K) ∧ Affine (translate a b) ∧ Affine (scale a b) ∧
    Affine (scale1 a) ∧ Affine (shear a b) ∧ Affine (shearX a) ∧ Affine (shearY a) ∧ Affine (reflect fx fy : Trans2D K) ∧
    Affine (reflectOrigin : Trans2D K) ∧ Affine (reflectX fx fy : Trans2D K) ∧ Affine (reflectY fx fy : Trans2D K) ∧
    Affine (rotateBy a b) := by
  simp [Affine, identity, translate, scale, scale1, shear, shearX, shearY, reflect, reflectOrigin, reflectX, reflectY, rotateBy]

end

section
variable {K : Type} [Field K] [LinearOrder K] [IsStrictOrderedRing K]

/-- C91, inverse: it undoes the transformation, before and after it, exactly if areas do not shrink below `FLT_EPSILON`.
So the claim is false of every transformation that shrinks areas more, e.g. a reduction to a 4096th. -/
theorem C91_inverse (eps : K) (he : 0 < eps) (M : Trans2D K) (hM : Affine M) :
    (Affine (inverse eps M) ∧ dot M (inverse eps M) = identity ∧ dot (inverse eps M) M = identity) ↔ eps ≤ |det M| := by
  obtain ⟨h6, h7, h8⟩ := hM
  have hinv : inverse eps M =
      (let t := if M.d3 * M.d1 - M.d0 * M.d4 < eps ∧ M.d3 * M.d1 - M.d0 * M.d4 > -eps then eps * 2
        else M.d3 * M.d1 - M.d0 * M.d4
      (⟨-M.d4 * (1 / t), M.d1 * (1 / t), -(M.d1 * M.d5 - M.d4 * M.d2) * (1 / t),
        M.d3 * (1 / t), -M.d0 * (1 / t), -(M.d3 * M.d2 - M.d0 * M.d5) * (1 / t), 0, 0, 1⟩ : Trans2D K)) := by
    simp [inverse, Trans2D.at, Trans2D.toList]
  have hdet : M.d3 * M.d1 - M.d0 * M.d4 = - det M := by rw [det]; ring
  rw [hdet] at hinv
  by_cases hc : -det M < eps ∧ -det M > -eps
  · rw [if_pos hc] at hinv
    have hlt : |det M| < eps := abs_lt.2 ⟨by linarith [hc.1], by linarith [hc.2]⟩
    constructor
    · rintro ⟨_, h, _⟩
      exfalso
      rw [hinv, dot_eq] at h
      have h0 := congrArg Trans2D.d0 h
      simp only [identity, h6, h7, h8] at h0
      have h2 : (eps * 2 : K) ≠ 0 := by positivity
      field_simp at h0
      have : det M = - (eps * 2) := by
        rw [det]
        linear_combination -h0
      rw [this, abs_neg, abs_of_pos (by positivity)] at hlt
      linarith
    · intro h
      exact absurd h (not_le.2 hlt)
  · rw [if_neg hc] at hinv
    have hge : eps ≤ |det M| := by
      by_contra hlt
      rw [not_le, abs_lt] at hlt
      exact hc ⟨by linarith [hlt.1], by linarith [hlt.2]⟩
    have hne : det M ≠ 0 := by
      rintro h0
      rw [h0, abs_zero] at hge
      linarith
    obtain ⟨D, hD⟩ : ∃ D, D = det M := ⟨_, rfl⟩
    rw [← hD] at hinv hne
    rw [det] at hD
    refine ⟨fun _ => hge, fun _ => ⟨?_, ?_, ?_⟩⟩
    · rw [hinv]; simp [Affine]
    · rw [hinv, dot_eq]
      simp only [h6, h7, h8]
      apply trans_ext <;> simp only [identity] <;> field_simp <;> (try simp only [hD]) <;> ring
    · rw [hinv, dot_eq]
      simp only [h6, h7, h8]
      apply trans_ext <;> simp only [identity] <;> field_simp <;> (try simp only [hD]) <;> ring

/-- C91, inverse of points: there and back again -/
theorem C91_inverse_points (eps : K) (he : 0 < eps) (M : Trans2D K) (hM : Affine M) (hd : eps ≤ |det M|) (p : Vec2D K) :
    transform (inverse eps M) (transform M p) = p ∧ transform M (transform (inverse eps M) p) = p := by
  obtain ⟨h1, h2, h3⟩ := (C91_inverse eps he M hM).2 hd
  rw [← transform_dot hM, ← transform_dot h1, h2, h3]
  cases p
  simp [transform_eq, identity]

end

/-- `FLT_EPSILON` -/
def fltEps : Rat := 1 / 2 ^ 23

example : Affine (dot (rotateBy 0 1) (scale1 (1 / 100 : Rat))) ∧ fltEps ≤ |det (dot (rotateBy 0 1) (scale1 (1 / 100 : Rat)))| := by
  rw [dot_eq]
  norm_num [Affine, rotateBy, scale1, scale, det, fltEps, abs_of_nonneg]

/-- the "inverse" of a reduction to a 4096th enlarges 1024 times only, and turns by 180 degrees -/
theorem C91_inverse_small_false :
    transform (inverse fltEps (scale1 (1 / 4096))) (transform (scale1 (1 / 4096)) ⟨4096, 0⟩) = (⟨-1024, 0⟩ : Vec2D Rat) := by
  norm_num [transform_eq, inverse, scale1, scale, Trans2D.at, Trans2D.toList, fltEps]

/-- C91, sampling: an image sampled with the inverse matrix shows at `M p` what is at `p` in the original: the place that
`affine_sample2d` (C66) reads for the output pixel in row `r` and column `q` is moved there by `M` -/
theorem C91_sample (M : Trans2D Rat) (hM : Affine M) (hd : fltEps ≤ |det M|) (r q : Nat) :
    let place := Verif.Kernels.affineLoc (inverse fltEps M).toList r q
    transform M ⟨place.2, place.1⟩ = ⟨q, r⟩ := by
  have h := (C91_inverse_points fltEps (by norm_num [fltEps]) M hM hd ⟨q, r⟩).2
  have : Verif.Kernels.affineLoc (inverse fltEps M).toList r q =
      ((transform (inverse fltEps M) ⟨q, r⟩).y, (transform (inverse fltEps M) ⟨q, r⟩).x) := by
    rw [transform_eq]
    simp [Verif.Kernels.affineLoc, Trans2D.toList]
  simp only [this]
  exact h

example : Affine (translate 3 4 : Trans2D Rat) ∧ fltEps ≤ |det (translate 3 4 : Trans2D Rat)| := by
  norm_num [Affine, translate, det, fltEps]

/-- `affine::rotate` without rounding, graphics2d.h:233-242 -/
noncomputable def rotate (degree : ℝ) : Trans2D ℝ :=
  rotateBy (Real.cos (degree * (Real.pi / 180))) (Real.sin (degree * (Real.pi / 180)))

/-- the point as a complex number -/
def toComplex (p : Vec2D ℝ) : ℂ := ⟨p.x, p.y⟩

/-- C91, rotation: the point is turned around the origin by the angle in degrees -/
theorem C91_rotate (degree : ℝ) (p : Vec2D ℝ) :
    toComplex (transform (rotate degree) p) = Complex.exp ((degree * Real.pi / 180 : ℝ) * Complex.I) * toComplex p := by
  rw [Complex.exp_mul_I, ← Complex.ofReal_cos, ← Complex.ofReal_sin]
  have : degree * Real.pi / 180 = degree * (Real.pi / 180) := by ring
  rw [this]
  simp only [transform_eq, rotate, rotateBy, toComplex]
  generalize Real.cos (degree * (Real.pi / 180)) = c
  generalize Real.sin (degree * (Real.pi / 180)) = s
  apply Complex.ext
  · simp
    ring
  · simp
    ring

/-- C91, rotations: distances are kept, rotations add, and the inverse is the rotation back -/
theorem C91_rotations (a b : ℝ) (p q : Vec2D ℝ) (eps : ℝ) (he : 0 < eps) (h1 : eps ≤ 1) :
    ‖toComplex (transform (rotate a) p) - toComplex (transform (rotate a) q)‖ = ‖toComplex p - toComplex q‖ ∧
    stack (rotate a) (rotate b) = rotate (a + b) ∧ inverse eps (rotate a) = rotate (-a) := by
  refine ⟨?_, ?_, ?_⟩
  · rw [C91_rotate, C91_rotate, ← mul_sub, norm_mul, Complex.norm_exp_ofReal_mul_I, one_mul]
  · simp only [stack, dot_eq, rotate, rotateBy, add_mul, Real.cos_add, Real.sin_add]
    apply trans_ext <;> ring
  · have hs := Real.sin_sq_add_cos_sq (a * (Real.pi / 180))
    simp only [rotate, neg_mul, Real.cos_neg, Real.sin_neg]
    generalize Real.sin (a * (Real.pi / 180)) = s at *
    generalize Real.cos (a * (Real.pi / 180)) = c at *
    have ht : s * -s - c * c = -1 := by linear_combination -hs
    have hn : ¬ ((-1 : ℝ) < eps ∧ (-1 : ℝ) > -eps) := by
      rintro ⟨_, h⟩
      linarith
    simp only [inverse, rotateBy, Trans2D.at, Trans2D.toList, List.getD_cons_succ, List.getD_cons_zero, ht, if_neg hn]
    apply trans_ext <;> norm_num

end Verif.Props
