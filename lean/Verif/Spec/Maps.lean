import Verif.Spec.Rows
import Mathlib.Logic.Relation

/-! # Specification: maps (symmetries)

A map lists, for every coordinate `i`, the new value of that coordinate as a sum of terms
`factor * x_index` (an affine map of the homogenised space).  This file does not use the model. -/

namespace Panda.Spec

/-- total factor of coordinate `j` in the image of coordinate `i` -/
def factor (m : List (List (Nat × Int))) (i j : Nat) : Int :=
  (((m.getD i []).filter fun t => decide (t.1 = j)).map fun t => t.2).sum

/-- a map on rows of size `n`: one image per coordinate, all indices in range -/
structure IsMap (n : Nat) (m : List (List (Nat × Int))) : Prop where
  size : m.length = n
  range : ∀ im ∈ m, ∀ t ∈ im, t.1 < n

/-- the map, applied to a point (vertex or ray) of the homogenised space -/
def pushed (n : Nat) (m : List (List (Nat × Int))) (x : Fin n → ℚ) : Fin n → ℚ :=
  fun i => ∑ j : Fin n, (factor m i j : ℚ) * x j

/-- the inequality `a ∘ map` -/
def pulled (n : Nat) (m : List (List (Nat × Int))) (a : Fin n → ℚ) : Fin n → ℚ :=
  fun j => ∑ i : Fin n, (factor m i j : ℚ) * a i

/-- the map is a symmetry of the rows: it permutes them up to positive scaling -/
structure IsSymmetry (n : Nat) (V : List (List Int)) (m : List (List (Nat × Int))) : Prop where
  isMap : IsMap n m
  into : ∀ v ∈ V, ∃ w ∈ V, ∃ s : ℚ, 0 < s ∧ pushed n m (vec n v) = s • vec n w
  onto : ∀ w ∈ V, ∃ v ∈ V, ∃ s : ℚ, 0 < s ∧ pushed n m (vec n v) = s • vec n w

/-- the map is a symmetry of a system of inequalities: pulling back permutes the inequalities up to
positive scaling -/
structure IsSystemSymmetry (n : Nat) (A : List (List Int)) (m : List (List (Nat × Int))) : Prop where
  isMap : IsMap n m
  into : ∀ a ∈ A, ∃ b ∈ A, ∃ s : ℚ, 0 < s ∧ pulled n m (vec n a) = s • vec n b
  onto : ∀ b ∈ A, ∃ a ∈ A, ∃ s : ℚ, 0 < s ∧ pulled n m (vec n a) = s • vec n b

/-- the map is a symmetry of the hull of the rows: it maps the cone they generate onto itself -/
structure IsHullSymmetry (n : Nat) (V : List (List Int)) (m : List (List (Nat × Int))) : Prop where
  isMap : IsMap n m
  into : ∀ v ∈ V, InConeOf n V (pushed n m (vec n v))
  onto : ∀ w ∈ V, ∃ x, InConeOf n V x ∧ pushed n m x = vec n w

/-- the homogeneous system of inequalities holds at `x` -/
def InSystem (n : Nat) (A : List (List Int)) (x : Fin n → ℚ) : Prop := ∀ a ∈ A, ∑ i, vec n a i * x i ≤ 0

/-- the map is a symmetry of the set of solutions: it maps the cone of solutions of the homogeneous system onto itself -/
structure IsSolutionSymmetry (n : Nat) (A : List (List Int)) (m : List (List (Nat × Int))) : Prop where
  isMap : IsMap n m
  into : ∀ x, InSystem n A x → InSystem n A (pushed n m x)
  onto : ∀ y, InSystem n A y → ∃ x, InSystem n A x ∧ pushed n m x = y

/-- `b` is the image of the inequality `a` under one of the maps, up to a positive factor and modulo the
equations -/
def SymStep (n : Nat) (E : List (List Int)) (maps : List (List (List (Nat × Int)))) (a b : List Int) : Prop :=
  ∃ m ∈ maps, ∃ s : ℚ, 0 < s ∧ vec n b - s • pulled n m (vec n a) ∈ span n E

/-- `b` is the image of the vertex or ray `a` under one of the maps, up to a positive factor -/
def PointStep (n : Nat) (maps : List (List (List (Nat × Int)))) (a b : List Int) : Prop :=
  ∃ m ∈ maps, ∃ s : ℚ, 0 < s ∧ vec n b = s • pushed n m (vec n a)

/-- rows of `F` connected by steps that stay in `F` -/
def OrbitIn (F : List (List Int)) (step : List Int → List Int → Prop) : List Int → List Int → Prop :=
  Relation.ReflTransGen fun a b => a ∈ F ∧ b ∈ F ∧ step a b

/-- facets (normalised modulo the equations `E`) connected by symmetries -/
def FacetOrbit (n : Nat) (V E : List (List Int)) (maps : List (List (List (Nat × Int)))) : List Int → List Int → Prop :=
  Relation.ReflTransGen fun a b => NormalisedFacet n V E a ∧ NormalisedFacet n V E b ∧ SymStep n E maps a b

/-- vertices and rays (extreme rays of the cone given by `A`) connected by symmetries -/
def PointOrbit (n : Nat) (A : List (List Int)) (maps : List (List (List (Nat × Int)))) : List Int → List Int → Prop :=
  Relation.ReflTransGen fun a b => NormalisedFacet n A [] a ∧ NormalisedFacet n A [] b ∧ PointStep n maps a b

/-- the map is affine: the last (homogenising) coordinate is kept -/
def IsAffine (d : Nat) (m : List (List (Nat × Int))) : Prop :=
  ∀ j ≤ d, factor m d j = if j = d then 1 else 0

/-- the map can be adapted to the equations without dividing: whenever the new value of a coordinate that is not eliminated mentions an
eliminated coordinate, the leading coefficient of its equation is one (or the equation says that this coordinate is zero) -/
def Adaptable (n : Nat) (E : List (List Int)) (m : List (List (Nat × Int))) : Prop :=
  ∀ i < n, (∀ e ∈ E, ¬ Lead e i) → ∀ e ∈ E, ∀ k, Lead e k →
    factor m i k = 0 ∨ e.getD k 0 = 1 ∨ ∀ j, j ≠ k → e.getD j 0 = 0

end Panda.Spec
