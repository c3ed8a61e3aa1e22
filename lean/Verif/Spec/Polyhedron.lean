import Mathlib.LinearAlgebra.FiniteDimensional.Defs
import Mathlib.Data.Rat.Lemmas
import Mathlib.Algebra.BigOperators.Fin
import Mathlib.LinearAlgebra.Dimension.Finrank

/-! # Specification: polyhedra given by integer rows

This file does not use the model of the code.  A *vertex* `p ∈ ℚ^d` is written as an integer row
`(v_1, ..., v_d, w)` with `w > 0` and `p = v / w`; a *ray* as a row with last entry `0`.  An
inequality `a·x ≤ b` (or an equation `a·x = b`) is written as the row `(a, -b)`. -/

namespace Panda.Spec

open Module

/-- inner product of two integer rows -/
def ip (a v : List Int) : Int := (List.zipWith (· * ·) a v).sum

/-- a row as a vector of rationals -/
def vec (n : Nat) (r : List Int) : Fin n → ℚ := fun i => (r.getD i 0 : ℚ)

/-- the linear span of the rows -/
def span (n : Nat) (V : List (List Int)) : Submodule ℚ (Fin n → ℚ) :=
  Submodule.span ℚ {x | ∃ v ∈ V, x = vec n v}

/-- rank over the rationals of the rows -/
noncomputable def rank (n : Nat) (V : List (List Int)) : Nat := finrank ℚ (span n V)

/-- the gcd of the entries is one -/
def PrimitiveRow (r : List Int) : Prop := ∀ d : Nat, (∀ x ∈ r, (d : Int) ∣ x) ↔ d = 1

/-- all rows satisfy the inequality `a` -/
def Valid (V : List (List Int)) (a : List Int) : Prop := ∀ v ∈ V, ip a v ≤ 0

/-- the inequality `a` is valid for all rows, and the rows satisfying it with equality have rank one
less than all the rows -/
def IsFacet (n : Nat) (V : List (List Int)) (a : List Int) : Prop :=
  a.length = n ∧ Valid V a ∧ rank n (V.filter fun v => decide (ip a v = 0)) + 1 = rank n V

/-- an input in dimension `d`: rows of size `d + 1` with non-negative last entry, at least one of
which is a vertex -/
structure IsVInput (d : Nat) (V : List (List Int)) : Prop where
  size : ∀ v ∈ V, v.length = d + 1
  last : ∀ v ∈ V, 0 ≤ v.getD d 0
  vertex : ∃ v ∈ V, 0 < v.getD d 0

/-- the point `v / w` of a vertex, or the direction of a ray -/
def coord (d : Nat) (v : List Int) : Fin d → ℚ := fun i =>
  if v.getD d 0 = 0 then (v.getD i 0 : ℚ) else (v.getD i 0 : ℚ) / (v.getD d 0 : ℚ)

/-- `p` is a convex combination of the vertices plus a conic combination of the rays -/
def InPolyhedron (d : Nat) (V : List (List Int)) (p : Fin d → ℚ) : Prop :=
  ∃ c : Fin V.length → ℚ, (∀ j, 0 ≤ c j) ∧
    (∑ j, if V[j].getD d 0 = 0 then 0 else c j) = 1 ∧ p = ∑ j, c j • coord d V[j]

/-- value of the constraint row at a point: `a·p - b` -/
def value (d : Nat) (a : List Int) (p : Fin d → ℚ) : ℚ := (∑ i : Fin d, (a.getD i 0 : ℚ) * p i) + (a.getD d 0 : ℚ)

/-- the point satisfies all equations of `E` and all inequalities of `F` -/
def Satisfies (d : Nat) (E F : List (List Int)) (p : Fin d → ℚ) : Prop :=
  (∀ e ∈ E, value d e p = 0) ∧ ∀ a ∈ F, value d a p ≤ 0

/-- `x` is a conic combination of the rows -/
def InConeOf (n : Nat) (V : List (List Int)) (x : Fin n → ℚ) : Prop :=
  ∃ c : Fin V.length → ℚ, (∀ j, 0 ≤ c j) ∧ x = ∑ j, c j • vec n V[j]

/-- a system of inequalities is satisfied at a point -/
def Solves (d : Nat) (A : List (List Int)) (p : Fin d → ℚ) : Prop := ∀ a ∈ A, value d a p ≤ 0

/-- the solution set contains a line -/
def HasLine (d : Nat) (A : List (List Int)) : Prop :=
  ∃ p q : Fin d → ℚ, q ≠ 0 ∧ ∀ t : ℚ, Solves d A (p + t • q)

/-- the row spans an extreme ray of the cone `{x | a·x ≤ 0 for all a ∈ A}`: it is in it, and whenever it
is a sum of two elements of the cone, both are multiples of it -/
def IsExtremeRay (n : Nat) (A : List (List Int)) (r : List Int) : Prop :=
  (∀ a ∈ A, ip a r ≤ 0) ∧ vec n r ≠ 0 ∧
    ∀ x y : Fin n → ℚ, (∀ a ∈ A, ∑ i : Fin n, (a.getD i 0 : ℚ) * x i ≤ 0) →
      (∀ a ∈ A, ∑ i : Fin n, (a.getD i 0 : ℚ) * y i ≤ 0) → vec n r = x + y →
      (∃ t : ℚ, x = t • vec n r) ∧ ∃ t : ℚ, y = t • vec n r

/-- bit `j` of a bit set stored as 32-bit words, least significant bit first -/
def hasBit (b : List (BitVec 32)) (j : Nat) : Bool := (b.getD (j / 32) 0#32).getLsbD (j % 32)

/-- there are three valid inequalities that are linearly independent as functions on the rows: the
polyhedron has dimension at least two after dividing out the directions of its lines -/
def ThreeIndependent (n : Nat) (V : List (List Int)) : Prop :=
  ∃ a b c : List Int, (a.length = n ∧ b.length = n ∧ c.length = n) ∧ (Valid V a ∧ Valid V b ∧ Valid V c) ∧
    ∀ x y z : ℚ, (∀ v ∈ V, x * ip a v + y * ip b v + z * ip c v = 0) → x = 0 ∧ y = 0 ∧ z = 0

/-- the polyhedron spanned by the rows contains a line -/
def ContainsLine (d : Nat) (V : List (List Int)) : Prop :=
  ∃ p q : Fin d → ℚ, q ≠ 0 ∧ ∀ t : ℚ, InPolyhedron d V (p + t • q)

/-- two facets meet in a face of dimension two less than the polyhedron that contains a vertex -/
def Adjacent (n : Nat) (V : List (List Int)) (f g : List Int) : Prop :=
  rank n (V.filter fun v => decide (ip f v = 0 ∧ ip g v = 0)) + 2 = rank n V ∧
    ∃ v ∈ V, 0 < v.getD (n - 1) 0 ∧ ip f v = 0 ∧ ip g v = 0

end Panda.Spec
