import Verif.Spec.Polyhedron

/-! # Specification: divisors, echelon form (independent of the model) -/

namespace Panda.Spec

/-- `g` is the non-negative greatest common divisor of a list of integers -/
def IsGcd (l : List Int) (g : Int) : Prop :=
  0 ≤ g ∧ (∀ x ∈ l, g ∣ x) ∧ ∀ c, (∀ x ∈ l, c ∣ x) → c ∣ g

/-- `m` is the non-negative least common multiple of a list of integers -/
def IsLcm (l : List Int) (m : Int) : Prop :=
  0 ≤ m ∧ (∀ x ∈ l, x ∣ m) ∧ ∀ c, (∀ x ∈ l, x ∣ c) → m ∣ c

/-- `k` is the leading position of `e`: its first non-zero entry -/
def Lead (e : List Int) (k : Nat) : Prop := e.getD k 0 ≠ 0 ∧ ∀ i < k, e.getD i 0 = 0

/-- equations in reduced echelon form with positive leading coefficients: at the leading position of
an equation all other equations are zero -/
structure ReducedEchelon (n : Nat) (E : List (List Int)) : Prop where
  size : ∀ e ∈ E, e.length = n
  lead : ∀ e ∈ E, ∃ k, Lead e k ∧ 0 < e.getD k 0
  alone : E.Pairwise fun e e' => ∀ k, (Lead e k → e'.getD k 0 = 0) ∧ (Lead e' k → e.getD k 0 = 0)

/-- linear value of a row at a vector -/
def lin (n : Nat) (a : List Int) (x : Fin n → ℚ) : ℚ := ∑ i : Fin n, (a.getD i 0 : ℚ) * x i

/-- a row in lowest terms (the zero row counts as such) -/
def LowestTerms (r : List Int) : Prop := PrimitiveRow r ∨ ∀ x ∈ r, x = 0

/-- a facet in the form in which the program reports it: primitive, and zero at the leading positions of the equations -/
def NormalisedFacet (n : Nat) (V E : List (List Int)) (a : List Int) : Prop :=
  IsFacet n V a ∧ PrimitiveRow a ∧ ∀ e ∈ E, ∀ k, Lead e k → a.getD k 0 = 0

end Panda.Spec
