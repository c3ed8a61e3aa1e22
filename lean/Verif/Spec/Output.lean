import Verif.Spec.File

/-! # Specification: the text on the standard output (independent of the model) -/

namespace Panda.Spec

/-- a printed constraint: with names, terms over these names, the relation (`=` for equations, `<=` for inequalities) and the
right-hand side; without names, a row `a_1 … a_d -b` -/
def PrintedConstraint (equation : Bool) (names : List (List Char)) (t : List Char) : Constraint → Prop
  | .named terms rel rhs => names ≠ [] ∧ ConstraintLine t terms rel rhs ∧ (∀ q ∈ terms, q.1 ∈ names) ∧ ¬ Repeated terms ∧
      rel = if equation then .eq else .le
  | .unnamed _ _ _ => False
  | .raw row => names = [] ∧ RawLine t row

/-- the output of facet enumeration: the equations, if there are any, in a section of their own, and the inequalities -/
def PrintedSystem (names : List (List Char)) (text : List Char) (equations inequalities : List Constraint) : Prop :=
  ∃ te ti, Lines (PrintedConstraint true names) te equations ∧ Lines (PrintedConstraint false names) ti inequalities ∧
    text = (if equations = [] then [] else "Equations:\n".toList ++ te ++ "\n".toList) ++ "Inequalities:\n".toList ++ ti

/-- the output of vertex enumeration: a section of points and a section of rays, each only if there are any -/
def PrintedPoints (text : List Char) (points rays : List (List (Int × Int))) : Prop :=
  ∃ tp tr, VertexLines tp points ∧ VertexLines tr rays ∧
    text = (if points = [] then [] else "Vertices:\n".toList ++ tp) ++ (if rays = [] then [] else "Rays:\n".toList ++ tr)

/-- conic combination of the rays -/
def InRays (d : Nat) (rays : List (List (Int × Int))) (x : Fin d → ℚ) : Prop :=
  ∃ b : Fin rays.length → ℚ, (∀ j, 0 ≤ b j) ∧ x = ∑ j, b j • point d rays[j]

/-- the point satisfies all constraints of the file -/
def InequalityContent.Solution (c : InequalityContent) {d : Nat} (p : Fin d → ℚ) : Prop :=
  (∀ a ∈ c.inequalities, a.HoldsAt false c.names p) ∧ ∀ a ∈ c.equations, a.HoldsAt true c.names p

/-- the command line asks for the double description method -/
def UsesDD (args : List (List Char)) : Prop :=
  ∃ p ∈ ["dd".toList, "double-description".toList], Given 'm' "--method=".toList args p

/-- the command line asks for computation with checked integers -/
def UsesChecked (args : List (List Char)) : Prop := Given 'i' "--integer-type=".toList args "safe".toList

/-- the command line asks for computation with 32-bit integers (which is the default) -/
def UsesInt (args : List (List Char)) : Prop := Absent 'i' args ∨ Given 'i' "--integer-type=".toList args "32".toList

/-- no argument asks for help or the version -/
def NoHelp (args : List (List Char)) : Prop := ∀ a ∈ args, ¬ ModeArgument a

end Panda.Spec
