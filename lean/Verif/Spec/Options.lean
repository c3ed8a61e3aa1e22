import Verif.Spec.Constraint

/-! # Specification: command line options (independent of the model) -/

namespace Panda.Spec

/-- an argument that looks like the option with letter `c`: it starts with `-c` or `--c` -/
def LooksLike (c : Char) (a : List Char) : Prop := ['-', c] <+: a ∨ ['-', '-', c] <+: a

/-- the first argument that looks like the option gives it the parameter `p`: `-c p`, `-c=p` or `--name=p` -/
def Given (c : Char) (long : List Char) (args : List (List Char)) (p : List Char) : Prop :=
  ∃ pre rest, (∀ a ∈ pre, ¬ LooksLike c a) ∧
    (args = pre ++ ['-', c] :: p :: rest ∨ args = pre ++ ('-' :: c :: '=' :: p) :: rest ∨ args = pre ++ (long ++ p) :: rest)

/-- no argument looks like the option -/
def Absent (c : Char) (args : List (List Char)) : Prop := ∀ a ∈ args, ¬ LooksLike c a

/-- a decimal integer with white space around it -/
def IntegerText (p : List Char) (z : Int) : Prop :=
  ∃ s n s', (∀ c ∈ s, Space c) ∧ Numeral n z ∧ (∀ c ∈ s', Space c) ∧ p = s ++ (n ++ s')

/-- a command line made of options `--…`, the flags `-c` and `-f`, options `-x p` with a parameter, and file names; the
list contains the file names -/
inductive CommandLine : List (List Char) → List (List Char) → Prop
  | nil : CommandLine [] []
  | long {a : List Char} {args files : List (List Char)} : ['-', '-'] <+: a → CommandLine args files → CommandLine (a :: args) files
  | flag {a : List Char} {args files : List (List Char)} : a = ['-', 'c'] ∨ a = ['-', 'f'] → CommandLine args files →
      CommandLine (a :: args) files
  | short {a p : List Char} {args files : List (List Char)} : ['-'] <+: a → ¬ ['-', '-'] <+: a → a ≠ ['-', 'c'] → a ≠ ['-', 'f'] →
      CommandLine args files → CommandLine (a :: p :: args) files
  | file {a : List Char} {args files : List (List Char)} : a ≠ [] → a.head? ≠ some '-' → CommandLine args files →
      CommandLine (a :: args) (a :: files)

/-- an argument that asks for help about a command or an option -/
def HelpAbout (a : List Char) : Prop := "-h=".toList <+: a ∨ "--help=".toList <+: a ∨ "--help-command=".toList <+: a
/-- a word that asks for help (`-h` is separate: followed by another argument it asks for help about that) -/
def HelpWord (a : List Char) : Prop := a ∈ ["?".toList, "--h".toList, "-help".toList, "--help".toList]
/-- a word that asks for the version -/
def VersionWord (a : List Char) : Prop := a ∈ ["-v".toList, "--v".toList, "-version".toList, "--version".toList]
/-- an argument that asks for help or the version -/
def ModeArgument (a : List Char) : Prop := a = "-h".toList ∨ HelpAbout a ∨ HelpWord a ∨ VersionWord a

/-- the first argument that looks like the option for known data names the file `f`: `-k f`, `-k=f`, `--known-data=f`,
and `--known-facets=f` or `--known-vertices=f`, whichever is allowed -/
def KnownGiven (long : List Char) (args : List (List Char)) (f : List Char) : Prop :=
  ∃ pre rest, (∀ a ∈ pre, ¬ LooksLike 'k' a) ∧
    (args = pre ++ ['-', 'k'] :: f :: rest ∨
      ∃ o ∈ ["-k=".toList, "--known-data=".toList, long], args = pre ++ (o ++ f) :: rest)

/-- a line of the text (without its end) -/
inductive LineOf : List Char → List Char → Prop
  | last {l : List Char} : '\n' ∉ l → LineOf l l
  | first {l t : List Char} : '\n' ∉ l → LineOf (l ++ '\n' :: t) l
  | later {l l' t : List Char} : '\n' ∉ l' → LineOf t l → LineOf (l' ++ '\n' :: t) l

/-- the words that start a section of vertices or rays -/
def hullWords : List String :=
  (["CONE_SECTION", "CONICAL_HULL", "CONICAL_HULL_SECTION", "CONV_SECTION", "CONVEX_HULL", "CONVEX_HULL_SECTION"].flatMap
    fun w => [w, w ++ ":", "REDUCED_" ++ w, "REDUCED_" ++ w ++ ":"]) ++
  (["Rays", "Vertices"].flatMap fun w => [w, w ++ ":", "Reduced " ++ w, "Reduced " ++ w ++ ":"])

/-- the words that start a section of inequalities -/
def inequalityWords : List String :=
  (["INEQUALITIES", "INEQUALITY_SECTION", "INEQUALITIES_SECTION"].flatMap
    fun w => [w, w ++ ":", "REDUCED_" ++ w, "REDUCED_" ++ w ++ ":"]) ++
  (["Inequalities"].flatMap fun w => [w, w ++ ":", "Reduced " ++ w, "Reduced " ++ w ++ ":"])

/-- some line of the text consists of one of the words, up to blanks -/
def HasWordLine (words : List String) (text : List Char) : Prop :=
  ∃ l b b' : List Char, ∃ k ∈ words, LineOf text l ∧ Blanks b ∧ Blanks b' ∧ l = b ++ (k.toList ++ b')

end Panda.Spec
