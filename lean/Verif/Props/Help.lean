import Verif.Model.Help
import Verif.Props.Main

/-! # C72: help about an option -/

namespace Panda

namespace Spec

/-- the spellings of the options that `--help` lists (main.cpp:65-95), with the subject of each -/
def documentedOptions : List (HelpTopic × List String) :=
  [(.integerType, ["-i", "--integer-type"]), (.knownData, ["-k", "--known-data", "--known-facets", "--known-vertices"]),
   (.method, ["-m", "--method"]), (.sorting, ["-s", "--sorting"]), (.check, ["-c", "--check"]), (.threads, ["-t", "--threads"]),
   (.help, ["-h", "--help", "--help-command", "--h", "-help", "?"]), (.version, ["-v", "--v", "-version", "--version"])]

/-- the spellings among them under which the help text is not found -/
def unknownSpellings : List String := ["--known-data", "--known-facets", "--known-vertices", "--help-command", "--v"]

/-- the command line asks for help about `p`: the first argument that has to do with help or the version is `-h` followed by `p`,
or `-h=p`, `--help=p` or `--help-command=p` -/
def AsksAbout (args : List (List Char)) (p : List Char) : Prop :=
  ∃ pre rest, (∀ b ∈ pre, ¬ ModeArgument b) ∧
    (args = pre ++ "-h".toList :: p :: rest ∨ ∃ o ∈ ["-h=", "--help=", "--help-command="], args = pre ++ (o.toList ++ p) :: rest)

end Spec

theorem skipToHelp_append {pre l : List Arg} (h : ∀ b ∈ pre, ¬ Spec.ModeArgument b) : skipToHelp (pre ++ l) = skipToHelp l := by
  induction pre with
  | nil => rfl
  | cons b pre ih =>
    have hb := h b (by simp)
    unfold Spec.ModeArgument Spec.HelpAbout at hb
    rw [List.cons_append, skipToHelp, if_pos, ih fun c hc => h c (by simp [hc])]
    refine ⟨fun e => hb (.inl e), ?_, ?_, ?_⟩
    · exact Bool.eq_false_iff.2 fun e => hb (.inr (.inl (.inl (List.isPrefixOf_iff_prefix.1 e))))
    · exact Bool.eq_false_iff.2 fun e => hb (.inr (.inl (.inr (.inl (List.isPrefixOf_iff_prefix.1 e)))))
    · exact Bool.eq_false_iff.2 fun e => hb (.inr (.inl (.inr (.inr (List.isPrefixOf_iff_prefix.1 e)))))

theorem helpParameter_eq {args : List Arg} {p : Arg} (h : Spec.AsksAbout args p) : helpParameter args = some p := by
  obtain ⟨pre, rest, hpre, h⟩ := h
  unfold helpParameter
  rcases h with rfl | ⟨o, ho, rfl⟩
  · rw [skipToHelp_append hpre, skipToHelp, if_neg (fun h => h.1 rfl)]
    dsimp only
    rw [if_pos rfl]; rfl
  · rw [skipToHelp_append hpre]
    simp only [List.mem_cons, List.not_mem_nil, or_false] at ho
    have e1 : "-h=".toList = ['-', 'h', '='] := by decide +kernel
    have e2 : "--help=".toList = ['-', '-', 'h', 'e', 'l', 'p', '='] := by decide +kernel
    have e3 : "--help-command=".toList = ['-', '-', 'h', 'e', 'l', 'p', '-', 'c', 'o', 'm', 'm', 'a', 'n', 'd', '='] := by decide +kernel
    have e4 : "-h".toList = ['-', 'h'] := by decide +kernel
    rcases ho with rfl | rfl | rfl
    · rw [skipToHelp, e1, e2, e3, e4]
      simp [List.isPrefixOf]
    · rw [skipToHelp, e1, e2, e3, e4]
      simp [List.isPrefixOf]
    · rw [skipToHelp, e1, e2, e3, e4]
      simp [List.isPrefixOf]

theorem programWithHelp_eq {text : HelpTopic → List Char} {ad : Bool → Option ProgramResult} {fuel : Nat} {files : Files} {args : List Arg} {p : Arg}
    (h : Spec.AsksAbout args p) : programWithHelp text ad fuel files args =
      some (match helpTopic p with | some t => .finished 0 (text t) | none => .finished 1 []) := by
  have e : programWithHelp text ad fuel files args = some (helpCommand text args) := by
    obtain ⟨pre, rest, hpre, h⟩ := h
    have k := C56_exit (ad := ad) (help := some (helpCommand text args)) (fuel := fuel) (files := files)
    rcases h with rfl | ⟨o, ho, rfl⟩
    · exact (k.1 pre (p :: rest) _ hpre).1 (.inr ⟨rfl, by simp⟩)
    · refine (k.1 pre rest _ hpre).1 (.inl ?_)
      simp only [List.mem_cons, List.not_mem_nil, or_false] at ho
      unfold Spec.HelpAbout
      rcases ho with rfl | rfl | rfl
      · exact .inl (List.prefix_append _ _)
      · exact .inr (.inl (List.prefix_append _ _))
      · exact .inr (.inr (List.prefix_append _ _))
  rw [e, helpCommand, helpParameter_eq h]
  rfl

/-- **C72**, the true part: the help about each option that `--help` lists is printed, with exit code 0, except for five spellings.  No
file is read. -/
theorem C72_documented_partial {text : HelpTopic → List Char} {ad : Bool → Option ProgramResult} {fuel : Nat} {files : Files} {args : List Arg}
    {t : HelpTopic} {names : List String} {o : String} (hd : (t, names) ∈ Spec.documentedOptions) (ho : o ∈ names) (hu : o ∉ Spec.unknownSpellings)
    (h : Spec.AsksAbout args o.toList) : programWithHelp text ad fuel files args = some (.finished 0 (text t)) := by
  rw [programWithHelp_eq h]
  have : helpTopic o.toList = some t := by
    have key : ∀ x ∈ Spec.documentedOptions, ∀ o ∈ x.2, o ∉ Spec.unknownSpellings → helpTopic o.toList = some x.1 := by decide +kernel
    exact key _ hd _ ho hu
  rw [this]

/-- **C72 is false of the code**: for five of the spellings that `--help` lists, the help about the option is not found and the exit
code is 1. -/
theorem C72_unknown_false {text : HelpTopic → List Char} {ad : Bool → Option ProgramResult} {fuel : Nat} {files : Files} {args : List Arg}
    {o : String} (hu : o ∈ Spec.unknownSpellings) (h : Spec.AsksAbout args o.toList) :
    (∃ x ∈ Spec.documentedOptions, o ∈ x.2) ∧ programWithHelp text ad fuel files args = some (.finished 1 []) := by
  constructor
  · clear h; revert o; decide +kernel
  · rw [programWithHelp_eq h]
    have : helpTopic o.toList = none := by
      have key : ∀ o ∈ Spec.unknownSpellings, helpTopic o.toList = none := by decide +kernel
      exact key _ hu
    rw [this]

/-- C72: whatever is asked about, the answer is one of the texts with exit code 0, or nothing with exit code 1; a text is printed only
about the spellings of an option, with or without its dashes and, for known data, with `_` instead of `-` -/
theorem C72_exit {text : HelpTopic → List Char} {ad : Bool → Option ProgramResult} {fuel : Nat} {files : Files} {args : List Arg} {p : Arg}
    (h : Spec.AsksAbout args p) :
    programWithHelp text ad fuel files args = some (.finished 1 []) ∨
    ∃ t, programWithHelp text ad fuel files args = some (.finished 0 (text t)) ∧
      ∃ names, (t, names) ∈ Spec.documentedOptions ∧ ∃ o ∈ names, ∃ dashes ∈ [[], ['-'], ['-', '-']],
        p.map (fun c => if c = '_' then '-' else c) = dashes ++ o.toList.dropWhile (· = '-') := by
  rw [programWithHelp_eq h]
  cases e : helpTopic p with
  | none => exact .inl rfl
  | some t =>
    refine .inr ⟨t, rfl, ?_⟩
    unfold helpTopic at e
    split_ifs at e with h1 h2 h3 h4 h5 h6 h7 h8 <;> cases e
    · rcases h1 with rfl | rfl | rfl | rfl <;> exact ⟨_, by unfold Spec.documentedOptions; simp; rfl, by decide +kernel⟩
    · rcases h2 with rfl | rfl | rfl | rfl | rfl | rfl | rfl <;> exact ⟨_, by unfold Spec.documentedOptions; simp; rfl, by decide +kernel⟩
    · rcases h3 with rfl | rfl | rfl | rfl <;> exact ⟨_, by unfold Spec.documentedOptions; simp; rfl, by decide +kernel⟩
    · rcases h4 with rfl | rfl | rfl | rfl | rfl | rfl | rfl | rfl <;> exact ⟨_, by unfold Spec.documentedOptions; simp; rfl, by decide +kernel⟩
    · rcases h5 with rfl | rfl | rfl | rfl <;> exact ⟨_, by unfold Spec.documentedOptions; simp; rfl, by decide +kernel⟩
    · rcases h6 with rfl | rfl | rfl | rfl <;> exact ⟨_, by unfold Spec.documentedOptions; simp; rfl, by decide +kernel⟩
    · rcases h7 with rfl | rfl | rfl | rfl <;> exact ⟨_, by unfold Spec.documentedOptions; simp; rfl, by decide +kernel⟩
    · rcases h8 with rfl | rfl | rfl | rfl | rfl <;> exact ⟨_, by unfold Spec.documentedOptions; simp; rfl, by decide +kernel⟩

/-- a command line that asks for help about `--threads`, and one that asks about `--known-data` -/
example : Spec.AsksAbout ["data".toList, "-h".toList, "--threads".toList] "--threads".toList ∧
    Spec.AsksAbout ["--help=--known-data".toList] "--known-data".toList := by
  refine ⟨⟨["data".toList], [], ?_, .inl rfl⟩, ⟨[], [], by simp, .inr ⟨"--help=", by simp, by decide +kernel⟩⟩⟩
  unfold Spec.ModeArgument Spec.HelpAbout Spec.HelpWord Spec.VersionWord
  decide +kernel

end Panda
