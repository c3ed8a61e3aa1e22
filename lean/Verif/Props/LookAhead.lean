import Verif.Model.FileStream
import Verif.Spec.Text

/-! # C79: looking ahead in a file -/

namespace Panda

/-! ## Specification -/

/-- the line at a position of a text: the characters up to the next line break -/
def Spec.lineAt (text : List Char) (pos : Nat) : List Char := (text.drop pos).takeWhile (· ≠ '\n')

/-- the word at a position of a text: after white space, the characters up to the next white space -/
def Spec.wordAt (text : List Char) (pos : Nat) : List Char := ((text.drop pos).dropWhile isSpace).takeWhile fun c => !isSpace c

/-- a position in the text -/
def FileStream.Inside (s : FileStream) : Prop := s.pos ≤ s.text.length

/-! ## Reading leaves a suffix -/

theorem stream_peek_rest (s : Stream) : s.peek.1.rest = s.rest := by
  unfold Stream.peek
  split
  · split
    · rename_i h; exact h.symm
    · rfl
  · rfl

theorem get_suffix (s : Stream) : s.get.1.rest <:+ s.rest := by
  unfold Stream.get
  split
  · split
    · exact List.nil_suffix
    · rename_i c r h; rw [h]; exact List.suffix_cons c r
  · exact List.suffix_refl _

theorem getLine_suffix (s : Stream) : (getLine s).1.rest <:+ s.rest := by
  unfold getLine
  split
  · have h := List.dropWhile_suffix (l := s.rest) (· ≠ '\n')
    split
    · rename_i c r hr; rw [hr] at h; exact (List.suffix_cons c r).trans h
    · exact List.nil_suffix
  · exact List.suffix_refl _

theorem readWord_suffix (s : Stream) : (readWord s).1.rest <:+ s.rest := by
  unfold readWord
  split
  · have h := List.dropWhile_suffix (l := s.rest) isSpace
    split
    · exact List.nil_suffix
    · rename_i c r hr
      rw [hr] at h
      have h2 := List.dropWhile_suffix (l := c :: r) (fun c => !isSpace c)
      split
      · exact List.nil_suffix
      · exact h2.trans h
  · exact List.suffix_refl _

theorem view_suffix (s : FileStream) : s.view.rest <:+ s.text := List.drop_suffix _ _

theorem view_reads (s : FileStream) (t : Stream) (h : t.rest <:+ s.text) : (s.reads t).view = t := by
  have : s.text.drop (s.text.length - t.rest.length) = t.rest := (List.suffix_iff_eq_drop.mp h).symm
  cases t
  simp only [FileStream.view, FileStream.reads] at this ⊢
  rw [this]

theorem reads_inside (s : FileStream) (t : Stream) : (s.reads t).Inside := Nat.sub_le _ _

theorem back_view (s u : FileStream) (h : u.text = s.text) (hs : s.good = true) : u.back s.tellg.2 = s := by
  obtain ⟨text, pos, eof, fail⟩ := s
  obtain ⟨text', pos', eof', fail'⟩ := u
  simp only [FileStream.good, Bool.and_eq_true, Bool.not_eq_true'] at hs
  obtain ⟨h1, h2⟩ := hs
  dsimp only at h
  subst h h1 h2
  simp [FileStream.back, FileStream.tellg, FileStream.clear, FileStream.seekg, FileStream.good]

theorem tellg_good {s : FileStream} (hs : s.good = true) : s.tellg.1 = s := by simp [FileStream.tellg, hs]

/-! ## C79 -/

/-- **C79** a `PositionGuardedFile` restores the stream: whatever is read from a good stream in its lifetime, afterwards the stream is what it was
before, the position and the state bits included -/
theorem C79_guard {α : Type} (body : FileStream → FileStream × α) (hb : ∀ u, (body u).1.text = u.text) {s : FileStream} (hs : s.good = true) :
    (FileStream.guarded body s).1 = s ∧ (FileStream.guarded body s).2 = (body s).2 := by
  refine ⟨?_, by simp only [FileStream.guarded, tellg_good hs]⟩
  simp only [FileStream.guarded]
  exact back_view s _ (by rw [hb, tellg_good hs]) hs

/-- **C79** `peekLine` delivers the line at the position and consumes nothing -/
theorem C79_line {s : FileStream} (hs : s.good = true) : s.peekLine = (s, Spec.lineAt s.text s.pos) := by
  have hf : s.fail = false := by simp [FileStream.good] at hs; exact hs.2
  simp only [FileStream.peekLine, hf, Bool.false_eq_true, if_false]
  refine Prod.ext ?_ ?_
  · exact back_view s _ (by rw [tellg_good hs]; rfl) hs
  · have hg : s.view.good = true := by simpa [Stream.good, FileStream.view, FileStream.good] using hs
    rw [tellg_good hs]
    show (getLine s.view).2.getD [] = _
    rw [getLine, if_pos hg]
    unfold Spec.lineAt
    show _ = s.view.rest.takeWhile (· ≠ '\n')
    split
    · rfl
    · rename_i h
      have := List.takeWhile_append_dropWhile (p := fun c : Char => decide (c ≠ '\n')) (l := s.view.rest)
      rw [h, List.append_nil] at this
      rw [this]; rfl

/-- **C79** reading the line afterwards delivers the same line -/
theorem C79_line_next {s : FileStream} (hs : s.good = true) : (getLine s.peekLine.1.view).2 = some s.peekLine.2 := by
  have hg : s.view.good = true := by simpa [Stream.good, FileStream.view, FileStream.good] using hs
  have h := C79_line hs
  rw [h]
  have h2 := congrArg Prod.snd h
  have hf : s.fail = false := by simp [FileStream.good] at hs; exact hs.2
  simp only [FileStream.peekLine, hf, Bool.false_eq_true, if_false, tellg_good hs] at h2
  show (getLine s.view).2 = some (Spec.lineAt s.text s.pos)
  rw [← h2]
  rw [getLine, if_pos hg]
  split <;> rfl

theorem readWord_found {s : Stream} (hs : s.good = true) (hw : s.rest.dropWhile isSpace ≠ []) :
    (readWord s).1.fail = false ∧ (readWord s).2 = some ((s.rest.dropWhile isSpace).takeWhile fun c => !isSpace c) := by
  rw [readWord, if_pos hs]
  split
  · rename_i h; exact absurd h hw
  · rename_i c r h
    split
    · rename_i h2
      refine ⟨rfl, ?_⟩
      have := List.takeWhile_append_dropWhile (p := fun c : Char => !isSpace c) (l := c :: r)
      rw [h2, List.append_nil] at this
      rw [h, this]
    · exact ⟨rfl, by rw [h]⟩

/-- **C79** `peekWord` delivers the word at the position and consumes nothing, if there is a word -/
theorem C79_word {s : FileStream} (hs : s.good = true) (hw : Spec.wordAt s.text s.pos ≠ []) :
    s.peekWord = (s, Spec.wordAt s.text s.pos) ∧ (readWord s.view).2 = some (Spec.wordAt s.text s.pos) := by
  have hg : s.view.good = true := by simpa [Stream.good, FileStream.view, FileStream.good] using hs
  have hne : s.view.rest.dropWhile isSpace ≠ [] := by
    intro h; apply hw; unfold Spec.wordAt
    show List.takeWhile _ (s.view.rest.dropWhile isSpace) = []
    rw [h]; rfl
  obtain ⟨h1, h2⟩ := readWord_found hg hne
  refine ⟨?_, h2⟩
  simp only [FileStream.peekWord, tellg_good hs, h1, Bool.false_eq_true, if_false, h2, Option.getD_some]
  exact Prod.ext (back_view s _ rfl hs) rfl

theorem relationTest_text (s : FileStream) : s.relationTest.1.text = s.text := by
  unfold FileStream.relationTest
  split
  · rfl
  · dsimp only
    split
    · split
      · rfl
      · split
        · rfl
        · split <;> rfl
    · rfl

theorem containsFrom_text (names : Names) : ∀ (fuel : Nat) (s : FileStream) (word : List Char) (counter : Nat),
    (FileStream.containsFrom names fuel s word counter).1.text = s.text
  | 0, s, _, _ => rfl
  | fuel + 1, s, word, counter => by
    rw [FileStream.containsFrom]
    split
    · rfl
    · dsimp only
      split
      · split
        · rfl
        · rw [containsFrom_text]; rfl
      · rw [containsFrom_text]; rfl

theorem keywordLoop_text : ∀ (n : Nat) (s : FileStream), (FileStream.keywordLoop n s).1.text = s.text
  | 0, s => rfl
  | n + 1, s => by
    rw [FileStream.keywordLoop]
    split
    · rfl
    · split
      · rfl
      · rw [keywordLoop_text]; rfl

theorem linesLoop_text : ∀ (n : Nat) (s : FileStream), (FileStream.linesLoop n s).1.text = s.text
  | 0, s => rfl
  | n + 1, s => by
    rw [FileStream.linesLoop]
    split
    · rfl
    · dsimp only; rw [linesLoop_text]; rfl

/-- **C79** `isRelation`, `containsNames`, `containsKeywords` and the detection of the mode consume nothing -/
theorem C79_tests (names : Names) {s : FileStream} (hs : s.good = true) :
    s.isRelation.1 = s ∧ (s.containsNames names).1 = s ∧ s.containsKeywords.1 = s ∧ s.keywords.1 = s :=
  ⟨(C79_guard _ relationTest_text hs).1, (C79_guard _ (fun _ => containsFrom_text _ _ _ _ _) hs).1, (C79_guard _ (keywordLoop_text 20) hs).1,
    (C79_guard _ (fun _ => linesLoop_text _ _) hs).1⟩

/-! ## The coarser models are exact -/

theorem view_drop {s : FileStream} (h : s.Inside) : s.text.drop (s.text.length - (s.text.drop s.pos).length) = s.text.drop s.pos := by
  unfold FileStream.Inside at h
  congr 1
  rw [List.length_drop]; omega

/-- the model of `peekLine` without positions is exact, for every state of the stream -/
theorem C79_line_model {s : FileStream} (h : s.Inside) : (s.peekLine.1.view, s.peekLine.2) = peekLine s.view := by
  by_cases hs : s.good = true
  · have hg : s.view.good = true := by simpa [Stream.good, FileStream.view, FileStream.good] using hs
    have hf : s.fail = false := by simp [FileStream.good] at hs; exact hs.2
    have he : s.eof = false := by simp [FileStream.good] at hs; exact hs.1
    have h2 := C79_line_next hs
    rw [C79_line hs] at h2 ⊢
    dsimp only at h2 ⊢
    rw [peekLine, if_neg (by simp [FileStream.view, hf]), restore, if_pos hg, if_pos hg, h2]
    simp [FileStream.view, he, hf]
  · obtain ⟨text, pos, eof, fail⟩ := s
    have hd := view_drop h
    simp only at hd
    cases fail
    · cases eof
      · simp [FileStream.good] at hs
      · simp [FileStream.peekLine, peekLine, FileStream.view, FileStream.tellg, FileStream.good, FileStream.reads, FileStream.back, FileStream.clear,
          FileStream.seekg, getLine, Stream.good, restore]
        have hle : pos ≤ text.length := h
        omega
    · simp [FileStream.peekLine, peekLine, FileStream.view]

/-- the model of `peekWord` without positions is exact, for every state of the stream -/
theorem C79_word_model {s : FileStream} (h : s.Inside) : (s.peekWord.1.view, s.peekWord.2) = peekWord s.view := by
  by_cases hs : s.good = true
  · have hg : s.view.good = true := by simpa [Stream.good, FileStream.view, FileStream.good] using hs
    rw [peekWord, if_pos hg]
    simp only [FileStream.peekWord, tellg_good hs]
    by_cases hw : (readWord s.view).1.fail = true
    · rw [if_pos hw, if_pos hw]
      dsimp only
      rw [view_reads _ _ ((readWord_suffix _).trans (view_suffix s))]
      refine Prod.ext rfl ?_
      dsimp only
      have : (readWord s.view).2 = none := by
        by_contra hne
        have h2 : s.view.rest.dropWhile isSpace ≠ [] := by
          intro h0
          apply hne
          rw [readWord, if_pos hg]
          simp [h0]
        rw [(readWord_found hg h2).1] at hw
        simp at hw
      rw [this]; rfl
    · rw [if_neg hw, if_neg hw]
      dsimp only
      rw [back_view s (s.reads (readWord s.view).1) rfl hs]
  · obtain ⟨text, pos, eof, fail⟩ := s
    have hd := view_drop h
    simp only at hd
    have hg : Stream.good ⟨text.drop pos, eof, fail⟩ = false := by simpa [Stream.good, FileStream.view, FileStream.good] using hs
    have hg2 : Stream.good ⟨text.drop pos, eof, true⟩ = false := by simp [Stream.good]
    have hs2 : FileStream.good ⟨text, pos, eof, fail⟩ = false := by simpa using hs
    simp only [FileStream.peekWord, peekWord, FileStream.view, FileStream.tellg, hs2, Bool.false_eq_true, if_false, readWord, hg, hg2, FileStream.reads]
    simp only [if_true, Option.getD_none, hd]

/-- the model of `isRelation` without positions is exact for a good stream -/
theorem C79_relation_model {s : FileStream} (hs : s.good = true) : s.isRelation.2 = isRelation s.view := by
  rw [FileStream.isRelation, (C79_guard _ relationTest_text hs).2]
  have hf : s.fail = false := by simp [FileStream.good] at hs; exact hs.2
  have he : s.eof = false := by simp [FileStream.good] at hs; exact hs.1
  have hg : s.view.good = true := by simpa [Stream.good, FileStream.view, FileStream.good] using hs
  have hv : s.view = ⟨s.view.rest, false, false⟩ := by simp [FileStream.view, hf, he]
  unfold FileStream.relationTest
  rw [if_neg (by simp [hf])]
  have hp : (s.reads s.view.peek.1).view = s.view.peek.1 := view_reads _ _ (by rw [stream_peek_rest]; exact view_suffix s)
  have hsuf := view_suffix s
  rcases hr : s.view.rest with _ | ⟨c, r⟩
  · rw [hr] at hv
    simp [hv, Stream.peek, Stream.good, isRelation]
  · rw [hr] at hv hsuf
    have hpk : s.view.peek = (s.view, some c) := by simp [hv, Stream.peek, Stream.good]
    have hsr : r <:+ s.text := (List.suffix_cons c r).trans hsuf
    have h1 : (s.reads s.view).view = s.view := view_reads _ _ (view_suffix s)
    have hget : s.view.get.1 = ⟨r, false, false⟩ := by simp [hv, Stream.get, Stream.good]
    have h2 : ((s.reads s.view).reads ⟨r, false, false⟩).view = ⟨r, false, false⟩ := view_reads _ _ hsr
    simp only [hpk, h1, hget, h2]
    have hff : ((s.reads s.view).reads ⟨r, false, false⟩).fail = false := rfl
    simp only [hff, Bool.false_eq_true, if_false]
    rcases r with _ | ⟨c2, r2⟩
    · have h3 : (((s.reads s.view).reads ⟨[], false, false⟩).reads ⟨[], true, false⟩).view = ⟨[], true, false⟩ := view_reads _ _ hsr
      have h7 : isRelation s.view = false := by rw [hv]; rfl
      rw [h7]
      simp [Stream.peek, Stream.good, isWhitespace, FileStream.reads, FileStream.view]
      split <;> rfl
    · have h3 : (((s.reads s.view).reads ⟨c2 :: r2, false, false⟩).reads ⟨c2 :: r2, false, false⟩).view = ⟨c2 :: r2, false, false⟩ := view_reads _ _ hsr
      have h4 : (((s.reads s.view).reads ⟨c2 :: r2, false, false⟩).reads ⟨c2 :: r2, false, false⟩).fail = false := rfl
      have h5 : Stream.peek ⟨c2 :: r2, false, false⟩ = (⟨c2 :: r2, false, false⟩, some c2) := by simp [Stream.peek, Stream.good]
      have h6 : (isWhitespace ⟨c2 :: r2, false, false⟩).2 = isBlank c2 := by simp [isWhitespace, h5]
      have h7 : isRelation s.view = ((decide (c = '<') || decide (c = '=') || decide (c = '>')) && (decide (c2 = '=') || isBlank c2)) := by rw [hv]; rfl
      simp only [h5, h3, h4, h6, h7, Bool.false_eq_true, if_false, Option.some.injEq]
      by_cases hc : c = '<' ∨ c = '=' ∨ c = '>'
      · rw [if_pos hc]
        have : (decide (c = '<') || decide (c = '=') || decide (c = '>')) = true := by rcases hc with h | h | h <;> simp [h]
        rw [this]
        by_cases h : c2 = '='
        · simp [h]
        · simp [h]
      · rw [if_neg hc]
        have : (decide (c = '<') || decide (c = '=') || decide (c = '>')) = false := by
          simp only [not_or] at hc; simp [hc]
        rw [this]; rfl

theorem containsFrom_exact (names : Names) : ∀ (fuel : Nat) (s : FileStream) (word : List Char) (counter : Nat), s.good = true →
    s.view.rest.length + 2 ≤ fuel → (FileStream.containsFrom names fuel s word counter).2 = containsLoop names s.view.rest word counter
  | 0, s, _, _, _, hl => by omega
  | fuel + 1, s, word, counter, hs, hl => by
    have hf : s.fail = false := by simp [FileStream.good] at hs; exact hs.2
    have he : s.eof = false := by simp [FileStream.good] at hs; exact hs.1
    have hv : s.view = ⟨s.view.rest, false, false⟩ := by simp [FileStream.view, hf, he]
    rw [FileStream.containsFrom]
    have hsuf := view_suffix s
    rcases hr : s.view.rest with _ | ⟨c, r⟩
    · rw [hr] at hv
      rw [containsLoop]
      by_cases hc : word = [] ∧ 2000 ≤ counter
      · rw [if_pos (Or.inr hc), if_pos hc]
      · rw [if_neg (by rintro (h | h); · rw [hf] at h; exact absurd h (by decide)
                       · exact hc h), if_neg hc]
        have hget : s.view.get = (⟨[], true, true⟩, none) := by simp [hv, Stream.get, Stream.good]
        have hfail : ∀ w k, (FileStream.containsFrom names fuel (s.reads ⟨[], true, true⟩) w k).2 = false := by
          intro w k
          cases fuel with
          | zero => rfl
          | succ fuel => rw [FileStream.containsFrom, if_pos (Or.inl (show (s.reads ⟨[], true, true⟩).fail = true from rfl))]
        simp only [hget, Option.getD_none]
        split
        · rename_i n hn
          rw [hn]
          by_cases hnw : n = word ++ [Char.ofNat 255]
          · simp [hnw]
          · rw [if_neg hnw]; simp [hfail, hnw]
        · rename_i hn
          rw [hn, hfail]
    · rw [hr] at hv hsuf hl
      rw [containsLoop]
      by_cases hc : word = [] ∧ 2000 ≤ counter
      · rw [if_pos (Or.inr hc), if_pos hc]
      · rw [if_neg (by rintro (h | h); · rw [hf] at h; exact absurd h (by decide)
                       · exact hc h), if_neg hc]
        have hget : s.view.get = (⟨r, false, false⟩, some c) := by simp [hv, Stream.get, Stream.good]
        have hsr : r <:+ s.text := (List.suffix_cons c r).trans hsuf
        have h1 : (s.reads ⟨r, false, false⟩).view = ⟨r, false, false⟩ := view_reads _ _ hsr
        have ih : ∀ w k, (FileStream.containsFrom names fuel (s.reads ⟨r, false, false⟩) w k).2 = containsLoop names r w k := by
          intro w k
          have := containsFrom_exact names fuel (s.reads ⟨r, false, false⟩) w k rfl (by rw [h1]; simp only [List.length_cons] at hl; dsimp only; omega)
          rw [this, h1]
        simp only [hget, Option.getD_some]
        split
        · rename_i n hn
          rw [hn]
          by_cases hnw : n = word ++ [c]
          · simp [hnw]
          · dsimp only; rw [if_neg hnw, if_neg hnw, ih]
        · rename_i hn
          rw [hn, ih]

/-- the model of `containsNames` without positions is exact for a good stream -/
theorem C79_names_model (names : Names) {s : FileStream} (hs : s.good = true) : (s.containsNames names).2 = containsNames names s.view := by
  rw [FileStream.containsNames, (C79_guard _ (fun _ => containsFrom_text _ _ _ _ _) hs).2, containsNames]
  exact containsFrom_exact names _ s [] 0 hs (by simp [FileStream.view])

theorem linesFrom_eq : ∀ (cur t : List Char), linesFrom cur t = match t.dropWhile (· ≠ '\n') with
    | _ :: r => (cur.reverse ++ t.takeWhile (· ≠ '\n')) :: linesFrom [] r
    | [] => if cur = [] ∧ t = [] then [] else [cur.reverse ++ t]
  | cur, [] => by
    rw [linesFrom]
    by_cases h : cur = [] <;> simp [h]
  | cur, c :: t => by
    rw [linesFrom]
    by_cases h : c = '\n'
    · simp [h]
    · rw [if_neg h, linesFrom_eq (c :: cur) t]
      simp only [List.dropWhile_cons, List.takeWhile_cons, ne_eq, h, not_false_eq_true, decide_true, if_true]
      split <;> simp

/-- reading one line, seen from the list of all lines -/
theorem getLine_lines {s : FileStream} (hs : s.good = true) :
    ((getLine s.view).1.fail = true ∧ textLines s.view.rest = []) ∨
    ((getLine s.view).1.fail = false ∧ (s.reads (getLine s.view).1).view = (getLine s.view).1 ∧
      (((getLine s.view).1.eof = false ∧ (getLine s.view).1.rest.length < s.view.rest.length ∧
        textLines s.view.rest = (getLine s.view).2.getD [] :: textLines (getLine s.view).1.rest) ∨
       ((getLine s.view).1.eof = true ∧ textLines s.view.rest = [(getLine s.view).2.getD []]))) := by
  have hg : s.view.good = true := by simpa [Stream.good, FileStream.view, FileStream.good] using hs
  have hv : (s.reads (getLine s.view).1).view = (getLine s.view).1 := view_reads _ _ ((getLine_suffix _).trans (view_suffix s))
  have hl := linesFrom_eq [] s.view.rest
  have hsuf := List.dropWhile_suffix (l := s.view.rest) (fun c : Char => decide (c ≠ '\n'))
  rcases hd : s.view.rest.dropWhile (fun c : Char => decide (c ≠ '\n')) with _ | ⟨c, r⟩
  · have hgl : getLine s.view = (⟨[], true, s.view.rest.isEmpty⟩, some s.view.rest) := by simp only [getLine, hg, if_true, hd]
    rw [hd] at hl
    dsimp only at hl
    by_cases he : s.view.rest = []
    · left; rw [hgl]; exact ⟨by simp [he], by rw [textLines, hl, if_pos ⟨rfl, he⟩]⟩
    · right
      rw [hgl] at hv ⊢
      refine ⟨by simpa using he, hv, Or.inr ⟨rfl, ?_⟩⟩
      rw [textLines, hl, if_neg (fun h => he h.2)]; rfl
  · have hgl : getLine s.view = (⟨r, false, false⟩, some (s.view.rest.takeWhile (· ≠ '\n'))) := by simp only [getLine, hg, if_true, hd]
    rw [hd] at hl hsuf
    dsimp only at hl
    right
    rw [hgl] at hv ⊢
    refine ⟨rfl, hv, Or.inl ⟨rfl, ?_, ?_⟩⟩
    · have := hsuf.length_le
      simp only [List.length_cons] at this
      dsimp only
      omega
    · rw [textLines, hl]; rfl

theorem getLine_not_good {s : FileStream} (hs : s.good = false) : (getLine s.view).1.fail = true := by
  have hg : s.view.good = false := by simpa [Stream.good, FileStream.view, FileStream.good] using hs
  rw [getLine, if_neg (by simp [hg])]

theorem keywordLoop_exact : ∀ (n : Nat) (s : FileStream), s.good = true →
    (FileStream.keywordLoop n s).2 = ((textLines s.view.rest).take n).any fun l => isKeyword (trimWhitespace l)
  | 0, s, _ => by simp [FileStream.keywordLoop]
  | n + 1, s, hs => by
    rw [FileStream.keywordLoop]
    rcases getLine_lines hs with ⟨h1, h2⟩ | ⟨h1, h2, h3⟩
    · rw [if_pos h1, h2]; rfl
    · rw [if_neg (by simp [h1])]
      rcases h3 with ⟨h3, -, h4⟩ | ⟨h3, h4⟩
      · have := keywordLoop_exact n (s.reads (getLine s.view).1) (by
          show (!(getLine s.view).1.eof && !(getLine s.view).1.fail) = true
          rw [h3, h1]; rfl)
        rw [h2] at this
        rw [h4, List.take_succ_cons, List.any_cons, ← this]
        by_cases hk : isKeyword (trimWhitespace ((getLine s.view).2.getD [])) = true
        · rw [if_pos hk, hk]; rfl
        · rw [if_neg hk]; simp [hk]
      · rw [h4, List.take_succ_cons, List.any_cons]
        have hz : (FileStream.keywordLoop n (s.reads (getLine s.view).1)).2 = false := by
          cases n with
          | zero => rfl
          | succ n =>
            rw [FileStream.keywordLoop, if_pos]
            apply getLine_not_good
            show (!(getLine s.view).1.eof && !(getLine s.view).1.fail) = false
            rw [h3]; rfl
        by_cases hk : isKeyword (trimWhitespace ((getLine s.view).2.getD [])) = true
        · rw [if_pos hk, hk]; rfl
        · rw [if_neg hk, hz]; simp [hk]

theorem linesLoop_exact : ∀ (n : Nat) (s : FileStream), s.good = true → s.view.rest.length + 2 ≤ n →
    (FileStream.linesLoop n s).2 = textLines s.view.rest
  | 0, s, _, hl => by omega
  | n + 1, s, hs, hl => by
    rw [FileStream.linesLoop]
    rcases getLine_lines hs with ⟨h1, h2⟩ | ⟨h1, h2, h3⟩
    · rw [if_pos h1, h2]
    · rw [if_neg (by simp [h1])]
      rcases h3 with ⟨h3, h5, h4⟩ | ⟨h3, h4⟩
      · have := linesLoop_exact n (s.reads (getLine s.view).1) (by
          show (!(getLine s.view).1.eof && !(getLine s.view).1.fail) = true
          rw [h3, h1]; rfl) (by rw [h2]; omega)
        rw [h2] at this
        rw [h4, ← this]
      · have hz : (FileStream.linesLoop n (s.reads (getLine s.view).1)).2 = [] := by
          cases n with
          | zero => rfl
          | succ n =>
            rw [FileStream.linesLoop, if_pos]
            apply getLine_not_good
            show (!(getLine s.view).1.eof && !(getLine s.view).1.fail) = false
            rw [h3]; rfl
        rw [h4]
        dsimp only
        rw [hz]

/-- the models of `containsKeywords` and of the detection of the mode are exact for a file just opened -/
theorem C79_keywords_model (text : List Char) : (FileStream.containsKeywords ⟨text, 0, false, false⟩).2 = containsKeywords text ∧
    (FileStream.keywords ⟨text, 0, false, false⟩).2 = (hasHullKeyword text, hasInequalitiesKeyword text) := by
  constructor
  · rw [FileStream.containsKeywords, (C79_guard _ (keywordLoop_text 20) rfl).2, keywordLoop_exact _ _ rfl]
    rfl
  · have h := linesLoop_exact (text.length - 0 + 2) ⟨text, 0, false, false⟩ rfl (by simp [FileStream.view])
    simp only [FileStream.keywords, FileStream.guarded, tellg_good (s := ⟨text, 0, false, false⟩) rfl, h]
    rfl

/-! ## What looking ahead does to a stream that is not good -/

/-- a stream at the end of the file (the last line, without a line break, has been read) has failed after `peekLine` and `PositionGuardedFile`: -1 is not a
position to return to -/
theorem C79_end_false : ∃ s : FileStream, s.Inside ∧ s.fail = false ∧ s.pos = s.text.length ∧ s.peekLine.1.fail = true ∧
    s.containsKeywords.1.fail = true := by
  refine ⟨⟨['1'], 1, true, false⟩, ?_, rfl, rfl, ?_, ?_⟩
  · exact Nat.le_refl 1
  · decide +kernel
  · decide +kernel

/-- `peekWord` consumes the white space at the end of a file: there is no word, and the position is not restored -/
theorem C79_word_false : ∃ s : FileStream, s.good = true ∧ s.peekWord.1.pos ≠ s.pos ∧ s.peekWord.1.fail = true := by
  refine ⟨⟨['1', '\n'], 1, false, false⟩, rfl, ?_, ?_⟩ <;> decide +kernel

/-! ## Examples -/

/-- a file in the middle of which the stream stands -/
def lookAheadExample : FileStream := ⟨"Vertices:\n 1 2 \nEND\n".toList, 10, false, false⟩

example : lookAheadExample.good = true := rfl

example : lookAheadExample.peekLine = (lookAheadExample, " 1 2 ".toList) := by decide +kernel

example : lookAheadExample.peekWord = (lookAheadExample, "1".toList) ∧ Spec.wordAt lookAheadExample.text 10 ≠ [] := by decide +kernel

example : lookAheadExample.containsKeywords = (lookAheadExample, true) := by decide +kernel

example : (FileStream.mk "x + y <= 1\n".toList 6 false false).isRelation = (⟨"x + y <= 1\n".toList, 6, false, false⟩, true) := by decide +kernel

example : (FileStream.mk "x + y <= 1\n".toList 0 false false).containsNames ["y".toList] = (⟨"x + y <= 1\n".toList, 0, false, false⟩, true) := by
  decide +kernel

end Panda
