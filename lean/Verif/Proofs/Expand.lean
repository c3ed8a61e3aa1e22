import Verif.Proofs.VertexOrbits
import Verif.Props.Typed
import Verif.Props.InputFile
import Mathlib.Data.Int.Interval

/-! # Expanding representatives with machine integers -/

namespace Panda

open _root_.Relation

/-- there are finitely many rows of a given length with entries of type `int` -/
theorem intRows_finite : ∀ n : Nat, ∃ C : List Row, ∀ r : Row, r.length = n → RowR Spec.IsInt r → r ∈ C
  | 0 => ⟨[[]], fun r hr _ => by rw [List.length_eq_zero_iff.1 hr]; simp⟩
  | n + 1 => by
    obtain ⟨C, hC⟩ := intRows_finite n
    refine ⟨(Finset.Icc (-2147483648 : Int) 2147483647).toList.flatMap fun x => C.map (x :: ·), fun r hr hi => ?_⟩
    match r, hr, hi with
    | x :: r, hr, hi =>
      refine List.mem_flatMap.2 ⟨x, ?_, List.mem_map.2 ⟨r, hC r (by simpa using hr) fun y hy => hi y (by simp [hy]), rfl⟩⟩
      rw [Finset.mem_toList, Finset.mem_Icc]
      have := hi x (by simp)
      unfold Spec.IsInt at this
      constructor <;> omega

section
variable {maps : Maps} {tag : Tag} {row : Row} {n : Nat} {u : Prop} {P : Row → Prop}

/-- applying the maps with `int` to rows with the property `P` gives the exact result, with the property, or (only if `u`) overflows -/
def StepsFit (maps : Maps) (tag : Tag) (n : Nat) (u : Prop) (P : Row → Prop) : Prop :=
  ∀ x, P x → x.length = n → RowR Spec.IsInt x ∧ ∀ m ∈ maps, ∃ y, applyMap m x tag = .ok y ∧ y.length = n ∧
    ((Typed.applyMap (fixedArith 32) m x tag = .ok y ∧ P y) ∨ (u ∧ Typed.applyMap (fixedArith 32) m x tag = .ub))

theorem classInner_fit {cur : Row} : ∀ {ms : Maps} {rows stack : List Row}, StepsFit ms tag n u P → P cur → cur.length = n →
    (∀ r ∈ rows, P r ∧ r.length = n) →
    (u ∧ Typed.classInner (fixedArith 32) tag cur ms rows stack = .ub) ∨
      (Typed.classInner (fixedArith 32) tag cur ms rows stack = classInner tag cur ms rows stack ∧
        ∃ rows' stack', classInner tag cur ms rows stack = .ok (rows', stack') ∧ ∀ r ∈ rows', P r ∧ r.length = n)
  | [], rows, stack, _, _, _, hr => Or.inr ⟨rfl, rows, stack, rfl, hr⟩
  | m :: ms, rows, stack, hm, hc, hl, hr => by
    obtain ⟨-, h0⟩ := hm cur hc hl
    obtain ⟨y, h1, h2, ⟨h3, h4⟩ | ⟨hu, h3⟩⟩ := h0 m (by simp)
    · have hm' : StepsFit ms tag n u P := fun x hx hxl => ⟨(hm x hx hxl).1, fun m' hm' => (hm x hx hxl).2 m' (List.mem_cons_of_mem _ hm')⟩
      have hr' : ∀ r ∈ (setInsert y rows).1, P r ∧ r.length = n := fun r h => by
        rcases (mem_setInsert y rows r).1 h with rfl | h
        · exact ⟨h4, h2⟩
        · exact hr r h
      unfold Typed.classInner classInner
      rw [h1, h3]
      simp only [Outcome.bind]
      split
      · exact classInner_fit hm' hc hl hr'
      · exact classInner_fit hm' hc hl hr'
    · refine Or.inl ⟨hu, ?_⟩
      unfold Typed.classInner
      rw [h3]; rfl

/-- the computation of a class with `int` ends: with the class, or with an overflow -/
theorem typedClassLoop_ends (hm : StepsFit maps tag n u P)
    {C : List Row} (hC : ∀ r : Row, r.length = n → RowR Spec.IsInt r → r ∈ C) : ∀ (fuel : Nat) (rows stack : List Row),
    ClassInv maps tag row rows stack → (∀ r ∈ rows, P r ∧ r.length = n) → C.length + stack.length ≤ fuel + rows.length →
    (u ∧ Typed.getClassLoop (fixedArith 32) maps tag fuel rows stack = some .ub) ∨
      ∃ S, Typed.getClassLoop (fixedArith 32) maps tag fuel rows stack = some (.ok S) ∧ (∀ r ∈ S, P r ∧ r.length = n) ∧
        getClassLoop maps tag fuel rows stack = some (.ok S)
  | fuel, rows, [], _, h1, _ => Or.inr ⟨rows, by cases fuel <;> rfl, h1, by cases fuel <;> rfl⟩
  | 0, rows, _ :: _, h, h1, hf => by
    exfalso
    have : rows.length ≤ C.length := (h.sorted.nodup.subperm fun r hr => hC r (h1 r hr).2 (hm r (h1 r hr).1 (h1 r hr).2).1).length_le
    simp at hf; omega
  | fuel + 1, rows, cur :: stack, h, h1, hf => by
    rw [Typed.getClassLoop, getClassLoop]
    have hcur := h.onStack cur (by simp)
    rcases classInner_fit (tag := tag) (stack := stack) hm (h1 cur hcur).1 (h1 cur hcur).2 h1 with ⟨hu, e⟩ | ⟨e, rows', stack', heq, hrows⟩
    · rw [e]; exact Or.inl ⟨hu, rfl⟩
    · obtain ⟨hinv, k, hk1, hk2⟩ := classInv_step h heq
      rw [e, heq]
      exact typedClassLoop_ends hm hC fuel rows' stack' hinv hrows (by simp at hf; omega)

/-- the class of a row, computed with `int` -/
theorem typedClass_ends (hm : StepsFit maps tag n u P) (hr : row.length = n) (hi : P row) :
    (u ∧ ∃ N, ∀ fuel ≥ N, Typed.getClass (fixedArith 32) fuel row maps tag = some .ub) ∨
      ∃ S, (∃ N, ∀ fuel ≥ N, Typed.getClass (fixedArith 32) fuel row maps tag = some (.ok S)) ∧ (∀ r ∈ S, P r ∧ r.length = n) ∧
        ∀ x, x ∈ S ↔ Reach maps tag row x := by
  obtain ⟨C, hC⟩ := intRows_finite n
  rcases typedClassLoop_ends hm hC (C.length) [row] [row] classInv_init (fun r h => by rw [List.mem_singleton.1 h]; exact ⟨hi, hr⟩)
      (by simp) with ⟨hu, h⟩ | ⟨S, h1, h2, h4⟩
  · exact Or.inl ⟨hu, C.length, fun fuel hf => Typed.getClass_mono _ _ _ _ _ _ _ hf h⟩
  · exact Or.inr ⟨S, ⟨C.length, fun fuel hf => Typed.getClass_mono _ _ _ _ _ _ _ hf h1⟩, h2, (getClass_partial h4).2⟩

/-- the expansion of representatives, computed with `int`, ends: with all images, or with an overflow -/
theorem typedExpandLoop_ends (hm : StepsFit maps tag n u P) : ∀ A : Matrix, (∀ a ∈ A, P a ∧ a.length = n) →
    (u ∧ ∃ N, ∀ fuel ≥ N, Typed.expandLoop (fixedArith 32) fuel maps tag A = some .ub) ∨
      ∃ B, (∃ N, ∀ fuel ≥ N, Typed.expandLoop (fixedArith 32) fuel maps tag A = some (.ok B)) ∧ (∀ b ∈ B, P b ∧ b.length = n) ∧
        ∀ x, x ∈ B ↔ ∃ a ∈ A, Reach maps tag a x
  | [], _ => Or.inr ⟨[], ⟨0, fun _ _ => rfl⟩, by simp, by simp⟩
  | a :: A, hl => by
    rcases typedClass_ends hm (hl a (by simp)).2 (hl a (by simp)).1 with ⟨hu, N, h⟩ | ⟨S, ⟨N, h⟩, h2, h4⟩
    · exact Or.inl ⟨hu, N, fun fuel hf => by rw [Typed.expandLoop, h fuel hf]; rfl⟩
    · rcases typedExpandLoop_ends hm A (fun x hx => hl x (by simp [hx])) with ⟨hu, M, k⟩ | ⟨B, ⟨M, k⟩, k2, k4⟩
      · exact Or.inl ⟨hu, max N M, fun fuel hf => by
          rw [Typed.expandLoop, h fuel (le_trans (le_max_left _ _) hf)]
          simp only [Run.bind, k fuel (le_trans (le_max_right _ _) hf)]⟩
      · refine Or.inr ⟨S ++ B, ⟨max N M, fun fuel hf => ?_⟩, ?_, fun x => ?_⟩
        · rw [Typed.expandLoop, h fuel (le_trans (le_max_left _ _) hf)]
          simp only [Run.bind, k fuel (le_trans (le_max_right _ _) hf)]
        · intro r hr
          exact (List.mem_append.1 hr).elim (h2 r) (k2 r)
        · simp [h4, k4]

/-- any maps with `int` factors: overflow is possible -/
theorem stepsFit_int (hm : ∀ m ∈ maps, MapR Spec.IsInt m) (hn : ∀ x : Row, x.length = n → ∀ m ∈ maps, ∃ y, applyMap m x tag = .ok y ∧ y.length = n) :
    StepsFit maps tag n True (RowR Spec.IsInt) := by
  intro x hx hl
  refine ⟨hx, fun m hmm => ?_⟩
  obtain ⟨y, h1, h2⟩ := hn x hl m hmm
  refine ⟨y, h1, h2, ?_⟩
  rcases applyMap_sim (fixed32_law False) fixed32_ofInt (tag := tag) hx (hm m hmm) with ⟨e, h⟩ | ⟨h, -⟩ | ⟨-, h⟩
  · exact Or.inl ⟨by rw [e, h1], h y h1⟩
  · exact h.elim
  · exact Or.inr ⟨trivial, h⟩

end

/-! ## images of points and directions -/

section
variable {names : Names} {n : Nat} {lss : List (List (List (Option (List Char) × Int)))} {maps : Maps}

theorem step_exists (hl : names.length = n) (hdo : List.Forall₂ (Spec.DoesImages names) lss maps) (x : Row) (hx : x.length = n + 1) (m : SymMap)
    (hm : m ∈ maps) : ∃ y, applyMap m x .vertex = .ok y ∧ y.length = n + 1 ∧ ∃ s : ℚ, 0 < s ∧
      Spec.vec (n + 1) y = s • Spec.pushed (n + 1) m (Spec.vec (n + 1) x) := by
  obtain ⟨ls, -, hd⟩ := (forall₂_both hdo).2 m hm
  subst hl
  obtain ⟨y, h1, h2, ⟨g, hg, h3⟩, -⟩ := applyMap_vertex hd.1 hx
  have hg' : (0 : ℚ) < (g : ℚ) := by exact_mod_cast hg
  exact ⟨y, h1, h2, (g : ℚ)⁻¹, inv_pos.2 hg', by rw [h3, smul_smul, inv_mul_cancel₀ hg'.ne', one_smul]⟩

/-- rows reached from the row of a point -/
theorem reach_point (hn : names.Nodup) (hl : names.length = n) (hlss : ∀ ls ∈ lss, ls.length = n)
    (hdo : List.Forall₂ (Spec.DoesImages names) lss maps) {x y : Row} (h : Reach maps .vertex x y) (h0 : 0 < x.getD n 0) (hx : x.length = n + 1) :
    y.length = n + 1 ∧ 0 < y.getD n 0 ∧ Spec.Moved names lss (Spec.coord n x) (Spec.coord n y) := by
  induction h with
  | refl => exact ⟨hx, h0, .refl⟩
  | tail _ hst ih =>
    obtain ⟨m, hm, hap⟩ := hst
    obtain ⟨ls, hls, hd⟩ := (forall₂_both hdo).2 m hm
    obtain ⟨y', e1, e2, s, hs, e3⟩ := step_exists hl hdo _ ih.1 m hm
    rw [hap] at e1; cases e1
    obtain ⟨h1, h2⟩ := step_point hn hl (hlss ls hls) hd hs ih.2.1 e3
    exact ⟨e2, h1, ih.2.2.tail ⟨ls, hls, h2⟩⟩

/-- every image of the point is among them -/
theorem moved_reach (hn : names.Nodup) (hl : names.length = n) (hlss : ∀ ls ∈ lss, ls.length = n)
    (hdo : List.Forall₂ (Spec.DoesImages names) lss maps) {x : Row} (h0 : 0 < x.getD n 0) (hx : x.length = n + 1) {p : Fin n → ℚ}
    (h : Spec.Moved names lss (Spec.coord n x) p) : ∃ y, Reach maps .vertex x y ∧ Spec.coord n y = p := by
  induction h with
  | refl => exact ⟨x, .refl, rfl⟩
  | tail _ hst ih =>
    obtain ⟨ls, hls, rfl⟩ := hst
    obtain ⟨y, y1, rfl⟩ := ih
    obtain ⟨k1, k2, -⟩ := reach_point hn hl hlss hdo y1 h0 hx
    obtain ⟨m, hm, hd⟩ := (forall₂_both hdo).1 ls hls
    obtain ⟨y', e1, e2, s, hs, e3⟩ := step_exists hl hdo _ k1 m hm
    exact ⟨y', y1.tail ⟨m, hm, e1⟩, (step_point hn hl (hlss ls hls) hd hs k2 e3).2⟩

/-- rows reached from the row of a direction -/
theorem reach_dir (hn : names.Nodup) (hl : names.length = n) (hlss : ∀ ls ∈ lss, ls.length = n)
    (hdo : List.Forall₂ (Spec.DoesImages names) lss maps) {x y : Row} (h : Reach maps .vertex x y) (h0 : x.getD n 0 = 0) (hx : x.length = n + 1) :
    y.length = n + 1 ∧ y.getD n 0 = 0 ∧ ∃ s : ℚ, 0 < s ∧ Spec.MovedDirection names lss (Spec.coord n x) (s • Spec.coord n y) := by
  induction h with
  | refl => exact ⟨hx, h0, 1, one_pos, by rw [one_smul]; exact .refl⟩
  | tail _ hst ih =>
    obtain ⟨m, hm, hap⟩ := hst
    obtain ⟨ls, hls, hd⟩ := (forall₂_both hdo).2 m hm
    obtain ⟨i1, i2, t, ht, i3⟩ := ih
    obtain ⟨y', e1, e2, s, hs, e3⟩ := step_exists hl hdo _ i1 m hm
    rw [hap] at e1; cases e1
    obtain ⟨h1, h2⟩ := step_dir hn hl (hlss ls hls) hd i2 e3
    refine ⟨e2, h1, t * s⁻¹, by positivity, i3.tail ⟨ls, hls, ?_⟩⟩
    rw [h2, smul_smul, mul_assoc, inv_mul_cancel₀ hs.ne', mul_one, mapDirection_smul hn hl (hlss ls hls) hd]

theorem movedDirection_reach (hn : names.Nodup) (hl : names.length = n) (hlss : ∀ ls ∈ lss, ls.length = n)
    (hdo : List.Forall₂ (Spec.DoesImages names) lss maps) {x : Row} (h0 : x.getD n 0 = 0) (hx : x.length = n + 1) {p : Fin n → ℚ}
    (h : Spec.MovedDirection names lss (Spec.coord n x) p) : ∃ y, Reach maps .vertex x y ∧ ∃ s : ℚ, 0 < s ∧ p = s • Spec.coord n y := by
  induction h with
  | refl => exact ⟨x, .refl, 1, one_pos, (one_smul _ _).symm⟩
  | tail _ hst ih =>
    obtain ⟨ls, hls, rfl⟩ := hst
    obtain ⟨y, y1, t, ht, rfl⟩ := ih
    obtain ⟨k1, k2, -⟩ := reach_dir hn hl hlss hdo y1 h0 hx
    obtain ⟨m, hm, hd⟩ := (forall₂_both hdo).1 ls hls
    obtain ⟨y', e1, e2, s, hs, e3⟩ := step_exists hl hdo _ k1 m hm
    refine ⟨y', y1.tail ⟨m, hm, e1⟩, t * s⁻¹, by positivity, ?_⟩
    rw [(step_dir hn hl (hlss ls hls) hd k2 e3).2, smul_smul, mul_assoc, inv_mul_cancel₀ hs.ne', mul_one, mapDirection_smul hn hl (hlss ls hls) hd]

end

end Panda
