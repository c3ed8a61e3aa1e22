import Verif.Proofs.SignedMaps
import Verif.Props.MainMaps

/-! # Expanding representatives of inequalities with machine integers -/

namespace Panda

open _root_.Relation

/-- what a map does is determined by its factors -/
theorem doesImages_of_factors {names : Names} {ls : List (List (Option (List Char) × Int))} {m m' : SymMap} (h : Spec.DoesImages names ls m)
    (h1 : Spec.IsMap (names.length + 1) m') (h2 : ∀ i j, imFactor (m'.getD i []) j = imFactor (m.getD i []) j)
    (h3 : ∀ im ∈ m', ∀ t ∈ im, Spec.IsInt t.2) (h4 : (∀ l ∈ ls, (l.map Prod.fst).Nodup) → ∀ im ∈ m', (im.map Prod.fst).Nodup) :
    Spec.DoesImages names ls m' := by
  have e : ∀ x, Spec.pushed (names.length + 1) m' x = Spec.pushed (names.length + 1) m x := fun x => by
    funext i
    simp only [Spec.pushed]
    exact Finset.sum_congr rfl fun j _ => by rw [factor_eq, factor_eq, h2]
  refine ⟨h1, fun v x hx h1 => ?_, h3, h4⟩
  rw [e]
  exact h.2.1 v x hx h1

theorem simplifyMap_distinct : ∀ {m : SymMap}, (∀ im ∈ m, (im.map Prod.fst).Nodup) → simplifyMap m = .ok (m.map sortImage)
  | [], _ => rfl
  | im :: ims, h => by
    have h1 : simplifyImage im = .ok (sortImage im) := by
      unfold simplifyImage
      rw [simplifyLoop_distinct _ _ _ (by rw [((sortImage_perm im).map Prod.fst).nodup_iff]; exact h im (by simp))]
      simp
    rw [simplifyMap, h1, simplifyMap_distinct fun x hx => h x (by simp [hx])]; rfl

theorem normalizeMap_distinct {m : SymMap} (h : ∀ im ∈ m, (im.map Prod.fst).Nodup) : normalizeMap m [] = .ok (m.map sortImage) := by
  simp only [normalizeMap, eliminatedIndices, List.map_nil, eliminateZeroCoefficients, Outcome.bind, subtractEquations, simplifyMap_distinct h]

/-- adapting the maps to no equations keeps what they do -/
theorem normalizeMaps_does {names : Names} {lss : List (List (List (Option (List Char) × Int)))} {maps : Maps}
    (h : List.Forall₂ (Spec.DoesImages names) lss maps) (hp : ∀ ls ∈ lss, Spec.PlainImages ls) :
    ∃ mm, normalizeMaps maps [] = .ok mm ∧ List.Forall₂ (Spec.DoesImages names) lss mm := by
  induction h with
  | nil => exact ⟨[], rfl, .nil⟩
  | @cons ls m lss maps hd _ ih =>
    obtain ⟨mm, e, h2⟩ := ih fun x hx => hp x (by simp [hx])
    have hnod := hd.2.2.2 (hp ls (by simp))
    refine ⟨m.map sortImage :: mm, ?_, .cons ?_ h2⟩
    · rw [normalizeMaps, normalizeMap_distinct hnod, e]; rfl
    · have hmem : ∀ im ∈ m.map sortImage, ∃ im' ∈ m, im.Perm im' := fun im him => by
        obtain ⟨im', h1, rfl⟩ := List.mem_map.1 him
        exact ⟨im', h1, sortImage_perm im'⟩
      refine doesImages_of_factors hd ⟨by rw [List.length_map]; exact hd.1.size, fun im him t ht => ?_⟩ (fun i j => ?_) (fun im him t ht => ?_)
        fun _ im him => ?_
      · obtain ⟨im', h1, h2⟩ := hmem im him
        exact hd.1.range im' h1 t (h2.mem_iff.1 ht)
      · by_cases hi : i < m.length
        · rw [List.getD_eq_getElem?_getD, List.getElem?_eq_getElem (by simpa using hi), List.getD_eq_getElem?_getD, List.getElem?_eq_getElem hi]
          simp only [Option.getD_some, List.getElem_map]
          exact imFactor_perm (sortImage_perm _) j
        · rw [List.getD_eq_getElem?_getD, List.getElem?_eq_none (by simpa using hi), List.getD_eq_getElem?_getD, List.getElem?_eq_none (by omega)]
      · obtain ⟨im', h1, h2⟩ := hmem im him
        exact hd.2.2.1 im' h1 t (h2.mem_iff.1 ht)
      · obtain ⟨im', h1, h2⟩ := hmem im him
        rw [(h2.map Prod.fst).nodup_iff]
        exact hnod im' h1

theorem typedNormalizeMaps_does {names : Names} {lss : List (List (List (Option (List Char) × Int)))} {maps : Maps} (A : Arith)
    (h : List.Forall₂ (Spec.DoesImages names) lss maps) (hp : ∀ ls ∈ lss, Spec.PlainImages ls) :
    ∃ mm, Typed.normalizeMaps A maps [] = .ok mm ∧ List.Forall₂ (Spec.DoesImages names) lss mm := by
  rw [typed_normalizeMaps_nil A fun m hm => by
    obtain ⟨ls, hls, hd⟩ := (forall₂_both h).2 m hm
    exact hd.2.2.2 (hp ls hls)]
  exact normalizeMaps_does h hp

section
variable {names : Names} {n : Nat} {lss : List (List (List (Option (List Char) × Int)))} {maps : Maps}

theorem facet_step_exists (hn : names.Nodup) (hl : names.length = n) (hlss : ∀ ls ∈ lss, ls.length = n)
    (hdo : List.Forall₂ (Spec.DoesImages names) lss maps) (x : Row) (hx : x.length = n + 1) (m : SymMap)
    (hm : m ∈ maps) : ∃ y, applyMap m x .facet = .ok y ∧ y.length = n + 1 ∧ ∀ ls ∈ lss, Spec.DoesImages names ls m → ∃ s : ℚ, 0 < s ∧
      ∀ p, Spec.value n y p = s * Spec.value n x (Spec.mapPoint names ls p) := by
  obtain ⟨ls0, -, hd⟩ := (forall₂_both hdo).2 m hm
  have hd1 : Spec.IsMap (n + 1) m := by rw [← hl]; exact hd.1
  obtain ⟨y, h1, h2, ⟨g, hg, h3⟩, -⟩ := applyMap_facet hd1 hx
  have hg' : (0 : ℚ) < (g : ℚ) := by exact_mod_cast hg
  refine ⟨y, h1, h2, fun ls hls hd => ⟨(g : ℚ)⁻¹, inv_pos.2 hg', fun p => value_mapped hn hl (hlss ls hls) hd ?_ p⟩⟩
  rw [h3, smul_smul, inv_mul_cancel₀ hg'.ne', one_smul]

/-- a row reached from an inequality says the same about a point as the inequality about an image -/
theorem reach_facet (hn : names.Nodup) (hl : names.length = n) (hlss : ∀ ls ∈ lss, ls.length = n)
    (hdo : List.Forall₂ (Spec.DoesImages names) lss maps) {x y : Row} (h : Reach maps .facet x y) (hx : x.length = n + 1) :
    y.length = n + 1 ∧ ∀ p, ∃ p', Spec.Moved names lss p p' ∧ ∃ s : ℚ, 0 < s ∧ Spec.value n y p = s * Spec.value n x p' := by
  induction h with
  | refl => exact ⟨hx, fun p => ⟨p, .refl, 1, one_pos, (one_mul _).symm⟩⟩
  | tail _ hst ih =>
    obtain ⟨m, hm, hap⟩ := hst
    obtain ⟨ls, hls, hd⟩ := (forall₂_both hdo).2 m hm
    obtain ⟨y', e1, e2, e3⟩ := facet_step_exists hn hl hlss hdo _ ih.1 m hm
    rw [hap] at e1; cases e1
    obtain ⟨s, hs, e4⟩ := e3 ls hls hd
    refine ⟨e2, fun p => ?_⟩
    obtain ⟨p', h1, t, ht, h2⟩ := ih.2 (Spec.mapPoint names ls p)
    exact ⟨p', ReflTransGen.head ⟨ls, hls, rfl⟩ h1, s * t, mul_pos hs ht, by rw [e4, h2, mul_assoc]⟩

/-- what the inequality says about an image of a point is said about the point by a row reached from it -/
theorem moved_reach_facet (hn : names.Nodup) (hl : names.length = n) (hlss : ∀ ls ∈ lss, ls.length = n)
    (hdo : List.Forall₂ (Spec.DoesImages names) lss maps) {x : Row} (hx : x.length = n + 1) {p p' : Fin n → ℚ}
    (h : Spec.Moved names lss p p') : ∃ y, Reach maps .facet x y ∧ y.length = n + 1 ∧ ∃ s : ℚ, 0 < s ∧ Spec.value n y p = s * Spec.value n x p' := by
  induction h using ReflTransGen.head_induction_on with
  | refl => exact ⟨x, .refl, hx, 1, one_pos, (one_mul _).symm⟩
  | head hst _ ih =>
    obtain ⟨ls, hls, rfl⟩ := hst
    obtain ⟨y, y1, y2, s, hs, e⟩ := ih
    obtain ⟨m, hm, hd⟩ := (forall₂_both hdo).1 ls hls
    obtain ⟨y', e1, e2, e3⟩ := facet_step_exists hn hl hlss hdo _ y2 m hm
    obtain ⟨t, ht, e4⟩ := e3 ls hls hd
    exact ⟨y', y1.tail ⟨m, hm, e1⟩, e2, t * s, mul_pos ht hs, by rw [e4, e, mul_assoc]⟩

end

end Panda
