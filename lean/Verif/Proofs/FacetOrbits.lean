import Verif.Spec.FacetOrbits
import Verif.Proofs.MainMaps
import Verif.Proofs.FacetExact
import Verif.Props.Exact

/-! # The rows of the reduced system: one for every orbit of facets -/

namespace Panda

/-- the rows define facets, and every facet is an image of exactly one of them -/
def RowOrbits (n : Nat) (names : Names) (lss : List (List (List (Option (List Char) × Int)))) (S : (Fin n → ℚ) → Prop) (R : Matrix) : Prop :=
  (∀ a ∈ R, Spec.DefinesFacet S (fun p => Spec.value n a p ≤ 0) (fun p => Spec.value n a p = 0)) ∧
  ∀ (g : Fin n → ℚ) (b : ℚ), Spec.DefinesFacet S (fun p => ∑ i, g i * p i ≤ b) (fun p => ∑ i, g i * p i = b) →
    (∃ p : Fin n → ℚ, ¬ ∑ i, g i * p i ≤ b) ∧
    ∃! a, a ∈ R ∧ ∃ ms, (∀ m ∈ ms, m ∈ lss) ∧ ∀ p : Fin n → ℚ, Spec.value n a (Spec.moveAlong names ms p) ≤ 0 ↔ ∑ i, g i * p i ≤ b

/-- a primitive row that defines a facet -/
def FacetRow (n : Nat) (S : (Fin n → ℚ) → Prop) (a : Row) : Prop :=
  a.length = n + 1 ∧ Spec.PrimitiveRow a ∧ Spec.DefinesFacet S (fun p => Spec.value n a p ≤ 0) (fun p => Spec.value n a p = 0)

/-- a product of the maps takes the half-space of `f` to that of `r` -/
def Reaches (n : Nat) (names : Names) (lss : List (List (List (Option (List Char) × Int)))) (r f : Row) : Prop :=
  ∃ ms, (∀ m ∈ ms, m ∈ lss) ∧ ∀ p : Fin n → ℚ, Spec.value n r (Spec.moveAlong names ms p) ≤ 0 ↔ Spec.value n f p ≤ 0

theorem Reaches.trans {n : Nat} {names : Names} {lss : List (List (List (Option (List Char) × Int)))} {a b c : Row}
    (h : Reaches n names lss a b) (h' : Reaches n names lss b c) : Reaches n names lss a c := by
  obtain ⟨ms, h1, h2⟩ := h
  obtain ⟨ms', h3, h4⟩ := h'
  refine ⟨ms' ++ ms, fun m hm => ?_, fun p => ?_⟩
  · rcases List.mem_append.1 hm with k | k
    · exact h3 m k
    · exact h1 m k
  · rw [← h4 p, ← h2]
    unfold Spec.moveAlong
    rw [List.foldl_append]

/-- the rows are the largest rows of the orbits of facets -/
structure ListsOrbits (n : Nat) (names : Names) (lss : List (List (List (Option (List Char) × Int)))) (S : (Fin n → ℚ) → Prop) (R : Matrix) :
    Prop where
  isFacet : ∀ r ∈ R, FacetRow n S r
  facet : ∀ f, FacetRow n S f → ∃! r, r ∈ R ∧ Reaches n names lss r f
  largest : ∀ r ∈ R, ∀ f, FacetRow n S f → Reaches n names lss r f → f = r ∨ f < r

/-- there is only one such list (up to the order) -/
theorem ListsOrbits.same {n : Nat} {names : Names} {lss : List (List (List (Option (List Char) × Int)))} {S : (Fin n → ℚ) → Prop} {R R' : Matrix}
    (h : ListsOrbits n names lss S R) (h' : ListsOrbits n names lss S R') (r : Row) : r ∈ R ↔ r ∈ R' := by
  have key : ∀ {R R' : Matrix}, ListsOrbits n names lss S R → ListsOrbits n names lss S R' → ∀ r ∈ R, r ∈ R' := by
    intro R R' h h' r hr
    have hf := h.isFacet r hr
    obtain ⟨r', ⟨hr', k1⟩, -⟩ := h'.facet r hf
    have hf' := h'.isFacet r' hr'
    obtain ⟨r2, ⟨hr2, k2⟩, -⟩ := h.facet r' hf'
    obtain ⟨r0, -, hu⟩ := h.facet r hf
    have e1 := hu r2 ⟨hr2, k2.trans k1⟩
    have e2 := hu r ⟨hr, [], by simp, fun p => Iff.rfl⟩
    rw [e1, ← e2] at k2
    rcases h.largest r hr r' hf' k2 with e | l
    · rw [← e]; exact hr'
    · rcases h'.largest r' hr' r hf k1 with e | l'
      · rw [e]; exact hr'
      · exact absurd l' (lt_asymm l)
  exact ⟨key h h' r, key h' h r⟩

theorem value_unit (n : Nat) (a : Row) (j : Fin n) : Spec.value n a (Pi.single j 1) = (a.getD j 0 : ℚ) + (a.getD n 0 : ℚ) := by
  unfold Spec.value
  rw [Finset.sum_eq_single j]
  · simp
  · intro i _ hij; simp [Pi.single_eq_of_ne hij]
  · simp

theorem value_scaled {n : Nat} {a b : Row} {t : ℚ} (h : ∀ p, Spec.value n b p = t * Spec.value n a p) : toV (n + 1) b = t • toV (n + 1) a := by
  have h0 := h 0
  have e0 : ∀ a : Row, Spec.value n a 0 = (a.getD n 0 : ℚ) := fun a => by simp [Spec.value]
  rw [e0, e0] at h0
  funext i
  refine Fin.lastCases ?_ (fun j => ?_) i
  · simpa [toV] using h0
  · have := h (Pi.single j 1)
    rw [value_unit, value_unit] at this
    simp only [toV, Fin.val_castSucc, Pi.smul_apply, smul_eq_mul]
    linarith [mul_add t ((a.getD j 0 : Int) : ℚ) ((a.getD n 0 : Int) : ℚ)]

theorem reduced_orbits {names : Names} {n : Nat} {V : Matrix} {lss : List (List (List (Option (List Char) × Int)))} {maps : Maps}
    (hV : Spec.IsVInput n V) (hE : extractEquations V = .ok []) (hn : names.Nodup) (hl : names.length = n)
    (hlss : ∀ ls ∈ lss, ls.length = n) (hdo : List.Forall₂ (Spec.DoesImages names) lss maps)
    (hsym : ∀ m ∈ maps, Spec.IsHullSymmetry (n + 1) V m) (hplain : ∀ ls ∈ lss, Spec.PlainImages ls) {R : Matrix} {N : Nat} {t : Bool}
    (hR : ∀ fuel ≥ N, facetEnumerationDD fuel V maps = some (.ok ⟨[], t, R⟩)) :
    RowOrbits n names lss (Spec.InPolyhedron n V) R ∧ ListsOrbits n names lss (Spec.InPolyhedron n V) R := by
  obtain ⟨hd1, hd2⟩ := forall₂_both hdo
  have haff : ∀ m ∈ maps, Spec.IsAffine n m := fun m hm => by
    obtain ⟨ls, h1, h2⟩ := hd2 m hm
    exact affine_of_does hn hl (hlss ls h1) h2
  have hnod : ∀ m ∈ maps, ∀ im ∈ m, (im.map Prod.fst).Nodup := fun m hm => by
    obtain ⟨ls, h1, h2⟩ := hd2 m hm
    exact h2.2.2.2 (hplain ls h1)
  obtain ⟨F, R', N', f1, f2, f3, f4, f5, f6⟩ := C52_facets_full_dimensional hV hE (fun m hm => ⟨hsym m hm, haff m hm⟩) hnod
  obtain rfl : R' = R := by
    have e := hR (max N N') (le_max_left _ _)
    rw [f2 _ (le_max_right N N')] at e
    simp only [Option.some.injEq, Outcome.ok.injEq, FacetOutput.mk.injEq] at e
    exact e.2.2
  obtain ⟨E', F0, e1, -, hsp, hel, e3⟩ := dd_ok hV
  rw [hE] at e1; cases e1
  rw [f1] at e3; cases e3
  have hmem : ∀ a, a ∈ F0.filter (fun a => !(isBadRow a)) ↔ NormalFacet (n+1) V [] a ∧ a ≠ trivialRow n := by
    intro a
    rw [List.mem_filter, hel.mem]
    refine and_congr_right fun ha => ?_
    have := isBadRow_eq_trivialRow ha.1
    cases hb : isBadRow a <;> simp_all
  obtain ⟨E', F', c1, c2, c3⟩ := C08_dd_complete hV
  rw [hE] at c1; rw [f1] at c2; cases c1; cases c2
  obtain ⟨E', F', c1, c2, -, c6, -, c4⟩ := C09_dd_irredundant hV
  rw [hE] at c1; rw [f1] at c2; cases c1; cases c2
  generalize hFdef : F0.filter (fun a => !(isBadRow a)) = F at hmem f1 f4 f5 f6 c3 c4 c6
  have hstrict : ∀ a ∈ F, ∃ p, Spec.InPolyhedron n V p ∧ Spec.value n a p ≠ 0 := fun a ha => isFacet_strict hV (c6 a ha).1
  obtain ⟨v, hv, hpos⟩ := hV.vertex
  have hne : ∃ p, Spec.InPolyhedron n V p := ⟨_, vertex_inPolyhedron hV.last hv hpos⟩
  -- a row of the list is determined by its half-space
  have hsame : ∀ a ∈ F, ∀ a' ∈ F, (∀ p, Spec.value n a p ≤ 0 ↔ Spec.value n a' p ≤ 0) → a = a' := by
    intro a ha a' ha' h
    by_contra hne'
    obtain ⟨p, k1, k2⟩ := c4 a ha
    refine k2 ((c3 p).2 ⟨k1.1, fun b hb => ?_⟩)
    by_cases e : b = a
    · rw [e, h p]
      exact k1.2 a' (List.mem_filter.2 ⟨ha', by simpa using fun e => hne' e.symm⟩)
    · exact k1.2 b (List.mem_filter.2 ⟨hb, by simpa using e⟩)
  have hproper : ∀ a ∈ F, ∃ p, ¬ Spec.value n a p ≤ 0 := by
    intro a ha
    obtain ⟨p, k1, k2⟩ := c4 a ha
    refine ⟨p, fun k => k2 ((c3 p).2 ⟨k1.1, fun b hb => ?_⟩)⟩
    by_cases e : b = a
    · rw [e]; exact k
    · exact k1.2 b (List.mem_filter.2 ⟨hb, by simpa using e⟩)
  -- one step
  have hstep : ∀ f ∈ F, ∀ ls ∈ lss, (∃ f1 ∈ F, ∃ s : ℚ, 0 < s ∧ Spec.SymStep (n + 1) [] maps f f1 ∧
      ∀ q, Spec.value n f (Spec.mapPoint names ls q) = s * Spec.value n f1 q) ∨
      ∀ q, Spec.value n f (Spec.mapPoint names ls q) ≤ 0 := by
    intro f hf ls hls
    obtain ⟨m, hm, hdoes⟩ := hd1 ls hls
    obtain ⟨b, g, -, q2, q3, -, q5⟩ := actsAs_self (d := n) (hsym m hm) f ((hmem f).1 hf).1
    have q6 : toV (n + 1) b = g⁻¹ • Spec.pulled (n + 1) m (Spec.vec (n + 1) f) := by
      unfold rowSpan at q5
      simpa [sub_eq_zero] using q5
    have hv : ∀ q, Spec.value n f (Spec.mapPoint names ls q) = g * Spec.value n b q := fun q => by
      rw [value_mapped hn hl (hlss ls hls) hdoes (a := f) (b := b) (s := g⁻¹) q6 q, ← mul_assoc, mul_inv_cancel₀ q3.ne', one_mul]
    by_cases hb : b = trivialRow n
    · right
      intro q
      rw [hv q, hb, value_trivialRow]; linarith
    · exact Or.inl ⟨b, (hmem b).2 ⟨q2, hb⟩, g, q3, ⟨m, hm, g⁻¹, inv_pos.mpr q3, q5⟩, hv⟩
  have happ : ∀ (ms : List (List (List (Option (List Char) × Int)))) ls (p : Fin n → ℚ),
      Spec.moveAlong names (ms ++ [ls]) p = Spec.mapPoint names ls (Spec.moveAlong names ms p) := fun ms ls p => by
    unfold Spec.moveAlong; rw [List.foldl_append]; rfl
  -- the value after a product of maps is the value of a row of the orbit
  have hmoved : ∀ ms : List (List (List (Option (List Char) × Int))), (∀ m ∈ ms, m ∈ lss) → ∀ r f, f ∈ F →
      Spec.OrbitIn F (Spec.SymStep (n + 1) [] maps) r f →
      (∃ f' ∈ F, Spec.OrbitIn F (Spec.SymStep (n + 1) [] maps) r f' ∧ ∃ s : ℚ, 0 < s ∧
        ∀ p, Spec.value n f (Spec.moveAlong names ms p) = s * Spec.value n f' p) ∨
        ∀ p, Spec.value n f (Spec.moveAlong names ms p) ≤ 0 := by
    intro ms
    induction ms using List.reverseRecOn with
    | nil => intro _ r f hf ho; exact Or.inl ⟨f, hf, ho, 1, one_pos, fun p => (one_mul _).symm⟩
    | append_singleton ms ls ih =>
      intro hms r f hf ho
      rcases hstep f hf ls (hms ls (by simp)) with ⟨f1, hf1, s, hs, hsym1, hv⟩ | hv
      · rcases ih (fun m hm => hms m (by simp [hm])) r f1 hf1 (ho.tail ⟨hf, hf1, hsym1⟩) with ⟨f2, hf2, ho2, s2, hs2, e2⟩ | hle
        · exact Or.inl ⟨f2, hf2, ho2, s * s2, mul_pos hs hs2, fun p => by rw [happ, hv, e2, mul_assoc]⟩
        · right; intro p; rw [happ, hv]; exact mul_nonpos_of_nonneg_of_nonpos hs.le (hle p)
      · right; intro p; rw [happ]; exact hv _
  -- every row of the orbit is reached by a product of maps
  have hchain : ∀ r f, Spec.OrbitIn F (Spec.SymStep (n + 1) [] maps) r f →
      ∃ ms : List (List (List (Option (List Char) × Int))), (∀ m ∈ ms, m ∈ lss) ∧
      ∃ s : ℚ, 0 < s ∧ ∀ p, Spec.value n f p = s * Spec.value n r (Spec.moveAlong names ms p) := by
    intro r f h
    induction h with
    | refl => exact ⟨[], by simp, 1, one_pos, fun p => (one_mul _).symm⟩
    | tail _ hst ih =>
      obtain ⟨-, -, m, hm, s, hs, hsp'⟩ := hst
      obtain ⟨ls, hls, hdoes⟩ := hd2 m hm
      have q6 := sub_eq_zero.1 (by simpa [Spec.span] using hsp')
      obtain ⟨ms, h1, s', hs', e⟩ := ih
      refine ⟨ls :: ms, ?_, s * s', mul_pos hs hs', fun p => ?_⟩
      · intro m' hm'
        rcases List.mem_cons.1 hm' with rfl | k
        · exact hls
        · exact h1 m' k
      · rw [value_mapped hn hl (hlss ls hls) hdoes q6 p, e, mul_assoc]
        rfl
  have hscale : ∀ {s x : ℚ}, 0 < s → (s * x ≤ 0 ↔ x ≤ 0) := fun {s x} hs => by
    constructor
    · intro k
      by_contra hx
      exact absurd k (not_le.2 (mul_pos hs (not_le.1 hx)))
    · exact fun k => mul_nonpos_of_nonneg_of_nonpos hs.le k
  have hrow : ∀ a, FacetRow n (Spec.InPolyhedron n V) a ↔ a ∈ F := by
    intro a
    constructor
    · rintro ⟨k1, k2, k3⟩
      obtain ⟨f, hf, t, ht, hft⟩ := facet_listed c3 hstrict (value_aff a) k3
      have e := value_scaled fun p => hft p (by simp)
      have := prim_eq (c6 f hf).1.1 k1 ((primitiveRow_iff f).1 (c6 f hf).2) ((primitiveRow_iff a).1 k2) ht e
      exact this ▸ hf
    · exact fun ha => ⟨(c6 a ha).1.1, (c6 a ha).2, listed_facet c3 hne hstrict ha (c4 a ha)⟩
  have horb : ∀ r ∈ F, ∀ f ∈ F, (Spec.OrbitIn F (Spec.SymStep (n + 1) [] maps) r f ↔ Reaches n names lss r f) := by
    intro r hr f hf
    constructor
    · intro ho
      obtain ⟨ms, h1, s, hs, e⟩ := hchain r f ho
      exact ⟨ms, h1, fun p => by rw [e p, hscale hs]⟩
    · rintro ⟨ms, hms, h'⟩
      rcases hmoved ms hms r r hr .refl with ⟨f', hf', ho', s, hs, e⟩ | hle
      · have : f' = f := hsame f' hf' f hf fun p => by rw [← h' p, e p, hscale hs]
        rwa [this] at ho'
      · obtain ⟨p, hp⟩ := hproper f hf
        exact absurd ((h' p).1 (hle p)) hp
  refine ⟨⟨fun a ha => listed_facet c3 hne hstrict (f4 a ha) (c4 a (f4 a ha)), fun g b hg => ?_⟩, fun r hr => (hrow r).2 (f4 r hr), fun f hf => ?_,
    fun r hr f hf ho => f6 r hr f ((horb r (f4 r hr) f ((hrow f).1 hf)).2 ho)⟩
  rotate_left
  · have hf := (hrow f).1 hf
    obtain ⟨r, ⟨hr, ho⟩, hu⟩ := f5 f hf
    exact ⟨r, ⟨hr, (horb r (f4 r hr) f hf).1 ho⟩, fun r' hr' => hu r' ⟨hr'.1, (horb r' (f4 r' hr'.1) f hf).2 hr'.2⟩⟩
  have k1 : (fun p : Fin n → ℚ => ∑ i, g i * p i ≤ b) = fun p => ∑ i, g i * p i - b ≤ 0 := funext fun p => propext sub_nonpos.symm
  have k2 : (fun p : Fin n → ℚ => ∑ i, g i * p i = b) = fun p => ∑ i, g i * p i - b = 0 := funext fun p => propext sub_eq_zero.symm
  rw [k1, k2] at hg
  obtain ⟨f, hf, t, ht, hft⟩ := facet_listed c3 hstrict (linear_aff g b) hg
  have hfg : ∀ p, Spec.value n f p ≤ 0 ↔ ∑ i, g i * p i ≤ b := fun p => by
    rw [hft p (by simp), hscale ht, sub_nonpos]
  refine ⟨?_, ?_⟩
  · obtain ⟨p, hp⟩ := hproper f hf
    exact ⟨p, fun k => hp ((hfg p).2 k)⟩
  · obtain ⟨r, ⟨hr, ho⟩, hu⟩ := f5 f hf
    refine ⟨r, ⟨hr, ?_⟩, ?_⟩
    · obtain ⟨ms, h1, s, hs, e⟩ := hchain r f ho
      refine ⟨ms, h1, fun p => ?_⟩
      rw [← hfg p, e p, hscale hs]
    · rintro r' ⟨hr', ms, hms, h'⟩
      refine hu r' ⟨hr', ?_⟩
      rcases hmoved ms hms r' r' (f4 r' hr') .refl with ⟨f', hf', ho', s, hs, e⟩ | hle
      · have : f' = f := hsame f' hf' f hf fun p => by rw [hfg p, ← h' p, e p, hscale hs]
        rwa [this] at ho'
      · obtain ⟨p, hp⟩ := hproper f hf
        exact absurd ((hfg p).2 ((h' p).1 (hle p))) hp

end Panda
