import Verif.Proofs.RotationRows
import Verif.Proofs.SubClasses
import Verif.Proofs.Acts
import Verif.Props.Symmetry

/-! # A set of facets closed under rotation is complete -/

namespace Panda

open Cone

section
variable {V : Matrix} {n : Nat} {E R : Matrix} {T : List Nat} {maps : Maps} {tag : Tag}

/-- the maps act on the normalised facets like linear maps (with property `P`) permuting the rows of `V` -/
def ActsOn (n : Nat) (V E : Matrix) (maps : Maps) (tag : Tag) (P : ((Fin n → ℚ) →ₗ[ℚ] (Fin n → ℚ)) → Prop) : Prop :=
  ∀ m ∈ maps, ∃ L, P L ∧ Permutes n V L ∧ ∀ a, NormalFacet n V E a → ∃ b g, applyMap m a tag = .ok b ∧ NormalFacet n V E b ∧
    0 < g ∧ Composed n V L a b g

variable {P : ((Fin n → ℚ) →ₗ[ℚ] (Fin n → ℚ)) → Prop}

theorem ActsOn.closed (h : ActsOn n V E maps tag P) {F0 : Matrix} (hel : Elim V n E F0) :
    ∀ x ∈ F0, ∀ m ∈ maps, ∃ y, applyMap m x tag = .ok y ∧ y ∈ F0 := by
  intro x hx m hm
  obtain ⟨L, -, -, h2⟩ := h m hm
  obtain ⟨b, g, q1, q2, -⟩ := h2 x ((hel.mem x).mp hx)
  exact ⟨b, q1, (hel.mem b).mpr q2⟩

theorem ActsOn.inj (h : ActsOn n V E maps tag P) (hsp : Split V n E R T) (hV : Rect V V.length n) {F0 : Matrix} (hel : Elim V n E F0) :
    ∀ m ∈ maps, ∀ x ∈ F0, ∀ y ∈ F0, applyMap m x tag = applyMap m y tag → x = y := by
  intro m hm x hx y hy hxy
  obtain ⟨L, -, h1, h2⟩ := h m hm
  obtain ⟨b, g, q1, q2, q3, q4⟩ := h2 x ((hel.mem x).mp hx)
  obtain ⟨b', g', q1', q2', q3', q4'⟩ := h2 y ((hel.mem y).mp hy)
  rw [q1, q1'] at hxy; cases hxy
  exact NormalFacet.composed_inj h1 hsp hV ((hel.mem x).mp hx) ((hel.mem y).mp hy) q4 q3' q4'

/-- every valid inequality is a multiple of `f` plus an element of the cone of `S` -/
def LProp (n : Nat) (V S : Matrix) (f : Row) : Prop :=
  ∀ a : Fin n → ℚ, (∀ v ∈ V, ev n v a ≤ 0) → ∃ t : ℚ, CV n V S (valL n V a - t • valL n V (toV n f))

theorem mem_validSpan_row {a : Row} (hl : a.length = n) (h : ∀ v ∈ V, dot a v ≤ 0) : toV n a ∈ validSpan n V :=
  mem_validSpan fun v hv => by rw [ev_toV n a v hl.le]; exact_mod_cast h v hv

/-- the property passes from the image of a facet to the facet -/
theorem LProp.transport {L : (Fin n → ℚ) →ₗ[ℚ] (Fin n → ℚ)} (hL : Permutes n V L) {S : Matrix}
    (hSl : ∀ s ∈ S, s.length = n ∧ ∀ v ∈ V, dot s v ≤ 0)
    (hS : ∀ s' ∈ S, ∃ s ∈ S, ∃ g : ℚ, 0 < g ∧ Composed n V L s s' g) {f f' : Row} (hf : f.length = n) (hfv : ∀ v ∈ V, dot f v ≤ 0)
    (hf' : f'.length = n) {g : ℚ} (hg : 0 < g) (hcomp : Composed n V L f f' g) (h : LProp n V S f') : LProp n V S f := by
  intro a ha
  obtain ⟨t', ht'⟩ := h (L a) (hL.into a ha)
  have key : ∀ y, CV n V S y → ∃ x ∈ validSpan n V, CV n V S (valL n V x) ∧ valL n V (L x) = y := by
    intro y hy
    induction hy with
    | zero => exact ⟨0, Submodule.zero_mem _, by rw [map_zero]; exact Gen.zero, by rw [map_zero, map_zero]⟩
    | add u y z hu hy _ ih =>
      obtain ⟨s', hs', rfl⟩ := hy
      obtain ⟨x, hx0, hx1, hx2⟩ := ih
      obtain ⟨s0, hs0, g0, hg0, hc0⟩ := hS s' hs'
      refine ⟨(u * g0⁻¹) • toV n s0 + x, Submodule.add_mem _ (Submodule.smul_mem _ _ (mem_validSpan_row (hSl s0 hs0).1 (hSl s0 hs0).2)) hx0, ?_, ?_⟩
      · rw [map_add, map_smul]
        exact Gen.add _ _ _ (by positivity) ⟨s0, hs0, rfl⟩ hx1
      · rw [map_add, map_smul, map_add, map_smul, hx2, composed_valL (hSl s' hs').1 hc0, smul_smul, mul_assoc,
          inv_mul_cancel₀ hg0.ne', mul_one]
  obtain ⟨x, hx0, hx1, hx2⟩ := key _ ht'
  refine ⟨t' / g, ?_⟩
  have : valL n V a - (t' / g) • valL n V (toV n f) = valL n V x := by
    rw [← map_smul, ← map_sub, ← sub_eq_zero, ← map_sub]
    refine hL.inj (Submodule.sub_mem _ (Submodule.sub_mem _ (mem_validSpan ha) (Submodule.smul_mem _ _ (mem_validSpan_row hf hfv))) hx0) ?_
    rw [map_sub, map_sub, map_sub, map_sub, hx2, map_smul, map_smul, composed_valL hf' hcomp, smul_smul, div_mul_cancel₀ _ hg.ne', sub_self]
  rw [this]; exact hx1

theorem rotateAll_mono {v0 f : Row} {x : Outcome Matrix} {fuel k : Nat} (hk : fuel ≤ k) : ∀ (ridges : Matrix),
    rotateAll fuel V v0 f ridges = some x → rotateAll k V v0 f ridges = some x := by
  intro ridges
  induction ridges generalizing x with
  | nil => exact fun h => h
  | cons r rs ih =>
    intro h
    simp only [rotateAll, rotate] at h ⊢
    cases h1 : rotateLoop V f fuel r (distance f v0) (distance r v0) with
    | none => rw [h1] at h; simp [Run.bind] at h
    | some o =>
      rw [h1] at h
      rw [rotateLoop_mono fuel k r _ _ hk h1]
      cases o with
      | thrown => exact h
      | ub => exact h
      | ok row =>
        simp only [Run.bind] at h ⊢
        cases h2 : rotateAll fuel V v0 f rs with
        | none => rw [h2] at h; simp [Run.bind] at h
        | some o2 =>
          rw [h2] at h
          rw [ih h2]; exact h

theorem rotation_mono {f : Row} {x : Outcome Matrix} {fuel k : Nat} (hk : fuel ≤ k)
    (h : rotation fuel V f maps tag = some x) : rotation k V f maps tag = some x := by
  unfold rotation at h ⊢
  cases h1 : furthestVertex V f with
  | thrown => rw [h1] at h; exact h
  | ub => rw [h1] at h; exact h
  | ok v =>
    rw [h1] at h
    simp only [Run.bind] at h ⊢
    cases h2 : getRidges V f with
    | thrown => rw [h2] at h; exact h
    | ub => rw [h2] at h; exact h
    | ok ridges =>
      rw [h2] at h
      simp only [] at h ⊢
      cases h3 : rotateAll fuel V v f ridges with
      | none => rw [h3] at h; simp at h
      | some o =>
        rw [h3] at h
        rw [rotateAll_mono hk ridges h3]
        cases o with
        | thrown => exact h
        | ub => exact h
        | ok rows => exact classes_mono hk h

theorem rotation_unique {f : Row} {x y : Outcome Matrix} {fuel k : Nat}
    (h : rotation fuel V f maps tag = some x) (h' : rotation k V f maps tag = some y) : x = y := by
  have h1 := rotation_mono (le_max_left fuel k) h
  have h2 := rotation_mono (le_max_right fuel k) h'
  rw [h1] at h2; exact Option.some.inj h2

/-- at most one facet is discarded -/
theorem bad_unique {W F0 : Matrix} (hW : Rect W W.length n) (hn : 0 < n) (hnz : ∃ v ∈ W, ∃ x ∈ v, x ≠ 0)
    (hel : Elim W n (gaussSplit W).1 F0) :
    ∀ a ∈ F0, ∀ b ∈ F0, isBadRow (eraseAll (zeroCols (gaussSplit W).2.1) a) = true →
      isBadRow (eraseAll (zeroCols (gaussSplit W).2.1) b) = true → a = b := by
  obtain ⟨v, hv, x, hx, hx0⟩ := hnz
  have h0 : W ≠ [] := List.ne_nil_of_mem hv
  have e2 := gaussSplit_spec hW (List.length_pos_of_ne_nil h0) hn
  have hR := e2.rows_ne_nil hW.2 ⟨v, hv, x, hx, hx0⟩
  have hred := reduced_of_split hW e2 hR
  intro a ha b hb h1 h2
  have ha' := (hel.mem a).mp ha
  have hb' := (hel.mem b).mp hb
  have hza : ∀ c ∈ zeroCols (gaussSplit W).2.1, a.getD c 0 = 0 := by
    intro c hc; obtain ⟨e, he, rfl⟩ := (hred.leads c).mp hc; exact ha'.2.2.1 e he
  have hzb : ∀ c ∈ zeroCols (gaussSplit W).2.1, b.getD c 0 = 0 := by
    intro c hc; obtain ⟨e, he, rfl⟩ := (hred.leads c).mp hc; exact hb'.2.2.1 e he
  have := isBadRow_unique (eraseAll_length hred.stack ha'.1) (eraseAll_length hred.stack hb'.1) h1 h2
  rw [← insertAll_eraseAll hred.stack ha'.1 hza, ← insertAll_eraseAll hred.stack hb'.1 hzb, this]

/-- there are three independent valid inequalities (modulo the equations) -/
def ThreeDim (n : Nat) (V : Matrix) : Prop :=
  ¬ ∃ x y : Fin V.length → ℚ, ∀ a : Fin n → ℚ, (∀ v ∈ V, ev n v a ≤ 0) → valL n V a ∈ Submodule.span ℚ {x, y}

theorem ThreeDim.onFacet (hD : ThreeDim n V) (hV : Rect V V.length n) {f : Row} (hfl : f.length = n) (hf : FacetP n V f) :
    ∃ v ∈ onFacet V f, ∃ x ∈ v, x ≠ 0 := by
  by_contra hcon
  push Not at hcon
  apply hD
  refine ⟨valL n V (toV n f), 0, fun a _ => ?_⟩
  obtain ⟨t, ht⟩ := FacetP.tight_rat hfl hf (x := a) (fun v hv h0 => by
    have h1 := hcon v (mem_onFacet.mpr ⟨hv, h0⟩)
    have h2 := (toV_eq_zero_iff n v (hV.2 v hv)).mpr h1
    rw [ev_apply, h2]; simp)
  rw [ht]
  exact Submodule.smul_mem _ _ (Submodule.subset_span (by simp))

end

section
variable {V : Matrix} {d : Nat} {E R : Matrix} {T : List Nat} {maps : Maps} {tag : Tag}

/-- the linear map keeps the trivial inequality -/
def KeepsLast (d : Nat) (L : (Fin (d+1) → ℚ) →ₗ[ℚ] (Fin (d+1) → ℚ)) : Prop := L (toV (d+1) (trivialRow d)) = toV (d+1) (trivialRow d)

theorem trivialRow_composed {L : (Fin (d+1) → ℚ) →ₗ[ℚ] (Fin (d+1) → ℚ)} (hL : KeepsLast d L) :
    Composed (d+1) V L (trivialRow d) (trivialRow d) 1 := by
  intro v _
  rw [hL, ev_toV _ _ v (trivialRow_length d).le, one_mul]

/-- only the trivial row is mapped to the trivial row -/
theorem eq_trivialRow_of_composed {L : (Fin (d+1) → ℚ) →ₗ[ℚ] (Fin (d+1) → ℚ)} (hL : KeepsLast d L) (hP : Permutes (d+1) V L)
    (hsp : Split V (d+1) E R T) (hV : Rect V V.length (d+1)) {a b : Row} {g : ℚ} (ha : NormalFacet (d+1) V E a)
    (hb : NormalFacet (d+1) V E b) (hc : Composed (d+1) V L a b g) (hbt : b = trivialRow d) : a = trivialRow d := by
  subst hbt
  exact NormalFacet.composed_inj hP hsp hV ha hb hc one_pos (trivialRow_composed hL)

/-- and it is mapped to itself -/
theorem eq_trivialRow_of_composed' {L : (Fin (d+1) → ℚ) →ₗ[ℚ] (Fin (d+1) → ℚ)} (hL : KeepsLast d L)
    (hsp : Split V (d+1) E R T) (hV : Rect V V.length (d+1)) {a b : Row} {g : ℚ} (ha : NormalFacet (d+1) V E a)
    (hb : NormalFacet (d+1) V E b) (hg : 0 < g) (hc : Composed (d+1) V L a b g) (hat : a = trivialRow d) : b = trivialRow d := by
  subst hat
  have hg' := hg.ne'
  apply ha.unique hsp hV hb (t := g⁻¹)
  intro v hv
  have h1 := hc v hv
  rw [trivialRow_composed (V := V) hL v hv, one_mul] at h1
  rw [eq_comm, inv_mul_eq_iff_eq_mul₀ hg', h1]

theorem reach_trivialRow (hacts : ActsOn (d+1) V E maps tag (KeepsLast d)) (hsp : Split V (d+1) E R T)
    (hV : Rect V V.length (d+1)) {a b : Row} (ha : NormalFacet (d+1) V E a) (h : Reach maps tag a b) :
    NormalFacet (d+1) V E b ∧ (a = trivialRow d ↔ b = trivialRow d) := by
  induction h with
  | refl => exact ⟨ha, Iff.rfl⟩
  | tail _ hs ih =>
    obtain ⟨m, hm, hap⟩ := hs
    obtain ⟨L, h1, h2, h3⟩ := hacts m hm
    obtain ⟨b', g, q1, q2, q3, q4⟩ := h3 _ ih.1
    rw [hap] at q1; cases q1
    exact ⟨q2, ih.2.trans ⟨eq_trivialRow_of_composed' h1 hsp hV ih.1 q2 q3 q4, eq_trivialRow_of_composed h1 h2 hsp hV ih.1 q2 q4⟩⟩

/-- the rows found by `rotation` are represented in the result -/
theorem rotation_represented (hsp : Split V (d+1) E R T) (hV : Rect V V.length (d+1)) {F0 : Matrix}
    (hel : Elim V (d+1) E F0) {P : ((Fin (d+1) → ℚ) →ₗ[ℚ] (Fin (d+1) → ℚ)) → Prop} (hacts : ActsOn (d+1) V E maps tag P)
    {f : Row} {rows res : Matrix} {fuel : Nat}
    (hrot : ∀ fuel maps tag, V.length < fuel → rotation fuel V f maps tag = classes fuel rows maps tag)
    (hrows : ∀ ρ ∈ rows, NormalFacet (d+1) V E ρ) (hres : rotation fuel V f maps tag = some (.ok res)) :
    SubClasses maps tag rows res := by
  obtain ⟨R', h1, h2⟩ := classes_sub (maps := maps) (tag := tag) (C := F0) (S := rows) (hacts.closed hel) (hacts.inj hsp hV hel)
    (fun x hx => (hel.mem x).mpr (hrows x hx)) (fuel := F0.length + V.length + 1) (by omega)
  rw [← hrot _ maps tag (by omega)] at h1
  have := rotation_unique h1 hres
  cases this
  exact h2

/-- **completeness of the search**: a non-empty set of facets closed under rotation contains a
representative of every facet other than the trivial one -/
theorem search_complete (hI : Spec.IsVInput d V) (hsp : Split V (d+1) E R T) {F0 : Matrix} (hel : Elim V (d+1) E F0)
    (hacts : ActsOn (d+1) V E maps tag (KeepsLast d)) (hD : ThreeDim (d+1) V) {S : Row → Prop}
    (hS : ∀ f, S f → NormalFacet (d+1) V E f) (hne : ∃ f, S f)
    (hcl : ∀ f, S f → ∃ rows fuel, rotation fuel V f maps tag = some (.ok rows) ∧ ∀ r ∈ rows, S r) :
    ∀ g, NormalFacet (d+1) V E g → g ≠ trivialRow d → ∃ s, S s ∧ Reach maps tag s g ∧ Reach maps tag g s := by
  classical
  obtain ⟨hV, hpos, -⟩ := IsVInput.rect hI
  have hn : 0 < d + 1 := Nat.succ_pos d
  have hC := hacts.closed hel
  have hinj := hacts.inj hsp hV hel
  have hvt := trivialRow_valid hI.last
  -- the facets equivalent to an element of `S`
  let Sb : Matrix := F0.filter fun g => decide (g ≠ trivialRow d ∧ ∃ s, S s ∧ Reach maps tag s g)
  have hSb : ∀ g, g ∈ Sb ↔ NormalFacet (d+1) V E g ∧ g ≠ trivialRow d ∧ ∃ s, S s ∧ Reach maps tag s g := by
    intro g; simp only [Sb, List.mem_filter, hel.mem, decide_eq_true_eq]
  have hlen : ∀ s ∈ trivialRow d :: Sb, s.length = d + 1 := by
    intro s hs
    rcases List.mem_cons.mp hs with rfl | hs
    · exact trivialRow_length d
    · exact ((hSb s).mp hs).1.1
  have hlenv : ∀ s ∈ trivialRow d :: Sb, s.length = d + 1 ∧ ∀ v ∈ V, dot s v ≤ 0 := by
    intro s hs
    refine ⟨hlen s hs, ?_⟩
    rcases List.mem_cons.mp hs with rfl | hs
    · exact hvt
    · exact ((hSb s).mp hs).1.2.2.2.valid
  -- rotation stays inside
  have hA : ∀ f, S f → ∃ F1 ridges rows : Matrix, Elim (onFacet V f) (d+1) (gaussSplit (onFacet V f)).1 F1 ∧ getRidges V f = .ok ridges ∧
      ridges = F1.filter (fun a => !(isBadRow (eraseAll (zeroCols (gaussSplit (onFacet V f)).2.1) a))) ∧
      (∀ r ∈ ridges, ∃ ρ ∈ rows, ρ.length = d + 1 ∧ Rotated f r ρ) ∧
      (∀ ρ ∈ rows, ρ ∈ trivialRow d :: Sb) ∧ ∀ ρ ∈ rows, NormalFacet (d+1) V E ρ ∧ ρ ≠ f := by
    intro f hf
    have hfn := hS f hf
    obtain ⟨F1, ridges, rows, r1, r2, r3, r4, r5, r6⟩ := rotation_rows hsp hV hn hfn (hD.onFacet hV hfn.1 hfn.2.2.2)
    obtain ⟨res, fuel, hres, hresS⟩ := hcl f hf
    have hsub := rotation_represented hsp hV hel hacts r4 (fun ρ hρ => (r5 ρ hρ).1) hres
    refine ⟨F1, ridges, rows, r1, r2, r3, fun r hr => ?_, fun ρ hρ => ?_, fun ρ hρ => ⟨(r5 ρ hρ).1, (r5 ρ hρ).2.1⟩⟩
    · obtain ⟨ρ, hρ, h⟩ := r6 r hr
      exact ⟨ρ, hρ, (r5 ρ hρ).1.1, h⟩
    · by_cases ht : ρ = trivialRow d
      · rw [ht]; exact List.mem_cons_self
      · obtain ⟨r, hr, -, h2⟩ := hsub.cover ρ hρ
        exact List.mem_cons_of_mem _ ((hSb ρ).mpr ⟨(r5 ρ hρ).1, ht, r, hresS r hr, h2⟩)
  -- the property for the elements of `S`
  have hB : ∀ f, S f → f ≠ trivialRow d → LProp (d+1) V (trivialRow d :: Sb) f := by
    intro f hf hft a ha
    obtain ⟨F1, ridges, rows, r1, r2, r3, r4, r5, -⟩ := hA f hf
    have hfn := hS f hf
    have hIf := onFacet_vertex hI hsp hfn hft
    obtain ⟨E2, F2, -, rfl, hsp2, hel2, heq2⟩ := dd_ok hIf
    have r2' : fourierMotzkinElimination (onFacet V f) = .ok ridges := r2
    rw [heq2] at r2'
    injection r2' with r2'
    obtain ⟨t, ht⟩ := neighbours_gen hfn.1 hfn.2.2.2 hsp2 hel2 (rows := rows) (Z := [trivialRow d]) (fun r hr => by
      by_cases hb : isBadRow r = true
      · left; rw [(isBadRow_eq_trivialRow ((hel2.mem r).mp hr).1).mp hb]; simp
      · right
        exact r4 r (by rw [← r2']; exact List.mem_filter.mpr ⟨hr, by simpa using hb⟩)) ha
    refine ⟨t, Gen.mono ?_ ht⟩
    rintro _ ⟨s, hs, rfl⟩
    refine ⟨s, ?_, rfl⟩
    rcases List.mem_append.mp hs with hs | hs
    · rw [List.mem_singleton.mp hs]; exact List.mem_cons_self
    · exact r5 s hs
  -- the maps permute the list
  have hperm : ∀ m ∈ maps, ∀ L, KeepsLast d L → Permutes (d+1) V L → (∀ a, NormalFacet (d+1) V E a → ∃ b g, applyMap m a tag = .ok b ∧
      NormalFacet (d+1) V E b ∧ 0 < g ∧ Composed (d+1) V L a b g) →
      ∀ s' ∈ trivialRow d :: Sb, ∃ s ∈ trivialRow d :: Sb, ∃ g : ℚ, 0 < g ∧ Composed (d+1) V L s s' g := by
    intro m hm L hL hP hact s' hs'
    rcases List.mem_cons.mp hs' with rfl | hs'
    · exact ⟨trivialRow d, List.mem_cons_self, 1, one_pos, trivialRow_composed hL⟩
    · let φ : Row → Row := fun z => match applyMap m z tag with | .ok w => w | _ => z
      have hφ : ∀ a b, applyMap m a tag = .ok b → φ a = b := by intro a b h; simp only [φ, h]
      have hmaps : Set.MapsTo φ (Sb.toFinset : Set Row) (Sb.toFinset : Set Row) := by
        intro a ha
        rw [Finset.mem_coe, List.mem_toFinset] at ha ⊢
        obtain ⟨h1, h2, s, h3, h4⟩ := (hSb a).mp ha
        obtain ⟨b, g, q1, q2, q3, q4⟩ := hact a h1
        rw [hφ a b q1, hSb]
        exact ⟨q2, fun hb => h2 (eq_trivialRow_of_composed hL hP hsp hV h1 q2 q4 hb), s, h3, h4.tail ⟨m, hm, q1⟩⟩
      have hinjφ : Set.InjOn φ (Sb.toFinset : Set Row) := by
        intro a ha b hb hab
        rw [Finset.mem_coe, List.mem_toFinset] at ha hb
        have ha1 := ((hSb a).mp ha).1
        have hb1 := ((hSb b).mp hb).1
        obtain ⟨a', -, q1, -⟩ := hact a ha1
        obtain ⟨b', -, q1', -⟩ := hact b hb1
        rw [hφ a a' q1, hφ b b' q1'] at hab
        exact hinj m hm a ((hel.mem a).mpr ha1) b ((hel.mem b).mpr hb1) (by rw [q1, q1', hab])
      have hsurj := Finset.surjOn_of_injOn_of_card_le φ hmaps hinjφ le_rfl
      obtain ⟨s, hs, hss⟩ := hsurj (by rw [Finset.mem_coe, List.mem_toFinset]; exact hs')
      rw [Finset.mem_coe, List.mem_toFinset] at hs
      obtain ⟨b, g, q1, q2, q3, q4⟩ := hact s ((hSb s).mp hs).1
      rw [hφ s b q1] at hss
      subst hss
      exact ⟨s, List.mem_cons_of_mem _ hs, g, q3, q4⟩
  -- the property for all of `Sb`
  have hCc : ∀ f ∈ Sb, LProp (d+1) V (trivialRow d :: Sb) f := by
    intro f hf
    obtain ⟨hfn, hft, s, hs, hsf⟩ := (hSb f).mp hf
    have hfs : Reach maps tag f s := Reach.symm_of_perm hC hinj ((hel.mem s).mpr (hS s hs)) hsf
    have hst : s ≠ trivialRow d := fun h => hft ((reach_trivialRow hacts hsp hV (hS s hs) hsf).2.mp h)
    have : ∀ x, Reach maps tag x s → NormalFacet (d+1) V E x → LProp (d+1) V (trivialRow d :: Sb) x := by
      intro x hx
      induction hx using Relation.ReflTransGen.head_induction_on with
      | refl => intro _; exact hB s hs hst
      | head hstep _ ih =>
        intro hxn
        obtain ⟨m, hm, hap⟩ := hstep
        obtain ⟨L, h1, h2, h3⟩ := hacts m hm
        obtain ⟨b, g, q1, q2, q3, q4⟩ := h3 _ hxn
        rw [hap] at q1; cases q1
        exact LProp.transport h2 hlenv (hperm m hm L h1 h2 h3) hxn.1 hxn.2.2.2.valid q2.1 q3 q4 (ih q2)
    exact this f hfs hfn
  -- there is a facet other than the trivial one
  have hSbne : Sb ≠ [] := by
    intro hnil
    obtain ⟨f, hf⟩ := hne
    have hfn := hS f hf
    have hft : f = trivialRow d := by
      by_contra hft
      have : f ∈ Sb := (hSb f).mpr ⟨hfn, hft, f, hf, .refl⟩
      rw [hnil] at this; simp at this
    obtain ⟨F1, ridges, rows, r1, r2, r3, r4, r5, r6⟩ := hA f hf
    have hrows : rows = [] := by
      by_contra hr
      obtain ⟨ρ, hρ⟩ := List.exists_mem_of_ne_nil rows hr
      have h1 := r5 ρ hρ
      rw [hnil, List.mem_singleton] at h1
      exact (r6 ρ hρ).2 (h1.trans hft.symm)
    have hridges : ridges = [] := by
      by_contra hr
      obtain ⟨r, hr⟩ := List.exists_mem_of_ne_nil ridges hr
      obtain ⟨ρ, hρ, -⟩ := r4 r hr
      rw [hrows] at hρ; simp at hρ
    have hnzf := hD.onFacet hV hfn.1 hfn.2.2.2
    have hbad := bad_unique (onFacet_rect hV f) hn hnzf r1
    rw [hridges] at r3
    have hall : ∀ a ∈ F1, isBadRow (eraseAll (zeroCols (gaussSplit (onFacet V f)).2.1) a) = true := by
      intro a ha
      by_contra hb
      have : a ∈ F1.filter (fun a => !(isBadRow (eraseAll (zeroCols (gaussSplit (onFacet V f)).2.1) a))) :=
        List.mem_filter.mpr ⟨ha, by simpa using hb⟩
      rw [← r3] at this; simp at this
    -- hence all valid inequalities are combinations of `f` and the only ridge
    have hsp1 := gaussSplit_spec (onFacet_rect hV f) (by obtain ⟨v, hv, -⟩ := hnzf; exact List.length_pos_of_mem hv) hn
    apply hD
    refine ⟨valL (d+1) V (toV (d+1) f), valL (d+1) V (toV (d+1) (F1.headD [])), fun a ha => ?_⟩
    have h1 := r1.genV hsp1 (a := a) (fun v hv => ha v (mem_onFacet.mp hv).1)
    have h2 : ∀ y, CV (d+1) (onFacet V f) F1 y → ∃ c : ℚ, y = c • valL (d+1) (onFacet V f) (toV (d+1) (F1.headD [])) := by
      intro y hy
      induction hy with
      | zero => exact ⟨0, by simp⟩
      | add u y z hu hy _ ih =>
        obtain ⟨r, hr, rfl⟩ := hy
        obtain ⟨c, rfl⟩ := ih
        have hh : F1.headD [] ∈ F1 := by
          cases F1 with
          | nil => simp at hr
          | cons x xs => simp
        have hrh : r = F1.headD [] := hbad r hr _ hh (hall r hr) (hall _ hh)
        exact ⟨u + c, by rw [← hrh, add_smul]⟩
    obtain ⟨c, hc⟩ := h2 _ h1
    rw [← map_smul] at hc
    obtain ⟨t, ht⟩ := FacetP.tight_rat hfn.1 hfn.2.2.2 (x := a - c • toV (d+1) (F1.headD [])) (fun v hv h0 => by
      rw [map_sub, (valL_eq_iff.mp hc) v (mem_onFacet.mpr ⟨hv, h0⟩), sub_self])
    have h3 : valL (d+1) V a = t • valL (d+1) V (toV (d+1) f) + c • valL (d+1) V (toV (d+1) (F1.headD [])) := by
      rw [← ht, map_sub, map_smul]; abel
    rw [h3]
    exact Submodule.add_mem _ (Submodule.smul_mem _ _ (Submodule.subset_span (by simp)))
      (Submodule.smul_mem _ _ (Submodule.subset_span (by simp)))
  -- conclusion
  intro g hg hgt
  have hgen : CV (d+1) V (trivialRow d :: Sb) (valL (d+1) V (toV (d+1) g)) := by
    rw [CV.iff_Cn hlen, List.map_cons]
    refine connect (h := valRow V (trivialRow d)) (S := Sb.map (valRow V))
      (N := fun y => ∃ a : Fin (d+1) → ℚ, (∀ v ∈ V, ev (d+1) v a ≤ 0) ∧ valL (d+1) V a = y)
      (valRow_length _ _) (fun s hs => ?_) (by simpa using hSbne) ?_ ?_ _ ⟨_, fun v hv => ?_, rfl⟩
    · obtain ⟨s', -, rfl⟩ := List.mem_map.mp hs
      exact valRow_length _ _
    · rintro f' hf' _ ⟨a, ha, rfl⟩
      obtain ⟨f, hf, rfl⟩ := List.mem_map.mp hf'
      obtain ⟨t, ht⟩ := hCc f hf a ha
      refine ⟨t, ?_⟩
      rw [CV.iff_Cn hlen, List.map_cons] at ht
      rw [toV_valRow ((hSb f).mp hf).1.1]
      exact ht
    · rintro ⟨x, y, hxy⟩
      exact hD ⟨x, y, fun a ha => hxy _ ⟨a, ha, rfl⟩⟩
    · rw [ev_toV _ g v hg.1.le]
      exact_mod_cast hg.2.2.2.valid v hv
  have hmem := facet_mem_of_gen hsp hV hg (S := trivialRow d :: Sb) (fun s hs => by
    rcases List.mem_cons.mp hs with rfl | hs
    · refine ⟨trivialRow_length d, hvt, fun hf => ⟨trivialRow_length d, trivialRow_primitive d, ?_, hf⟩⟩
      intro e he
      rw [trivialRow_getD, if_neg]
      exact last_not_mem hsp.echelon (fun e he v hv => hsp.E_zero e he v hv) (IsVInput.rect hI).2.2 e he
    · have := ((hSb s).mp hs).1
      exact ⟨this.1, this.2.2.2.valid, fun _ => this⟩) hgen
  rcases List.mem_cons.mp hmem with h | h
  · exact absurd h hgt
  · obtain ⟨-, -, s, hs, hsg⟩ := (hSb g).mp h
    exact ⟨s, hs, hsg, Reach.symm_of_perm hC hinj ((hel.mem s).mpr (hS s hs)) hsg⟩

end

end Panda
