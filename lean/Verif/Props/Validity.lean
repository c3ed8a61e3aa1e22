import Verif.Proofs.Validity

/-! # Properties C39, C40: validation of known facets, known vertices and maps (option `-c`) -/

namespace Panda

open Cone

section
variable {n d : Nat} {V A K : Matrix}

theorem extreme_facetP {r : Row} (hA : ∀ a ∈ A, a.length = n) (hE : ∀ x : Fin n → ℚ, (∀ a ∈ A, ev n a x = 0) → x = 0)
    (h : Spec.IsExtremeRay n A r) : FacetP n A r := by
  obtain ⟨h1, h2, h3⟩ := h
  have hv : ∀ a ∈ A, dot r a ≤ 0 := fun a ha => by have := h1 a ha; rwa [ip_eq_dot, dot_comm] at this
  refine ⟨hv, ?_, ?_⟩
  · by_contra hcon
    push Not at hcon
    exact h2 (hE _ fun a ha => by rw [vec_eq_toV, ev_row (hA a ha), dot_comm, hcon a ha]; simp)
  · intro b hb hz
    let s : Finset (Fin A.length) := Finset.univ.filter fun j => (dot r A[j] : ℚ) < 0
    obtain ⟨ε, e0, e1⟩ := exists_eps s (fun j => (dot r A[j] : ℚ)) (fun j => (dot b A[j] : ℚ))
      (fun j hj => (Finset.mem_filter.mp hj).2)
    obtain ⟨η, f0, f1⟩ := exists_eps s (fun j => (dot r A[j] : ℚ)) (fun j => -(dot b A[j] : ℚ))
      (fun j hj => (Finset.mem_filter.mp hj).2)
    have hδ : 0 < min ε η := lt_min e0 f0
    have hab : ∀ a ∈ A, (dot r a : ℚ) + min ε η * dot b a ≤ 0 ∧ (dot r a : ℚ) - min ε η * dot b a ≤ 0 := by
      intro a ha
      rcases lt_or_eq_of_le (hv a ha) with hlt | heq
      · obtain ⟨j, hj, rfl⟩ := List.getElem_of_mem ha
        have hjs : (⟨j, hj⟩ : Fin A.length) ∈ s := by
          refine Finset.mem_filter.mpr ⟨Finset.mem_univ _, ?_⟩
          show ((dot r A[j] : Int) : ℚ) < 0
          exact_mod_cast hlt
        have g1 := e1 _ hδ.le (min_le_left _ _) _ hjs
        have g2 := f1 _ hδ.le (min_le_right _ _) _ hjs
        have g1' : (dot r A[j] : ℚ) + min ε η * dot b A[j] < 0 := g1
        have g2' : (dot r A[j] : ℚ) + min ε η * -(dot b A[j] : ℚ) < 0 := g2
        exact ⟨g1'.le, by linarith⟩
      · rw [heq, hz a ha heq]; simp
    have hev : ∀ (σ : ℚ), ∀ a ∈ A, (∑ i : Fin n, (a.getD i 0 : ℚ) * ((1/2 : ℚ) • (toV n r + σ • toV n b)) i) =
        1/2 * ((dot r a : ℚ) + σ * dot b a) := by
      intro σ a ha
      have : (∑ i : Fin n, (a.getD i 0 : ℚ) * ((1/2 : ℚ) • (toV n r + σ • toV n b)) i) =
          ev n a ((1/2 : ℚ) • (toV n r + σ • toV n b)) := (lin_eq n a _)
      rw [this, map_smul, map_add, map_smul, ev_row (hA a ha), ev_row (hA a ha), smul_eq_mul, smul_eq_mul,
        dot_comm a r, dot_comm a b]
    obtain ⟨⟨t, ht⟩, -⟩ := h3 ((1/2 : ℚ) • (toV n r + (min ε η) • toV n b)) ((1/2 : ℚ) • (toV n r + (-min ε η) • toV n b))
      (fun a ha => by rw [hev _ a ha]; have := (hab a ha).1; linarith)
      (fun a ha => by rw [hev _ a ha]; have := (hab a ha).2; linarith)
      (by
        rw [vec_eq_toV, ← smul_add]
        funext i
        simp only [Pi.smul_apply, Pi.add_apply, smul_eq_mul]
        ring)
    refine ⟨(2 * t - 1) / min ε η, fun a ha => ?_⟩
    have h4 := hev (min ε η) a ha
    have h5 : (∑ i : Fin n, (a.getD i 0 : ℚ) * (t • toV n r) i) = t * dot r a := by
      have : (∑ i : Fin n, (a.getD i 0 : ℚ) * (t • toV n r) i) = ev n a (t • toV n r) := (lin_eq n a _)
      rw [this, map_smul, ev_row (hA a ha), smul_eq_mul, dot_comm a r]
    rw [ht] at h4
    rw [vec_eq_toV, h5] at h4
    have := hδ.ne'
    field_simp
    linarith

theorem active_of_rank (hr : 2 ≤ Spec.rank n V) {a : Row} (h : Spec.IsFacet n V a) : ∃ v ∈ V, Spec.ip a v = 0 := by
  by_contra hcon
  push Not at hcon
  have h1 : V.filter (fun v => decide (Spec.ip a v = 0)) = [] := by
    rw [List.filter_eq_nil_iff]
    intro v hv; simpa using hcon v hv
  have h2 := h.2.2
  rw [h1] at h2
  have h3 : Spec.rank n [] = 0 := by
    rw [← C04_dimension_eq_rank n [] (by simp)]; rfl
  omega

/-- **C39** With `-c`, the known inequalities are accepted iff each of them is satisfied by all vertices and rays,
holds with equality for at least one of them, and those on it have rank one less than all of them; otherwise an
exception is thrown. -/
theorem C39_known_inequalities (hV : ∀ v ∈ V, v.length = n) (hK : ∀ a ∈ K, a.length = n) :
    (checkValidityOfInequalities V K = .ok () ↔ ∀ a ∈ K, Spec.IsFacet n V a ∧ ∃ v ∈ V, Spec.ip a v = 0) ∧
    (checkValidityOfInequalities V K = .ok () ∨ checkValidityOfInequalities V K = .thrown) := by
  have key : checkValidityOfInequalities V K =
      if ∀ a ∈ K, inequalityIsValid V a (dimension V) = true then .ok () else .thrown := by
    unfold checkValidityOfInequalities
    by_cases h : K = []
    · subst h; simp
    · rw [if_neg (by simpa using h), checkEach_if _ (fun a => inequalityIsValid V a (dimension V) = true)
        fun a => checkValidityOfInequality_eq V a _]
  rw [key]
  have h1 : (∀ a ∈ K, inequalityIsValid V a (dimension V) = true) ↔
      ∀ a ∈ K, Spec.IsFacet n V a ∧ ∃ v ∈ V, Spec.ip a v = 0 := by
    constructor
    · exact fun h a ha => (inequalityIsValid_iff hV (hK a ha)).mp (h a ha)
    · exact fun h a ha => (inequalityIsValid_iff hV (hK a ha)).mpr (h a ha)
  split
  · next h => exact ⟨iff_of_true rfl (h1.mp h), Or.inl rfl⟩
  · next h => exact ⟨iff_of_false (by simp) (mt h1.mpr h), Or.inr rfl⟩

/-- **C39** Unless the input consists of a single point (or nothing), this is: iff they are facets. -/
theorem C39_known_facets (hV : ∀ v ∈ V, v.length = n) (hK : ∀ a ∈ K, a.length = n) (hr : 2 ≤ Spec.rank n V) :
    checkValidityOfInequalities V K = .ok () ↔ ∀ a ∈ K, Spec.IsFacet n V a := by
  rw [(C39_known_inequalities hV hK).1]
  exact ⟨fun h a ha => (h a ha).1, fun h a ha => ⟨h a ha, active_of_rank hr (h a ha)⟩⟩

theorem checkValidityOfVertices_iff (hA : ∀ a ∈ A, a.length = n) (hK : ∀ r ∈ K, r.length = n) :
    (checkValidityOfVertices A K = .ok () ↔ ∀ r ∈ K, Spec.IsFacet n A r ∧ ∃ a ∈ A, Spec.ip r a = 0) ∧
    (checkValidityOfVertices A K = .ok () ∨ checkValidityOfVertices A K = .thrown) := by
  have key : checkValidityOfVertices A K = checkValidityOfInequalities A K := by
    unfold checkValidityOfVertices checkValidityOfInequalities
    congr 2
    funext r
    rw [checkValidityOfVertex_eq, checkValidityOfInequality_eq]
  rw [key]
  exact C39_known_inequalities hA hK

/-- **C39** Known vertices and rays, for an inequality system as the program assembles it (with the row of the
homogenising coordinate), that has a solution and whose solution set contains no line, in dimension at least one:
they are accepted iff each of them is a vertex or an extreme ray. -/
theorem C39_known_vertices (hd : 0 < d) (hA : ∀ a ∈ A, a.length = d + 1) (hK : ∀ r ∈ K, r.length = d + 1)
    (htriv : List.replicate d 0 ++ [-1] ∈ A) (hsat : ∃ p, Spec.Solves d A p) (hline : ¬ Spec.HasLine d A) :
    checkValidityOfVertices A K = .ok () ↔ ∀ r ∈ K, Spec.IsExtremeRay (d+1) A r := by
  obtain ⟨-, -, -, -, hE, -⟩ := ve_elim hA htriv hsat hline
  rw [(checkValidityOfVertices_iff hA hK).1]
  constructor
  · intro h r hr
    obtain ⟨h1, -⟩ := h r hr
    have hf := (isFacet_iff.mp h1).2
    refine extreme_of_facet hA hE (hK r hr) ?_ hf
    intro h0
    obtain ⟨a, ha, hne⟩ := hf.strict
    apply hne
    have := ev_row (hA a ha) r
    rw [h0, map_zero, dot_comm] at this
    exact_mod_cast this.symm
  · intro h r hr
    have hf := extreme_facetP hA hE (h r hr)
    refine ⟨isFacet_iff.mpr ⟨hK r hr, hf⟩, ?_⟩
    by_contra hcon
    push Not at hcon
    -- all vectors would be multiples of r
    have hall : ∀ x : Fin (d+1) → ℚ, ∃ t : ℚ, x = t • toV (d+1) r := by
      intro x
      obtain ⟨N, b, hN, hb, heq⟩ := exists_int_multiple x
      have hN' : (N : ℚ) ≠ 0 := by exact_mod_cast hN.ne'
      obtain ⟨t, ht⟩ := hf.tight b hb fun a ha hz => absurd (by rw [ip_eq_dot]; exact hz) (hcon a ha)
      refine ⟨t / N, ?_⟩
      have h0 : x - (t / N) • toV (d+1) r = 0 := by
        apply hE
        intro a ha
        have h1 := ht a ha
        have h2 : (dot b a : ℚ) = N * ev (d+1) a x := by
          rw [dot_comm, ← ev_row (hA a ha), heq, map_smul, smul_eq_mul]
        rw [h2, dot_comm, ← ev_row (hA a ha)] at h1
        rw [map_sub, map_smul, smul_eq_mul]
        field_simp
        linarith
      exact sub_eq_zero.mp h0
    obtain ⟨s, hs⟩ := hall (Pi.single ⟨0, by omega⟩ 1)
    obtain ⟨t, ht⟩ := hall (Pi.single ⟨1, by omega⟩ 1)
    have s0 := congrFun hs ⟨0, by omega⟩
    have s1 := congrFun hs ⟨1, by omega⟩
    have t0 := congrFun ht ⟨0, by omega⟩
    have t1 := congrFun ht ⟨1, by omega⟩
    simp only [Pi.single_eq_same, Pi.smul_apply, smul_eq_mul] at s0 t1
    rw [Pi.single_eq_of_ne (by simp)] at s1 t0
    simp only [Pi.smul_apply, smul_eq_mul] at s1 t0
    rcases mul_eq_zero.mp s1.symm with h1 | h1
    · rw [h1] at s0; simp at s0
    · rw [h1] at t1; simp at t1

/-- **C39** Filtering keeps, in their order, exactly the inequalities that would be accepted. -/
theorem C39_filter (hV : ∀ v ∈ V, v.length = n) (hK : ∀ a ∈ K, a.length = n) :
    (filterInvalidInequalities V K).Sublist K ∧
    (∀ a, a ∈ filterInvalidInequalities V K ↔ a ∈ K ∧ Spec.IsFacet n V a ∧ ∃ v ∈ V, Spec.ip a v = 0) ∧
    (∀ a, (filterInvalidInequalities V K).count a = if a ∈ filterInvalidInequalities V K then K.count a else 0) ∧
    filterInvalidVertices V K = filterInvalidInequalities V K := by
  have key : filterInvalidInequalities V K = K.filter fun a => inequalityIsValid V a (dimension V) := by
    unfold filterInvalidInequalities
    by_cases h : K = []
    · subst h; simp
    · rw [if_neg (by simpa using h), filterLoop_eq, List.nil_append]
  rw [key]
  refine ⟨List.filter_sublist, fun a => ?_, fun a => ?_, key⟩
  · rw [List.mem_filter]
    constructor
    · rintro ⟨h1, h2⟩; exact ⟨h1, (inequalityIsValid_iff hV (hK a h1)).mp h2⟩
    · rintro ⟨h1, h2⟩; exact ⟨h1, (inequalityIsValid_iff hV (hK a h1)).mpr h2⟩
  · split
    · next h => exact List.count_filter (List.mem_filter.mp h).2
    · next h => exact List.count_eq_zero_of_not_mem h

/-- a square: two facets are accepted, a diagonal is rejected, a non-facet is rejected, a duplicated row is kept -/
example :
    checkValidityOfInequalities [[0,0,1],[1,0,1],[0,1,1],[1,1,1]] [[1,0,-1],[0,-1,0]] = .ok () ∧
    checkValidityOfInequalities [[0,0,1],[1,0,1],[0,1,1],[1,1,1]] [[1,0,-1],[1,1,-1]] = .thrown ∧
    checkValidityOfInequalities [[0,0,1],[1,0,1],[0,1,1],[1,1,1]] [[1,1,-2]] = .thrown ∧
    checkValidityOfInequalities [[0,0,1],[1,0,1],[0,1,1],[1,1,1]] [[1,1,-3]] = .thrown ∧
    filterInvalidInequalities [[0,0,1],[1,0,1],[0,1,1],[1,1,1]] [[1,1,-2],[1,0,-1],[1,1,-1],[0,-2,0]]
      = [[1,0,-1],[0,-2,0]] ∧
    checkValidityOfVertices [[-1,0,0],[0,-1,0],[1,1,-1],[0,0,-1]] [[0,0,1],[1,0,1]] = .ok () ∧
    checkValidityOfVertices [[-1,0,0],[0,-1,0],[1,1,-1],[0,0,-1]] [[1,1,2]] = .thrown := by decide

example : 2 ≤ Spec.rank 3 [[0,0,1],[1,0,1],[0,1,1],[1,1,1]] := by
  rw [← C04_dimension_eq_rank 3 _ (by decide)]; decide

/-- The equality row matters only for a single point: there the rank condition alone would accept a strict
inequality, which the program rejects. -/
theorem C39_point : Spec.IsFacet 2 [[5, 1]] [1, -7] ∧ checkValidityOfInequalities [[5, 1]] [[1, -7]] = .thrown := by
  refine ⟨⟨rfl, by intro v hv; simp at hv; subst hv; decide, ?_⟩, by decide⟩
  rw [← C04_dimension_eq_rank 2 _ (by decide), ← C04_dimension_eq_rank 2 _ (by decide)]; decide

end

/-! ## C40 -/

section
variable {n : Nat} {A : Matrix} {m : SymMap}

theorem lowest_unique {a b : Row} (ha : a.length = n) (hb : b.length = n) (pa : Spec.LowestTerms a) (pb : Spec.LowestTerms b)
    {t : ℚ} (ht : 0 < t) (h : Spec.vec n a = t • Spec.vec n b) : a = b := by
  have h' : toV n a = t • toV n b := h
  rcases pa with pa | pa
  · rcases pb with pb | pb
    · exact prim_eq ha hb ((primitiveRow_iff a).mp pa) ((primitiveRow_iff b).mp pb) ht h'
    · rw [(toV_eq_zero_iff n b hb).mpr pb, smul_zero] at h'
      exact absurd h' (toV_ne_zero_of_primitive ha ((primitiveRow_iff a).mp pa))
  · have ha0 := (toV_eq_zero_iff n a ha).mpr pa
    have h0 : toV n b = 0 := by
      rw [ha0] at h'
      exact (smul_eq_zero.mp h'.symm).resolve_left ht.ne'
    exact toV_injective n _ _ ha hb (by rw [ha0, h0])

/-- one proof for both kinds of maps: `F` is the linear action -/
theorem checkValidityMap_symm {tag : Tag} (F : (Fin n → ℚ) → (Fin n → ℚ)) (hA : ∀ a ∈ A, a.length = n)
    (hF : ∀ a : Row, a.length = n → ∃ b, applyMap m a tag = .ok b ∧ b.length = n ∧
      (∃ g : Int, 0 < g ∧ F (Spec.vec n a) = (g : ℚ) • Spec.vec n b) ∧ (F (Spec.vec n a) ≠ 0 → Spec.PrimitiveRow b)) :
    (checkValidityMap A m tag = .ok () ↔ A.Nodup ∧ (∀ a ∈ A, Spec.LowestTerms a) ∧
      (∀ a ∈ A, ∃ b ∈ A, ∃ s : ℚ, 0 < s ∧ F (Spec.vec n a) = s • Spec.vec n b) ∧
      ∀ b ∈ A, ∃ a ∈ A, ∃ s : ℚ, 0 < s ∧ F (Spec.vec n a) = s • Spec.vec n b) ∧
    (checkValidityMap A m tag = .ok () ∨ checkValidityMap A m tag = .thrown) := by
  classical
  let f : Row → Row := fun a => if h : a.length = n then (hF a h).choose else []
  have hf : ∀ a : Row, a.length = n → applyMap m a tag = .ok (f a) ∧ (f a).length = n ∧
      (∃ g : ℚ, 0 < g ∧ F (Spec.vec n a) = g • Spec.vec n (f a)) ∧ Spec.LowestTerms (f a) := by
    intro a ha
    have h := (hF a ha).choose_spec
    have e : f a = (hF a ha).choose := dif_pos ha
    rw [← e] at h
    obtain ⟨h1, h2, ⟨g, hg, h3⟩, h4⟩ := h
    refine ⟨h1, h2, ⟨g, by exact_mod_cast hg, h3⟩, ?_⟩
    by_cases h0 : F (Spec.vec n a) = 0
    · right
      rw [h0] at h3
      have hg' : (g : ℚ) ≠ 0 := by exact_mod_cast hg.ne'
      exact (toV_eq_zero_iff n _ h2).mp ((smul_eq_zero.mp h3.symm).resolve_left hg')
    · exact Or.inl (h4 h0)
  have happ : ∀ r ∈ A, applyMap m r tag = .ok (f r) := fun r hr => (hf r (hA r hr)).1
  refine ⟨?_, checkValidityMap_total happ⟩
  rw [checkValidityMap_iff happ]
  constructor
  · rintro ⟨h1, h2, h3⟩
    refine ⟨h1, fun b hb => ?_, fun a ha => ?_, fun b hb => ?_⟩
    · obtain ⟨a, ha, rfl⟩ := h3 b hb
      exact (hf a (hA a ha)).2.2.2
    · exact ⟨f a, h2 a ha, (hf a (hA a ha)).2.2.1⟩
    · obtain ⟨a, ha, rfl⟩ := h3 b hb
      exact ⟨a, ha, (hf a (hA a ha)).2.2.1⟩
  · rintro ⟨h1, h2, h3, h4⟩
    have key : ∀ a ∈ A, ∀ b ∈ A, ∀ s : ℚ, 0 < s → F (Spec.vec n a) = s • Spec.vec n b → f a = b := by
      intro a ha b hb s hs heq
      obtain ⟨-, g1, ⟨g, hg, g2⟩, g3⟩ := hf a (hA a ha)
      refine lowest_unique g1 (hA b hb) g3 (h2 b hb) (t := g⁻¹ * s) (mul_pos (inv_pos.mpr hg) hs) ?_
      rw [mul_smul, ← heq, g2, smul_smul, inv_mul_cancel₀ hg.ne', one_smul]
    refine ⟨h1, fun a ha => ?_, fun b hb => ?_⟩
    · obtain ⟨b, hb, s, hs, heq⟩ := h3 a ha
      rw [key a ha b hb s hs heq]; exact hb
    · obtain ⟨a, ha, s, hs, heq⟩ := h4 b hb
      exact ⟨a, ha, key a ha b hb s hs heq⟩

/-- **C40**, vertices and rays: with `-c`, a map is accepted iff it permutes the rows (up to positive scaling), and
no row occurs twice and all rows are in lowest terms; otherwise an exception is thrown. -/
theorem C40_vertex_maps (hm : Spec.IsMap n m) (hA : ∀ a ∈ A, a.length = n) :
    (checkValidityMap A m .vertex = .ok () ↔ A.Nodup ∧ (∀ a ∈ A, Spec.LowestTerms a) ∧ Spec.IsSymmetry n A m) ∧
    (checkValidityMap A m .vertex = .ok () ∨ checkValidityMap A m .vertex = .thrown) := by
  obtain ⟨h1, h2⟩ := checkValidityMap_symm (tag := .vertex) (m := m) (Spec.pushed n m) hA fun a ha => (C24_apply hm ha).2
  refine ⟨h1.trans ⟨fun h => ⟨h.1, h.2.1, ⟨hm, h.2.2.1, h.2.2.2⟩⟩, fun h => ⟨h.1, h.2.1, h.2.2.into, h.2.2.onto⟩⟩, h2⟩

/-- **C40**, inequalities -/
theorem C40_inequality_maps (hm : Spec.IsMap n m) (hA : ∀ a ∈ A, a.length = n) :
    (checkValidityMap A m .facet = .ok () ↔ A.Nodup ∧ (∀ a ∈ A, Spec.LowestTerms a) ∧ Spec.IsSystemSymmetry n A m) ∧
    (checkValidityMap A m .facet = .ok () ∨ checkValidityMap A m .facet = .thrown) := by
  obtain ⟨h1, h2⟩ := checkValidityMap_symm (tag := .facet) (m := m) (Spec.pulled n m) hA fun a ha => (C24_apply hm ha).1
  refine ⟨h1.trans ⟨fun h => ⟨h.1, h.2.1, ⟨hm, h.2.2.1, h.2.2.2⟩⟩, fun h => ⟨h.1, h.2.1, h.2.2.into, h.2.2.onto⟩⟩, h2⟩

/-- **C40**, all maps of the file: accepted iff each is -/
theorem C40_all_maps (A : Matrix) (maps : Maps) (tag : Tag) :
    checkValidityOfClasses A maps tag = .ok () ↔ ∀ m ∈ maps, checkValidityMap A m tag = .ok () := by
  unfold checkValidityOfClasses
  induction maps with
  | nil => simp [checkEach]
  | cons m ms ih =>
    rw [checkEach]
    cases h : checkValidityMap A m tag with
    | ok u => cases u; simp only [Outcome.bind, ih, List.mem_cons, forall_eq_or_imp, h, true_and]
    | thrown => simp [Outcome.bind, h]
    | ub => simp [Outcome.bind, h]

/-- swapping the coordinates of a triangle, and a map that is not a symmetry of it -/
example :
    checkValidityMap [[0,0,1],[1,0,1],[0,1,1]] [[(1,1)],[(0,1)],[(2,1)]] .vertex = .ok () ∧
    checkValidityMap [[0,0,1],[1,0,1],[0,2,1]] [[(1,1)],[(0,1)],[(2,1)]] .vertex = .thrown ∧
    checkValidityMap [[-1,0,0],[0,-1,0],[1,1,-1]] [[(1,1)],[(0,1)],[(2,1)]] .facet = .ok () ∧
    checkValidityMap [[0,0,1],[1,0,1],[0,1,1]] [[],[],[(2,1)]] .vertex = .thrown := by decide

example : Spec.IsMap 3 [[(1,1)],[(0,1)],[(2,1)]] := ⟨rfl, by decide⟩

/-- **C40** is false of the code as stated: the identity is rejected for the ray (2, 0), for the inequality
2x ≤ 4 and for a repeated point. -/
theorem C40_identity_false :
    checkValidityMap [[2, 0]] [[(0, 1)], [(1, 1)]] .vertex = .thrown ∧
    checkValidityMap [[2, -4]] [[(0, 1)], [(1, 1)]] .facet = .thrown ∧
    checkValidityMap [[1, 1], [1, 1]] [[(0, 1)], [(1, 1)]] .vertex = .thrown ∧
    Spec.IsSymmetry 2 [[2, 0]] [[(0, 1)], [(1, 1)]] ∧ Spec.IsSystemSymmetry 2 [[2, -4]] [[(0, 1)], [(1, 1)]] ∧
    Spec.IsSymmetry 2 [[1, 1], [1, 1]] [[(0, 1)], [(1, 1)]] := by
  have hm : Spec.IsMap 2 [[(0, 1)], [(1, 1)]] := ⟨rfl, by decide⟩
  have hp : ∀ x : Fin 2 → ℚ, Spec.pushed 2 [[(0, 1)], [(1, 1)]] x = x := by
    intro x; funext i
    fin_cases i <;> simp [Spec.pushed, Spec.factor, Fin.sum_univ_two]
  have hq : ∀ x : Fin 2 → ℚ, Spec.pulled 2 [[(0, 1)], [(1, 1)]] x = x := by
    intro x; funext i
    fin_cases i <;> simp [Spec.pulled, Spec.factor, Fin.sum_univ_two]
  refine ⟨by decide, by decide, by decide, ⟨hm, ?_, ?_⟩, ⟨hm, ?_, ?_⟩, ⟨hm, ?_, ?_⟩⟩ <;>
  · intro v hv
    exact ⟨v, hv, 1, one_pos, by simp only [hp, hq, one_smul]⟩

end

end Panda
