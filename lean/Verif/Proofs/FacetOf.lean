import Verif.Spec.Known
import Verif.Props.MainMaps

/-! # Facets of a polyhedron given by points, and facets as rows -/

namespace Panda

section

variable {n : Nat} {V : Matrix} {S : (Fin n → ℚ) → Prop}

theorem hom_smul_vertex {v : Row} (h : 0 < v.getD n 0) :
    Spec.vec (n + 1) v = (v.getD n 0 : ℚ) • hom n (fun i => (v.getD i 0 : ℚ) / (v.getD n 0 : ℚ)) := by
  have h0 : (v.getD n 0 : ℚ) ≠ 0 := by exact_mod_cast h.ne'
  funext i
  refine Fin.lastCases ?_ (fun i => ?_) i
  · simp [hom_last, Spec.vec]
  · simp only [Pi.smul_apply, hom_castSucc, smul_eq_mul, Spec.vec, Fin.val_castSucc]
    field_simp

theorem hom_add_ray {r : Row} (h : r.getD n 0 = 0) (p : Fin n → ℚ) :
    hom n (p + fun i : Fin n => (r.getD i 0 : ℚ)) = hom n p + Spec.vec (n + 1) r := by
  funext i
  refine Fin.lastCases ?_ (fun i => ?_) i
  · simp only [hom_last, Pi.add_apply, Spec.vec, Fin.val_last, h]; norm_num
  · simp only [hom_castSucc, Pi.add_apply, Spec.vec, Fin.val_castSucc]

theorem vertex_inPolyhedron (hlast : ∀ v ∈ V, 0 ≤ v.getD n 0) {v : Row} (hv : v ∈ V) (h : 0 < v.getD n 0) :
    Spec.InPolyhedron n V (fun i => (v.getD i 0 : ℚ) / (v.getD n 0 : ℚ)) := by
  have h0 : (v.getD n 0 : ℚ) ≠ 0 := by exact_mod_cast h.ne'
  rw [inPolyhedron_iff hlast]
  obtain ⟨j, hj, rfl⟩ := List.getElem_of_mem hv
  refine ⟨fun i => if i = ⟨j, hj⟩ then (1 / (V[j].getD n 0 : ℚ)) else 0, fun i => ?_, ?_⟩
  · dsimp only
    split
    · have : (0 : ℚ) < (V[j].getD n 0 : ℚ) := by exact_mod_cast h
      positivity
    · exact le_rfl
  · simp only [ite_smul, zero_smul, Finset.sum_ite_eq', Finset.mem_univ, if_true, Fin.getElem_fin]
    rw [hom_smul_vertex h, smul_smul, one_div, inv_mul_cancel₀ h0, one_smul]

theorem ray_inPolyhedron (hlast : ∀ v ∈ V, 0 ≤ v.getD n 0) {r : Row} (hv : r ∈ V) (h : r.getD n 0 = 0) {p : Fin n → ℚ}
    (hp : Spec.InPolyhedron n V p) {t : ℚ} (ht : 0 ≤ t) : Spec.InPolyhedron n V (p + t • fun i : Fin n => (r.getD i 0 : ℚ)) := by
  rw [inPolyhedron_iff hlast] at hp ⊢
  obtain ⟨c, hc, e⟩ := hp
  obtain ⟨j, hj, rfl⟩ := List.getElem_of_mem hv
  refine ⟨fun i => c i + if i = ⟨j, hj⟩ then t else 0, fun i => ?_, ?_⟩
  · dsimp only
    split
    · exact add_nonneg (hc i) ht
    · simpa using hc i
  · simp only [add_smul, Finset.sum_add_distrib, ite_smul, zero_smul, Finset.sum_ite_eq', Finset.mem_univ, if_true, Fin.getElem_fin]
    have e' : hom n p = ∑ x : Fin V.length, c x • Spec.vec (n + 1) V[(x : Nat)] := e
    rw [← e']
    funext i
    refine Fin.lastCases ?_ (fun i => ?_) i
    · simp only [hom_last, Pi.add_apply, Pi.smul_apply, Spec.vec, Fin.val_last, h]; norm_num
    · simp only [hom_castSucc, Pi.add_apply, Pi.smul_apply, Spec.vec, Fin.val_castSucc]

/-- an inequality that is valid on the polyhedron is valid for the rows -/
theorem valid_of_polyhedron (hI : Spec.IsVInput n V) {a : Row} (ha : a.length = n + 1) (h : ∀ p, Spec.InPolyhedron n V p → Spec.value n a p ≤ 0) :
    ∀ v ∈ V, dot a v ≤ 0 := by
  intro v hv
  rcases (hI.last v hv).lt_or_eq with h0 | h0
  · have h1 := h _ (vertex_inPolyhedron hI.last hv h0)
    rw [value_eq] at h1
    have h2 : (dot a v : ℚ) = (v.getD n 0 : ℚ) * ev (n + 1) a (hom n (fun i => (v.getD i 0 : ℚ) / (v.getD n 0 : ℚ))) := by
      rw [← ev_row ha, ← vec_eq_toV, hom_smul_vertex h0, map_smul, smul_eq_mul]
    have h3 : (0 : ℚ) < (v.getD n 0 : ℚ) := by exact_mod_cast h0
    have : (dot a v : ℚ) ≤ 0 := by rw [h2]; exact mul_nonpos_of_nonneg_of_nonpos h3.le h1
    exact_mod_cast this
  · obtain ⟨w, hw, hpos⟩ := hI.vertex
    have h1 := fun t (ht : (0 : ℚ) ≤ t) => h _ (ray_inPolyhedron hI.last hv h0.symm (vertex_inPolyhedron hI.last hw hpos) ht)
    by_contra hcon
    have hc : (0 : ℚ) < (dot a v : ℚ) := by exact_mod_cast not_le.1 hcon
    set p := fun i : Fin n => (w.getD i 0 : ℚ) / (w.getD n 0 : ℚ) with hp
    have h2 : ∀ t : ℚ, Spec.value n a (p + t • fun i : Fin n => (v.getD i 0 : ℚ)) = Spec.value n a p + t * (dot a v : ℚ) := by
      intro t
      rw [value_eq, value_eq, ← ev_row ha, ← vec_eq_toV, ← smul_eq_mul, ← map_smul, ← map_add]
      congr 1
      funext i
      refine Fin.lastCases ?_ (fun i => ?_) i
      · simp only [hom_last, Pi.add_apply, Pi.smul_apply, Spec.vec, Fin.val_last, ← h0]; norm_num
      · simp only [hom_castSucc, Pi.add_apply, Pi.smul_apply, Spec.vec, Fin.val_castSucc]
    have h3 := h1 ((1 + |Spec.value n a p|) / (dot a v : ℚ)) (by positivity)
    rw [h2, div_mul_cancel₀ _ hc.ne'] at h3
    have := neg_abs_le (Spec.value n a p)
    linarith

/-- points of the polyhedron where a valid inequality holds with equality are combinations of such rows -/
theorem tight_span (hI : Spec.IsVInput n V) {a : Row} (ha : a.length = n + 1) (hv : ∀ v ∈ V, dot a v ≤ 0) {p : Fin n → ℚ}
    (hp : Spec.InPolyhedron n V p) (h0 : Spec.value n a p = 0) :
    hom n p ∈ Spec.span (n + 1) (V.filter fun v => decide (Spec.ip a v = 0)) := by
  obtain ⟨c, hc, e⟩ := (inPolyhedron_iff hI.last p).1 hp
  rw [value_eq, e, map_sum] at h0
  have h1 : ∀ j ∈ Finset.univ, ev (n + 1) a (c j • Spec.vec (n + 1) V[j]) ≤ 0 := by
    intro j _
    rw [map_smul, smul_eq_mul, vec_eq_toV, ev_row ha]
    exact mul_nonpos_of_nonneg_of_nonpos (hc j) (by exact_mod_cast hv _ (List.getElem_mem _))
  have h2 := (Finset.sum_eq_zero_iff_of_nonpos h1).1 h0
  rw [e]
  refine Submodule.sum_mem _ fun j _ => ?_
  have h3 := h2 j (Finset.mem_univ _)
  rw [map_smul, smul_eq_mul, vec_eq_toV, ev_row ha] at h3
  rcases mul_eq_zero.1 h3 with h4 | h4
  · rw [h4, zero_smul]; exact Submodule.zero_mem _
  · refine Submodule.smul_mem _ _ (Submodule.subset_span ⟨_, List.mem_filter.2 ⟨List.getElem_mem _, ?_⟩, rfl⟩)
    rw [ip_eq_dot]
    have : dot a V[j] = 0 := by exact_mod_cast h4
    simpa using this

/-- the geometric notion of a facet agrees with the one on rows -/
theorem isFacet_of (hI : Spec.IsVInput n V) (hS : ∀ p, Spec.InPolyhedron n V p ↔ S p) {a : Row} (ha : a.length = n + 1)
    (hvalid : ∀ p, S p → Spec.value n a p ≤ 0) {p0 : Fin n → ℚ} (hp0 : S p0) (h0 : Spec.value n a p0 ≠ 0)
    (hspan : ∀ p, S p → p ∈ affineSpan ℚ (insert p0 {q | S q ∧ Spec.value n a q = 0})) : Spec.IsFacet (n + 1) V a := by
  have hv := valid_of_polyhedron hI ha fun p hp => hvalid p ((hS p).1 hp)
  refine ⟨ha, fun v hv' => by rw [ip_eq_dot]; exact hv v hv', ?_⟩
  set W := V.filter fun v => decide (Spec.ip a v = 0) with hW
  have hker : ∀ x ∈ Spec.span (n + 1) W, ev (n + 1) a x = 0 := by
    intro x hx
    refine Submodule.span_induction (p := fun x _ => ev (n + 1) a x = 0) ?_ (map_zero _) (fun x y _ _ h1 h2 => by rw [map_add, h1, h2, add_zero])
      (fun t x _ h1 => by rw [map_smul, h1, smul_zero]) hx
    rintro x ⟨w, hw, rfl⟩
    rw [hW, List.mem_filter, decide_eq_true_eq, ip_eq_dot] at hw
    rw [vec_eq_toV, ev_row ha, hw.2]; norm_num
  have hnot : hom n p0 ∉ Spec.span (n + 1) W := fun h => h0 (by rw [value_eq]; exact hker _ h)
  have hsub : Spec.span (n + 1) W ≤ Spec.span (n + 1) V := by
    refine Submodule.span_mono ?_
    rintro x ⟨w, hw, rfl⟩
    exact ⟨w, (List.mem_filter.1 hw).1, rfl⟩
  have hall : ∀ p, S p → hom n p ∈ Spec.span (n + 1) W ⊔ Submodule.span ℚ {hom n p0} := by
    intro p hp
    refine affineSpan_induction (p := fun q => hom n q ∈ Spec.span (n + 1) W ⊔ Submodule.span ℚ {hom n p0}) (hspan p hp) ?_ ?_
    · rintro q (rfl | ⟨hq, hq0⟩)
      · exact Submodule.mem_sup_right (Submodule.mem_span_singleton_self _)
      · exact Submodule.mem_sup_left (tight_span hI ha hv ((hS q).2 hq) hq0)
    · intro c u v w hu hv hw
      have : hom n (c • (u -ᵥ v) +ᵥ w) = c • (hom n u - hom n v) + hom n w := by
        funext i
        refine Fin.lastCases ?_ (fun i => ?_) i
        · simp [hom_last]
        · simp [hom_castSucc]
      rw [this]
      exact Submodule.add_mem _ (Submodule.smul_mem _ _ (Submodule.sub_mem _ hu hv)) hw
  have heq : Spec.span (n + 1) V = Spec.span (n + 1) W ⊔ Submodule.span ℚ {hom n p0} := by
    refine le_antisymm ?_ ?_
    · refine Submodule.span_le.2 ?_
      rintro x ⟨v, hv', rfl⟩
      rcases (hI.last v hv').lt_or_eq with h1 | h1
      · rw [hom_smul_vertex h1]
        exact Submodule.smul_mem _ _ (hall _ ((hS _).1 (vertex_inPolyhedron hI.last hv' h1)))
      · have h2 := hall _ ((hS _).1 (ray_inPolyhedron hI.last hv' h1.symm ((hS _).2 hp0) (t := 1) zero_le_one))
        rw [one_smul, hom_add_ray h1.symm] at h2
        simpa using Submodule.sub_mem _ h2 (hall p0 hp0)
    · refine sup_le hsub ?_
      rw [Submodule.span_singleton_le_iff_mem]
      exact hom_mem_span hI.last ((hS _).2 hp0)
  unfold Spec.rank
  rw [heq, Submodule.finrank_sup_span_singleton hnot]

end

/-- a constraint of a file is tight where its row vanishes -/
theorem hasRow_tight {names : Names} {t : List Char} {a : Spec.Constraint} {row : Row} {n : Nat}
    (ht : Spec.ConstraintText false names t a) (hr : a.HasRow names row) (hs : a.HasSize names n) (p : Fin n → ℚ) :
    Spec.value n row p = 0 ↔ a.TightAt names p := by
  have sign : ∀ (rel : Spec.Rel) (x : ℚ), (rel.sign : ℚ) * x = 0 ↔ x = 0 := by
    intro rel x
    cases rel <;> simp [Spec.Rel.sign]
  cases a with
  | named terms rel rhs =>
    obtain ⟨⟨h1, h2⟩, -, -, h3, -, -, h4⟩ := ht
    have hs' : names.length = n := hs
    have e := constraintRow_value hr h1.1 (fun q hq => (h3 q hq).1) (Spec.valuation names p)
    have e2 : Spec.value n row p = (rel.sign : ℚ) * (Spec.sumValue terms (Spec.valuation names p) - rhs) := by
      rw [← e]
      subst hs'
      unfold Spec.value
      congr 1
      refine Finset.sum_congr rfl fun j _ => ?_
      unfold Spec.valuation
      have hj : names.idxOf names[(j : Nat)] = j := h1.1.idxOf_getElem j j.2
      simp only [Fin.getElem_fin, hj, Fin.eta, Fin.is_lt, dif_pos]
    rw [e2, sign, sub_eq_zero]
    rfl
  | unnamed xs rel rhs =>
    have hs' : xs.length = n := hs
    have hr' : row = xs.map (rel.sign * ·) ++ [rel.sign * (-rhs)] := hr
    rw [hr', unnamed_value hs', sign, sub_eq_zero]
    rfl
  | raw r =>
    have hr' : row = r := hr
    rw [hr']
    rfl

theorem lines_mem {α : Type} {P : List Char → α → Prop} {t : List Char} {l : List α} (h : Spec.Lines P t l) : ∀ a ∈ l, ∃ s, P s a := by
  induction h with
  | nil => simp
  | blank _ _ ih => exact ih
  | line h1 _ _ _ ih =>
    intro a ha
    rcases List.mem_cons.1 ha with rfl | ha
    · exact ⟨_, h1⟩
    · exact ih a ha

theorem knownFacetFile_texts {names : Names} {text : List Char} {cs : List Spec.Constraint} (h : Spec.KnownFacetFile names text cs) :
    ∀ a ∈ cs, ∃ t, Spec.ConstraintText false names t a := by
  induction h with
  | other _ _ _ ih => exact ih
  | inequalities _ _ h _ => exact lines_mem h

end Panda
