import Verif.Props.CheckedMain
import Verif.Props.MainKnown

/-! # C70: the options `-c` and `-k` together -/

namespace Panda

open _root_.Relation

namespace Spec

/-- a command line for the file `f` with the option `-c` / `--check` and the file `g` of known facets -/
def CheckedKnownCommand (args : List (List Char)) (f g : List Char) : Prop :=
  CommandLine args [f] ∧ ("-c".toList ∈ args ∨ "--check".toList ∈ args) ∧ KnownGiven "--known-facets=".toList args g ∧ g ≠ []

/-- the inequality holds on the whole set, never with equality -/
def Constraint.StrictOn (names : List (List Char)) {d : Nat} (S : (Fin d → ℚ) → Prop) (a : Constraint) : Prop :=
  ∀ p, S p → a.HoldsAt false names p ∧ ¬ a.TightAt names p

end Spec

section

variable {n : Nat} {V : Matrix} {S : (Fin n → ℚ) → Prop}

/-- a facet of the rows is a facet of the polyhedron, or holds strictly on all of it -/
theorem facet_geometric (hI : Spec.IsVInput n V) (hS : ∀ p, Spec.InPolyhedron n V p ↔ S p) {a : Row} (h : Spec.IsFacet (n + 1) V a) :
    (∀ p, S p → Spec.value n a p ≤ 0) ∧ ((∀ p, S p → Spec.value n a p ≠ 0) ∨
      ∃ p0, S p0 ∧ Spec.value n a p0 ≠ 0 ∧ ∀ p, S p → p ∈ affineSpan ℚ (insert p0 {q | S q ∧ Spec.value n a q = 0})) := by
  obtain ⟨ha, hval, hrank⟩ := h
  have hv : ∀ v ∈ V, dot a v ≤ 0 := fun v h => by rw [← ip_eq_dot]; exact hval v h
  have hvalid : ∀ p, S p → Spec.value n a p ≤ 0 := by
    intro p hp
    obtain ⟨c, hc, e⟩ := (inPolyhedron_iff hI.last p).1 ((hS p).2 hp)
    rw [value_eq, e, map_sum]
    refine Finset.sum_nonpos fun j _ => ?_
    rw [map_smul, smul_eq_mul, vec_eq_toV, ev_row ha]
    exact mul_nonpos_of_nonneg_of_nonpos (hc j) (by exact_mod_cast hv _ (List.getElem_mem _))
  refine ⟨hvalid, ?_⟩
  set W := V.filter fun v => decide (Spec.ip a v = 0) with hW
  have hWV : ∀ w ∈ W, w ∈ V ∧ dot a w = 0 := fun w hw => by
    rw [hW, List.mem_filter, decide_eq_true_eq, ip_eq_dot] at hw
    exact hw
  by_cases hvert : ∃ w ∈ W, 0 < w.getD n 0
  · right
    obtain ⟨w, hw, hpos⟩ := hvert
    set pw := fun i : Fin n => (w.getD i 0 : ℚ) / (w.getD n 0 : ℚ) with hpw
    have vertex_value : ∀ v ∈ V, 0 < v.getD n 0 →
        (dot a v : ℚ) = (v.getD n 0 : ℚ) * Spec.value n a (fun i => (v.getD i 0 : ℚ) / (v.getD n 0 : ℚ)) := fun v _ h0 => by
      rw [value_eq, ← ev_row ha, ← vec_eq_toV, hom_smul_vertex h0, map_smul, smul_eq_mul]
    have tight_vertex : ∀ w ∈ W, 0 < w.getD n 0 → S (fun i => (w.getD i 0 : ℚ) / (w.getD n 0 : ℚ)) ∧
        Spec.value n a (fun i => (w.getD i 0 : ℚ) / (w.getD n 0 : ℚ)) = 0 := by
      intro w hw h0
      obtain ⟨h1, h2⟩ := hWV w hw
      refine ⟨(hS _).1 (vertex_inPolyhedron hI.last h1 h0), ?_⟩
      have e := vertex_value w h1 h0
      rw [h2] at e
      have h3 : (w.getD n 0 : ℚ) ≠ 0 := by exact_mod_cast h0.ne'
      exact (mul_eq_zero.1 (by simpa using e.symm)).resolve_left h3
    obtain ⟨hSw, hw0⟩ := tight_vertex w hw hpos
    have ray_value : ∀ r : Row, r.getD n 0 = 0 → Spec.value n a (pw + fun i : Fin n => (r.getD i 0 : ℚ)) = (dot a r : ℚ) := fun r h0 => by
      rw [value_eq, hom_add_ray h0, map_add, ← value_eq, hw0, zero_add, vec_eq_toV, ev_row ha]
    have ray_in : ∀ r ∈ V, r.getD n 0 = 0 → S (pw + fun i : Fin n => (r.getD i 0 : ℚ)) := fun r hr h0 => by
      have := ray_inPolyhedron hI.last hr h0 ((hS _).2 hSw) (t := 1) zero_le_one
      rw [one_smul] at this
      exact (hS _).1 this
    have hex : ∃ v ∈ V, dot a v ≠ 0 := by
      by_contra hcon
      push Not at hcon
      have : W = V := by
        rw [hW, List.filter_eq_self]
        intro v hv'
        rw [decide_eq_true_eq, ip_eq_dot]
        exact hcon v hv'
      rw [this] at hrank
      omega
    obtain ⟨v, hvV, hv0⟩ := hex
    have hp0 : ∃ p0, S p0 ∧ Spec.value n a p0 ≠ 0 := by
      rcases (hI.last v hvV).lt_or_eq with h1 | h1
      · refine ⟨_, (hS _).1 (vertex_inPolyhedron hI.last hvV h1), fun h0 => hv0 ?_⟩
        have e := vertex_value v hvV h1
        rw [h0, mul_zero] at e
        exact_mod_cast e
      · refine ⟨_, ray_in v hvV h1.symm, fun h0 => hv0 ?_⟩
        rw [ray_value v h1.symm] at h0
        exact_mod_cast h0
    obtain ⟨p0, hp0, h0⟩ := hp0
    refine ⟨p0, hp0, h0, fun p hp => ?_⟩
    set A := affineSpan ℚ (insert p0 {q | S q ∧ Spec.value n a q = 0}) with hA
    have mp0 : p0 ∈ A := subset_affineSpan _ _ (Set.mem_insert _ _)
    have mt : ∀ q, S q → Spec.value n a q = 0 → q ∈ A := fun q h1 h2 => subset_affineSpan _ _ (Set.mem_insert_of_mem _ ⟨h1, h2⟩)
    have hker : ∀ x ∈ Spec.span (n + 1) W, ev (n + 1) a x = 0 := by
      intro x hx
      refine Submodule.span_induction (p := fun x _ => ev (n + 1) a x = 0) ?_ (map_zero _) (fun x y _ _ h1 h2 => by rw [map_add, h1, h2, add_zero])
        (fun t x _ h1 => by rw [map_smul, h1, smul_zero]) hx
      rintro x ⟨w, hw, rfl⟩
      rw [vec_eq_toV, ev_row ha, (hWV w hw).2]; norm_num
    have hnot : hom n p0 ∉ Spec.span (n + 1) W := fun h => h0 (by rw [value_eq]; exact hker _ h)
    have hsub : Spec.span (n + 1) W ≤ Spec.span (n + 1) V := by
      refine Submodule.span_mono ?_
      rintro x ⟨w, hw, rfl⟩
      exact ⟨w, (hWV w hw).1, rfl⟩
    have heq : Spec.span (n + 1) W ⊔ Submodule.span ℚ {hom n p0} = Spec.span (n + 1) V := by
      refine Submodule.eq_of_le_of_finrank_eq (sup_le hsub ?_) ?_
      · rw [Submodule.span_singleton_le_iff_mem]
        exact hom_mem_span hI.last ((hS _).2 hp0)
      · rw [Submodule.finrank_sup_span_singleton hnot]
        exact hrank
    -- the linear map that moves the tight vertex to the origin
    let φ : (Fin (n + 1) → ℚ) →ₗ[ℚ] (Fin n → ℚ) :=
      { toFun := fun x i => x i.castSucc - x (Fin.last n) * pw i
        map_add' := fun x y => by funext i; simp only [Pi.add_apply]; ring
        map_smul' := fun t x => by funext i; simp only [Pi.smul_apply, smul_eq_mul, RingHom.id_apply]; ring }
    have φhom : ∀ q : Fin n → ℚ, φ (hom n q) = q - pw := fun q => by
      funext i
      show hom n q i.castSucc - hom n q (Fin.last n) * pw i = q i - pw i
      rw [hom_castSucc, hom_last, one_mul]
    have mpw : pw ∈ A := mt _ hSw hw0
    have hdir : ∀ q ∈ A, q - pw ∈ A.direction := fun q hq => AffineSubspace.vsub_mem_direction hq mpw
    have hle : Spec.span (n + 1) V ≤ A.direction.comap φ := by
      rw [← heq]
      refine sup_le (Submodule.span_le.2 ?_) ((Submodule.span_singleton_le_iff_mem _ _).2 ?_)
      · rintro x ⟨u, hu, rfl⟩
        show φ (Spec.vec (n + 1) u) ∈ A.direction
        obtain ⟨huV, hu0⟩ := hWV u hu
        rcases (hI.last u huV).lt_or_eq with h1 | h1
        · obtain ⟨k1, k2⟩ := tight_vertex u hu h1
          rw [hom_smul_vertex h1, map_smul, φhom]
          exact Submodule.smul_mem _ _ (hdir _ (mt _ k1 k2))
        · have e : φ (Spec.vec (n + 1) u) = (pw + fun i : Fin n => (u.getD i 0 : ℚ)) - pw := by
            rw [← φhom, hom_add_ray h1.symm, map_add, φhom, sub_self, zero_add]
          rw [e]
          exact hdir _ (mt _ (ray_in u huV h1.symm) (by rw [ray_value u h1.symm, hu0]; norm_num))
      · show φ (hom n p0) ∈ A.direction
        rw [φhom]
        exact hdir _ mp0
    have h1 : φ (hom n p) ∈ A.direction := hle (hom_mem_span hI.last ((hS p).2 hp))
    rw [φhom] at h1
    have h2 := AffineSubspace.vadd_mem_of_mem_direction h1 mpw
    simpa using h2
  · left
    push Not at hvert
    intro p hp h0
    have h1 := tight_span hI ha hv ((hS p).2 hp) h0
    have h2 : ∀ x ∈ Spec.span (n + 1) W, x (Fin.last n) = 0 := by
      intro x hx
      refine Submodule.span_induction (p := fun x _ => x (Fin.last n) = 0) ?_ rfl (fun x y _ _ h1 h2 => by rw [Pi.add_apply, h1, h2, add_zero])
        (fun t x _ h1 => by rw [Pi.smul_apply, h1, smul_zero]) hx
      rintro x ⟨w, hw, rfl⟩
      have := le_antisymm (hvert w hw) (hI.last w (hWV w hw).1)
      simp only [Spec.vec, Fin.val_last, this]
      norm_num
    have := h2 _ h1
    rw [hom_last] at this
    norm_num at this

end

theorem rank_of_two {n : Nat} {V : Matrix} (hlast : ∀ v ∈ V, 0 ≤ v.getD n 0) {p q : Fin n → ℚ} (hp : Spec.InPolyhedron n V p)
    (hq : Spec.InPolyhedron n V q) (hne : p ≠ q) : 2 ≤ Spec.rank (n + 1) V := by
  have hli : LinearIndependent ℚ (fun i : Fin 2 => (![⟨hom n p, hom_mem_span hlast hp⟩, ⟨hom n q, hom_mem_span hlast hq⟩] i :
      Spec.span (n + 1) V)) := by
    rw [Fintype.linearIndependent_iff]
    intro g hg
    have hg' := congrArg Subtype.val hg
    simp only [Fin.sum_univ_two, Matrix.cons_val_zero, Matrix.cons_val_one, Submodule.coe_add, Submodule.coe_smul, Submodule.coe_zero] at hg'
    have h0 := congrFun hg' (Fin.last n)
    simp only [Pi.add_apply, Pi.smul_apply, hom_last, smul_eq_mul, mul_one, Pi.zero_apply] at h0
    obtain ⟨i, hi⟩ := Function.ne_iff.1 hne
    have h1 := congrFun hg' i.castSucc
    simp only [Pi.add_apply, Pi.smul_apply, hom_castSucc, smul_eq_mul, Pi.zero_apply] at h1
    have h2 : g 0 * (p i - q i) = 0 := by linear_combination h1 - q i * h0
    have h3 : g 0 = 0 := (mul_eq_zero.1 h2).resolve_right (sub_ne_zero.2 hi)
    intro j
    fin_cases j
    · exact h3
    · show g 1 = 0
      rw [h3] at h0; simpa using h0
  have := hli.fintype_card_le_finrank
  rw [Fintype.card_fin] at this
  exact this

/-- the check of the known facets with `int` is the exact one, or undefined -/
theorem typed_known {V known : Matrix} {n : Nat} (hV : IntMatrix V) (hK : IntMatrix known) (h1 : ∀ r ∈ V, r.length = n) (h2 : ∀ r ∈ known, r.length = n) :
    Typed.checkValidityOfInequalities (fixedArith 32) V known = checkValidityOfInequalities V known ∨
      Typed.checkValidityOfInequalities (fixedArith 32) V known = .ub := by
  rcases checkValidityOfInequalities_sim (fixed32_law False) hV hK h1 h2 with ⟨h, -⟩ | ⟨h, -⟩ | ⟨-, h⟩
  · exact Or.inl h
  · exact h.elim
  · exact Or.inr h

/-- known facets that are accepted: facets of the set, or inequalities that hold strictly on all of it -/
def Spec.KnownAccepted (names : List (List Char)) {d : Nat} (S : (Fin d → ℚ) → Prop) (cs : List Spec.Constraint) : Prop :=
  ∀ a ∈ cs, a.FacetOf names S ∨ a.StrictOn names S

/-- what a file with points and rays and a file with known facets are read as, with `-c` -/
theorem checked_known {args : List Arg} {f g text ktext : List Char} {files : Files} {order : InputOrder} {c : Spec.VertexContent} {n : Nat}
    {cs : List Spec.Constraint}
    (ha : Spec.CheckedKnownCommand args f g) (hf : files f = some text) (ho : getInputOrder args = .ok order)
    (hg : files g = some ktext) (hk : Spec.KnownFacetFile c.names ktext cs) (hs : ∀ a ∈ cs, a.HasSize c.names n)
    (h20 : Spec.EarlyHeader 20 text) (h : Spec.OrderedVertexFile {} text c) (hc : c.Consistent n) (hp : c.points ≠ [])
    (hm : c.maps = []) (hn : c.names.Nodup)
    (htwo : ∃ p q, Spec.InHull n c.points c.rays p ∧ Spec.InHull n c.points c.rays q ∧ p ≠ q) :
    (∃ N, ∀ fuel ≥ N, inputVertices fuel files args = some .ub) ∨
      ((∃ N, ∀ fuel ≥ N, inputVertices fuel files args = some .thrown) ∧ ∃ a ∈ cs, ¬ a.FacetOf c.names (Spec.InHull n c.points c.rays)) ∨
      ∃ (V known : Matrix) (N : Nat), (∀ fuel ≥ N, inputVertices fuel files args = some (.ok (V, c.names, [], known))) ∧ IntMatrix V ∧
        Spec.IsVInput n V ∧ (∀ p, Spec.InPolyhedron n V p ↔ Spec.InHull n c.points c.rays p) ∧ IntMatrix known ∧
        (∀ k ∈ known, Spec.IsFacet (n + 1) V k) ∧ Spec.KnownAccepted c.names (Spec.InHull n c.points c.rays) cs := by
  obtain ⟨rows, r1, r2⟩ := C59_facets ha.2.2.1 ha.2.2.2 hg hk
  obtain ⟨P, R, maps, o, -, -, k1, k2, k3, h3, ⟨N, hN⟩, hcase, -⟩ := checked_read ha.1 ha.2.1 hf ho r2 h20 h hc hn
  have hmaps : maps = [] := by rw [hm] at h3; exact List.forall₂_nil_left_iff.1 h3
  subst hmaps
  obtain ⟨g1, g2, -, -, g5, g6⟩ := rows_hull order k1 k2 k3 hc.2.1 hc.2.2.1
  have g6 := g6 hp
  set V := sortRows order R ++ sortRows order P with hV
  have hacc : c.Accepted n P R := fun h => (h hm).elim
  have hboth := forall₂_right r1 (P := fun a => (∃ t, Spec.ConstraintText false c.names t a) ∧ a.HasSize c.names n)
    (fun a ha => ⟨knownFacetFile_texts hk a ha, hs a ha⟩)
  have kint : IntMatrix rows := by
    intro r hr
    obtain ⟨a, ha, ⟨⟨t, ht⟩, -⟩, hrow⟩ := hboth r hr
    exact hasRow_int ht hrow
  have klen : ∀ r ∈ rows, r.length = n + 1 := by
    intro r hr
    obtain ⟨a, ha, ⟨⟨t, ht⟩, hsize⟩, hrow⟩ := hboth r hr
    exact (hasRow_meaning (n := n) ht hrow hsize 0).1
  obtain ⟨x, y, hx, hy, hxy⟩ := htwo
  have hrank := rank_of_two g6.last ((g5 x).2 hx) ((g5 y).2 hy) hxy
  have hiff := C39_known_facets g1 klen hrank
  rcases hcase with rfl | ⟨rfl, hna⟩ | ⟨rfl, -⟩
  · exact Or.inl ⟨N, hN⟩
  · exact (hna hacc).elim
  · rcases typed_known g2 kint g1 klen with e | e
    · rcases (C39_known_inequalities g1 klen).2 with e' | e'
      · right; right
        rw [e, e'] at hN
        refine ⟨V, rows, N, hN, g2, g6, g5, kint, hiff.1 e', ?_⟩
        intro a ha
        obtain ⟨r, hr, hrow⟩ := (forall₂_both r1).1 a ha
        obtain ⟨t, ht⟩ := knownFacetFile_texts hk a ha
        have hsize := hs a ha
        have hmean := fun p => (hasRow_meaning (n := n) ht hrow hsize p).2
        simp only [Bool.false_eq_true, if_false] at hmean
        have htight := fun p => hasRow_tight ht hrow hsize p
        obtain ⟨q1, q2⟩ := facet_geometric g6 g5 (hiff.1 e' r hr)
        rcases q2 with q2 | ⟨p0, q2, q3, q4⟩
        · exact Or.inr fun p hp => ⟨(hmean p).1 (q1 p hp), fun h => q2 p hp ((htight p).2 h)⟩
        · refine Or.inl ⟨fun p hp => (hmean p).1 (q1 p hp), p0, q2, fun h => q3 ((htight p0).2 h), fun p hp => ?_⟩
          have := q4 p hp
          simp only [htight] at this
          exact this
      · right; left
        rw [e, e'] at hN
        refine ⟨⟨N, hN⟩, ?_⟩
        by_contra hcon
        push Not at hcon
        have : checkValidityOfInequalities V rows = .ok () := hiff.2 fun r hr => by
          obtain ⟨a, ha, ⟨⟨t, ht⟩, hsize⟩, hrow⟩ := hboth r hr
          obtain ⟨hvalid, p0, hp0, hp1, hp2⟩ := hcon a ha
          have hm := fun p => hasRow_meaning (n := n) ht hrow hsize p
          simp only [Bool.false_eq_true, if_false] at hm
          refine isFacet_of g6 g5 (hm 0).1 (fun p hp => (hm p).2.2 (hvalid p hp)) hp0 (fun h => hp1 ((hasRow_tight ht hrow hsize p0).1 h)) ?_
          intro p hp
          have := hp2 p hp
          simp only [← hasRow_tight ht hrow hsize] at this
          exact this
        rw [e'] at this
        cases this
    · left
      rw [e] at hN
      exact ⟨N, hN⟩

/-- double description on rows that have been read, without maps -/
theorem dd_facets_general {ad : Bool → Option ProgramResult} {help : Option ProgramResult} {args : List Arg} {f text : List Char}
    {files : Files} {names : Names} {n N1 : Nat} {V known : Matrix} {S : (Fin n → ℚ) → Prop}
    (ha : Spec.CommandLine args [f]) (hf : files f = some text)
    (hd : Spec.UsesDD args) (hi : Spec.UsesChecked args ∨ Spec.UsesInt args) (hh : Spec.NoHelp args)
    (hw : ¬ Spec.HasWordLine Spec.inequalityWords text) (h6 : Spec.IsVInput n V) (h3 : IntMatrix V)
    (h5 : ∀ p, Spec.InPolyhedron n V p ↔ S p)
    (h7 : ∀ fuel ≥ N1, inputVertices fuel files args = some (.ok (V, names, [], known)))
    (hn : names = [] ∨ Spec.AdmissibleNames names) (hl : names ≠ [] → names.length = n) :
    ∃ N, ∀ fuel ≥ N, ∃ r, program ad help fuel files args = some r ∧
      ((r = .failed ∧ Spec.UsesChecked args) ∨ (r = .undefined ∧ (¬ Spec.UsesChecked args ∨ names ≠ [])) ∨
        ∃ (out : List Char) (eqs ineqs : List Spec.Constraint), r = .finished 0 out ∧ Spec.PrintedSystem names out eqs ineqs ∧
          ineqs.Nodup ∧
          (∀ p : Fin n → ℚ, S p ↔ (∀ a ∈ eqs, a.HoldsAt true names p) ∧ ∀ a ∈ ineqs, a.HoldsAt false names p) ∧
          ∀ a ∈ ineqs, ∃ p : Fin n → ℚ, (∀ b ∈ eqs, b.HoldsAt true names p) ∧
            (∀ b ∈ ineqs, b ≠ a → b.HoldsAt false names p) ∧ ¬ a.HoldsAt false names p) := by
  obtain ⟨E, F, N2, g1, g2, g3, g4, g5, g6⟩ := facetDD_exact h6
  obtain ⟨ty, t1, t2, t3, t4⟩ := uses_type hi
  refine ⟨max N1 N2, fun fuel hfuel => ?_⟩
  have e1 : program ad help fuel files args = ProgramResult.ofRun (facetsDD fuel files args) := by
    unfold program
    rw [detect_facets ha hf hh hw]
    simp only [enumeration, usesDD_method hd, if_true]
  have e2 : facetsDD fuel files args = Run.bind (Typed.facetEnumerationDD (selectArith ty) fuel V []) fun o =>
      .lift (printFacetOutput o names) := by
    unfold facetsDD
    rw [t1]
    simp only [Run.lift, Run.bind]
    rw [h7 fuel (le_trans (le_max_left _ _) hfuel)]
  rw [e1, e2]
  have hsim := facetDD_selected (V := V) h3 t2 fuel
  rw [g1 fuel (le_trans (le_max_right _ _) hfuel)] at hsim
  rcases hsim with ⟨h8, -⟩ | ⟨hs, h8⟩ | ⟨hs, h8⟩
  · rw [h8]
    simp only [Run.bind, Run.lift]
    rcases printFacetOutput_cases ⟨E, false, F⟩ names with ⟨t, h9⟩ | ⟨h0, h9⟩
    · rw [h9]
      refine ⟨_, rfl, Or.inr (Or.inr ⟨t, E.map (constraintOf true names), F.map (constraintOf false names), rfl, ?_, ?_, ?_, ?_⟩)⟩
      · exact facetOutput_printed (o := ⟨E, false, F⟩) hn (fun r hr h0 => by have := g2 r hr; rw [h0] at this; simp at this)
          (fun r hr h0 => by have := g3 r hr; rw [h0] at this; simp at this) rfl h9
      · exact List.Nodup.map_on (fun x hx y hy e => constraintOf_injective hn hl (g3 x hx) (g3 y hy) e) g4
      · intro p
        rw [← h5 p, g5 p]
        unfold Spec.Satisfies
        simp only [List.mem_map, forall_exists_index, and_imp, forall_apply_eq_imp_iff₂]
        constructor
        · rintro ⟨k1, k2⟩
          exact ⟨fun e he => (constraintOf_holds (equation := true) hn hl (g2 e he) p).2 (k1 e he),
            fun e he => (constraintOf_holds (equation := false) hn hl (g3 e he) p).2 (k2 e he)⟩
        · rintro ⟨k1, k2⟩
          exact ⟨fun e he => (constraintOf_holds (equation := true) hn hl (g2 e he) p).1 (k1 e he),
            fun e he => (constraintOf_holds (equation := false) hn hl (g3 e he) p).1 (k2 e he)⟩
      · intro a ha
        obtain ⟨a, haF, rfl⟩ := List.mem_map.1 ha
        obtain ⟨p, ⟨k1, k2⟩, k3⟩ := g6 a haF
        refine ⟨p, ?_, ?_, ?_⟩
        · intro b hb
          obtain ⟨b, hbE, rfl⟩ := List.mem_map.1 hb
          exact (constraintOf_holds (equation := true) hn hl (g2 b hbE) p).2 (k1 b hbE)
        · intro b hb hba
          obtain ⟨b, hbF, rfl⟩ := List.mem_map.1 hb
          refine (constraintOf_holds (equation := false) hn hl (g3 b hbF) p).2 (k2 b ?_)
          rw [List.mem_filter]
          exact ⟨hbF, by simpa using fun e : b = a => hba (by rw [e])⟩
        · intro k4
          have k4 := (constraintOf_holds (equation := false) hn hl (g3 a haF) p).1 k4
          refine k3 ((g5 p).2 ⟨k1, fun b hb => ?_⟩)
          by_cases e : b = a
          · rw [e]; exact k4
          · exact k2 b (List.mem_filter.2 ⟨hb, by simpa using e⟩)
    · rw [h9]
      exact ⟨_, rfl, Or.inr (Or.inl ⟨rfl, Or.inr h0⟩)⟩
  · rw [h8]
    exact ⟨_, rfl, Or.inl ⟨rfl, t4 hs⟩⟩
  · rw [h8]
    exact ⟨_, rfl, Or.inr (Or.inl ⟨rfl, Or.inl fun h0 => hs (t3 h0)⟩)⟩

section

variable {hardware : Nat} {help : Option ProgramResult} {args : List Arg} {f g text ktext : List Char} {files : Files} {order : InputOrder}
  {c : Spec.VertexContent} {n : Nat} {cs : List Spec.Constraint}

/-- **C70** (double description) Facet enumeration with `-c` and a file of known inequalities, which need not be facets.  The
program always ends.  It reports an error only if one of them is not a facet, or (with checked integers) an operation overflows.  If it
finishes, each of them is a facet of the hull or holds strictly on all of it, and the printed equations and inequalities describe
the hull, none twice, none superfluous. -/
theorem C70_dd {ad : Bool → Option ProgramResult} (ha : Spec.CheckedKnownCommand args f g) (hf : files f = some text)
    (ho : getInputOrder args = .ok order)
    (hg : files g = some ktext) (hk : Spec.KnownFacetFile c.names ktext cs) (hs : ∀ a ∈ cs, a.HasSize c.names n)
    (hd : Spec.UsesDD args) (hi : Spec.UsesChecked args ∨ Spec.UsesInt args) (hh : Spec.NoHelp args)
    (hw : ¬ Spec.HasWordLine Spec.inequalityWords text)
    (h20 : Spec.EarlyHeader 20 text) (h : Spec.OrderedVertexFile {} text c) (hc : c.Consistent n) (hp : c.points ≠ []) (hm : c.maps = [])
    (hn : c.names = [] ∨ Spec.AdmissibleNames c.names)
    (htwo : ∃ p q, Spec.InHull n c.points c.rays p ∧ Spec.InHull n c.points c.rays q ∧ p ≠ q) :
    ∃ N, ∀ fuel ≥ N, ∃ r, program ad help fuel files args = some r ∧
      ((r = .failed ∧ (Spec.UsesChecked args ∨ ∃ a ∈ cs, ¬ a.FacetOf c.names (Spec.InHull n c.points c.rays))) ∨ r = .undefined ∨
        ∃ (out : List Char) (eqs ineqs : List Spec.Constraint), r = .finished 0 out ∧ Spec.PrintedSystem c.names out eqs ineqs ∧
          Spec.KnownAccepted c.names (Spec.InHull n c.points c.rays) cs ∧ ineqs.Nodup ∧
          (∀ p : Fin n → ℚ, Spec.InHull n c.points c.rays p ↔
            (∀ a ∈ eqs, a.HoldsAt true c.names p) ∧ ∀ a ∈ ineqs, a.HoldsAt false c.names p) ∧
          ∀ a ∈ ineqs, ∃ p : Fin n → ℚ, (∀ b ∈ eqs, b.HoldsAt true c.names p) ∧
            (∀ b ∈ ineqs, b ≠ a → b.HoldsAt false c.names p) ∧ ¬ a.HoldsAt false c.names p) := by
  have hnd : c.names.Nodup := hn.elim (fun h => by rw [h]; exact List.nodup_nil) (fun h => h.1)
  have run : ∀ {fuel o}, (∀ x, o ≠ .ok x) → inputVertices fuel files args = some o →
      program ad help fuel files args = some (match o with | .thrown => .failed | .ub => .undefined | .ok _ => .undefined) := by
    intro fuel o hne hN
    obtain ⟨ty, t1, -⟩ := uses_type hi
    unfold program
    rw [detect_facets ha.1 hf hh hw]
    simp only [enumeration, usesDD_method hd, if_true]
    unfold facetsDD
    rw [t1]
    simp only [Run.lift, Run.bind]
    rw [hN]
    cases o with
    | ok x => exact (hne x rfl).elim
    | thrown => rfl
    | ub => rfl
  rcases checked_known ha hf ho hg hk hs h20 h hc hp hm hnd htwo with ⟨N, hN⟩ | ⟨⟨N, hN⟩, hr⟩ | ⟨V, known, N, hN, v1, v2, v3, -, -, v6⟩
  · exact ⟨N, fun fuel hfu => ⟨_, run (by simp) (hN fuel hfu), Or.inr (Or.inl rfl)⟩⟩
  · exact ⟨N, fun fuel hfu => ⟨_, run (by simp) (hN fuel hfu), Or.inl ⟨rfl, Or.inr hr⟩⟩⟩
  · obtain ⟨N', hN'⟩ := dd_facets_general (ad := ad) (help := help) ha.1 hf hd hi hh hw v2 v1 v3 hN hn (fun h0 => hc.2.2.2.1 (Or.inl h0))
    refine ⟨N', fun fuel hfu => ?_⟩
    obtain ⟨r, h1, h2⟩ := hN' fuel hfu
    refine ⟨r, h1, ?_⟩
    rcases h2 with ⟨h2, h3⟩ | ⟨h2, -⟩ | ⟨out, eqs, ineqs, q1, q2, q3⟩
    · exact Or.inl ⟨h2, Or.inl h3⟩
    · exact Or.inr (Or.inl h2)
    · exact Or.inr (Or.inr ⟨out, eqs, ineqs, q1, q2, v6, q3⟩)

theorem two_of_plane {S : (Fin n → ℚ) → Prop} (h : Spec.Plane S) : ∃ p q, S p ∧ S q ∧ p ≠ q := by
  obtain ⟨p, q, r, hp, hq, -, h⟩ := h
  refine ⟨p, q, hp, hq, ?_⟩
  rintro rfl
  have := (h 1 0 (by simp)).1
  norm_num at this

/-- **C70** (adjacency decomposition) The same: the known inequalities need not be facets.  If the program finishes, whatever the
threads do, each known inequality is a facet of the hull or holds strictly on all of it, and the printed equations and inequalities
describe the hull; no inequality is printed twice, and each is irredundant, apart from at most one that holds everywhere. -/
theorem C70_ad (ha : Spec.CheckedKnownCommand args f g) (hf : files f = some text)
    (ho : getInputOrder args = .ok order)
    (hg : files g = some ktext) (hk : Spec.KnownFacetFile c.names ktext cs) (hs : ∀ a ∈ cs, a.HasSize c.names n)
    (hd : Spec.UsesAD args) (hi : Spec.UsesChecked args ∨ Spec.UsesInt args) (ht : Spec.ThreadsOk args) (hh : Spec.NoHelp args)
    (hw : ¬ Spec.HasWordLine Spec.inequalityWords text)
    (h20 : Spec.EarlyHeader 20 text) (h : Spec.OrderedVertexFile {} text c) (hc : c.Consistent n) (hp : c.points ≠ []) (hm : c.maps = [])
    (hn : c.names = [] ∨ Spec.AdmissibleNames c.names)
    (hplane : Spec.Plane (Spec.InHull n c.points c.rays)) (hline : ¬ Spec.Line (Spec.InHull n c.points c.rays))
    (hsolid : Spec.UsesChecked args → Spec.Solid (Spec.InHull n c.points c.rays)) :
    (∃ r, ProgramEnds hardware help files args r) ∧ ∀ r, ProgramEnds hardware help files args r →
      (r = .failed ∧ (Spec.UsesChecked args ∨ ∃ a ∈ cs, ¬ a.FacetOf c.names (Spec.InHull n c.points c.rays))) ∨ r = .undefined ∨
        ∃ (out : List Char) (eqs ineqs : List Spec.Constraint), r = .finished 0 out ∧ Spec.PrintedSystem c.names out eqs ineqs ∧
          Spec.KnownAccepted c.names (Spec.InHull n c.points c.rays) cs ∧ ineqs.Nodup ∧
          (∀ p : Fin n → ℚ, Spec.InHull n c.points c.rays p ↔
            (∀ a ∈ eqs, a.HoldsAt true c.names p) ∧ ∀ a ∈ ineqs, a.HoldsAt false c.names p) ∧
          ∃ always, (∀ p : Fin n → ℚ, always.HoldsAt false c.names p) ∧ ∀ a ∈ ineqs, a ≠ always → ∃ p : Fin n → ℚ,
            (∀ b ∈ eqs, b.HoldsAt true c.names p) ∧ (∀ b ∈ ineqs, b ≠ a → b.HoldsAt false c.names p) ∧ ¬ a.HoldsAt false c.names p := by
  have hnd : c.names.Nodup := hn.elim (fun h => by rw [h]; exact List.nodup_nil) (fun h => h.1)
  have hl : c.names ≠ [] → c.names.length = n := fun h0 => hc.2.2.2.1 (Or.inl h0)
  have e0 : ∀ ad fuel, program ad help fuel files args = ad true := by
    intro ad fuel
    unfold program
    rw [detect_facets ha.1 hf hh hw]
    simp only [enumeration, usesAD_method hd]
  obtain ⟨ty, t1, -⟩ := uses_type hi
  rcases checked_known ha hf ho hg hk hs h20 h hc hp hm hnd (two_of_plane hplane) with
    ⟨N, hN⟩ | ⟨⟨N, hN⟩, hr⟩ | ⟨V, known, N, hN, v1, v2, v3, v4, v5, v6⟩
  · obtain ⟨h1, h2⟩ := ad_ub (hardware := hardware) e0 t1 hN
    exact ⟨h1, fun r hr => Or.inr (Or.inl (h2 r hr))⟩
  · obtain ⟨h1, h2⟩ := ad_thrown (hardware := hardware) e0 t1 hN
    exact ⟨h1, fun r hr' => Or.inl ⟨h2 r hr', Or.inr hr⟩⟩
  · obtain ⟨f1, E, F, -, f2⟩ := ad_facets_general (hardware := hardware) e0 hi ht v2 v1 v3 v4 v5
      (fun _ h1 => equations_of_solid v2 v3 (hsolid h1)) hN hn hl hplane hline
    refine ⟨f1, fun r hr => ?_⟩
    rcases f2 r hr with ⟨h, h'⟩ | ⟨h, -⟩ | ⟨out, P, rfl, -, p1, p2, p3, p4⟩
    · exact Or.inl ⟨h, Or.inl h'⟩
    · exact Or.inr (Or.inl h)
    · exact Or.inr (Or.inr ⟨out, _, _, rfl, p1, v6, p2, p3, _, fun p => holds_trivial hn hl p, p4⟩)

/-- **C70** (termination) In the situation of `C70_ad`: the threads start or the program ends before; the threads are never
stuck, and there is no infinite run, if `std::condition_variable` wakes no thread without reason. -/
theorem C70_terminate (ha : Spec.CheckedKnownCommand args f g) (hf : files f = some text)
    (ho : getInputOrder args = .ok order)
    (hg : files g = some ktext) (hk : Spec.KnownFacetFile c.names ktext cs) (hs : ∀ a ∈ cs, a.HasSize c.names n)
    (hi : Spec.UsesChecked args ∨ Spec.UsesInt args) (ht : Spec.ThreadsOk args)
    (h20 : Spec.EarlyHeader 20 text) (h : Spec.OrderedVertexFile {} text c) (hc : c.Consistent n) (hp : c.points ≠ []) (hm : c.maps = [])
    (hn : c.names.Nodup)
    (hplane : Spec.Plane (Spec.InHull n c.points c.rays)) (hline : ¬ Spec.Line (Spec.InHull n c.points c.rays))
    (hsolid : Spec.UsesChecked args → Spec.Solid (Spec.InHull n c.points c.rays)) :
    ∃ N, ∀ fuel ≥ N, adProgramFacets hardware fuel files args ≠ none ∧
      ∀ a ty, adProgramFacets hardware fuel files args = some (.ok a) → integerType args = .ok ty →
        (∀ s out, ADReach (selectArith ty) a (.running s out) → ¬ s.Finished → ∃ σ, ADStep (selectArith ty) a (.running s out) σ ∧
          ∀ s' out', σ = .running s' out' → Progress (adProgramConfig (selectArith ty) a) s s') ∧
        ∀ f : Nat → ADState (Fin a.threads), f 0 = ADState.init (selectArith ty) a → (∀ n, ADStep (selectArith ty) a (f n) (f (n + 1))) →
          ∃ n s s' out out', f n = .running s out ∧ f (n + 1) = .running s' out' ∧ Spurious s s' := by
  obtain ⟨ty, t1, -⟩ := uses_type hi
  have stop : ∀ {o N}, (∀ x, o ≠ .ok x) → (∀ fuel ≥ N, inputVertices fuel files args = some o) →
      ∀ fuel ≥ N, adProgramFacets hardware fuel files args ≠ none ∧ ∀ a, adProgramFacets hardware fuel files args ≠ some (.ok a) := by
    intro o N hne hN fuel hf
    unfold adProgramFacets
    rw [t1]
    simp only [Run.lift, Run.bind, hN fuel hf]
    cases o with
    | ok x => exact (hne x rfl).elim
    | thrown => exact ⟨by simp, fun a => by simp⟩
    | ub => exact ⟨by simp, fun a => by simp⟩
  rcases checked_known ha hf ho hg hk hs h20 h hc hp hm hn (two_of_plane hplane) with
    ⟨N, hN⟩ | ⟨⟨N, hN⟩, hr⟩ | ⟨V, known, N, hN, v1, v2, v3, v4, v5, v6⟩
  · exact ⟨N, fun fuel hf => ⟨(stop (by simp) hN fuel hf).1, fun a _ h => ((stop (by simp) hN fuel hf).2 a h).elim⟩⟩
  · exact ⟨N, fun fuel hf => ⟨(stop (by simp) hN fuel hf).1, fun a _ h => ((stop (by simp) hN fuel hf).2 a h).elim⟩⟩
  · obtain ⟨ty, E, F, N, t1, -, -, -, -, -, -, -, q⟩ := ad_setup (hardware := hardware) hi ht v2 v1 v3 v4 v5
      (fun _ h1 => equations_of_solid v2 v3 (hsolid h1)) hN hplane hline
    exact ⟨N, ad_terminates t1 q⟩

end

end Panda
