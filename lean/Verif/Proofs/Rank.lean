import Verif.Proofs.SpecBridge

/-! # `dimension` computes the rank -/

namespace Panda

/-- the rows already in echelon form -/
structure DimInv (n : Nat) (done : List (Row × Nat)) : Prop where
  len : ∀ q ∈ done, q.1.length = n
  piv : ∀ q ∈ done, q.2 < n ∧ q.1.getD q.2 0 ≠ 0
  tri : done.Pairwise fun q q' => q'.1.getD q.2 0 = 0

/-- one reduction step -/
theorem dimReduceStep_spec {n : Nat} {row : Row} {q : Row × Nat} (hr : row.length = n) (hq : q.1.length = n)
    (hp : q.2 < n ∧ q.1.getD q.2 0 ≠ 0) :
    (dimReduceStep row q).length = n ∧
      (∃ s t : ℚ, s ≠ 0 ∧ toV n (dimReduceStep row q) = s • toV n row + t • toV n q.1) ∧
      (dimReduceStep row q).getD q.2 0 = 0 := by
  unfold dimReduceStep
  split
  · next h =>
    simp only
    have hs : (rowScale row (-(q.1.getD q.2 0))).length = n := by rw [rowScale_length, hr]
    have hs' : (rowScale q.1 (row.getD q.2 0)).length = n := by rw [rowScale_length, hq]
    have hl : (rowAdd (rowScale row (-(q.1.getD q.2 0))) (rowScale q.1 (row.getD q.2 0))).length = n := by
      unfold rowAdd; rw [List.length_zipWith, hs, hs', Nat.min_self]
    obtain ⟨g, hg, heq⟩ := toV_makePrimitive n (rowAdd (rowScale row (-(q.1.getD q.2 0))) (rowScale q.1 (row.getD q.2 0)))
    rw [toV_rowAdd n _ _ hs hs', toV_rowScale, toV_rowScale] at heq
    refine ⟨by rw [makePrimitive_length, hl], ⟨g * (-(q.1.getD q.2 0) : Int), g * (row.getD q.2 0 : Int), ?_, ?_⟩, ?_⟩
    · apply mul_ne_zero hg.ne'
      exact_mod_cast neg_ne_zero.mpr hp.2
    · rw [heq, smul_add, smul_smul, smul_smul]
    · have h1 := congrFun heq ⟨q.2, hp.1⟩
      simp only [Pi.smul_apply, Pi.add_apply, smul_eq_mul, toV] at h1
      have h2 : ((makePrimitive (rowAdd (rowScale row (-(q.1.getD q.2 0))) (rowScale q.1 (row.getD q.2 0)))).getD q.2 0 : ℚ) = 0 := by
        rw [h1]; push_cast; ring
      exact_mod_cast h2
  · next h =>
    simp only [ne_eq, not_not] at h
    exact ⟨hr, ⟨1, 0, one_ne_zero, by simp⟩, h⟩

theorem getD_of_toV {n : Nat} {a : Row} {c : Nat} (hc : c < n) (h : toV n a ⟨c, hc⟩ = 0) : a.getD c 0 = 0 := by
  simp only [toV] at h; exact_mod_cast h

theorem reduce_spec {n : Nat} : ∀ (done : List (Row × Nat)) (row : Row), DimInv n done → row.length = n →
    (done.foldl dimReduceStep row).length = n ∧
      (∃ s : ℚ, s ≠ 0 ∧ toV n (done.foldl dimReduceStep row) - s • toV n row ∈ rowSpan n (done.map Prod.fst)) ∧
      (∀ q ∈ done, (done.foldl dimReduceStep row).getD q.2 0 = 0) ∧
      ∀ c < n, (∀ q ∈ done, q.1.getD c 0 = 0) → row.getD c 0 = 0 → (done.foldl dimReduceStep row).getD c 0 = 0 := by
  intro done
  induction done with
  | nil => intro row _ hr; exact ⟨hr, ⟨1, one_ne_zero, by simp⟩, by simp, fun _ _ _ h => h⟩
  | cons q done ih =>
    intro row hi hr
    have htri := List.pairwise_cons.mp hi.tri
    have hi' : DimInv n done := ⟨fun x hx => hi.len x (by simp [hx]), fun x hx => hi.piv x (by simp [hx]), htri.2⟩
    obtain ⟨h1, ⟨s, t, hs, h2⟩, h3⟩ := dimReduceStep_spec hr (hi.len q (by simp)) (hi.piv q (by simp))
    obtain ⟨g1, ⟨s', hs', g2⟩, g3, g4⟩ := ih (dimReduceStep row q) hi' h1
    refine ⟨g1, ⟨s' * s, mul_ne_zero hs' hs, ?_⟩, ?_, ?_⟩
    · rw [List.foldl_cons]
      have e1 : rowSpan n (done.map Prod.fst) ≤ rowSpan n ((q :: done).map Prod.fst) :=
        rowSpan_mono fun e he => by simp at he ⊢; exact Or.inr he
      have e2 : toV n q.1 ∈ rowSpan n ((q :: done).map Prod.fst) := mem_rowSpan (by simp)
      have e3 := Submodule.add_mem _ (e1 g2) (Submodule.smul_mem _ (s' * t) e2)
      have e4 : toV n (done.foldl dimReduceStep (dimReduceStep row q)) - (s' * s) • toV n row =
          toV n (done.foldl dimReduceStep (dimReduceStep row q)) - s' • toV n (dimReduceStep row q) +
            (s' * t) • toV n q.1 := by
        rw [h2, smul_add, smul_smul, smul_smul]; abel
      rw [e4]; exact e3
    · intro x hx
      rw [List.foldl_cons]
      rcases List.mem_cons.mp hx with rfl | hx
      · exact g4 x.2 (hi.piv x (by simp)).1 (fun y hy => htri.1 y hy) h3
      · exact g3 x hx
    · intro c hc hz h0
      rw [List.foldl_cons]
      apply g4 c hc (fun y hy => hz y (by simp [hy]))
      have := congrFun h2 ⟨c, hc⟩
      apply getD_of_toV hc
      rw [this]
      simp only [Pi.add_apply, Pi.smul_apply, toV, h0, hz q (by simp), Int.cast_zero, smul_zero, add_zero]

/-- triangular rows: only the zero vector of the span vanishes at all pivots -/
theorem DimInv.zero {n : Nat} : ∀ {done : List (Row × Nat)}, DimInv n done →
    ∀ x ∈ rowSpan n (done.map Prod.fst), (∀ q ∈ done, ∀ hq : q.2 < n, x ⟨q.2, hq⟩ = 0) → x = 0 := by
  intro done
  induction done with
  | nil => intro _ x hx _; simpa [rowSpan] using hx
  | cons q done ih =>
    intro hi x hx hz
    have htri := List.pairwise_cons.mp hi.tri
    have hi' : DimInv n done := ⟨fun x hx => hi.len x (by simp [hx]), fun x hx => hi.piv x (by simp [hx]), htri.2⟩
    have hins : rowSpan n ((q :: done).map Prod.fst) = Submodule.span ℚ (insert (toV n q.1) {x | ∃ e ∈ done.map Prod.fst, x = toV n e}) := by
      unfold rowSpan; congr 1; ext y
      simp only [List.map_cons, List.mem_cons, Set.mem_insert_iff, Set.mem_ofPred_eq]
      constructor
      · rintro ⟨e, rfl | he, rfl⟩
        · exact Or.inl rfl
        · exact Or.inr ⟨e, he, rfl⟩
      · rintro (rfl | ⟨e, he, rfl⟩)
        · exact ⟨_, Or.inl rfl, rfl⟩
        · exact ⟨e, Or.inr he, rfl⟩
    rw [hins] at hx
    obtain ⟨t, y, hy, rfl⟩ := Submodule.mem_span_insert.mp hx
    obtain ⟨hqn, hq0⟩ := hi.piv q (by simp)
    have hy0 : y ⟨q.2, hqn⟩ = 0 := by
      have : rowSpan n (done.map Prod.fst) ≤ LinearMap.ker (LinearMap.proj (R := ℚ) (φ := fun _ : Fin n => ℚ) ⟨q.2, hqn⟩) := by
        apply Submodule.span_le.mpr
        rintro _ ⟨e, he, rfl⟩
        obtain ⟨q', hq', rfl⟩ := List.mem_map.mp he
        simp only [SetLike.mem_coe, LinearMap.mem_ker, LinearMap.proj_apply, toV, htri.1 q' hq', Int.cast_zero]
      exact LinearMap.mem_ker.mp (this hy)
    have ht : t = 0 := by
      have := hz q (by simp) hqn
      rw [Pi.add_apply, hy0, add_zero, Pi.smul_apply, smul_eq_mul] at this
      rcases mul_eq_zero.mp this with h | h
      · exact h
      · exact absurd (getD_of_toV hqn h) hq0
    subst ht
    rw [zero_smul, zero_add] at hz ⊢
    exact ih hi' y hy (fun q' hq' h => hz q' (by simp [hq']) h)

theorem rowSpan_append_singleton (n : Nat) (E : Matrix) (r : Row) :
    rowSpan n (E ++ [r]) = rowSpan n E ⊔ Submodule.span ℚ {toV n r} := by
  unfold rowSpan
  rw [← Submodule.span_union]
  congr 1; ext y
  simp only [List.mem_append, List.mem_singleton, Set.mem_ofPred_eq, Set.mem_union, Set.mem_singleton_iff]
  constructor
  · rintro ⟨e, h | rfl, rfl⟩
    · exact Or.inl ⟨e, h, rfl⟩
    · exact Or.inr rfl
  · rintro (⟨e, h, rfl⟩ | rfl)
    · exact ⟨e, Or.inl h, rfl⟩
    · exact ⟨r, Or.inr rfl, rfl⟩

theorem finrank_append {n : Nat} {E : Matrix} {r : Row} (h : toV n r ∉ rowSpan n E) :
    Module.finrank ℚ (rowSpan n (E ++ [r])) = Module.finrank ℚ (rowSpan n E) + 1 := by
  rw [rowSpan_append_singleton]
  have hr0 : toV n r ≠ 0 := by rintro h0; rw [h0] at h; exact h (Submodule.zero_mem _)
  have hdis : rowSpan n E ⊓ (Submodule.span ℚ {toV n r}) = ⊥ := by
    rw [Submodule.eq_bot_iff]
    rintro x ⟨hx1, hx2⟩
    obtain ⟨c, rfl⟩ := Submodule.mem_span_singleton.mp hx2
    by_cases hc : c = 0
    · rw [hc, zero_smul]
    · exfalso; apply h
      have := Submodule.smul_mem _ c⁻¹ hx1
      rwa [smul_smul, inv_mul_cancel₀ hc, one_smul] at this
  have := Submodule.finrank_sup_add_finrank_inf_eq (rowSpan n E) (Submodule.span ℚ {toV n r})
  rw [hdis, finrank_bot, finrank_span_singleton hr0] at this
  simpa using this

theorem rowSpan_eq_of_span {n : Nat} {E : Matrix} {r r' : Row} {s : ℚ} (hs : s ≠ 0)
    (h : toV n r' - s • toV n r ∈ rowSpan n E) : rowSpan n (E ++ [r']) = rowSpan n (E ++ [r]) := by
  rw [rowSpan_append_singleton, rowSpan_append_singleton]
  apply le_antisymm
  · apply sup_le le_sup_left
    rw [Submodule.span_singleton_le_iff_mem]
    have h1 := Submodule.add_mem (rowSpan n E ⊔ Submodule.span ℚ {toV n r}) (Submodule.mem_sup_left h)
      (Submodule.smul_mem _ s (Submodule.mem_sup_right (Submodule.mem_span_singleton_self (toV n r))))
    rwa [sub_add_cancel] at h1
  · apply sup_le le_sup_left
    rw [Submodule.span_singleton_le_iff_mem]
    have h1 := Submodule.sub_mem (rowSpan n E ⊔ Submodule.span ℚ {toV n r'})
      (Submodule.mem_sup_right (Submodule.mem_span_singleton_self (toV n r'))) (Submodule.mem_sup_left h)
    rw [sub_sub_cancel] at h1
    have h2 := Submodule.smul_mem _ s⁻¹ h1
    rwa [smul_smul, inv_mul_cancel₀ hs, one_smul] at h2

theorem rowSpan_append_congr {n : Nat} {E E' rest : Matrix} (h : rowSpan n E = rowSpan n E') :
    rowSpan n (E ++ rest) = rowSpan n (E' ++ rest) := by
  have key : ∀ F : Matrix, rowSpan n (F ++ rest) = rowSpan n F ⊔ rowSpan n rest := by
    intro F
    unfold rowSpan
    rw [← Submodule.span_union]
    congr 1; ext y
    simp only [List.mem_append, Set.mem_ofPred_eq, Set.mem_union]
    constructor
    · rintro ⟨e, h | h, rfl⟩
      · exact Or.inl ⟨e, h, rfl⟩
      · exact Or.inr ⟨e, h, rfl⟩
    · rintro (⟨e, h, rfl⟩ | ⟨e, h, rfl⟩)
      · exact ⟨e, Or.inl h, rfl⟩
      · exact ⟨e, Or.inr h, rfl⟩
  rw [key, key, h]

theorem firstNonzero_eq_length {r : Row} (h : firstNonzero r = r.length) (i : Nat) : r.getD i 0 = 0 := by
  rcases Nat.lt_or_ge i r.length with hi | hi
  · exact firstNonzero_zero r i (by omega)
  · simp [List.getD_eq_getElem?_getD, List.getElem?_eq_none hi]

theorem dimLoop_spec {n : Nat} : ∀ (rest : Matrix) (done : List (Row × Nat)), DimInv n done →
    Module.finrank ℚ (rowSpan n (done.map Prod.fst)) = done.length → (∀ r ∈ rest, r.length = n) →
    (dimLoop done rest).length = Module.finrank ℚ (rowSpan n (done.map Prod.fst ++ rest)) := by
  intro rest
  induction rest with
  | nil => intro done _ h _; rw [List.append_nil, h]; rfl
  | cons row rest ih =>
    intro done hi hf hlen
    obtain ⟨h1, ⟨s, hs, h2⟩, h3, -⟩ := reduce_spec done row hi (hlen row (by simp))
    have hsp := rowSpan_eq_of_span hs h2
    have hcong : rowSpan n (done.map Prod.fst ++ row :: rest) =
        rowSpan n ((done.map Prod.fst ++ [done.foldl dimReduceStep row]) ++ rest) := by
      have : done.map Prod.fst ++ row :: rest = (done.map Prod.fst ++ [row]) ++ rest := by simp
      rw [this]; exact rowSpan_append_congr hsp.symm
    unfold dimLoop
    simp only
    split
    · next h =>
      rw [ih done hi hf (fun r hr => hlen r (by simp [hr])), hcong]
      refine congrArg (fun W : Submodule ℚ (Fin n → ℚ) => Module.finrank ℚ W) ?_
      apply rowSpan_append_congr
      rw [rowSpan_append_singleton]
      have h0 : toV n (done.foldl dimReduceStep row) = 0 := by
        funext i; simp only [toV, firstNonzero_eq_length h, Pi.zero_apply]; simp
      rw [h0]; simp
    · next h =>
      set row' := done.foldl dimReduceStep row with hrow'
      have hlt : firstNonzero row' < row'.length := lt_of_le_of_ne (firstNonzero_le _) h
      have hne := firstNonzero_ne hlt
      have hi' : DimInv n (done ++ [(row', firstNonzero row')]) := by
        refine ⟨?_, ?_, ?_⟩
        · intro q hq
          rcases List.mem_append.mp hq with hq | hq
          · exact hi.len q hq
          · simp only [List.mem_singleton] at hq; subst hq; exact h1
        · intro q hq
          rcases List.mem_append.mp hq with hq | hq
          · exact hi.piv q hq
          · simp only [List.mem_singleton] at hq; subst hq; exact ⟨by simpa [h1] using hlt, hne⟩
        · rw [List.pairwise_append]
          refine ⟨hi.tri, by simp, ?_⟩
          intro q hq q' hq'
          simp only [List.mem_singleton] at hq'; subst hq'
          exact h3 q hq
      have hnot : toV n row' ∉ rowSpan n (done.map Prod.fst) := by
        intro hmem
        have h0 := hi.zero _ hmem (fun q hq hqn => by simp only [toV, h3 q hq, Int.cast_zero])
        have := congrFun h0 ⟨firstNonzero row', by omega⟩
        simp only [toV, Pi.zero_apply] at this
        exact hne (by exact_mod_cast this)
      rw [ih _ hi' ?_ (fun r hr => hlen r (by simp [hr])), hcong]
      · rw [List.map_append, List.map_singleton]
      · rw [List.map_append, List.map_singleton, finrank_append hnot, hf]; simp

theorem dimension_eq {n : Nat} {m : Matrix} (hm : ∀ r ∈ m, r.length = n) :
    dimension m = Module.finrank ℚ (rowSpan n m) := by
  unfold dimension
  rw [dimLoop_spec (n := n) m [] ⟨by simp, by simp, List.Pairwise.nil⟩ ?_ hm]
  · rw [List.map_nil, List.nil_append]
  · have : rowSpan n (([] : List (Row × Nat)).map Prod.fst) = ⊥ := by simp [rowSpan]
    rw [this]; simp

end Panda
