import Verif.Proofs.Classes

/-! # Classes of a list that is not closed under the maps -/

namespace Panda

section
variable {maps : Maps} {tag : Tag}

/-- representative of the orbit -/
def IsRep (maps : Maps) (tag : Tag) (r : Row) : Prop := ∀ x, Reach maps tag r x → x = r ∨ rowLt x r = true

/-- what `classes` returns on a part `S` of a set on which the maps act -/
structure SubClasses (maps : Maps) (tag : Tag) (S R : Matrix) : Prop where
  cover : ∀ x ∈ S, ∃ r ∈ R, Reach maps tag x r ∧ Reach maps tag r x
  from_ : ∀ r ∈ R, ∃ x ∈ S, Reach maps tag x r
  rep : ∀ r ∈ R, IsRep maps tag r

theorem classesLoop_sub {C S : List Row}
    (hC : ∀ x ∈ C, ∀ m ∈ maps, ∃ y, applyMap m x tag = .ok y ∧ y ∈ C)
    (hinj : ∀ m ∈ maps, ∀ x ∈ C, ∀ y ∈ C, applyMap m x tag = applyMap m y tag → x = y)
    (hSC : ∀ x ∈ S, x ∈ C) {fuel : Nat} (hf : C.length ≤ fuel) :
    ∀ (k : Nat) (rows : List Row) (acc : Matrix), (∀ x ∈ rows, x ∈ S) → rows.length ≤ k →
      (∀ x ∈ S, x ∈ rows ∨ ∃ r ∈ acc, Reach maps tag x r ∧ Reach maps tag r x) →
      (∀ r ∈ acc, ∃ x ∈ S, Reach maps tag x r) → (∀ r ∈ acc, IsRep maps tag r) →
      ∃ R, classesLoop maps tag fuel k rows acc = some (.ok R) ∧ SubClasses maps tag S R
  | k, [], acc, _, _, h1, h2, h3 => ⟨acc, by cases k <;> rfl, fun x hx => (h1 x hx).resolve_left (by simp), h2, h3⟩
  | 0, _ :: _, _, _, hk, _, _, _ => by simp at hk
  | k + 1, r :: rs, acc, hsub, hk, h1, h2, h3 => by
    have hrS := hsub r (by simp)
    have hrC := hSC r hrS
    obtain ⟨cls, hcls, hsort, hmem⟩ := getClass_total (row := r) hrC hC hf
    have hne : cls ≠ [] := List.ne_nil_of_mem ((hmem r).mpr .refl)
    obtain ⟨l1, l2⟩ := setLast_spec hsort hne
    have hrl := (hmem _).mp l1
    have hlr := Reach.symm_of_perm hC hinj hrC hrl
    rw [classesLoop, hcls]
    simp only [Run.bind]
    apply classesLoop_sub hC hinj hSC hf k
    · intro x hx; exact hsub x (List.mem_of_mem_filter hx)
    · have : ((r :: rs).filter fun x => !(cls.elem x)).length < (r :: rs).length := by
        apply List.length_filter_lt_length_iff_exists.mpr
        exact ⟨r, by simp, by simp [(hmem r).mpr .refl]⟩
      simp only [List.length_cons] at this hk ⊢
      omega
    · intro x hx
      by_cases hxc : x ∈ cls
      · right
        refine ⟨setLast cls, by simp, ?_, ?_⟩
        · exact (Reach.symm_of_perm hC hinj hrC ((hmem x).mp hxc)).trans hrl
        · exact hlr.trans ((hmem x).mp hxc)
      · rcases h1 x hx with h | ⟨r', hr', h⟩
        · left; exact List.mem_filter.mpr ⟨h, by simpa using hxc⟩
        · right; exact ⟨r', by simp [hr'], h⟩
    · intro r' hr'
      rcases List.mem_append.mp hr' with h | h
      · exact h2 r' h
      · obtain rfl := List.mem_singleton.mp h
        exact ⟨r, hrS, hrl⟩
    · intro r' hr'
      rcases List.mem_append.mp hr' with h | h
      · exact h3 r' h
      · obtain rfl := List.mem_singleton.mp h
        intro x hx
        exact l2 x ((hmem x).mpr (hrl.trans hx))

theorem classes_sub {C S : List Row}
    (hC : ∀ x ∈ C, ∀ m ∈ maps, ∃ y, applyMap m x tag = .ok y ∧ y ∈ C)
    (hinj : ∀ m ∈ maps, ∀ x ∈ C, ∀ y ∈ C, applyMap m x tag = applyMap m y tag → x = y)
    (hSC : ∀ x ∈ S, x ∈ C) {fuel : Nat} (hf : C.length ≤ fuel) :
    ∃ R, classes fuel S maps tag = some (.ok R) ∧ SubClasses maps tag S R := by
  obtain ⟨h1, h2⟩ := setOf_spec S
  exact classesLoop_sub hC hinj hSC hf fuel (setOf S) [] (fun x hx => (h2 x).mp hx)
    (le_trans (h1.nodup.subperm fun x hx => hSC x ((h2 x).mp hx)).length_le hf) (fun x hx => Or.inl ((h2 x).mpr hx))
    (by simp) (by simp)

theorem classRepresentative_spec {C : List Row}
    (hC : ∀ x ∈ C, ∀ m ∈ maps, ∃ y, applyMap m x tag = .ok y ∧ y ∈ C)
    (hinj : ∀ m ∈ maps, ∀ x ∈ C, ∀ y ∈ C, applyMap m x tag = applyMap m y tag → x = y)
    {a : Row} (ha : a ∈ C) {fuel : Nat} (hf : C.length ≤ fuel) :
    ∃ r, classRepresentative fuel a maps tag = some (.ok r) ∧ Reach maps tag a r ∧ Reach maps tag r a ∧ IsRep maps tag r := by
  obtain ⟨cls, hcls, hsort, hmem⟩ := getClass_total (row := a) ha hC hf
  obtain ⟨l1, l2⟩ := setLast_spec hsort (List.ne_nil_of_mem ((hmem a).mpr .refl))
  have hrl := (hmem _).mp l1
  refine ⟨setLast cls, by rw [classRepresentative, hcls]; rfl, hrl, Reach.symm_of_perm hC hinj ha hrl, ?_⟩
  intro x hx
  exact l2 x ((hmem x).mpr (hrl.trans hx))

/-- representatives of the same orbit are equal -/
theorem IsRep.eq {r r' : Row} (h : IsRep maps tag r) (h' : IsRep maps tag r') (h1 : Reach maps tag r r')
    (h2 : Reach maps tag r' r) : r = r' := by
  rcases h r' h1 with h3 | h3
  · exact h3.symm
  · rcases h' r h2 with h4 | h4
    · exact h4
    · have := rowLt_trans h3 h4
      rw [rowLt_irrefl] at this; cases this

end

end Panda
