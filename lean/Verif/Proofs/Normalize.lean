import Verif.Proofs.Split

/-! # Normalising a row by equations -/

namespace Panda

/-- equations as `extractEquations` returns them: leading coefficients positive, and no other
equation has a non-zero coefficient there -/
structure Echelon (n : Nat) (E : Matrix) : Prop where
  len : ∀ e ∈ E, e.length = n
  lead : ∀ e ∈ E, firstNonzero e < n ∧ 0 < e.getD (firstNonzero e) 0
  iso : E.Pairwise fun e e' => e'.getD (firstNonzero e) 0 = 0 ∧ e.getD (firstNonzero e') 0 = 0

theorem Echelon.tail {n : Nat} {e : Row} {E : Matrix} (h : Echelon n (e :: E)) : Echelon n E :=
  ⟨fun x hx => h.len x (by simp [hx]), fun x hx => h.lead x (by simp [hx]), (List.pairwise_cons.mp h.iso).2⟩

theorem Split.echelon {V : Matrix} {n : Nat} {E R : Matrix} {T : List Nat} (h : Split V n E R T) :
    Echelon n E := ⟨h.E_len, h.E_lead, h.E_iso⟩

/-- span of the rows of a matrix -/
def rowSpan (n : Nat) (E : Matrix) : Submodule ℚ (Fin n → ℚ) :=
  Submodule.span ℚ {x | ∃ e ∈ E, x = toV n e}

theorem rowSpan_mono {n : Nat} {E E' : Matrix} (h : ∀ e ∈ E, e ∈ E') : rowSpan n E ≤ rowSpan n E' :=
  Submodule.span_mono fun _ ⟨e, he, hx⟩ => ⟨e, h e he, hx⟩

theorem mem_rowSpan {n : Nat} {E : Matrix} {e : Row} (h : e ∈ E) : toV n e ∈ rowSpan n E :=
  Submodule.subset_span ⟨e, h, rfl⟩

theorem getD_rowSub {a b : Row} {n i : Nat} (ha : a.length = n) (hb : b.length = n) (hi : i < n) :
    (rowSub a b).getD i 0 = a.getD i 0 - b.getD i 0 :=
  getD_zipWith_of_lt (by omega) (by omega)

theorem getD_rowScale {a : Row} {f : Int} (i : Nat) : (rowScale a f).getD i 0 = a.getD i 0 * f := by
  rw [rowScale_eq]
  simp only [List.getD_eq_getElem?_getD, List.getElem?_map]
  cases a[i]? <;> simp

theorem normalizeLoop_spec {n : Nat} : ∀ (E : Matrix) (row : Row), Echelon n E → row.length = n →
    ∃ r, normalizeLoop row E = .ok r ∧ r.length = n ∧
      (∃ s : Int, 0 < s ∧ toV n r - (s : ℚ) • toV n row ∈ rowSpan n E) ∧
      (∀ e ∈ E, r.getD (firstNonzero e) 0 = 0) ∧
      ∀ c < n, (∀ e ∈ E, e.getD c 0 = 0) → row.getD c 0 = 0 → r.getD c 0 = 0 := by
  intro E
  induction E with
  | nil =>
    intro row _ hl
    exact ⟨row, rfl, hl, ⟨1, by decide, by simp⟩, by simp, fun _ _ _ h => h⟩
  | cons e E ih =>
    intro row hE hl
    have hel := hE.len e (by simp)
    obtain ⟨hle, hpos⟩ := hE.lead e (by simp)
    have hiso := List.pairwise_cons.mp hE.iso
    -- one step
    obtain ⟨row1, h1, hl1, ⟨s1, hs1, hspan1⟩, hz1, hk1⟩ : ∃ row1, normalizeStep row e = .ok row1 ∧
        row1.length = n ∧ (∃ s : Int, 0 < s ∧ toV n row1 - (s : ℚ) • toV n row ∈ rowSpan n (e :: E)) ∧
        row1.getD (firstNonzero e) 0 = 0 ∧
        ∀ c < n, e.getD c 0 = 0 → row.getD c 0 = 0 → row1.getD c 0 = 0 := by
      unfold normalizeStep
      simp only
      have g1 : row[firstNonzero e]? = some (row.getD (firstNonzero e) 0) := by
        rw [List.getD_eq_getElem?_getD, List.getElem?_eq_getElem (by omega)]; rfl
      have g2 : e[firstNonzero e]? = some (e.getD (firstNonzero e) 0) := by
        rw [List.getD_eq_getElem?_getD, List.getElem?_eq_getElem (by omega)]; rfl
      rw [g1, g2]
      simp only
      split
      · refine ⟨_, rfl, by simp [hl, hel], ⟨e.getD (firstNonzero e) 0, hpos, ?_⟩, ?_, ?_⟩
        · rw [toV_rowSub n _ _ (by simpa using hl) (by simpa using hel), toV_rowScale, toV_rowScale]
          rw [show ∀ x y : Fin n → ℚ, x - y - x = -y by intro x y; abel]
          exact Submodule.neg_mem _ (Submodule.smul_mem _ _ (mem_rowSpan (by simp)))
        · rw [getD_rowSub (n := n) (by simpa using hl) (by simpa using hel) hle, getD_rowScale, getD_rowScale]
          ring
        · intro c hc h2 h3
          rw [getD_rowSub (n := n) (by simpa using hl) (by simpa using hel) hc, getD_rowScale, getD_rowScale, h2, h3]
          ring
      · next h0 =>
        push Not at h0
        exact ⟨row, rfl, hl, ⟨1, by decide, by simp⟩, h0, fun _ _ _ h => h⟩
    obtain ⟨r, h2, hl2, ⟨s2, hs2, hspan2⟩, hz2, hk2⟩ := ih row1 hE.tail hl1
    refine ⟨r, ?_, hl2, ⟨s2 * s1, by positivity, ?_⟩, ?_, ?_⟩
    · rw [normalizeLoop, h1]; exact h2
    · have : toV n r - ((s2 * s1 : Int) : ℚ) • toV n row =
          (toV n r - (s2 : ℚ) • toV n row1) + (s2 : ℚ) • (toV n row1 - (s1 : ℚ) • toV n row) := by
        push_cast
        module
      rw [this]
      exact Submodule.add_mem _ (rowSpan_mono (by intro x hx; simp [hx]) hspan2)
        (Submodule.smul_mem _ _ hspan1)
    · intro x hx
      rw [List.mem_cons] at hx
      rcases hx with rfl | hx
      · exact hk2 _ hle (fun x' hx' => (hiso.1 x' hx').1) hz1
      · exact hz2 x hx
    · intro c hc hall hrow
      exact hk2 c hc (fun x hx => hall x (by simp [hx])) (hk1 c hc (hall e (by simp)) hrow)

/-- functionals vanishing on equations -/
theorem ev_rowSpan_zero {n : Nat} {E : Matrix} (hlen : ∀ e ∈ E, e.length = n) {v : Row}
    (hv : ∀ e ∈ E, dot e v = 0) {x : Fin n → ℚ} (hx : x ∈ rowSpan n E) : ev n v x = 0 := by
  have : rowSpan n E ≤ LinearMap.ker (ev n v) := by
    apply Submodule.span_le.mpr
    rintro _ ⟨e, he, rfl⟩
    simp only [SetLike.mem_coe, LinearMap.mem_ker]
    rw [ev_toV n e v (hlen e he).le, hv e he]; simp
  exact this hx

theorem dot_of_span {n : Nat} {E : Matrix} (hlen : ∀ e ∈ E, e.length = n) {v r row : Row}
    (hv : ∀ e ∈ E, dot e v = 0) (hr : r.length = n) (hrow : row.length = n) {s : Int}
    (h : toV n r - (s : ℚ) • toV n row ∈ rowSpan n E) : dot r v = s * dot row v := by
  have := ev_rowSpan_zero hlen hv h
  rw [map_sub, map_smul, ev_toV n r v hr.le, ev_toV n row v hrow.le, smul_eq_mul, sub_eq_zero] at this
  exact_mod_cast this

end Panda
