import Verif.Spec.Extreme
import Verif.Spec.Output
import Verif.Proofs.Hull
import Verif.Proofs.Extreme
import Verif.Proofs.SpecBridge
import Verif.Proofs.FacetOf

/-! # Irredundant points and rays are the vertices and extreme directions of their hull -/

namespace Panda

variable {d : Nat}

/-! ## combinations -/

theorem comb_zero (l : List (ℚ × (Fin d → ℚ))) : WComb d l 0 0 := ⟨fun _ => 0, by simp, by simp, by simp⟩

theorem comb_add {l : List (ℚ × (Fin d → ℚ))} {s t : ℚ} {p q : Fin d → ℚ} : WComb d l s p → WComb d l t q → WComb d l (s + t) (p + q) := by
  rintro ⟨a, h1, rfl, rfl⟩ ⟨b, h2, rfl, rfl⟩
  exact ⟨fun j => a j + b j, fun j => add_nonneg (h1 j) (h2 j), by simp [add_mul, Finset.sum_add_distrib],
    by simp [add_smul, Finset.sum_add_distrib]⟩

theorem wcomb_smul {l : List (ℚ × (Fin d → ℚ))} {s t : ℚ} {p : Fin d → ℚ} (ht : 0 ≤ t) : WComb d l s p → WComb d l (t * s) (t • p) := by
  rintro ⟨a, h1, rfl, rfl⟩
  exact ⟨fun j => t * a j, fun j => mul_nonneg ht (h1 j), by simp [Finset.mul_sum, mul_assoc], by simp [Finset.smul_sum, mul_smul]⟩

theorem comb_mem {l : List (ℚ × (Fin d → ℚ))} {x : ℚ × (Fin d → ℚ)} (h : x ∈ l) : WComb d l x.1 x.2 := by
  induction l with
  | nil => simp at h
  | cons y l ih =>
    rw [wcomb_cons]
    rcases List.mem_cons.1 h with rfl | h
    · exact ⟨1, zero_le_one, by simpa using comb_zero l⟩
    · exact ⟨0, le_rfl, by simpa using ih h⟩

theorem wcomb_split {l1 l2 : List (ℚ × (Fin d → ℚ))} {x : ℚ × (Fin d → ℚ)} {s : ℚ} {p : Fin d → ℚ} :
    WComb d (l1 ++ x :: l2) s p ↔ ∃ a, 0 ≤ a ∧ WComb d (l1 ++ l2) (s - a * x.1) (p - a • x.2) := by
  simp only [wcomb_append, wcomb_cons]
  constructor
  · rintro ⟨s1, p1, h1, a, ha, h2⟩
    refine ⟨a, ha, s1, p1, h1, ?_⟩
    rwa [show s - a * x.1 - s1 = s - s1 - a * x.1 by ring, show p - a • x.2 - p1 = p - p1 - a • x.2 by abel]
  · rintro ⟨a, ha, s1, p1, h1, h2⟩
    refine ⟨s1, p1, h1, a, ha, ?_⟩
    rwa [show s - s1 - a * x.1 = s - a * x.1 - s1 by ring, show p - p1 - a • x.2 = p - a • x.2 - p1 by abel]

theorem wcomb_nonneg {l : List (ℚ × (Fin d → ℚ))} (hl : ∀ x ∈ l, 0 ≤ x.1) {s : ℚ} {p : Fin d → ℚ} : WComb d l s p → 0 ≤ s := by
  rintro ⟨c, h0, rfl, -⟩
  exact Finset.sum_nonneg fun j _ => mul_nonneg (h0 j) (hl _ (List.getElem_mem _))

/-! ## extreme elements of the cone -/

/-- an element of the cone that is a sum of multiples of itself only -/
def Ext (C : ℚ → (Fin d → ℚ) → Prop) (s : ℚ) (p : Fin d → ℚ) : Prop :=
  C s p ∧ (s ≠ 0 ∨ p ≠ 0) ∧ ∀ s1 p1 s2 p2, C s1 p1 → C s2 p2 → s = s1 + s2 → p = p1 + p2 →
    (∃ t : ℚ, 0 ≤ t ∧ s1 = t * s ∧ p1 = t • p) ∧ ∃ t : ℚ, 0 ≤ t ∧ s2 = t * s ∧ p2 = t • p

/-- an irredundant generator of a cone without lines is extreme -/
theorem ext_of_irredundant {l1 l2 : List (ℚ × (Fin d → ℚ))} {x : ℚ × (Fin d → ℚ)}
    (hpt : ∀ s p, WComb d (l1 ++ x :: l2) s p → WComb d (l1 ++ x :: l2) (-s) (-p) → s = 0 ∧ p = 0)
    (hx : ¬ WComb d (l1 ++ l2) x.1 x.2) : Ext (WComb d (l1 ++ x :: l2)) x.1 x.2 := by
  have up : ∀ {s p}, WComb d (l1 ++ l2) s p → WComb d (l1 ++ x :: l2) s p := fun h => wcomb_split.2 ⟨0, le_rfl, by simpa using h⟩
  have hmem : WComb d (l1 ++ x :: l2) x.1 x.2 := comb_mem (by simp)
  have hne : x.1 ≠ 0 ∨ x.2 ≠ 0 := by
    by_contra h
    push Not at h
    rw [h.1, h.2] at hx
    exact hx (comb_zero _)
  refine ⟨hmem, hne, fun s1 p1 s2 p2 h1 h2 hs hp => ?_⟩
  obtain ⟨a, ha, h1⟩ := wcomb_split.1 h1
  obtain ⟨b, hb, h2⟩ := wcomb_split.1 h2
  have h3 := comb_add h1 h2
  rw [show s1 - a * x.1 + (s2 - b * x.1) = (1 - (a + b)) * x.1 by linear_combination -hs,
    show p1 - a • x.2 + (p2 - b • x.2) = (1 - (a + b)) • x.2 by rw [sub_smul, one_smul, add_smul, hp]; abel] at h3
  rcases lt_trichotomy (a + b) 1 with hab | hab | hab
  · refine absurd ?_ hx
    have h4 := wcomb_smul (t := (1 - (a + b))⁻¹) (inv_nonneg.2 (by linarith)) h3
    rwa [← mul_assoc, smul_smul, inv_mul_cancel₀ (by linarith), one_mul, one_smul] at h4
  · have e1 : s1 - a * x.1 + (s2 - b * x.1) = 0 := by linear_combination -hs - x.1 * hab
    have e2 : p1 - a • x.2 + (p2 - b • x.2) = 0 := by
      rw [show p1 - a • x.2 + (p2 - b • x.2) = (1 - (a + b)) • x.2 by rw [sub_smul, one_smul, add_smul, hp]; abel, hab]; simp
    have h5 := hpt _ _ (up h1) (by rw [← eq_neg_of_add_eq_zero_right e1, ← eq_neg_of_add_eq_zero_right e2]; exact up h2)
    have h6 := hpt _ _ (up h2) (by rw [← eq_neg_of_add_eq_zero_left e1, ← eq_neg_of_add_eq_zero_left e2]; exact up h1)
    exact ⟨⟨a, ha, sub_eq_zero.1 h5.1, sub_eq_zero.1 h5.2⟩, b, hb, sub_eq_zero.1 h6.1, sub_eq_zero.1 h6.2⟩
  · have h4 := wcomb_smul (t := (a + b - 1)⁻¹) (inv_nonneg.2 (by linarith)) (up h3)
    rw [← mul_assoc, smul_smul, show (a + b - 1)⁻¹ * (1 - (a + b)) = -1 by
      rw [show 1 - (a + b) = -(a + b - 1) by ring, mul_neg, inv_mul_cancel₀ (by linarith)], neg_one_mul, neg_one_smul] at h4
    have h5 := hpt _ _ hmem h4
    rcases hne with h | h
    · exact absurd h5.1 h
    · exact absurd h5.2 h

/-- an extreme element is a multiple of a generator -/
theorem ext_generator {l : List (ℚ × (Fin d → ℚ))} {s : ℚ} {p : Fin d → ℚ} (h : Ext (WComb d l) s p) :
    ∃ x ∈ l, ∃ t : ℚ, 0 < t ∧ s = t * x.1 ∧ p = t • x.2 := by
  obtain ⟨h1, h2, h3⟩ := h
  -- peel off the generators one by one
  have key : ∀ (l' : List (ℚ × (Fin d → ℚ))), (∀ x ∈ l', x ∈ l) → ∀ {s' p'}, WComb d l' s' p' → (s' ≠ 0 ∨ p' ≠ 0) →
      ∃ x ∈ l', ∃ a : ℚ, 0 < a ∧ (x.1 ≠ 0 ∨ x.2 ≠ 0) ∧ WComb d l' (s' - a * x.1) (p' - a • x.2) := by
    intro l'
    induction l' with
    | nil =>
      intro _ s' p' h hne
      rw [wcomb_nil] at h
      rcases hne with hne | hne
      · exact absurd h.1 hne
      · exact absurd h.2 hne
    | cons y l' ih =>
      intro hsub s' p' h hne
      obtain ⟨a, ha, h⟩ := wcomb_cons.1 h
      have up : ∀ {s p}, WComb d l' s p → WComb d (y :: l') s p := fun h => wcomb_cons.2 ⟨0, le_rfl, by simpa using h⟩
      by_cases h0 : a * y.1 = 0 ∧ a • y.2 = 0
      · rw [h0.1, h0.2, sub_zero, sub_zero] at h
        obtain ⟨x, hx, b, hb, hxn, hw⟩ := ih (fun x hx => hsub x (by simp [hx])) h hne
        exact ⟨x, by simp [hx], b, hb, hxn, up hw⟩
      · refine ⟨y, by simp, a, lt_of_le_of_ne ha ?_, ?_, up h⟩
        · rintro rfl; simp at h0
        · by_contra hc
          push Not at hc
          rw [hc.1, hc.2] at h0
          simp at h0
  obtain ⟨x, hx, a, ha, hxn, hw⟩ := key l (fun x hx => hx) h1 h2
  obtain ⟨⟨t, ht, e1, e2⟩, -⟩ := h3 (a * x.1) (a • x.2) _ _ (wcomb_smul ha.le (comb_mem hx)) hw (by ring) (by abel)
  have ht0 : t ≠ 0 := by
    rintro rfl
    rw [zero_mul] at e1
    rw [zero_smul] at e2
    rcases hxn with hxn | hxn
    · exact (mul_ne_zero ha.ne' hxn) e1
    · exact (smul_ne_zero ha.ne' hxn) e2
  have htp : 0 < t := lt_of_le_of_ne ht (Ne.symm ht0)
  refine ⟨x, hx, t⁻¹ * a, mul_pos (inv_pos.2 htp) ha, ?_, ?_⟩
  · rw [mul_assoc, e1, ← mul_assoc, inv_mul_cancel₀ ht0, one_mul]
  · rw [mul_smul, e2, smul_smul, inv_mul_cancel₀ ht0, one_smul]

/-! ## a cone with finitely many generators is closed -/

theorem wcomb_snoc {l : List (ℚ × (Fin d → ℚ))} : ∀ {s : ℚ} {p : Fin d → ℚ}, WComb d l s p ↔
    WComb (d + 1) (l.map fun x => ((0 : ℚ), (Fin.snoc x.2 x.1 : Fin (d + 1) → ℚ))) 0 (Fin.snoc p s : Fin (d + 1) → ℚ) := by
  induction l with
  | nil =>
    intro s p
    simp only [List.map_nil, wcomb_nil, true_and]
    constructor
    · rintro ⟨rfl, rfl⟩
      funext i; refine Fin.lastCases ?_ (fun i => ?_) i <;> simp
    · intro h
      refine ⟨by simpa using congrFun h (Fin.last d), funext fun i => by simpa using congrFun h i.castSucc⟩
  | cons x l ih =>
    intro s p
    simp only [List.map_cons, wcomb_cons, mul_zero, sub_zero, ih]
    have : ∀ a : ℚ, (Fin.snoc (p - a • x.2) (s - a * x.1) : Fin (d + 1) → ℚ) = Fin.snoc p s - a • Fin.snoc x.2 x.1 := by
      intro a
      funext i; refine Fin.lastCases ?_ (fun i => ?_) i <;> simp
    simp only [this]

theorem inConeOf_wcomb {m : Nat} {V : Matrix} {x : Fin m → ℚ} :
    Spec.InConeOf m V x ↔ WComb m (V.map fun v => ((0 : ℚ), Spec.vec m v)) 0 x := by
  rw [wcomb_map]
  simp [Spec.InConeOf]

theorem exists_row {m : Nat} (x : Fin m → ℚ) : ∃ (c : ℚ) (r : Row), 0 < c ∧ r.length = m ∧ toV m r = c • x := by
  by_cases h : x = 0
  · refine ⟨1, List.replicate m 0, one_pos, by simp, ?_⟩
    funext i
    simp [toV, h]
  · obtain ⟨c, r, h1, h2, -, h3⟩ := exists_primitive_multiple x h
    exact ⟨c, r, h1, h2, h3⟩

theorem exists_rows {m : Nat} (l : List (Fin m → ℚ)) : ∃ V : Matrix, List.Forall₂ (fun x r => ∃ c : ℚ, 0 < c ∧ r.length = m ∧ toV m r = c • x) l V := by
  induction l with
  | nil => exact ⟨[], .nil⟩
  | cons x l ih =>
    obtain ⟨V, hV⟩ := ih
    obtain ⟨c, r, h1, h2, h3⟩ := exists_row x
    exact ⟨r :: V, .cons ⟨c, h1, h2, h3⟩ hV⟩

/-- such a cone is the solution set of finitely many linear inequalities -/
theorem wcomb_system {l : List (ℚ × (Fin d → ℚ))} (hnz : ∃ x ∈ l, x.1 ≠ 0) :
    ∃ A : Matrix, ∀ s p, WComb d l s p ↔ ∀ a ∈ A, ev (d + 1) a (Fin.snoc p s : Fin (d + 1) → ℚ) ≤ 0 := by
  obtain ⟨V, hV⟩ := exists_rows (l.map fun x => (Fin.snoc x.2 x.1 : Fin (d + 1) → ℚ))
  have hlen : ∀ v ∈ V, v.length = d + 1 := by
    clear hnz
    intro v hv
    obtain ⟨i, hi, rfl⟩ := List.getElem_of_mem hv
    obtain ⟨c, -, h, -⟩ := List.forall₂_iff_get.1 hV |>.2 i (by rw [hV.length_eq]; exact hi) hi
    exact h
  obtain ⟨x, hx, hx0⟩ := hnz
  obtain ⟨v, hv, c, hc, hvl, hvx⟩ : ∃ v ∈ V, ∃ c : ℚ, 0 < c ∧ v.length = d + 1 ∧ toV (d + 1) v = c • (Fin.snoc x.2 x.1 : Fin (d + 1) → ℚ) := by
    obtain ⟨i, hi, rfl⟩ := List.getElem_of_mem hx
    have hi' : i < V.length := by rw [← hV.length_eq]; simpa using hi
    obtain ⟨c, h1, h2, h3⟩ := List.forall₂_iff_get.1 hV |>.2 i (by simpa using hi) hi'
    exact ⟨V[i], List.getElem_mem hi', c, h1, h2, by simpa using h3⟩
  have hvd : v.getD d 0 ≠ 0 := by
    have := congrFun hvx (Fin.last d)
    simp only [toV, Fin.val_last, Pi.smul_apply, Fin.snoc_last, smul_eq_mul] at this
    intro h0
    rw [h0] at this
    exact mul_ne_zero hc.ne' hx0 (by simpa using this.symm)
  have hne : V ≠ [] := List.ne_nil_of_mem hv
  have hr : Rect V V.length (d + 1) := ⟨rfl, hlen⟩
  have hsp := gaussSplit_spec hr (List.length_pos_of_ne_nil hne) (Nat.succ_pos d)
  obtain ⟨F0, hel, -⟩ := fme_elim hr (List.length_pos_of_ne_nil hne) (Nat.succ_pos d) ⟨v, hv, v.getD d 0, by
    rw [List.getD_eq_getElem?_getD, List.getElem?_eq_getElem (by omega)]; simp, hvd⟩
  refine ⟨F0 ++ ((gaussSplit V).1 ++ (gaussSplit V).1.map (List.map Neg.neg)), fun s p => ?_⟩
  have h1 : WComb d l s p ↔ Spec.InConeOf (d + 1) V (Fin.snoc p s : Fin (d + 1) → ℚ) := by
    rw [wcomb_snoc, inConeOf_wcomb]
    refine (wcomb_scaled ?_).symm
    clear hlen hv hne hr hsp hel
    rw [List.forall₂_map_left_iff] at hV
    rw [List.forall₂_map_left_iff, List.forall₂_map_right_iff]
    refine List.Forall₂.flip (hV.imp ?_)
    rintro y r ⟨c, hc, -, h⟩
    exact ⟨rfl, Or.inr ⟨rfl, c, hc, by rw [vec_eq_toV]; exact h⟩⟩
  have neg : ∀ (e : Row) (x : Fin (d + 1) → ℚ), ev (d + 1) (e.map Neg.neg) x = -ev (d + 1) e x := by
    intro e x
    rw [ev_as_sum, ev_as_sum, ← Finset.sum_neg_distrib]
    refine Finset.sum_congr rfl fun i _ => ?_
    have : toV (d + 1) (e.map Neg.neg) i = -toV (d + 1) e i := by
      unfold toV
      rw [List.getD_eq_getElem?_getD, List.getD_eq_getElem?_getD, List.getElem?_map]
      cases e[(i : Nat)]? <;> simp
    rw [this]; ring
  rw [h1, hel.inConeOf_iff hsp.E_len hsp.E_zero]
  constructor
  · rintro ⟨h2, h3⟩ a ha
    rcases List.mem_append.1 ha with ha | ha
    · exact h3 a ha
    · rcases List.mem_append.1 ha with ha | ha
      · exact (h2 a ha).le
      · obtain ⟨e, he, rfl⟩ := List.mem_map.1 ha
        rw [neg, h2 e he]; simp
  · intro h
    refine ⟨fun e he => le_antisymm (h e (by simp [he])) ?_, fun a ha => h a (by simp [ha])⟩
    have := h (e.map Neg.neg) (List.mem_append.2 (Or.inr (List.mem_append.2 (Or.inr (List.mem_map.2 ⟨e, he, rfl⟩)))))
    rw [neg] at this; linarith

/-- directions in which one can move forever belong to the cone -/
theorem recession_wcomb {l : List (ℚ × (Fin d → ℚ))} (hnz : ∃ x ∈ l, x.1 ≠ 0) {q : Fin d → ℚ} (hne : ∃ p, WComb d l 1 p) :
    Spec.Recession (WComb d l 1) q ↔ WComb d l 0 q := by
  constructor
  · intro h
    obtain ⟨A, hA⟩ := wcomb_system hnz
    obtain ⟨p, hp⟩ := hne
    rw [hA]
    intro a ha
    by_contra hcon
    push Not at hcon
    have h0 := (hA 1 p).1 hp a ha
    have h1 := (hA _ _).1 (h p hp ((1 - ev (d+1) a (Fin.snoc p 1 : Fin (d + 1) → ℚ)) / ev (d+1) a (Fin.snoc q 0 : Fin (d + 1) → ℚ))
      (div_nonneg (by linarith) hcon.le)) a ha
    have e : ∀ t : ℚ, (Fin.snoc (p + t • q) 1 : Fin (d + 1) → ℚ) = Fin.snoc p 1 + t • Fin.snoc q 0 := by
      intro t
      funext i; refine Fin.lastCases ?_ (fun i => ?_) i <;> simp
    rw [e, map_add, map_smul, smul_eq_mul, div_mul_cancel₀ _ hcon.ne'] at h1
    linarith
  · intro h p hp t ht
    have := comb_add hp (wcomb_smul ht h)
    simpa using this

/-! ## vertices and extreme directions -/

theorem vertex_ext {l : List (ℚ × (Fin d → ℚ))} (hl : ∀ x ∈ l, 0 ≤ x.1) {p : Fin d → ℚ} :
    Spec.Vertex (WComb d l 1) p ↔ Ext (WComb d l) 1 p := by
  constructor
  · rintro ⟨h1, h2⟩
    have far : ∀ u, WComb d l 0 u → WComb d l 1 (p - u) → u = 0 := by
      intro u hu hp
      have h3 : WComb d l 1 (p + u) := by
        have := comb_add h1 hu
        simpa using this
      have := (h2 (p - u) (p + u) (1 / 2) hp h3 (by norm_num) (by norm_num) (by
        rw [show (1 : ℚ) - 1 / 2 = 1 / 2 by norm_num, ← smul_add, show p - u + (p + u) = (2 : ℚ) • p by rw [two_smul]; abel, smul_smul]
        norm_num)).1
      simpa using this
    have half : ∀ s1 p1 s2 p2, WComb d l s1 p1 → WComb d l s2 p2 → 1 = s1 + s2 → p = p1 + p2 → ∃ t : ℚ, 0 ≤ t ∧ s1 = t * 1 ∧ p1 = t • p := by
      intro s1 p1 s2 p2 w1 w2 hs hp
      have n1 := wcomb_nonneg hl w1
      have n2 := wcomb_nonneg hl w2
      refine ⟨s1, n1, by ring, ?_⟩
      rcases n1.eq_or_lt with e1 | n1
      · subst e1
        have : s2 = 1 := by linarith
        subst this
        rw [far p1 w1 (by rw [hp]; simpa using w2), zero_smul]
      rcases n2.eq_or_lt with e2 | n2
      · subst e2
        have : s1 = 1 := by linarith
        subst this
        have := far p2 w2 (by rw [hp]; simpa using w1)
        rw [hp, this]; simp
      · have q1 := wcomb_smul (inv_nonneg.2 n1.le) w1
        have q2 := wcomb_smul (inv_nonneg.2 n2.le) w2
        rw [inv_mul_cancel₀ n1.ne'] at q1
        rw [inv_mul_cancel₀ n2.ne'] at q2
        have := (h2 _ _ s1 q1 q2 n1 (by linarith) (by
          rw [smul_smul, show 1 - s1 = s2 by linarith, smul_smul, mul_inv_cancel₀ n1.ne', mul_inv_cancel₀ n2.ne', one_smul, one_smul, hp])).1
        rw [← this, smul_smul, mul_inv_cancel₀ n1.ne', one_smul]
    exact ⟨h1, Or.inl one_ne_zero, fun s1 p1 s2 p2 w1 w2 hs hp =>
      ⟨half s1 p1 s2 p2 w1 w2 hs hp, half s2 p2 s1 p1 w2 w1 (by linarith) (by rw [hp]; abel)⟩⟩
  · rintro ⟨h1, -, h2⟩
    refine ⟨h1, fun x y t hx hy t0 t1 e => ?_⟩
    obtain ⟨⟨c, -, e1, e2⟩, c', -, e3, e4⟩ := h2 (t * 1) (t • x) ((1 - t) * 1) ((1 - t) • y) (wcomb_smul t0.le hx)
      (wcomb_smul (by linarith) hy) (by ring) e
    rw [mul_one, mul_one] at e1 e3
    rw [← e1] at e2
    rw [← e3] at e4
    exact ⟨smul_right_injective _ t0.ne' e2, smul_right_injective _ (by linarith : (1 - t) ≠ 0) e4⟩

theorem direction_ext {l : List (ℚ × (Fin d → ℚ))} (hl : ∀ x ∈ l, 0 ≤ x.1) (hnz : ∃ x ∈ l, x.1 ≠ 0) (hne : ∃ p, WComb d l 1 p) {q : Fin d → ℚ} :
    Spec.ExtremeDirection (WComb d l 1) q ↔ Ext (WComb d l) 0 q := by
  unfold Spec.ExtremeDirection Ext
  simp only [recession_wcomb hnz hne, mul_zero]
  constructor
  · rintro ⟨h1, h2, h3⟩
    refine ⟨h2, Or.inr h1, fun s1 p1 s2 p2 w1 w2 hs hp => ?_⟩
    have n1 := wcomb_nonneg hl w1
    have n2 := wcomb_nonneg hl w2
    obtain rfl : s1 = 0 := by linarith
    obtain rfl : s2 = 0 := by linarith
    obtain ⟨⟨t, ht, e⟩, t', ht', e'⟩ := h3 p1 p2 w1 w2 hp
    exact ⟨⟨t, ht, rfl, e⟩, t', ht', rfl, e'⟩
  · rintro ⟨h1, h2, h3⟩
    refine ⟨h2.resolve_left (by simp), h1, fun x y hx hy e => ?_⟩
    obtain ⟨⟨t, ht, -, e⟩, t', ht', -, e'⟩ := h3 0 x 0 y hx hy (by simp) e
    exact ⟨⟨t, ht, e⟩, t', ht', e'⟩

/-! ## points and rays of a file -/

/-- the generators of the cone over the hull -/
def gens (d : Nat) (points rays : List (List (Int × Int))) : List (ℚ × (Fin d → ℚ)) :=
  (rays.map fun r => ((0 : ℚ), Spec.point d r)) ++ points.map fun r => ((1 : ℚ), Spec.point d r)

variable {points rays : List (List (Int × Int))}

theorem gens_hull : WComb d (gens d points rays) 1 = Spec.InHull d points rays := by
  funext p
  rw [eq_iff_iff, inHull_wcomb]; rfl

theorem gens_nonneg : ∀ x ∈ gens d points rays, 0 ≤ x.1 := by
  intro x hx
  rcases List.mem_append.1 hx with hx | hx
  · obtain ⟨r, -, rfl⟩ := List.mem_map.1 hx; exact le_rfl
  · obtain ⟨r, -, rfl⟩ := List.mem_map.1 hx; exact zero_le_one

theorem gens_points (h : points ≠ []) : (∃ x ∈ gens d points rays, x.1 ≠ 0) ∧ ∃ p, WComb d (gens d points rays) 1 p := by
  obtain ⟨p, hp⟩ := List.exists_mem_of_ne_nil _ h
  have hm : ((1 : ℚ), Spec.point d p) ∈ gens d points rays := List.mem_append.2 (Or.inr (List.mem_map.2 ⟨p, hp, rfl⟩))
  exact ⟨⟨_, hm, one_ne_zero⟩, _, comb_mem hm⟩

theorem gens_pointed (h : points ≠ [])
    (hline : ¬ ∃ p q : Fin d → ℚ, q ≠ 0 ∧ ∀ t : ℚ, Spec.InHull d points rays (p + t • q)) :
    ∀ s p, WComb d (gens d points rays) s p → WComb d (gens d points rays) (-s) (-p) → s = 0 ∧ p = 0 := by
  intro s p h1 h2
  have n1 := wcomb_nonneg gens_nonneg h1
  have n2 := wcomb_nonneg gens_nonneg h2
  obtain rfl : s = 0 := by linarith
  refine ⟨rfl, ?_⟩
  by_contra hp
  obtain ⟨q, hq⟩ := (gens_points (d := d) (rays := rays) h).2
  refine hline ⟨q, p, hp, fun t => ?_⟩
  rw [← gens_hull]
  rcases le_total 0 t with ht | ht
  · have := comb_add hq (wcomb_smul ht h1)
    simpa using this
  · have := comb_add hq (wcomb_smul (t := -t) (by linarith) h2)
    simpa using this

theorem wcomb_points_zero {ps : List (List (Int × Int))} : ∀ {p : Fin d → ℚ}, WComb d (ps.map fun r => ((1 : ℚ), Spec.point d r)) 0 p → p = 0 := by
  intro p h
  obtain ⟨c, h0, h1, h2⟩ := (wcomb_map _ _ _).1 h
  have h3 := (Finset.sum_eq_zero_iff_of_nonneg fun j _ => mul_nonneg (h0 j) zero_le_one).1 h1
  rw [h2]
  refine Finset.sum_eq_zero fun j hj => ?_
  have := h3 j hj
  rw [mul_one] at this
  rw [this, zero_smul]

theorem inRays_wcomb {p : Fin d → ℚ} : Spec.InRays d rays p ↔ WComb d (rays.map fun r => ((0 : ℚ), Spec.point d r)) 0 p := by
  rw [wcomb_map]
  simp [Spec.InRays]

theorem ext_of_point (hne : points ≠ [])
    (hline : ¬ ∃ p q : Fin d → ℚ, q ≠ 0 ∧ ∀ t : ℚ, Spec.InHull d points rays (p + t • q)) {i : Nat} (hi : i < points.length)
    (h : ¬ Spec.InHull d (points.eraseIdx i) rays (Spec.point d points[i])) : Ext (WComb d (gens d points rays)) 1 (Spec.point d points[i]) := by
  have hs : gens d points rays = ((rays.map fun r => ((0 : ℚ), Spec.point d r)) ++ (points.take i).map fun r => ((1 : ℚ), Spec.point d r)) ++
      ((1 : ℚ), Spec.point d points[i]) :: (points.drop (i + 1)).map fun r => ((1 : ℚ), Spec.point d r) := by
    unfold gens
    rw [List.append_assoc]
    congr 1
    rw [← List.map_cons (f := fun r => ((1 : ℚ), Spec.point d r)), ← List.drop_eq_getElem_cons hi, ← List.map_append, List.take_append_drop]
  have hp := gens_pointed hne hline
  rw [hs] at hp ⊢
  refine ext_of_irredundant (x := ((1 : ℚ), Spec.point d points[i])) hp fun hw => h ?_
  rw [inHull_wcomb, List.eraseIdx_eq_take_drop_succ, List.map_append, ← List.append_assoc]
  exact hw

theorem ext_of_ray (hne : points ≠ [])
    (hline : ¬ ∃ p q : Fin d → ℚ, q ≠ 0 ∧ ∀ t : ℚ, Spec.InHull d points rays (p + t • q)) {i : Nat} (hi : i < rays.length)
    (h : ¬ Spec.InRays d (rays.eraseIdx i) (Spec.point d rays[i])) : Ext (WComb d (gens d points rays)) 0 (Spec.point d rays[i]) := by
  have hs : gens d points rays = ((rays.take i).map fun r => ((0 : ℚ), Spec.point d r)) ++
      ((0 : ℚ), Spec.point d rays[i]) :: (((rays.drop (i + 1)).map fun r => ((0 : ℚ), Spec.point d r)) ++
        points.map fun r => ((1 : ℚ), Spec.point d r)) := by
    unfold gens
    rw [← List.cons_append, ← List.append_assoc]
    congr 1
    rw [← List.map_cons (f := fun r => ((0 : ℚ), Spec.point d r)), ← List.drop_eq_getElem_cons hi, ← List.map_append, List.take_append_drop]
  have hp := gens_pointed hne hline
  rw [hs] at hp ⊢
  refine ext_of_irredundant (x := ((0 : ℚ), Spec.point d rays[i])) hp fun hw => h ?_
  rw [← List.append_assoc, ← List.map_append, wcomb_append] at hw
  obtain ⟨s1, p1, h1, h2⟩ := hw
  obtain rfl : s1 = 0 := by
    obtain ⟨c, -, h3, -⟩ := (wcomb_map _ _ _).1 h1
    simpa using h3.symm
  rw [sub_zero] at h2
  have := sub_eq_zero.1 (wcomb_points_zero h2)
  rw [inRays_wcomb, List.eraseIdx_eq_take_drop_succ]
  rw [← this] at h1
  exact h1

/-- every vertex of the hull is one of the points -/
theorem vertex_mem_points {p : Fin d → ℚ} (h : Spec.Vertex (Spec.InHull d points rays) p) : ∃ q ∈ points, Spec.point d q = p := by
  rw [← gens_hull, vertex_ext gens_nonneg] at h
  obtain ⟨x, hx, t, -, e1, e2⟩ := ext_generator h
  rcases List.mem_append.1 hx with hx | hx
  · obtain ⟨r, -, rfl⟩ := List.mem_map.1 hx
    simp at e1
  · obtain ⟨q, hq, rfl⟩ := List.mem_map.1 hx
    simp only [mul_one] at e1
    exact ⟨q, hq, by rw [e2, ← e1, one_smul]⟩

/-- every extreme direction of the hull is a multiple of one of the rays -/
theorem direction_mem_rays (hne : points ≠ []) {u : Fin d → ℚ} (h : Spec.ExtremeDirection (Spec.InHull d points rays) u) :
    ∃ q ∈ rays, ∃ t : ℚ, 0 < t ∧ u = t • Spec.point d q := by
  obtain ⟨h1, h2⟩ := gens_points (d := d) (rays := rays) hne
  rw [← gens_hull, direction_ext gens_nonneg h1 h2] at h
  obtain ⟨x, hx, t, ht, e1, e2⟩ := ext_generator h
  rcases List.mem_append.1 hx with hx | hx
  · obtain ⟨r, hr, rfl⟩ := List.mem_map.1 hx
    exact ⟨r, hr, t, ht, e2⟩
  · obtain ⟨q, hq, rfl⟩ := List.mem_map.1 hx
    simp only [mul_one] at e1
    exact absurd e1 ht.ne

theorem extremeDirection_smul {S : (Fin d → ℚ) → Prop} {q : Fin d → ℚ} {t : ℚ} (ht : 0 < t) (h : Spec.ExtremeDirection S q) :
    Spec.ExtremeDirection S (t • q) := by
  obtain ⟨h1, h2, h3⟩ := h
  have rcs : ∀ {x : Fin d → ℚ} {c : ℚ}, 0 ≤ c → Spec.Recession S x → Spec.Recession S (c • x) := by
    intro x c hc hx p hp s hs
    rw [smul_smul]
    exact hx p hp _ (mul_nonneg hs hc)
  refine ⟨smul_ne_zero ht.ne' h1, rcs ht.le h2, fun x y hx hy e => ?_⟩
  obtain ⟨⟨a, ha, e1⟩, b, hb, e2⟩ := h3 (t⁻¹ • x) (t⁻¹ • y) (rcs (inv_nonneg.2 ht.le) hx) (rcs (inv_nonneg.2 ht.le) hy)
    (by rw [← smul_add, ← e, smul_smul, inv_mul_cancel₀ ht.ne', one_smul])
  have back : ∀ (z : Fin d → ℚ) (c : ℚ), t⁻¹ • z = c • q → z = c • t • q := by
    intro z c hz
    have := congrArg (t • ·) hz
    simp only [smul_smul, mul_inv_cancel₀ ht.ne', one_smul] at this
    rw [this, smul_smul, mul_comm]
  exact ⟨⟨a, ha, back x a e1⟩, b, hb, back y b e2⟩

/-- **Irredundant points and rays of a hull without lines are exactly its vertices and extreme directions** -/
theorem hull_exact (hne : points ≠ [])
    (hline : ¬ ∃ p q : Fin d → ℚ, q ≠ 0 ∧ ∀ t : ℚ, Spec.InHull d points rays (p + t • q))
    (hp : ∀ i (hi : i < points.length), ¬ Spec.InHull d (points.eraseIdx i) rays (Spec.point d points[i]))
    (hr : ∀ i (hi : i < rays.length), ¬ Spec.InRays d (rays.eraseIdx i) (Spec.point d rays[i])) :
    (∀ p, Spec.Vertex (Spec.InHull d points rays) p ↔ ∃ q ∈ points, Spec.point d q = p) ∧
    ∀ u, Spec.ExtremeDirection (Spec.InHull d points rays) u ↔ ∃ q ∈ rays, ∃ t : ℚ, 0 < t ∧ u = t • Spec.point d q := by
  obtain ⟨h1, h2⟩ := gens_points (d := d) (rays := rays) hne
  refine ⟨fun p => ⟨vertex_mem_points, ?_⟩, fun u => ⟨direction_mem_rays hne, ?_⟩⟩
  · rintro ⟨q, hq, rfl⟩
    obtain ⟨i, hi, rfl⟩ := List.getElem_of_mem hq
    rw [← gens_hull, vertex_ext gens_nonneg]
    exact ext_of_point hne hline hi (hp i hi)
  · rintro ⟨q, hq, t, ht, rfl⟩
    obtain ⟨i, hi, rfl⟩ := List.getElem_of_mem hq
    refine extremeDirection_smul ht ?_
    rw [← gens_hull, direction_ext gens_nonneg h1 h2]
    exact ext_of_ray hne hline hi (hr i hi)

/-- no two of the irredundant points are equal -/
theorem points_injective {points rays : List (List (Int × Int))}
    (hp : ∀ i (hi : i < points.length), ¬ Spec.InHull d (points.eraseIdx i) rays (Spec.point d points[i])) :
    (points.map (Spec.point d)).Nodup := by
  rw [List.nodup_iff_injective_get]
  intro i j hij
  by_contra hne
  have hi : i.1 < points.length := by simpa using i.2
  have hj : j.1 < points.length := by simpa using j.2
  have e : Spec.point d points[i.1] = Spec.point d points[j.1] := by simpa using hij
  refine hp i.1 hi ?_
  rw [e, ← gens_hull]
  refine comb_mem (x := ((1 : ℚ), Spec.point d points[j.1])) (List.mem_append.2 (Or.inr (List.mem_map.2 ⟨points[j.1], ?_, rfl⟩)))
  rw [List.mem_eraseIdx_iff_getElem]
  exact ⟨j.1, hj, fun h => hne (Fin.ext h.symm), rfl⟩

end Panda
