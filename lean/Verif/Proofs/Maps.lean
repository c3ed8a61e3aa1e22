import Verif.Spec.Maps
import Verif.Proofs.Classes
import Verif.Proofs.FacetFacts
import Verif.Proofs.RowsBridge
import Mathlib.LinearAlgebra.FiniteDimensional.Lemmas
import Mathlib.LinearAlgebra.FiniteDimensional.Basic

/-! # What applying a map computes -/

namespace Panda

/-- sum of the factors of index `j` in an image -/
def imFactor (im : Image) (j : Nat) : Int := ((im.filter fun t => decide (t.1 = j)).map fun t => t.2).sum

theorem factor_eq (m : SymMap) (i j : Nat) : Spec.factor m i j = imFactor (m.getD i []) j := rfl

theorem imFactor_cons (t : Term) (ts : Image) (j : Nat) :
    imFactor (t :: ts) j = (if t.1 = j then t.2 else 0) + imFactor ts j := by
  unfold imFactor
  rw [List.filter_cons]
  by_cases h : t.1 = j <;> simp [h]

theorem imFactor_nil (j : Nat) : imFactor [] j = 0 := rfl

theorem imFactor_append (a b : Image) (j : Nat) : imFactor (a ++ b) j = imFactor a j + imFactor b j := by
  unfold imFactor; simp

theorem getD_lt {r : Row} {i : Nat} (h : i < r.length) : r.getD i 0 = r[i] := by
  simp only [List.getD_eq_getElem?_getD, List.getElem?_eq_getElem h, Option.getD_some]

theorem getD_set {r : Row} {i j : Nat} {x : Int} (hi : i < r.length) :
    (r.set i x).getD j 0 = if j = i then x else r.getD j 0 := by
  simp only [List.getD_eq_getElem?_getD, List.getElem?_set]
  by_cases h : i = j
  · subst h; simp [hi]
  · rw [if_neg h, if_neg (Ne.symm h)]

section facet
variable {n : Nat} {input : Row}

theorem applyImage_facet (hin : input.length = n) {i : Nat} (hi : i < n) :
    ∀ (im : Image) (result : Row), result.length = n → (∀ t ∈ im, t.1 < n) →
      ∃ r, applyImage .facet input i result im = .ok r ∧ r.length = n ∧
        ∀ j, j < n → r.getD j 0 = result.getD j 0 + imFactor im j * input.getD i 0
  | [], result, hr, _ => ⟨result, rfl, hr, fun j _ => by simp [imFactor_nil]⟩
  | t :: ts, result, hr, ht => by
    have ht1 : t.1 < result.length := by rw [hr]; exact ht t (by simp)
    have hi' : i < input.length := by omega
    obtain ⟨r, h1, h2, h3⟩ := applyImage_facet hin hi ts (result.set t.1 (result[t.1] + t.2 * input[i]))
      (by simp [hr]) (fun u hu => ht u (by simp [hu]))
    refine ⟨r, ?_, h2, fun j hj => ?_⟩
    · rw [applyImage, applyTerm, List.getElem?_eq_getElem ht1, List.getElem?_eq_getElem hi']
      exact h1
    · rw [h3 j hj, getD_set ht1, imFactor_cons]
      have e1 : input.getD i 0 = input[i] := by rw [getD_lt hi']
      have e2 : result.getD t.1 0 = result[t.1] := by rw [getD_lt ht1]
      by_cases h : j = t.1
      · subst h; simp only [if_true]; rw [e1, e2]; ring
      · rw [if_neg h, if_neg (Ne.symm h)]; ring

theorem applyLoop_facet (hin : input.length = n) :
    ∀ (ims : SymMap) (i : Nat) (result : Row), result.length = n → i + ims.length ≤ n →
      (∀ im ∈ ims, ∀ t ∈ im, t.1 < n) →
      ∃ r, applyLoop .facet input i result ims = .ok r ∧ r.length = n ∧
        ∀ j, j < n → r.getD j 0 = result.getD j 0 +
          ∑ k ∈ Finset.range ims.length, imFactor (ims.getD k []) j * input.getD (i + k) 0
  | [], i, result, hr, _, _ => ⟨result, rfl, hr, fun j _ => by simp⟩
  | im :: ims, i, result, hr, hi, hm => by
    simp at hi
    obtain ⟨r1, h1, h2, h3⟩ := applyImage_facet hin (i := i) (by omega) im result hr (hm im (by simp))
    obtain ⟨r2, h4, h5, h6⟩ := applyLoop_facet hin ims (i + 1) r1 h2 (by omega) (fun x hx => hm x (by simp [hx]))
    refine ⟨r2, by rw [applyLoop, h1]; exact h4, h5, fun j hj => ?_⟩
    rw [h6 j hj, h3 j hj, List.length_cons, Finset.sum_range_succ']
    simp only [List.getD_cons_succ, List.getD_cons_zero, Nat.add_zero]
    rw [add_assoc, add_comm (imFactor im j * _)]
    congr 2
    apply Finset.sum_congr rfl
    intro k _
    rw [show i + 1 + k = i + (k + 1) by omega]

theorem applyImage_vertex (hin : input.length = n) {i : Nat} (hi : i < n) :
    ∀ (im : Image) (result : Row), result.length = n → (∀ t ∈ im, t.1 < n) →
      ∃ r, applyImage .vertex input i result im = .ok r ∧ r.length = n ∧
        ∀ j, j < n → r.getD j 0 = result.getD j 0 +
          if j = i then ∑ k ∈ Finset.range n, imFactor im k * input.getD k 0 else 0
  | [], result, hr, _ => ⟨result, rfl, hr, fun j _ => by simp [imFactor_nil]⟩
  | t :: ts, result, hr, ht => by
    have ht1 : t.1 < input.length := by rw [hin]; exact ht t (by simp)
    have hi' : i < result.length := by omega
    obtain ⟨r, h1, h2, h3⟩ := applyImage_vertex hin hi ts (result.set i (result[i] + t.2 * input[t.1]))
      (by simp [hr]) (fun u hu => ht u (by simp [hu]))
    refine ⟨r, ?_, h2, fun j hj => ?_⟩
    · rw [applyImage, applyTerm, List.getElem?_eq_getElem ht1, List.getElem?_eq_getElem hi']
      exact h1
    · rw [h3 j hj, getD_set hi']
      have e1 : input.getD t.1 0 = input[t.1] := by rw [getD_lt ht1]
      have e2 : result.getD i 0 = result[i] := by rw [getD_lt hi']
      by_cases h : j = i
      · subst h; simp only [if_true]
        rw [e2, add_assoc]
        congr 1
        simp only [imFactor_cons, add_mul]
        rw [Finset.sum_add_distrib]
        congr 1
        rw [Finset.sum_eq_single t.1]
        · rw [if_pos rfl, e1]
        · intro b _ hb; rw [if_neg (Ne.symm hb), zero_mul]
        · intro hn; exact absurd (Finset.mem_range.mpr (by omega)) hn
      · simp only [if_neg h]

theorem applyLoop_vertex (hin : input.length = n) :
    ∀ (ims : SymMap) (i : Nat) (result : Row), result.length = n → i + ims.length ≤ n →
      (∀ im ∈ ims, ∀ t ∈ im, t.1 < n) →
      ∃ r, applyLoop .vertex input i result ims = .ok r ∧ r.length = n ∧
        ∀ j, j < n → r.getD j 0 = result.getD j 0 +
          if i ≤ j then ∑ k ∈ Finset.range n, imFactor (ims.getD (j - i) []) k * input.getD k 0 else 0
  | [], i, result, hr, _, _ => ⟨result, rfl, hr, fun j _ => by simp [imFactor_nil]⟩
  | im :: ims, i, result, hr, hi, hm => by
    simp at hi
    obtain ⟨r1, h1, h2, h3⟩ := applyImage_vertex hin (i := i) (by omega) im result hr (hm im (by simp))
    obtain ⟨r2, h4, h5, h6⟩ := applyLoop_vertex hin ims (i + 1) r1 h2 (by omega) (fun x hx => hm x (by simp [hx]))
    refine ⟨r2, by rw [applyLoop, h1]; exact h4, h5, fun j hj => ?_⟩
    rw [h6 j hj, h3 j hj, add_assoc]
    congr 1
    rcases Nat.lt_trichotomy i j with h | h | h
    · obtain ⟨k, hk⟩ : ∃ k, j - i = k + 1 := ⟨j - i - 1, by omega⟩
      rw [if_neg (by omega), if_pos (by omega), if_pos (by omega), hk, List.getD_cons_succ, zero_add,
        show j - (i + 1) = k by omega]
    · subst h; rw [if_pos rfl, if_neg (by omega), if_pos le_rfl, Nat.sub_self, List.getD_cons_zero, add_zero]
    · rw [if_neg (by omega), if_neg (by omega), if_neg (by omega), add_zero]

end facet

theorem replicate_getD (n j : Nat) : (List.replicate n (0 : Int)).getD j 0 = 0 := by
  simp only [List.getD_eq_getElem?_getD, List.getElem?_replicate]
  split <;> rfl

/-- applying a map to an inequality: a row of the same size whose multiple is the pulled back inequality -/
theorem applyMap_facet {n : Nat} {m : SymMap} (hm : Spec.IsMap n m) {a : Row} (ha : a.length = n) :
    ∃ b, applyMap m a .facet = .ok b ∧ b.length = n ∧
      (∃ g : Int, 0 < g ∧ Spec.pulled n m (Spec.vec n a) = (g : ℚ) • Spec.vec n b) ∧
      (Spec.pulled n m (Spec.vec n a) ≠ 0 → Primitive b) := by
  obtain ⟨r, h1, h2, h3⟩ := applyLoop_facet ha m 0 (List.replicate a.length 0) (by simp [ha]) (by simp [hm.size]) hm.range
  have hr : Spec.vec n r = Spec.pulled n m (Spec.vec n a) := by
    funext j
    simp only [Spec.vec, Spec.pulled]
    rw [h3 j j.2, replicate_getD, zero_add, hm.size, Finset.sum_range (n := n)]
    push_cast
    apply Finset.sum_congr rfl
    intro i _
    rw [Nat.zero_add, factor_eq]
  obtain ⟨g, hg, hgr, hp⟩ := makePrimitive_spec r
  refine ⟨makePrimitive r, by rw [applyMap, h1]; rfl, by simp [h2], ⟨g, hg, ?_⟩, ?_⟩
  · rw [← hr]
    conv_lhs => rw [hgr]
    exact toV_map_mul n _ g
  · intro hne
    refine (hp ?_).1
    by_contra hcon
    push Not at hcon
    exact hne (hr ▸ (toV_eq_zero_iff n r h2).mpr hcon)

/-- applying a map to a vertex or ray -/
theorem applyMap_vertex {n : Nat} {m : SymMap} (hm : Spec.IsMap n m) {a : Row} (ha : a.length = n) :
    ∃ b, applyMap m a .vertex = .ok b ∧ b.length = n ∧
      (∃ g : Int, 0 < g ∧ Spec.pushed n m (Spec.vec n a) = (g : ℚ) • Spec.vec n b) ∧
      (Spec.pushed n m (Spec.vec n a) ≠ 0 → Primitive b) := by
  obtain ⟨r, h1, h2, h3⟩ := applyLoop_vertex ha m 0 (List.replicate a.length 0) (by simp [ha]) (by simp [hm.size]) hm.range
  have hr : Spec.vec n r = Spec.pushed n m (Spec.vec n a) := by
    funext j
    simp only [Spec.vec, Spec.pushed]
    rw [h3 j j.2, replicate_getD, zero_add, if_pos (Nat.zero_le _), Finset.sum_range (n := n)]
    push_cast
    apply Finset.sum_congr rfl
    intro i _
    rw [Nat.sub_zero, factor_eq]
  obtain ⟨g, hg, hgr, hp⟩ := makePrimitive_spec r
  refine ⟨makePrimitive r, by rw [applyMap, h1]; rfl, by simp [h2], ⟨g, hg, ?_⟩, ?_⟩
  · rw [← hr]
    conv_lhs => rw [hgr]
    exact toV_map_mul n _ g
  · intro hne
    refine (hp ?_).1
    by_contra hcon
    push Not at hcon
    exact hne (hr ▸ (toV_eq_zero_iff n r h2).mpr hcon)

/-- pulling back and pushing forward are dual -/
theorem pulled_dual (n : Nat) (m : SymMap) (a x : Fin n → ℚ) :
    ∑ j, Spec.pulled n m a j * x j = ∑ i, a i * Spec.pushed n m x i := by
  simp only [Spec.pulled, Spec.pushed, Finset.sum_mul, Finset.mul_sum]
  rw [Finset.sum_comm]
  apply Finset.sum_congr rfl; intro i _
  apply Finset.sum_congr rfl; intro j _
  ring

/-- `pushed` as a linear map -/
def pushedL (n : Nat) (m : SymMap) : (Fin n → ℚ) →ₗ[ℚ] (Fin n → ℚ) where
  toFun := Spec.pushed n m
  map_add' x y := by
    funext i; simp only [Spec.pushed, Pi.add_apply, mul_add]; rw [Finset.sum_add_distrib]
  map_smul' c x := by
    funext i
    simp only [Spec.pushed, Pi.smul_apply, smul_eq_mul, RingHom.id_apply, Finset.mul_sum]
    apply Finset.sum_congr rfl; intro j _; ring

/-- `pulled` as a linear map -/
def pulledL (n : Nat) (m : SymMap) : (Fin n → ℚ) →ₗ[ℚ] (Fin n → ℚ) where
  toFun := Spec.pulled n m
  map_add' x y := by
    funext i; simp only [Spec.pulled, Pi.add_apply, mul_add]; rw [Finset.sum_add_distrib]
  map_smul' c x := by
    funext i
    simp only [Spec.pulled, Pi.smul_apply, smul_eq_mul, RingHom.id_apply, Finset.mul_sum]
    apply Finset.sum_congr rfl; intro j _; ring

theorem ip_eq_sum {n : Nat} {a : Row} (ha : a.length = n) (v : Row) :
    (Spec.ip a v : ℚ) = ∑ j, Spec.vec n a j * Spec.vec n v j := by
  rw [ip_eq_dot, dot_eq_sum n a v ha.le]; rfl

/-- a rational row `b` with `g b = pulled m a` (`g > 0`): value on `v` -/
theorem pulled_value {n : Nat} {m : SymMap} {a b : Row} (ha : a.length = n) (hb : b.length = n) {g : ℚ}
    (hg : Spec.pulled n m (Spec.vec n a) = g • Spec.vec n b) {v w : Row} {s : ℚ}
    (hw : Spec.pushed n m (Spec.vec n v) = s • Spec.vec n w) :
    g * (Spec.ip b v : ℚ) = s * (Spec.ip a w : ℚ) := by
  have := pulled_dual n m (Spec.vec n a) (Spec.vec n v)
  rw [hg, hw] at this
  simp only [Pi.smul_apply, smul_eq_mul] at this
  rw [ip_eq_sum hb, ip_eq_sum ha, Finset.mul_sum, Finset.mul_sum]
  convert this using 1
  · apply Finset.sum_congr rfl; intro i _; ring
  · apply Finset.sum_congr rfl; intro i _; ring

end Panda
