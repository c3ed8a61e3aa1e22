import Verif.Spec.ReducedFile
import Mathlib.Tactic.LinearCombination
import Mathlib.Tactic.Positivity

/-! # Invertible maps of finite sets -/

namespace Panda

theorem imageValue_linear (names : List (List Char)) {d : Nat} (l : List (Option (List Char) × Int)) (s : ℚ) (p q : Fin d → ℚ) :
    Spec.imageValue l (Spec.valuation names (s • p + q)) - Spec.imageValue l (Spec.valuation names (0 : Fin d → ℚ)) =
      s * (Spec.imageValue l (Spec.valuation names p) - Spec.imageValue l (Spec.valuation names (0 : Fin d → ℚ))) +
        (Spec.imageValue l (Spec.valuation names q) - Spec.imageValue l (Spec.valuation names (0 : Fin d → ℚ))) := by
  have hv : ∀ x, Spec.valuation names (s • p + q) x = s * Spec.valuation names p x + Spec.valuation names q x ∧
      Spec.valuation names (0 : Fin d → ℚ) x = 0 := by
    intro x
    unfold Spec.valuation
    split <;> simp
  induction l with
  | nil => simp [Spec.imageValue]
  | cons a l ih =>
    obtain ⟨o, k⟩ := a
    cases o with
    | none =>
      simp only [Spec.imageValue, List.map_cons, List.sum_cons, Option.elim] at ih ⊢
      linear_combination ih
    | some x =>
      simp only [Spec.imageValue, List.map_cons, List.sum_cons, Option.elim] at ih ⊢
      rw [(hv x).1, (hv x).2]
      linear_combination ih

theorem mapDirection_linear (names : List (List Char)) {d : Nat} (m : List (List (Option (List Char) × Int))) (s : ℚ) (p q : Fin d → ℚ) :
    Spec.mapDirection names m (s • p + q) = s • Spec.mapDirection names m p + Spec.mapDirection names m q := by
  funext i
  exact imageValue_linear names (m.getD i []) s p q

/-- a direction as a linear map -/
def directionMap (names : List (List Char)) (d : Nat) (m : List (List (Option (List Char) × Int))) : (Fin d → ℚ) →ₗ[ℚ] (Fin d → ℚ) where
  toFun := Spec.mapDirection names m
  map_add' p q := by have := mapDirection_linear names m 1 p q; simpa using this
  map_smul' s p := by
    have h0 : Spec.mapDirection names m (0 : Fin d → ℚ) = 0 := sub_self _
    have := mapDirection_linear names m s p 0
    simpa [h0] using this

theorem mapPoint_comb (names : List (List Char)) {d : Nat} (m : List (List (Option (List Char) × Int))) {k l : Nat} (a : Fin k → ℚ) (x : Fin k → Fin d → ℚ)
    (b : Fin l → ℚ) (y : Fin l → Fin d → ℚ) (h : ∑ i, a i = 1) :
    Spec.mapPoint names m (∑ i, a i • x i + ∑ j, b j • y j) = ∑ i, a i • Spec.mapPoint names m (x i) + ∑ j, b j • Spec.mapDirection names m (y j) := by
  have e : ∀ p : Fin d → ℚ, Spec.mapPoint names m p = directionMap names d m p + Spec.mapPoint names m 0 := fun p => by
    show _ = Spec.mapPoint names m p - Spec.mapPoint names m 0 + _
    abel
  have e2 : ∀ p : Fin d → ℚ, Spec.mapDirection names m p = directionMap names d m p := fun _ => rfl
  simp only [e2]
  rw [e, map_add, map_sum, map_sum]
  simp only [map_smul]
  have : ∑ i, a i • Spec.mapPoint names m (x i) = ∑ i, a i • directionMap names d m (x i) + Spec.mapPoint names m 0 := by
    calc ∑ i, a i • Spec.mapPoint names m (x i) = ∑ i, (a i • directionMap names d m (x i) + a i • Spec.mapPoint names m 0) :=
          Finset.sum_congr rfl fun i _ => by rw [e (x i), smul_add]
      _ = _ := by rw [Finset.sum_add_distrib, ← Finset.sum_smul, h, one_smul]
  rw [this]
  abel

/-- in a finite set closed under an injective map, every element is an image -/
theorem closed_onto {α : Type} {P : α → Prop} {φ : α → α} (hφ : Function.Injective φ) (hP : ∀ x, P x → P (φ x)) {L : List α}
    (hL : ∀ x, P x → x ∈ L) {x : α} (hx : P x) : ∃ y, P y ∧ φ y = x := by
  classical
  have hit : ∀ k, P (φ^[k] x) := fun k => by
    induction k with
    | zero => exact hx
    | succ k ih => rw [Function.iterate_succ_apply']; exact hP _ ih
  obtain ⟨j, k, hjk, e⟩ := Finite.exists_ne_map_eq_of_infinite (fun k : Nat => (⟨φ^[k] x, hL _ (hit k)⟩ : {y // y ∈ L}))
  have e : φ^[j] x = φ^[k] x := congrArg Subtype.val e
  have key : ∀ j k : Nat, j < k → φ^[j] x = φ^[k] x → ∃ y, P y ∧ φ y = x := by
    intro j k h e
    obtain ⟨t, rfl⟩ : ∃ t, k = j + (t + 1) := ⟨k - j - 1, by omega⟩
    rw [Function.iterate_add_apply] at e
    refine ⟨φ^[t] x, hit t, ?_⟩
    rw [← Function.iterate_succ_apply' (f := φ)]
    exact (hφ.iterate j e).symm
  rcases lt_or_gt_of_ne hjk with h | h
  · exact key j k h e
  · exact key k j h e.symm

/-- the same for an injective linear map and a set which is finite up to positive factors -/
theorem closed_onto_dir {d : Nat} {P : (Fin d → ℚ) → Prop} {A : (Fin d → ℚ) →ₗ[ℚ] (Fin d → ℚ)} (hA : Function.Injective A)
    (hP : ∀ x, P x → ∃ s : ℚ, 0 < s ∧ P (s • A x)) {L : List (Fin d → ℚ)} (hL : ∀ x, P x → ∃ y ∈ L, ∃ s : ℚ, 0 < s ∧ x = s • y)
    {x : Fin d → ℚ} (hx : P x) : ∃ y, P y ∧ ∃ s : ℚ, 0 < s ∧ x = s • A y := by
  have hit : ∀ k, ∃ s : ℚ, 0 < s ∧ P (s • A^[k] x) := fun k => by
    induction k with
    | zero => exact ⟨1, one_pos, by simpa using hx⟩
    | succ k ih =>
      obtain ⟨s, hs, h⟩ := ih
      obtain ⟨t, ht, h⟩ := hP _ h
      refine ⟨t * s, mul_pos ht hs, ?_⟩
      rw [Function.iterate_succ_apply', mul_smul]
      rwa [map_smul] at h
  have hrow : ∀ k, ∃ y ∈ L, ∃ s : ℚ, 0 < s ∧ A^[k] x = s • y := fun k => by
    obtain ⟨s, hs, h⟩ := hit k
    obtain ⟨y, hy, t, ht, e⟩ := hL _ h
    refine ⟨y, hy, s⁻¹ * t, by positivity, ?_⟩
    rw [mul_smul, ← e, smul_smul, inv_mul_cancel₀ hs.ne', one_smul]
  choose y hy s hs e using hrow
  obtain ⟨j, k, hjk, he⟩ := Finite.exists_ne_map_eq_of_infinite (fun k : Nat => (⟨y k, hy k⟩ : {y // y ∈ L}))
  have he : y j = y k := congrArg Subtype.val he
  have hsm : ∀ (k : Nat) (c : ℚ) (p : Fin d → ℚ), A^[k] (c • p) = c • A^[k] p := fun k => by
    induction k with
    | zero => intro c p; rfl
    | succ k ih => intro c p; rw [Function.iterate_succ_apply', ih, map_smul, Function.iterate_succ_apply']
  have key : ∀ j k : Nat, j < k → y j = y k → ∃ y, P y ∧ ∃ s : ℚ, 0 < s ∧ x = s • A y := by
    intro j k h e2
    obtain ⟨t, rfl⟩ : ∃ t, k = j + (t + 1) := ⟨k - j - 1, by omega⟩
    have e3 : A^[j] x = A^[j] ((s j * (s (j + (t + 1)))⁻¹) • A^[t + 1] x) := by
      rw [hsm, ← Function.iterate_add_apply, e, e, ← e2, smul_smul, mul_assoc, inv_mul_cancel₀ (hs _).ne', mul_one]
    have e4 := hA.iterate j e3
    obtain ⟨r, hr, h⟩ := hit t
    refine ⟨_, h, s j * (s (j + (t + 1)))⁻¹ * r⁻¹, by have := hs j; have := hs (j + (t + 1)); positivity, ?_⟩
    rw [map_smul, smul_smul, mul_assoc, inv_mul_cancel₀ hr.ne', mul_one, ← Function.iterate_succ_apply' (f := A)]
    exact e4
  rcases lt_or_gt_of_ne hjk with h | h
  · exact key j k h he
  · exact key k j h he.symm

theorem directionMap_injective {names : List (List Char)} {d : Nat} {m : List (List (Option (List Char) × Int))}
    (h : Function.Injective (Spec.mapPoint names m : (Fin d → ℚ) → Fin d → ℚ)) : Function.Injective (directionMap names d m) := by
  intro p q e
  have e : Spec.mapPoint names m p - Spec.mapPoint names m 0 = Spec.mapPoint names m q - Spec.mapPoint names m 0 := e
  exact h (sub_left_injective e)

/-- an invertible map which maps points to points and rays to rays maps the hull onto itself, if there are finitely many -/
theorem mapsOnto_of_closed {d : Nat} {c : Spec.HullContent d} {m : List (List (Option (List Char) × Int))} {X D : List (Fin d → ℚ)}
    (hX : ∀ x, c.points x → x ∈ X) (hD : ∀ x, c.rays x → ∃ y ∈ D, ∃ s : ℚ, 0 < s ∧ x = s • y)
    (hinj : Function.Injective (Spec.mapPoint c.names m : (Fin d → ℚ) → Fin d → ℚ)) (hcl : c.ClosedUnder m) :
    Spec.MapsOnto c.names m (Spec.HullOf c.points c.rays) := by
  constructor
  · rintro p ⟨k, l, a, x, b, y, h1, h2, h3, rfl⟩
    rw [mapPoint_comb _ _ _ _ _ _ h3]
    have : ∀ j, ∃ s : ℚ, 0 < s ∧ c.rays (s • Spec.mapDirection c.names m (y j)) := fun j => hcl.2 _ (h2 j).2
    choose s hs hr using this
    refine ⟨k, l, a, fun i => Spec.mapPoint c.names m (x i), fun j => b j * (s j)⁻¹, fun j => s j • Spec.mapDirection c.names m (y j),
      fun i => ⟨(h1 i).1, hcl.1 _ (h1 i).2⟩, fun j => ⟨mul_nonneg (h2 j).1 (inv_pos.2 (hs j)).le, hr j⟩, h3, ?_⟩
    congr 1
    refine Finset.sum_congr rfl fun j _ => ?_
    rw [smul_smul, mul_assoc, inv_mul_cancel₀ (hs j).ne', mul_one]
  · rintro p ⟨k, l, a, x, b, y, h1, h2, h3, rfl⟩
    have q1 : ∀ i, ∃ x', c.points x' ∧ Spec.mapPoint c.names m x' = x i := fun i => closed_onto hinj hcl.1 hX (h1 i).2
    have q2 : ∀ j, ∃ y', c.rays y' ∧ ∃ s : ℚ, 0 < s ∧ y j = s • Spec.mapDirection c.names m y' := fun j =>
      closed_onto_dir (directionMap_injective hinj) hcl.2 hD (h2 j).2
    choose x' hx ex using q1
    choose y' hy s hs ey using q2
    refine ⟨_, ⟨k, l, a, x', fun j => b j * s j, y', fun i => ⟨(h1 i).1, hx i⟩, fun j => ⟨mul_nonneg (h2 j).1 (hs j).le, hy j⟩, h3, rfl⟩, ?_⟩
    rw [mapPoint_comb _ _ _ _ _ _ h3]
    congr 1
    · exact Finset.sum_congr rfl fun i _ => by rw [ex]
    · exact Finset.sum_congr rfl fun j _ => by rw [ey, smul_smul]

end Panda
