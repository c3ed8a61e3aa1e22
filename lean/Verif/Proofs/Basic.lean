import Verif.Model.Basic
import Mathlib.Data.Int.GCD
import Mathlib.Data.Rat.Cast.Order
import Mathlib.Algebra.BigOperators.Fin
import Mathlib.Algebra.Order.Ring.Rat
import Mathlib.Tactic.Ring
import Mathlib.Tactic.Linarith
import Mathlib.LinearAlgebra.Dual.Lemmas

/-! # Integers and rows: basic facts -/

namespace Panda

/-! ## gcd, lcm -/

theorem gcdLoop_eq : ∀ (fuel a b : Nat), a + b ≤ fuel → gcdLoop fuel a b = Nat.gcd a b := by
  intro fuel
  induction fuel with
  | zero =>
    intro a b h
    have ha : a = 0 := by omega
    have hb : b = 0 := by omega
    subst ha; subst hb; rfl
  | succ fuel ih =>
    intro a b h
    unfold gcdLoop
    by_cases ha : a = 0
    · subst ha; simp
    by_cases hb : b = 0
    · subst hb; simp [ha]
    rw [if_pos ⟨ha, hb⟩]
    split
    · next hab =>
      have := Nat.mod_lt a (Nat.pos_of_ne_zero hb)
      rw [ih _ _ (by omega), ← Nat.gcd_rec, Nat.gcd_comm]
    · next hab =>
      have := Nat.mod_lt b (Nat.pos_of_ne_zero ha)
      rw [ih _ _ (by omega), Nat.gcd_comm, ← Nat.gcd_rec]

theorem gcd_eq (a b : Int) : gcd a b = (Int.gcd a b : Int) := by
  unfold gcd unsignedGcd
  rw [gcdLoop_eq _ _ _ le_rfl]; rfl

theorem lcm_eq (a b : Int) (h : a ≠ 0 ∨ b ≠ 0) : lcm a b = .ok (Int.lcm a b : Int) := by
  unfold lcm
  simp only [gcd_eq]
  have hg : (Int.gcd a b : Int) ≠ 0 := by
    have : Int.gcd a b ≠ 0 := by
      rw [Ne, Int.gcd_eq_zero_iff]; tauto
    exact_mod_cast this
  rw [if_neg hg]
  congr 1
  rw [Int.lcm, Nat.lcm]
  have hd : Int.gcd a b ∣ b.natAbs := Nat.gcd_dvd_right _ _
  rw [Nat.mul_div_assoc _ (show a.natAbs.gcd b.natAbs ∣ b.natAbs from hd)]
  push_cast
  rw [Int.tdiv_eq_ediv_of_nonneg (by positivity)]
  rfl

theorem lcm_zero_zero : lcm 0 0 = .ub := by decide

/-! ## Row gcd -/

/-- gcd of all entries (specification) -/
def listGcd : Row → Nat
  | [] => 0
  | x :: xs => Nat.gcd x.natAbs (listGcd xs)

theorem listGcd_dvd {r : Row} {x : Int} (h : x ∈ r) : (listGcd r : Int) ∣ x := by
  induction r with
  | nil => simp at h
  | cons y ys ih =>
    simp only [List.mem_cons] at h
    rcases h with rfl | h
    · exact Int.natCast_dvd.mpr (Nat.gcd_dvd_left _ _)
    · have h1 : (listGcd (y :: ys) : Int) ∣ (listGcd ys : Int) := by
        exact_mod_cast Nat.gcd_dvd_right _ _
      exact h1.trans (ih h)

theorem dvd_listGcd {r : Row} {d : Nat} (h : ∀ x ∈ r, (d : Int) ∣ x) : d ∣ listGcd r := by
  induction r with
  | nil => simp [listGcd]
  | cons y ys ih =>
    apply Nat.dvd_gcd
    · exact Int.natCast_dvd.mp (h y (by simp))
    · exact ih fun x hx => h x (by simp [hx])

theorem rowGcdLoop_eq : ∀ (r : Row) (v : Nat), 0 < v → rowGcdLoop v r = (Nat.gcd v (listGcd r) : Nat) := by
  intro r
  induction r with
  | nil => intro v _; simp [rowGcdLoop, listGcd]
  | cons x xs ih =>
    intro v hv
    unfold rowGcdLoop
    by_cases h1 : (v : Int) > 1
    · rw [if_pos h1, gcd_eq]
      have hpos : 0 < Int.gcd x v := by
        apply Nat.pos_of_ne_zero; rw [Ne, Int.gcd_eq_zero_iff]; omega
      rw [ih _ hpos]
      congr 1
      show _ = v.gcd (Nat.gcd x.natAbs (listGcd xs))
      rw [← Nat.gcd_assoc, Int.gcd, Nat.gcd_comm x.natAbs]; rfl
    · rw [if_neg h1]
      have : v = 1 := by omega
      subst this; simp

theorem rowGcd_eq (r : Row) : rowGcd r = (listGcd r : Int) := by
  induction r with
  | nil => rfl
  | cons x xs ih =>
    unfold rowGcd
    split
    · next h => subst h; rw [ih]; simp [listGcd]
    · next h => rw [rowGcdLoop_eq _ _ (by omega)]; rfl

theorem listGcd_eq_zero {r : Row} : listGcd r = 0 ↔ ∀ x ∈ r, x = 0 := by
  induction r with
  | nil => simp [listGcd]
  | cons x xs ih => simp [listGcd, Nat.gcd_eq_zero_iff, ih]

/-- a row with gcd 1 -/
def Primitive (r : Row) : Prop := listGcd r = 1

theorem listGcd_map_mul (r : Row) (g : Int) : listGcd (r.map (· * g)) = listGcd r * g.natAbs := by
  induction r with
  | nil => simp [listGcd]
  | cons x xs ih => simp [listGcd, ih, Int.natAbs_mul, Nat.gcd_mul_right]

theorem map_mul_tdiv {r : Row} {g : Int} (h : ∀ x ∈ r, g ∣ x) :
    (r.map (fun x => x.tdiv g)).map (· * g) = r := by
  rw [List.map_map]
  conv_rhs => rw [← List.map_id r]
  apply List.map_congr_left
  intro x hx
  simp only [Function.comp, id]
  exact Int.tdiv_mul_cancel (h x hx)

theorem rowScale_eq (r : Row) (f : Int) : rowScale r f = r.map (· * f) := by
  unfold rowScale; split
  · rfl
  · next h => simp at h; subst h; simp

theorem rowQuot_eq (r : Row) (d : Int) : rowQuot r d = r.map (fun x => x.tdiv d) := by
  unfold rowQuot; split
  · rfl
  · next h => simp at h; subst h; simp

/-- dividing by the gcd is exact: the row is a positive multiple of its primitive version -/
theorem makePrimitive_spec (r : Row) :
    ∃ g : Int, 0 < g ∧ r = (makePrimitive r).map (· * g) ∧
      ((∃ x ∈ r, x ≠ 0) → Primitive (makePrimitive r) ∧ g = listGcd r) := by
  unfold makePrimitive
  simp only [rowGcd_eq]
  split
  · next h =>
    refine ⟨listGcd r, by omega, ?_, ?_⟩
    · rw [rowQuot_eq, map_mul_tdiv (fun x hx => listGcd_dvd hx)]
    · intro _
      refine ⟨?_, rfl⟩
      have h1 : ((rowQuot r (listGcd r)).map (· * (listGcd r : Int))) = r := by
        rw [rowQuot_eq, map_mul_tdiv (fun x hx => listGcd_dvd hx)]
      have h2 := listGcd_map_mul (rowQuot r (listGcd r)) (listGcd r)
      rw [h1] at h2
      simp only [Int.natAbs_natCast] at h2
      have h3 : 0 < listGcd r := by omega
      unfold Primitive
      nlinarith [Nat.eq_of_mul_eq_mul_right h3 (by rw [one_mul]; exact h2.symm : listGcd (rowQuot r (listGcd r)) * listGcd r = 1 * listGcd r)]
  · next h =>
    refine ⟨1, one_pos, by simp, ?_⟩
    rintro ⟨x, hx, hx0⟩
    have : listGcd r ≠ 0 := fun h0 => hx0 (listGcd_eq_zero.mp h0 x hx)
    have h1 : listGcd r = 1 := by omega
    exact ⟨h1, by rw [h1]; rfl⟩

@[simp] theorem makePrimitive_length (r : Row) : (makePrimitive r).length = r.length := by
  unfold makePrimitive rowQuot; simp only; split <;> [split <;> simp; rfl]

@[simp] theorem rowAdd_length (a b : Row) : (rowAdd a b).length = min a.length b.length := by
  simp [rowAdd]
@[simp] theorem rowSub_length (a b : Row) : (rowSub a b).length = min a.length b.length := by
  simp [rowSub]
@[simp] theorem rowScale_length (a : Row) (f : Int) : (rowScale a f).length = a.length := by
  simp [rowScale_eq]

/-! ## Dot product -/

theorem foldl_add_eq_sum (l : List Int) (s : Int) : l.foldl (· + ·) s = s + l.sum := by
  induction l generalizing s with
  | nil => simp
  | cons x xs ih => simp [ih]; ring

theorem dot_eq (a b : Row) : dot a b = (List.zipWith (· * ·) a b).sum := by
  unfold dot; rw [foldl_add_eq_sum]; simp

@[simp] theorem dot_nil_left (b : Row) : dot [] b = 0 := by simp [dot_eq]
@[simp] theorem dot_nil_right (a : Row) : dot a [] = 0 := by cases a <;> simp [dot_eq]
@[simp] theorem dot_cons (x y : Int) (a b : Row) : dot (x :: a) (y :: b) = x * y + dot a b := by
  simp [dot_eq]

theorem dot_comm (a b : Row) : dot a b = dot b a := by
  induction a generalizing b with
  | nil => simp
  | cons x xs ih => cases b with
    | nil => simp
    | cons y ys => simp [ih ys]; ring

theorem dot_scale (a b : Row) (f : Int) : dot (a.map (· * f)) b = dot a b * f := by
  induction a generalizing b with
  | nil => simp
  | cons x xs ih => cases b with
    | nil => simp
    | cons y ys => simp [ih ys]; ring

theorem dot_rowAdd (a b v : Row) (h : a.length = b.length) :
    dot (rowAdd a b) v = dot a v + dot b v := by
  induction a generalizing b v with
  | nil => cases b <;> simp_all [rowAdd]
  | cons x xs ih => cases b with
    | nil => simp at h
    | cons y ys => cases v with
      | nil => simp
      | cons z zs =>
        have := ih ys zs (by simpa using h)
        simp only [rowAdd, List.zipWith_cons_cons, dot_cons] at this ⊢
        rw [this]; ring

theorem dot_rowSub (a b v : Row) (h : a.length = b.length) :
    dot (rowSub a b) v = dot a v - dot b v := by
  induction a generalizing b v with
  | nil => cases b <;> simp_all [rowSub]
  | cons x xs ih => cases b with
    | nil => simp at h
    | cons y ys => cases v with
      | nil => simp
      | cons z zs =>
        have := ih ys zs (by simpa using h)
        simp only [rowSub, List.zipWith_cons_cons, dot_cons] at this ⊢
        rw [this]; ring

/-! ## Rational vectors -/

/-- the rational vector of the first `n` entries -/
def toV (n : Nat) (r : Row) : Fin n → ℚ := fun i => (r.getD i 0 : ℚ)

theorem dot_eq_sum (n : Nat) (a b : Row) (ha : a.length ≤ n) :
    (dot a b : ℚ) = ∑ i : Fin n, toV n a i * toV n b i := by
  induction n generalizing a b with
  | zero =>
    have : a = [] := by simpa using ha
    subst this; simp
  | succ n ih =>
    rw [Fin.sum_univ_succ]
    cases a with
    | nil => simp [toV]
    | cons x xs => cases b with
      | nil => simp [toV]
      | cons y ys =>
        have := ih xs ys (by simpa using ha)
        rw [dot_cons]; push_cast; rw [this]
        simp [toV]

/-- evaluation at a row, as a functional on coefficient vectors -/
def ev (n : Nat) (v : Row) : Module.Dual ℚ (Fin n → ℚ) where
  toFun a := ∑ i, a i * toV n v i
  map_add' a b := by simp [add_mul, Finset.sum_add_distrib]
  map_smul' t a := by simp [Finset.mul_sum, mul_assoc]

theorem ev_apply (n : Nat) (v : Row) (a : Fin n → ℚ) : ev n v a = ∑ i, a i * toV n v i := rfl

theorem ev_toV (n : Nat) (a v : Row) (ha : a.length ≤ n) : ev n v (toV n a) = (dot a v : ℚ) := by
  rw [ev_apply, dot_eq_sum n a v ha]

theorem toV_map_mul (n : Nat) (r : Row) (f : Int) : toV n (r.map (· * f)) = (f : ℚ) • toV n r := by
  funext i
  simp only [toV, Pi.smul_apply, smul_eq_mul, List.getD_eq_getElem?_getD, List.getElem?_map]
  cases r[(i : Nat)]? <;> simp [mul_comm]

theorem toV_rowScale (n : Nat) (r : Row) (f : Int) : toV n (rowScale r f) = (f : ℚ) • toV n r := by
  rw [rowScale_eq, toV_map_mul]

theorem getD_zipWith_of_lt {f : Int → Int → Int} {a b : Row} {i : Nat} (ha : i < a.length)
    (hb : i < b.length) : (List.zipWith f a b).getD i 0 = f (a.getD i 0) (b.getD i 0) := by
  simp [List.getD_eq_getElem?_getD, ha, hb]

theorem toV_rowAdd (n : Nat) (a b : Row) (ha : a.length = n) (hb : b.length = n) :
    toV n (rowAdd a b) = toV n a + toV n b := by
  funext i
  have := i.2
  simp only [toV, rowAdd, Pi.add_apply]
  rw [getD_zipWith_of_lt (by omega) (by omega)]; push_cast; rfl

theorem toV_rowSub (n : Nat) (a b : Row) (ha : a.length = n) (hb : b.length = n) :
    toV n (rowSub a b) = toV n a - toV n b := by
  funext i
  have := i.2
  simp only [toV, rowSub, Pi.sub_apply]
  rw [getD_zipWith_of_lt (by omega) (by omega)]; push_cast; rfl

theorem toV_makePrimitive (n : Nat) (r : Row) :
    ∃ g : ℚ, 0 < g ∧ toV n (makePrimitive r) = g • toV n r := by
  obtain ⟨g, hg, heq, _⟩ := makePrimitive_spec r
  have hg' : (0 : ℚ) < (g : ℚ) := by exact_mod_cast hg
  refine ⟨(g : ℚ)⁻¹, inv_pos.mpr hg', ?_⟩
  conv_rhs => rw [heq, toV_map_mul]
  rw [smul_smul, inv_mul_cancel₀ hg'.ne', one_smul]

theorem toV_injective (n : Nat) (a b : Row) (ha : a.length = n) (hb : b.length = n)
    (h : toV n a = toV n b) : a = b := by
  apply List.ext_getElem (by omega)
  intro i h1 h2
  have := congrFun h ⟨i, by omega⟩
  simp only [toV, List.getD_eq_getElem?_getD, List.getElem?_eq_getElem h1,
    List.getElem?_eq_getElem h2, Option.getD_some] at this
  exact_mod_cast this

theorem toV_eq_zero_iff (n : Nat) (a : Row) (ha : a.length = n) :
    toV n a = 0 ↔ ∀ x ∈ a, x = 0 := by
  constructor
  · intro h x hx
    obtain ⟨i, hi, rfl⟩ := List.getElem_of_mem hx
    have := congrFun h ⟨i, by omega⟩
    simp only [toV, List.getD_eq_getElem?_getD, List.getElem?_eq_getElem hi, Option.getD_some,
      Pi.zero_apply] at this
    exact_mod_cast this
  · intro h
    funext i
    have hi : (i : Nat) < a.length := by have := i.2; omega
    simp only [toV, List.getD_eq_getElem?_getD, List.getElem?_eq_getElem hi, Option.getD_some,
      Pi.zero_apply]
    exact_mod_cast h _ (List.getElem_mem hi)

end Panda
