import Verif.Model.Print
import Verif.Proofs.InputVertex

/-! # Printed numbers are numerals -/

namespace Panda

theorem decimal_concat (ds : List Char) (c : Char) : Spec.decimal (ds ++ [c]) = 10 * Spec.decimal ds + (c.toNat - 48) := by
  induction ds with
  | nil => simp [Spec.decimal]
  | cons d ds ih =>
    rw [List.cons_append, Spec.decimal, ih, Spec.decimal, List.length_append, List.length_singleton, pow_succ]
    ring

theorem digitChar_digit (n : Nat) : Spec.Digit (digitChar n) ∧ (digitChar n).toNat - 48 = n % 10 := by
  have h : ∀ k, k < 10 → Spec.Digit (digitChar k) ∧ (digitChar k).toNat - 48 = k := by
    unfold Spec.Digit; decide
  have := h (n % 10) (Nat.mod_lt _ (by decide))
  unfold digitChar at *
  rwa [Nat.mod_mod] at this

theorem natDigits_spec : ∀ fuel n, n < fuel → natDigits fuel n ≠ [] ∧ (∀ c ∈ natDigits fuel n, Spec.Digit c) ∧
    Spec.decimal (natDigits fuel n) = n := by
  intro fuel
  induction fuel with
  | zero => intro n h; omega
  | succ fuel ih =>
    intro n h
    rw [natDigits]
    split
    · next hn =>
      refine ⟨by simp, by simpa using (digitChar_digit n).1, ?_⟩
      have := (digitChar_digit n).2
      simp only [Spec.decimal, List.length_nil, pow_zero, mul_one, Nat.add_zero, show '0'.toNat = 48 from rfl]
      rw [this]; omega
    · next hn =>
      obtain ⟨h1, h2, h3⟩ := ih (n / 10) (by omega)
      refine ⟨by simp, ?_, ?_⟩
      · intro c hc
        rcases List.mem_append.mp hc with hc | hc
        · exact h2 c hc
        · rw [List.mem_singleton.mp hc]; exact (digitChar_digit n).1
      · rw [decimal_concat, h3, (digitChar_digit n).2]; omega

/-- a printed integer is a numeral of that value -/
theorem printInt_numeral (z : Int) : Spec.Numeral (printInt z) z := by
  obtain ⟨h1, h2, h3⟩ := natDigits_spec (z.natAbs + 1) z.natAbs (by omega)
  unfold printInt
  split
  · next h =>
    have := Spec.Numeral.minus _ h1 h2
    rw [h3] at this
    rwa [show -((z.natAbs : Nat) : Int) = z by omega] at this
  · next h =>
    have := Spec.Numeral.plain _ h1 h2
    rw [h3] at this
    rwa [show ((z.natAbs : Nat) : Int) = z by omega] at this

end Panda
