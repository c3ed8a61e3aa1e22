import Verif.Proofs.TypedMaps
import Verif.Props.SafeInteger
import Verif.Spec.Polyhedron

/-! # Computations with the integer type selected by the option `-i`

C31: what the program prints with the checked type is the exact result.  C60: the other types. -/

namespace Panda

/-! ## the operations are exact or fail -/

instance (z : Int) : Decidable (Spec.IsInt z) := inferInstanceAs (Decidable (_ ∧ _))

theorem sim_of_exactOrThrow {e : Int} {o : Outcome Int} {u : Prop} (h : ExactOrThrow e o) : Sim True u InInt64 o (.ok e) := by
  unfold ExactOrThrow at h
  by_cases he : InInt64 e
  · rw [h, if_pos he]; exact Sim.ok he
  · rw [h, if_neg he]; exact Or.inr (Or.inl ⟨trivial, rfl⟩)

theorem inInt64_of_isInt {a : Int} (h : Spec.IsInt a) : InInt64 a := by
  unfold InInt64; unfold Spec.IsInt at h; omega

theorem safe_law (u : Prop) : Law safeArith InInt64 True u where
  zero := by decide
  one := by decide
  negOne := by decide
  add _ _ ha hb := sim_of_exactOrThrow (C30_add ha hb)
  sub _ _ ha hb := sim_of_exactOrThrow (C30_sub ha hb)
  mul _ _ ha hb := sim_of_exactOrThrow (C30_mul ha hb)
  div _ _ ha _ h0 := sim_of_exactOrThrow (C30_div ha h0)
  mod a b ha hb h1 h2 := by
    have : safeArith.mod a b = .ok (a % b) := by
      show Safe.mod a b = _
      rw [C30_mod ha hb, if_pos h2]
    rw [this]
    refine Sim.ok ?_
    have := Int.emod_nonneg a (b := b) (by omega)
    have := Int.emod_lt_of_pos a h2
    unfold InInt64 at *
    omega
  neg _ ha := sim_of_exactOrThrow (C30_neg ha)
  abs a ha := by
    rw [← Int.abs_eq_natAbs]
    exact sim_of_exactOrThrow (C30_abs ha)

theorem safe_ofInt {u : Prop} (a : Int) (h : Spec.IsInt a) : Sim True u InInt64 (safeArith.ofInt a) (.ok a) := by
  have : safeArith.ofInt a = .ok a := C30_construct_signed (inInt64_of_isInt h)
  rw [this]; exact Sim.ok (inInt64_of_isInt h)

theorem safe_toInt {u : Prop} (a : Int) : Sim True u Spec.IsInt (safeArith.toInt a) (.ok a) := by
  show Sim True u Spec.IsInt (Safe.toInt a) (.ok a)
  rw [C30_to_int]
  split
  · exact Sim.ok (by assumption)
  · exact Or.inr (Or.inl ⟨trivial, rfl⟩)

theorem machineInt32 (x : Int) : machineInt 32 x = if Spec.IsInt x then .ok x else .ub := by
  unfold machineInt
  by_cases h : Spec.IsInt x
  · rw [if_pos h, if_pos (by unfold Spec.IsInt at h; norm_num; omega)]
  · rw [if_neg h, if_neg (by unfold Spec.IsInt at h; norm_num; omega)]

theorem machineInt64 (x : Int) : machineInt 64 x = if InInt64 x then .ok x else .ub := by
  unfold machineInt InInt64; norm_num

theorem sim_int32 {t : Prop} (x : Int) : Sim t True Spec.IsInt (machineInt 32 x) (.ok x) := by
  rw [machineInt32]
  split
  · exact Sim.ok (by assumption)
  · exact Or.inr (Or.inr ⟨trivial, rfl⟩)

theorem sim_int64 {t : Prop} (x : Int) : Sim t True InInt64 (machineInt 64 x) (.ok x) := by
  rw [machineInt64]
  split
  · exact Sim.ok (by assumption)
  · exact Or.inr (Or.inr ⟨trivial, rfl⟩)

/-- a machine type: all operations give the exact result, or are undefined -/
theorem fixed_law {n : Nat} {R : Int → Prop} {t : Prop} (h0 : R 0) (h1 : R 1) (h2 : R (-1))
    (h : ∀ x, Sim t True R (machineInt n x) (.ok x)) : Law (fixedArith n) R t True where
  zero := h0
  one := h1
  negOne := h2
  add a b _ _ := h (a + b)
  sub a b _ _ := h (a - b)
  mul a b _ _ := h (a * b)
  div a b _ _ hb := by
    show Sim t True R (if b = 0 then .ub else machineInt n (a.tdiv b)) _
    rw [if_neg hb]; exact h _
  mod a b _ _ ha hb := by
    show Sim t True R (if b = 0 then .ub else (machineInt n (a.tdiv b)).bind fun _ => machineInt n (a.tmod b)) _
    rw [if_neg hb.ne']
    refine (h _).bindOk fun _ => ?_
    rw [Int.tmod_eq_emod_of_nonneg ha]; exact h _
  neg a _ := h (-a)
  abs a ha := by
    show Sim t True R (if a < 0 then machineInt n (-a) else .ok a) _
    by_cases h3 : a < 0
    · rw [if_pos h3]
      have : (a.natAbs : Int) = -a := by omega
      rw [this]; exact h _
    · rw [if_neg h3]
      have : (a.natAbs : Int) = a := by omega
      rw [this]; exact Sim.ok ha

theorem narrow_isInt {x : Int} (h : Spec.IsInt x) : narrow 32 x = x := by
  unfold narrow; unfold Spec.IsInt at h; norm_num; omega

theorem narrow64_of_isInt {x : Int} (h : Spec.IsInt x) : narrow 64 x = x := by
  unfold narrow; unfold Spec.IsInt at h; norm_num; omega

theorem fixed32_law (t : Prop) : Law (fixedArith 32) Spec.IsInt t True :=
  fixed_law (by decide) (by decide) (by decide) sim_int32

theorem fixed64_law (t : Prop) : Law (fixedArith 64) InInt64 t True :=
  fixed_law (by decide) (by decide) (by decide) sim_int64

theorem fixed32_ofInt {t u : Prop} (a : Int) (h : Spec.IsInt a) : Sim t u Spec.IsInt ((fixedArith 32).ofInt a) (.ok a) := by
  show Sim t u Spec.IsInt (.ok (narrow 32 a)) _
  rw [narrow_isInt h]; exact Sim.ok h

theorem fixed64_ofInt {t u : Prop} (a : Int) (h : Spec.IsInt a) : Sim t u InInt64 ((fixedArith 64).ofInt a) (.ok a) := by
  show Sim t u InInt64 (.ok (narrow 64 a)) _
  rw [narrow64_of_isInt h]; exact Sim.ok (inInt64_of_isInt h)

theorem fixed32_factors (t : Prop) : FactorLaw (fixedArith 32) Spec.IsInt Spec.IsInt t True where
  factor f e _ _ := by
    refine (sim_int32 (-f)).bindOk fun _ => (sim_int32 (-f * e)).bindOk fun h => ?_
    rw [narrow_isInt h]; exact Sim.ok h
  add _ _ _ _ := sim_int32 _

theorem safe_factors : FactorLaw safeArith InInt64 Spec.IsInt True True where
  factor f e _ _ := (sim_int32 (-f)).bindOk fun _ => (safe_toInt e).bindOk fun _ => sim_int32 (-f * e)
  add _ _ _ _ := sim_int32 _

/-! ## the statements

`facetEnumerationDD` and `vertexEnumerationDD` are the exact computations, about which C07 to C15 are stated. -/

/-- all entries are values of type `int` (what the input functions return) -/
def IntMatrix (m : Matrix) : Prop := ∀ r ∈ m, ∀ x ∈ r, Spec.IsInt x

/-- all factors are values of type `int` -/
def IntMaps (maps : Maps) : Prop := ∀ m ∈ maps, ∀ im ∈ m, ∀ x ∈ im, Spec.IsInt x.2

/-- **C31** facet enumeration with the checked type: what is printed is the exact result -/
theorem C31_facets {V : Matrix} {maps : Maps} (hV : IntMatrix V) (hm : IntMaps maps) {fuel : Nat} {o : FacetOutput}
    (h : Typed.facetEnumerationDD (selectArith .safe) fuel V maps = some (.ok o)) : facetEnumerationDD fuel V maps = some (.ok o) := by
  have := facetDD_conv (c := fun z => z) (safe_law True) safe_ofInt (fun a _ => safe_toInt a) (fun _ => safe_factors) hV hm fuel
  rw [mapEntries_run] at this
  change Typed.facetEnumerationDD safeArith fuel V maps = _ at h
  rw [h] at this
  rcases this with ⟨h, _⟩ | ⟨_, h⟩ | ⟨_, h⟩
  · exact h.symm
  · simp at h
  · simp at h

/-- **C31** vertex enumeration with the checked type: what is printed is the exact result -/
theorem C31_vertices {I : Matrix} {maps : Maps} (hI : IntMatrix I) (hm : IntMaps maps) {fuel : Nat} {o : VertexOutput}
    (h : Typed.vertexEnumerationDD (selectArith .safe) fuel I maps = some (.ok o)) : vertexEnumerationDD fuel I maps = some (.ok o) := by
  have := vertexDD_conv (c := fun z => z) (safe_law True) safe_ofInt (fun a _ => safe_toInt a) hI hm fuel
  rw [mapEntries_runV] at this
  change Typed.vertexEnumerationDD safeArith fuel I maps = _ at h
  rw [h] at this
  rcases this with ⟨h, _⟩ | ⟨_, h⟩ | ⟨_, h⟩
  · exact h.symm
  · simp at h
  · simp at h

/-- **C31** without maps, facet enumeration with the checked type gives exactly the exact run or throws: in particular it has no
undefined behaviour of its own -/
theorem C31_facets_or_throw {V : Matrix} (hV : IntMatrix V) (fuel : Nat) :
    Typed.facetEnumerationDD (selectArith .safe) fuel V [] = facetEnumerationDD fuel V [] ∨
      Typed.facetEnumerationDD (selectArith .safe) fuel V [] = some .thrown := by
  have := facetDD_conv (maps := []) (c := fun z => z) (safe_law False) safe_ofInt (fun a _ => safe_toInt a) (fun h => absurd rfl h) hV
    (by simp) fuel
  rw [mapEntries_run] at this
  rcases this with ⟨h, _⟩ | ⟨_, h⟩ | ⟨h, _⟩
  · exact Or.inl h
  · exact Or.inr h
  · exact h.elim

/-- **C31** vertex enumeration with the checked type, with or without maps, gives exactly the exact run or throws -/
theorem C31_vertices_or_throw {I : Matrix} {maps : Maps} (hI : IntMatrix I) (hm : IntMaps maps) (fuel : Nat) :
    Typed.vertexEnumerationDD (selectArith .safe) fuel I maps = vertexEnumerationDD fuel I maps ∨
      Typed.vertexEnumerationDD (selectArith .safe) fuel I maps = some .thrown := by
  have := vertexDD_conv (c := fun z => z) (safe_law False) safe_ofInt (fun a _ => safe_toInt a) hI hm fuel
  rw [mapEntries_runV] at this
  rcases this with ⟨h, _⟩ | ⟨_, h⟩ | ⟨h, _⟩
  · exact Or.inl h
  · exact Or.inr h
  · exact h.elim

/-- **C60** facet enumeration with type `int` (`-i 32` and the default): what is printed is the exact result, unless the
computation runs into undefined behaviour (overflow) -/
theorem C60_facets_int {V : Matrix} {maps : Maps} (hV : IntMatrix V) (hm : IntMaps maps) {fuel : Nat} {o : FacetOutput} {ty : IntegerType}
    (hty : ty = .default ∨ ty = .fixed32) (h : Typed.facetEnumerationDD (selectArith ty) fuel V maps = some (.ok o)) :
    facetEnumerationDD fuel V maps = some (.ok o) := by
  have hs : selectArith ty = fixedArith 32 := by rcases hty with rfl | rfl <;> rfl
  rw [hs] at h
  have := facetDD_conv (c := fun z => z) (fixed32_law False) fixed32_ofInt (fun a ha => fixed32_ofInt a ha) (fun _ => fixed32_factors False)
    hV hm fuel
  rw [mapEntries_run, h] at this
  rcases this with ⟨h, _⟩ | ⟨_, h⟩ | ⟨_, h⟩
  · exact h.symm
  · simp at h
  · simp at h

/-- **C60** vertex enumeration with type `int` (`-i 32` and the default) -/
theorem C60_vertices_int {I : Matrix} {maps : Maps} (hI : IntMatrix I) (hm : IntMaps maps) {fuel : Nat} {o : VertexOutput} {ty : IntegerType}
    (hty : ty = .default ∨ ty = .fixed32) (h : Typed.vertexEnumerationDD (selectArith ty) fuel I maps = some (.ok o)) :
    vertexEnumerationDD fuel I maps = some (.ok o) := by
  have hs : selectArith ty = fixedArith 32 := by rcases hty with rfl | rfl <;> rfl
  rw [hs] at h
  have := vertexDD_conv (c := fun z => z) (fixed32_law False) fixed32_ofInt (fun a ha => fixed32_ofInt a ha) hI hm fuel
  rw [mapEntries_runV, h] at this
  rcases this with ⟨h, _⟩ | ⟨_, h⟩ | ⟨_, h⟩
  · exact h.symm
  · simp at h
  · simp at h

/-- **C60** with 64 bits (`-i 64`, no maps) every number is correct until it is printed: what is printed is the exact result with
each number reduced modulo `2^32` to the range of `int` -/
theorem C60_facets_64_partial {V : Matrix} (hV : IntMatrix V) {fuel : Nat} {o : FacetOutput}
    (h : Typed.facetEnumerationDD (selectArith .fixed64) fuel V [] = some (.ok o)) :
    ∃ o', facetEnumerationDD fuel V [] = some (.ok o') ∧ o = o'.mapEntries (narrow 32) := by
  have := facetDD_conv (maps := []) (t := False) (u := True) (Q := fun _ => True) (c := narrow 32) (fixed64_law False) fixed64_ofInt
    (fun a _ => Sim.ok trivial) (fun h => absurd rfl h) hV (by simp) fuel
  change Typed.facetEnumerationDD (fixedArith 64) fuel V [] = _ at h
  rw [h] at this
  rcases this with ⟨h, _⟩ | ⟨_, h⟩ | ⟨_, h⟩
  · match e : facetEnumerationDD fuel V [] with
    | none => rw [e] at h; simp [Run.bind] at h
    | some (.ok o') => rw [e] at h; simp only [Run.bind, Option.some.injEq, Outcome.ok.injEq] at h; exact ⟨o', rfl, h⟩
    | some .thrown => rw [e] at h; simp [Run.bind] at h
    | some .ub => rw [e] at h; simp [Run.bind] at h
  · simp at h
  · simp at h

/-- **C60** the same for vertex enumeration, with or without maps -/
theorem C60_vertices_64_partial {I : Matrix} {maps : Maps} (hI : IntMatrix I) (hm : IntMaps maps) {fuel : Nat} {o : VertexOutput}
    (h : Typed.vertexEnumerationDD (selectArith .fixed64) fuel I maps = some (.ok o)) :
    ∃ o', vertexEnumerationDD fuel I maps = some (.ok o') ∧ o = o'.mapEntries (narrow 32) := by
  have := vertexDD_conv (t := False) (u := True) (Q := fun _ => True) (c := narrow 32) (fixed64_law False) fixed64_ofInt
    (fun a _ => Sim.ok trivial) hI hm fuel
  change Typed.vertexEnumerationDD (fixedArith 64) fuel I maps = _ at h
  rw [h] at this
  rcases this with ⟨h, _⟩ | ⟨_, h⟩ | ⟨_, h⟩
  · match e : vertexEnumerationDD fuel I maps with
    | none => rw [e] at h; simp [Run.bind] at h
    | some (.ok o') => rw [e] at h; simp only [Run.bind, Option.some.injEq, Outcome.ok.injEq] at h; exact ⟨o', rfl, h⟩
    | some .thrown => rw [e] at h; simp [Run.bind] at h
    | some .ub => rw [e] at h; simp [Run.bind] at h
  · simp at h
  · simp at h

/-- **C60** fails for `-i 64`: the triangle with vertices (0,0), (50000,1), (3,50000) gives an inequality `49999 x + 49997 y + 1794967299 <= 0`
that none of its vertices satisfies -/
theorem C60_64_false : ¬ ∀ (V : Matrix) (fuel : Nat) (o : FacetOutput), IntMatrix V →
    Typed.facetEnumerationDD (selectArith .fixed64) fuel V [] = some (.ok o) → ∀ r ∈ o.inequalities, Spec.Valid V r := by
  intro h
  have := h [[0, 0, 1], [50000, 1, 1], [3, 50000, 1]] 100 ⟨[], false, [[-50000, 3, 0], [1, -50000, 0], [49999, 49997, 1794967299]]⟩
    (by unfold IntMatrix; decide) (by decide +kernel) [49999, 49997, 1794967299] (by decide) [0, 0, 1] (by decide)
  exact absurd this (by decide)

/-- **C60** fails for `-i 16`: the numbers of the triangle with vertices (0,0), (200,1), (3,200) fit, but products do not -/
theorem C60_16_false : ¬ ∀ (V : Matrix) (fuel : Nat) (o : FacetOutput), (∀ r ∈ V, ∀ x ∈ r, -32768 ≤ x ∧ x ≤ 32767) →
    Typed.facetEnumerationDD (selectArith .fixed16) fuel V [] = some (.ok o) → ∀ r ∈ o.inequalities, Spec.Valid V r := by
  intro h
  have := h [[0, 0, 1], [200, 1, 1], [3, 200, 1]] 100 ⟨[], false, [[-3217, -3267, -501], [-1, 200, 0], [1064, 25, 0]]⟩
    (by decide) (by decide +kernel) [1064, 25, 0] (by decide) [200, 1, 1] (by decide)
  exact absurd this (by decide)

/-- **C60** fails for `-i inf`: with unbounded integers the quadrilateral (0,0), (100000,3), (7,100000), (100001,100003) gives two
inequalities, one of which excludes three of the four vertices (the cause is the division of negative numbers, C34) -/
theorem C60_inf_false : ¬ ∀ (V : Matrix) (fuel : Nat) (o : FacetOutput), IntMatrix V →
    Typed.facetEnumerationDD (selectArith .variable) fuel V [] = some (.ok o) → ∀ r ∈ o.inequalities, Spec.Valid V r := by
  intro h
  have := h [[0, 0, 1], [100000, 3, 1], [7, 100000, 1], [100001, 100003, 1]] 100 ⟨[], false, [[3, -100000, 0], [100003, 100001, 0]]⟩
    (by unfold IntMatrix; decide) (by decide +kernel) [100003, 100001, 0] (by decide) [100000, 3, 1] (by decide)
  exact absurd this (by decide)

/-! ## examples -/

/-- the hypotheses of C31 hold for a triangle: the three types that compute correctly agree -/
example : IntMatrix [[0, 0, 1], [200, 1, 1], [3, 200, 1]] ∧
    (∀ ty ∈ [IntegerType.safe, .fixed32, .default, .fixed64],
      Typed.facetEnumerationDD (selectArith ty) 100 [[0, 0, 1], [200, 1, 1], [3, 200, 1]] [] =
        some (.ok ⟨[], false, [[-200, 3, 0], [1, -200, 0], [199, 197, -39997]]⟩)) := by
  refine ⟨by unfold IntMatrix; decide, ?_⟩
  decide +kernel

/-- with maps: the square and the exchange of the coordinates -/
example : IntMaps [[[(1, 1)], [(0, 1)], [(2, 1)]]] ∧
    Typed.facetEnumerationDD (selectArith .safe) 100 [[0, 0, 1], [1, 0, 1], [0, 1, 1], [1, 1, 1]] [[[(1, 1)], [(0, 1)], [(2, 1)]]] =
      some (.ok ⟨[], true, [[0, -1, 0], [1, 0, -1]]⟩) := by
  refine ⟨by unfold IntMaps; decide, ?_⟩
  decide +kernel

/-- vertices of the square -/
example : Typed.vertexEnumerationDD (selectArith .safe) 100 [[0, -1, 0], [0, 1, -1], [-1, 0, 0], [1, 0, -1], [0, 0, -1]] [] =
    some (.ok ⟨false, [[0, 0, 1], [0, 1, 1], [1, 0, 1], [1, 1, 1]], []⟩) := by
  decide +kernel

/-- an overflow with the checked type is reported -/
example : Typed.facetEnumerationDD (selectArith .safe) 100 [[0, 0, 1], [50000, 1, 1], [3, 50000, 1]] [] = some .thrown := by
  decide +kernel

end Panda
