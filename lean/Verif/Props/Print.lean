import Verif.Proofs.Print
import Verif.Props.InputVertex
import Mathlib.Tactic.LinearCombination

/-! # Property C44: printed vertices and rays read back as the same points and directions -/

namespace Panda

theorem abs_le_of_mul {a b x s : Int} (h : a * b = s * x) (hs : s = 1 ∨ s = -1) (hb : 0 < b) : a.natAbs ≤ x.natAbs := by
  have h1 : a.natAbs * b.natAbs = x.natAbs := by
    rw [← Int.natAbs_mul, h, Int.natAbs_mul]
    rcases hs with rfl | rfl <;> simp
  have h2 : 1 ≤ b.natAbs := by omega
  calc a.natAbs = a.natAbs * 1 := (Nat.mul_one _).symm
    _ ≤ a.natAbs * b.natAbs := Nat.mul_le_mul_left _ h2
    _ = x.natAbs := h1

/-- what one printed coordinate means -/
def QuotientOf (den s x : Int) (q : Int × Int) : Prop := 0 < q.2 ∧ q.2 ∣ den ∧ q.1 * den = s * x * q.2

theorem printQuotient_spec {den x s : Int} {neg : Bool} (hden : 0 < den) (hmin : den ≠ intMin) (hx : x ≠ intMin)
    (hs : s = if neg then -1 else 1) :
    ∃ t q, printQuotient neg den x = .ok (t ++ [' ']) ∧ Spec.Fraction t q.1 q.2 ∧ QuotientOf den s x q := by
  have hg := C01_gcd x den
  have hg0 : 0 < gcd x den := by
    rcases lt_or_eq_of_le hg.1 with h | h
    · exact h
    · have := hg.2.1 den (by simp)
      rw [← h, zero_dvd_iff] at this; omega
  obtain ⟨e, he⟩ := hg.2.1 den (by simp)
  obtain ⟨y, hy⟩ := hg.2.1 x (by simp)
  generalize hG : gcd x den = g at *
  have he0 : 0 < e := by
    by_contra hc
    have : g * e ≤ 0 := Int.mul_nonpos_of_nonneg_of_nonpos hg0.le (by omega)
    omega
  have h1 : den.tdiv g = e := by rw [he, Int.mul_tdiv_cancel_left _ (by omega)]
  have h2 : (s * x).tdiv g = s * y := by rw [hy, show s * (g * y) = g * (s * y) by ring, Int.mul_tdiv_cancel_left _ (by omega)]
  unfold printQuotient
  rw [if_neg (by simp [hx, hmin]), hG, if_neg (by omega), ← hs, h1, h2]
  by_cases h : e = 1
  · refine ⟨printInt (s * y), (s * y, 1), by simp [h], Spec.Fraction.whole (printInt_numeral _), by simp, by simp, ?_⟩
    simp only [he, hy, h]; ring
  · refine ⟨printInt (s * y) ++ '/' :: printInt e, (s * y, e), by simp [h], ?_, he0, ⟨g, by rw [he]; ring⟩, ?_⟩
    · have := Spec.Fraction.quotient (b := []) (b' := []) (printInt_numeral (s * y)) blanks_nil blanks_nil (printInt_numeral e)
      simpa using this
    · simp only [he, hy]; ring

theorem printQuotients_spec {den s : Int} {neg : Bool} (hden : 0 < den) (hmin : den ≠ intMin)
    (hs : s = if neg then -1 else 1) : ∀ xs : Row, xs ≠ [] → (∀ x ∈ xs, x ≠ intMin) →
    ∃ t cs, printQuotients neg den xs = .ok t ∧ Spec.Coordinates t cs ∧ List.Forall₂ (QuotientOf den s) xs cs
  | [], h, _ => absurd rfl h
  | [x], _, hx => by
    obtain ⟨t, q, h1, h2, h3⟩ := printQuotient_spec (x := x) hden hmin (hx x (by simp)) hs
    refine ⟨t ++ [' '], [q], ?_, Spec.Coordinates.last h2 (by simp [Spec.Blanks]), .cons h3 .nil⟩
    rw [printQuotients, h1, printQuotients]
    simp [Outcome.bind]
  | x :: y :: xs, _, hx => by
    obtain ⟨t, q, h1, h2, h3⟩ := printQuotient_spec (x := x) hden hmin (hx x (by simp)) hs
    obtain ⟨ts, cs, h4, h5, h6⟩ := printQuotients_spec hden hmin hs (y :: xs) (by simp) (fun z hz => hx z (by simp [hz]))
    refine ⟨t ++ [' '] ++ ts, q :: cs, ?_, Spec.Coordinates.cons h2 (by simp [Spec.Blanks]) (by simp) h5, .cons h3 h6⟩
    rw [printQuotients, h1, h4]
    rfl

theorem forall₂_mem_right {α β : Type} {R : α → β → Prop} {a : List α} {b : List β} (h : List.Forall₂ R a b) :
    ∀ y ∈ b, ∃ x ∈ a, R x y := by
  induction h with
  | nil => simp
  | cons hr _ ih =>
    intro y hy
    rcases List.mem_cons.mp hy with rfl | hy
    · exact ⟨_, by simp, hr⟩
    · obtain ⟨x, hx, hr⟩ := ih y hy
      exact ⟨x, by simp [hx], hr⟩

theorem natAbs_isInt {a x : Int} (h : a.natAbs ≤ x.natAbs) (hx : Spec.IsInt x) (hm : x ≠ intMin) : Spec.IsInt a := by
  unfold Spec.IsInt intMin at *; omega

/-- the printed coordinates can be read back without overflow -/
theorem fits_of_quotients {den s : Int} {xs : Row} {cs : List (Int × Int)} (hden : 0 < den) (hi : Spec.IsInt den)
    (hs : s = 1 ∨ s = -1) (hx : ∀ x ∈ xs, Spec.IsInt x ∧ x ≠ intMin) (h : List.Forall₂ (QuotientOf den s) xs cs) :
    Spec.Fits cs ∧ ¬ ∃ q ∈ cs, q.2 = 0 := by
  have hq := forall₂_mem_right h
  have hz : ¬ ∃ q ∈ cs, q.2 = 0 := by
    rintro ⟨q, hq1, h0⟩
    obtain ⟨x, -, h1, -⟩ := hq q hq1
    omega
  refine ⟨?_, hz⟩
  obtain ⟨L, -, hL0, hL⟩ := C02_row_lcm (cs.map (·.2)) (map_snd_ne hz)
  have hLd : L ∣ den := hL.2.2 den (by
    intro y hy
    obtain ⟨q, hq1, rfl⟩ := List.mem_map.mp hy
    obtain ⟨x, -, -, h2, -⟩ := hq q hq1
    exact h2)
  have hLle := Int.le_of_dvd hden hLd
  have hLi : Spec.IsInt L := by unfold Spec.IsInt at *; omega
  refine ⟨fun q hq1 => ?_, L, hL, hLi, fun q hq1 => ?_⟩
  · obtain ⟨x, hx1, h1, ⟨e, he⟩, h3⟩ := hq q hq1
    have he0 : 0 < e := by
      by_contra hc
      have : q.2 * e ≤ 0 := Int.mul_nonpos_of_nonneg_of_nonpos h1.le (by omega)
      omega
    have h4 : q.1 * e = s * x := by
      have : q.2 * (q.1 * e) = q.2 * (s * x) := by rw [he] at h3; linear_combination h3
      exact Int.eq_of_mul_eq_mul_left (by omega) this
    have hle : q.2 ≤ den := Int.le_of_dvd hden ⟨e, he⟩
    refine ⟨natAbs_isInt (abs_le_of_mul h4 hs he0) (hx x hx1).1 (hx x hx1).2, ?_, ?_⟩
    · unfold Spec.IsInt at *; omega
    · omega
  · obtain ⟨x, hx1, h1, -, h3⟩ := hq q hq1
    obtain ⟨k, hk⟩ := hL.2.1 q.2 (List.mem_map_of_mem hq1)
    obtain ⟨m, hm⟩ := hLd
    have hm0 : 0 < m := by
      by_contra hc
      have : L * m ≤ 0 := Int.mul_nonpos_of_nonneg_of_nonpos hL0.le (by omega)
      omega
    have hdiv : L / q.2 = k := by rw [hk, Int.mul_ediv_cancel_left _ (by omega)]
    rw [hdiv]
    have h4 : q.1 * k * m = s * x := by
      have : q.2 * (q.1 * k * m) = q.2 * (s * x) := by
        rw [hm, hk] at h3; linear_combination h3
      exact Int.eq_of_mul_eq_mul_left (by omega) this
    exact natAbs_isInt (abs_le_of_mul h4 hs hm0) (hx x hx1).1 (hx x hx1).2

theorem samePoint_of {xs row : Row} {b s : Int} {cs : List (Int × Int)} (hb : b ≠ 0)
    (hs : s = if b < 0 then -1 else 1) (h : List.Forall₂ (QuotientOf (s * b) s) xs cs) (hp : Spec.PointRow cs row) :
    Spec.SamePoint (xs ++ [b]) row := by
  have hlen : xs.length = cs.length := h.length_eq
  obtain ⟨h1, h2, h3⟩ := hp
  have hlast : row.getLastD 0 = row.getD cs.length 0 := by
    rw [List.getLastD_eq_getLast?, List.getLast?_eq_getElem?, h1, List.getD_eq_getElem?_getD]; rfl
  refine ⟨by simp [h1, hlen], by rw [hlast]; exact h2, fun i hi => ?_⟩
  have hi' : i < xs.length := by simpa using hi
  rw [hlast, h3 i (by omega)]
  have hq : QuotientOf (s * b) s xs[i] (cs[i]'(by omega)) := by
    rw [List.forall₂_iff_get] at h
    exact h.2 i hi' (by omega)
  obtain ⟨q1, -, q3⟩ := hq
  have hs0 : s ≠ 0 := by rw [hs]; split <;> decide
  rw [show (xs ++ [b]).getLastD 0 = b by simp, List.getD_eq_getElem?_getD, List.getElem?_append_left hi',
    List.getElem?_eq_getElem hi', Option.getD_some]
  have e1 : ((cs[i]'(by omega)).2 : ℚ) ≠ 0 := by exact_mod_cast q1.ne'
  have e2 : (b : ℚ) ≠ 0 := by exact_mod_cast hb
  rw [div_eq_div_iff e1 e2]
  have q4 : (cs[i]'(by omega)).1 * b = xs[i] * (cs[i]'(by omega)).2 := by
    have : s * ((cs[i]'(by omega)).1 * b) = s * (xs[i] * (cs[i]'(by omega)).2) := by linear_combination q3
    exact Int.eq_of_mul_eq_mul_left hs0 this
  exact_mod_cast q4

/-- a printable vertex: at least one coordinate, all entries in the range of `int` (not the smallest one), last entry
not zero -/
def Printable (v : Row) : Prop := 2 ≤ v.length ∧ (∀ x ∈ v, Spec.IsInt x ∧ x ≠ -2147483648) ∧ v.getLastD 0 ≠ 0

/-- what is printed for a vertex is a well-formed line -/
theorem printFractional_line {v : Row} (hv : Printable v) :
    ∃ t cs, printFractional v = .ok t ∧ Spec.VertexLine t cs ∧ (Spec.Fits cs ∧ ¬ ∃ q ∈ cs, q.2 = 0) ∧
      ∀ row, Spec.PointRow cs row → Spec.SamePoint v row := by
  obtain ⟨hlen, hi, hb⟩ := hv
  obtain ⟨xs, b, rfl⟩ : ∃ xs b, v = xs ++ [b] := by
    have hne : v ≠ [] := by intro h0; rw [h0] at hlen; simp at hlen
    exact ⟨v.dropLast, v.getLast hne, (List.dropLast_append_getLast hne).symm⟩
  have hxs : xs ≠ [] := by intro h0; rw [h0] at hlen; simp at hlen
  rw [show (xs ++ [b]).getLastD 0 = b by simp] at hb
  obtain ⟨hbi, hbm⟩ := hi b (by simp)
  obtain ⟨s, hs⟩ : ∃ s : Int, s = if b < 0 then -1 else 1 := ⟨_, rfl⟩
  have hs1 : s = 1 ∨ s = -1 := by rw [hs]; split <;> simp
  have hden : 0 < s * b := by
    rw [hs]; split <;> omega
  have hdeni : Spec.IsInt (s * b) := by
    unfold Spec.IsInt at *
    rcases hs1 with rfl | rfl <;> omega
  have hx : ∀ x ∈ xs, Spec.IsInt x ∧ x ≠ intMin := fun x hx => hi x (by simp [hx])
  obtain ⟨t, cs, h1, h2, h3⟩ := printQuotients_spec (neg := decide (b < 0)) hden (by unfold intMin; omega) (s := s)
    (by rw [hs]; simp) xs hxs (fun x hx' => (hx x hx').2)
  refine ⟨t, cs, ?_, ⟨[], t, Spec.Label.none blanks_nil, h2, rfl⟩, fits_of_quotients hden hdeni hs1 hx h3, fun row hp => ?_⟩
  · unfold printFractional
    simp only [show (xs ++ [b]).getLastD 0 = b by simp, List.dropLast_concat, ← hs]
    rw [if_neg (by unfold intMin; exact hbm)]
    exact h1
  · exact samePoint_of hb hs h3 hp

/-- **C44** The line printed for a vertex is read as a row representing the same point. -/
theorem C44_vertex {v : Row} (hv : Printable v) (w : List Char) :
    ∃ t row, printFractional v = .ok t ∧
      vertex ⟨t ++ '\n' :: w, false, false⟩ = .ok (⟨'\n' :: w, false, false⟩, row) ∧ Spec.SamePoint v row := by
  obtain ⟨t, cs, h1, h2, ⟨h3, h4⟩, h5⟩ := printFractional_line hv
  obtain ⟨row, h6, h7, -⟩ := C41_vertex (w := '\n' :: w) h2 h3 h4 (Or.inr rfl)
  exact ⟨t, row, h1, h6, h5 row h7⟩

/-- what is printed for a ray is a well-formed line -/
theorem printRow_line {r : Row} (hr : r ≠ []) : Spec.VertexLine (printRow r) (r.map fun x => (x, 1)) := by
  have h2 : ∀ r : Row, r ≠ [] → ∃ b c, Spec.Blanks b ∧ b ≠ [] ∧ Spec.Coordinates c (r.map fun x => (x, 1)) ∧ printRow r = b ++ c := by
    intro r
    induction r with
    | nil => intro h; exact absurd rfl h
    | cons x xs ih =>
      intro _
      have hb : Spec.Blanks ((if x ≥ 0 then [' '] else []) ++ [' ']) := by
        intro c hc; split at hc <;> simp at hc <;> simp [hc]
      refine ⟨(if x ≥ 0 then [' '] else []) ++ [' '], printInt x ++ printRow xs, hb, by simp, ?_, by
        unfold printRow; rw [List.flatMap_cons]; simp⟩
      have hf := Spec.Fraction.whole (printInt_numeral x)
      by_cases hxs : xs = []
      · rw [hxs]
        exact Spec.Coordinates.last hf blanks_nil
      · obtain ⟨b, c, hb', hne, hc, he⟩ := ih hxs
        rw [he, ← List.append_assoc]
        exact Spec.Coordinates.cons hf hb' hne hc
  obtain ⟨b, c, hb, -, hc, he⟩ := h2 r hr
  exact ⟨b, c, Spec.Label.none hb, hc, he⟩

theorem fits_ones {r : Row} (h : ∀ x ∈ r, Spec.IsInt x) :
    Spec.Fits (r.map fun x => (x, 1)) ∧ ¬ ∃ q ∈ r.map fun x => (x, (1 : Int)), q.2 = 0 := by
  refine ⟨⟨?_, 1, ⟨by decide, ?_, fun m hm => one_dvd m⟩, by unfold Spec.IsInt; decide, ?_⟩, ?_⟩
  · intro q hq
    obtain ⟨x, hx, rfl⟩ := List.mem_map.mp hq
    exact ⟨h x hx, by unfold Spec.IsInt; simp, by simp⟩
  · intro y hy
    simp only [List.map_map, List.mem_map, Function.comp_apply] at hy
    obtain ⟨x, -, rfl⟩ := hy
    exact one_dvd _
  · intro q hq
    obtain ⟨x, hx, rfl⟩ := List.mem_map.mp hq
    simpa using h x hx
  · rintro ⟨q, hq, h0⟩
    obtain ⟨x, hx, rfl⟩ := List.mem_map.mp hq
    simp at h0

theorem sameDirection_of {r row : Row} (h : Spec.RayRow (r.map fun x => (x, 1)) row) : Spec.SameDirection r row := by
  obtain ⟨h1, h2, s, hs, h3⟩ := h
  rw [List.length_map] at h1 h2
  have hlast : row.getLastD 1 = row.getD r.length 0 := by
    rw [List.getLastD_eq_getLast?, List.getLast?_eq_getElem?, h1, List.getD_eq_getElem?_getD]
    simp [List.getElem?_eq_getElem (show r.length < row.length by omega)]
  refine ⟨h1, by rw [hlast, h2], s, hs, fun i hi => ?_⟩
  rw [h3 i (by simpa using hi)]
  simp [List.getElem?_eq_getElem hi]

/-- **C44** The line printed for a ray is read as a row representing the same direction. -/
theorem C44_ray {r : Row} (hr : r ≠ []) (hi : ∀ x ∈ r, Spec.IsInt x) (w : List Char) :
    ∃ row, vertex ⟨printRow r ++ '\n' :: w, false, false⟩ = .ok (⟨'\n' :: w, false, false⟩, row) ∧
      Spec.SameDirection r (row.dropLast ++ [0]) := by
  obtain ⟨h1, h2⟩ := fits_ones hi
  obtain ⟨row, h3, -, h4⟩ := C41_vertex (w := '\n' :: w) (printRow_line hr) h1 h2 (Or.inr rfl)
  exact ⟨row, h3, sameDirection_of h4⟩

theorem printVertexLines_spec : ∀ m : Matrix, (∀ v ∈ m, Printable v) →
    ∃ t vs, printVertexLines m = .ok t ∧ Spec.VertexLines t vs ∧ (∀ cs ∈ vs, Spec.Fits cs ∧ ¬ ∃ q ∈ cs, q.2 = 0) ∧
      ∀ rows, List.Forall₂ Spec.PointRow vs rows → List.Forall₂ Spec.SamePoint m rows
  | [], _ => ⟨[], [], rfl, .nil, by simp, fun rows h => by cases h; exact .nil⟩
  | v :: m, hm => by
    obtain ⟨t, cs, h1, h2, h3, h4⟩ := printFractional_line (hm v (by simp))
    obtain ⟨ts, vs, h5, h6, h7, h8⟩ := printVertexLines_spec m (fun x hx => hm x (by simp [hx]))
    refine ⟨t ++ '\n' :: ts, cs :: vs, by rw [printVertexLines, h1, h5]; rfl, .vertex h2 h6, ?_, ?_⟩
    · intro c hc
      rcases List.mem_cons.mp hc with rfl | hc
      · exact h3
      · exact h7 c hc
    · intro rows h
      cases h with
      | cons ha hb => exact .cons (h4 _ ha) (h8 _ hb)

theorem printRayLines_spec : ∀ m : Matrix, (∀ r ∈ m, r ≠ [] ∧ ∀ x ∈ r, Spec.IsInt x) →
    ∃ vs, Spec.VertexLines (printRayLines m) vs ∧ (∀ cs ∈ vs, Spec.Fits cs ∧ ¬ ∃ q ∈ cs, q.2 = 0) ∧
      ∀ rows, List.Forall₂ Spec.RayRow vs rows → List.Forall₂ Spec.SameDirection m rows
  | [], _ => ⟨[], .nil, by simp, fun rows h => by cases h; exact .nil⟩
  | r :: m, hm => by
    obtain ⟨h1, h2⟩ := hm r (by simp)
    obtain ⟨vs, h6, h7, h8⟩ := printRayLines_spec m (fun x hx => hm x (by simp [hx]))
    refine ⟨(r.map fun x => (x, 1)) :: vs, ?_, ?_, ?_⟩
    · have := Spec.VertexLines.vertex (printRow_line h1) h6
      unfold printRayLines at *
      rw [List.flatMap_cons, List.append_assoc]
      exact this
    · intro c hc
      rcases List.mem_cons.mp hc with rfl | hc
      · exact fits_ones h2
      · exact h7 c hc
    · intro rows h
      cases h with
      | cons ha hb => exact .cons (sameDirection_of ha) (h8 _ hb)

theorem first_line_unique {R k k' r r' : List Char} (h' : R = k' ++ '\n' :: r') (hk' : '\n' ∉ k')
    (h : R = k ++ '\n' :: r) (hk : '\n' ∉ k) : k' = k := by
  have a1 : R.takeWhile (· ≠ '\n') = k := by
    rw [h, takeWhile_append_of_all (by intro c hc; simp; rintro rfl; exact hk hc)]; simp
  have a2 : R.takeWhile (· ≠ '\n') = k' := by
    rw [h', takeWhile_append_of_all (by intro c hc; simp; rintro rfl; exact hk' hc)]; simp
  rw [← a1, ← a2]

/-- reading back the rays -/
theorem rays_read {o : VertexOutput} (hr : ∀ r ∈ o.rays, r ≠ [] ∧ ∀ x ∈ r, Spec.IsInt x) :
    ∃ N, ∀ fuel ≥ N, ∃ s rows, verticesConical fuel ⟨(if o.reduced then "Reduced ".toList else []) ++ "Rays:\n".toList ++
      printRayLines o.rays, false, false⟩ = some (.ok (s, rows)) ∧ List.Forall₂ Spec.SameDirection o.rays rows := by
  obtain ⟨vs, h1, h2, h3⟩ := printRayLines_spec o.rays hr
  have key : ∀ k : List Char, '\n' ∉ k →
      (isKeywordConicalHull (trimWhitespace k) || isKeywordReducedConicalHull (trimWhitespace k)) = true →
      ∃ N, ∀ fuel ≥ N, ∃ s rows, verticesConical fuel ⟨k ++ '\n' :: printRayLines o.rays, false, false⟩ = some (.ok (s, rows)) ∧
        List.Forall₂ Spec.SameDirection o.rays rows := by
    intro k hk hkk
    obtain ⟨N, hN⟩ := C41_sections (k := k) (w := []) h1 hk (Or.inl rfl) h2
    refine ⟨N, fun fuel hf => ?_⟩
    obtain ⟨s, rows, h4, h5, -⟩ := (hN fuel hf).2 hkk
    rw [List.append_nil] at h4
    exact ⟨s, rows, h4, h3 rows h5⟩
  cases o.reduced with
  | true => exact key "Reduced Rays:".toList (by decide +kernel) (by decide +kernel)
  | false => exact key "Rays:".toList (by decide +kernel) (by decide +kernel)

/-- **C44** The whole output of vertex enumeration is read back, section by section and in order, as the same points
and directions. -/
theorem C44_output {o : VertexOutput} (hv : ∀ v ∈ o.vertices, Printable v)
    (hr : ∀ r ∈ o.rays, r ≠ [] ∧ ∀ x ∈ r, Spec.IsInt x) :
    ∃ t N, printVertexOutput o = .ok t ∧ ∀ fuel ≥ N,
      (o.vertices ≠ [] → ∃ s rows, verticesConvex fuel ⟨t, false, false⟩ = some (.ok (s, rows)) ∧
        List.Forall₂ Spec.SamePoint o.vertices rows ∧
        (o.rays ≠ [] → ∃ s' rows', verticesConical fuel s = some (.ok (s', rows')) ∧
          List.Forall₂ Spec.SameDirection o.rays rows')) ∧
      (o.vertices = [] → o.rays ≠ [] → ∃ s' rows', verticesConical fuel ⟨t, false, false⟩ = some (.ok (s', rows')) ∧
          List.Forall₂ Spec.SameDirection o.rays rows') := by
  obtain ⟨tv, vs, h1, h2, h3, h4⟩ := printVertexLines_spec o.vertices hv
  obtain ⟨NR, hNR⟩ := rays_read hr
  obtain ⟨R, hR⟩ : ∃ R, R = if o.rays ≠ [] then (if o.reduced then "Reduced ".toList else []) ++ "Rays:\n".toList ++
    printRayLines o.rays else [] := ⟨_, rfl⟩
  have hRend : SectionEnd R := by
    rw [hR]
    by_cases h0 : o.rays = []
    · left; rw [if_neg (by simpa using h0)]
    · right
      rw [if_pos h0]
      cases o.reduced with
      | true => exact ⟨"Reduced Rays:".toList, printRayLines o.rays, ⟨by decide +kernel, Or.inl rfl⟩, by decide +kernel⟩
      | false => exact ⟨"Rays:".toList, printRayLines o.rays, ⟨by decide +kernel, Or.inl rfl⟩, by decide +kernel⟩
  have key : ∀ k : List Char, '\n' ∉ k →
      (isKeywordConvexHull (trimWhitespace k) || isKeywordReducedConvexHull (trimWhitespace k)) = true →
      ∃ N, ∀ fuel ≥ N, ∃ s rows, verticesConvex fuel ⟨k ++ '\n' :: (tv ++ R), false, false⟩ = some (.ok (s, rows)) ∧
        List.Forall₂ Spec.SamePoint o.vertices rows ∧ (o.rays ≠ [] → s = ⟨R, false, false⟩) := by
    intro k hk hkk
    obtain ⟨N, hN⟩ := C41_sections (k := k) (w := R) h2 hk hRend h3
    refine ⟨N, fun fuel hf => ?_⟩
    obtain ⟨s, rows, h5, h6, h7⟩ := (hN fuel hf).1 hkk
    refine ⟨s, rows, h5, h4 rows h6, fun h0 => ?_⟩
    rw [if_pos h0] at hR
    cases hred : o.reduced with
    | true =>
      rw [hred] at hR
      have hR : R = "Reduced Rays:".toList ++ '\n' :: printRayLines o.rays := hR
      rw [hR] at h7 ⊢
      exact afterSection_line (by decide +kernel) h7 (by decide +kernel)
    | false =>
      rw [hred] at hR
      have hR : R = "Rays:".toList ++ '\n' :: printRayLines o.rays := hR
      rw [hR] at h7 ⊢
      exact afterSection_line (by decide +kernel) h7 (by decide +kernel)
  have key2 : ∃ N, ∀ fuel ≥ N, ∃ s rows, verticesConvex fuel ⟨(if o.reduced then "Reduced ".toList else []) ++
      "Vertices:\n".toList ++ tv ++ R, false, false⟩ = some (.ok (s, rows)) ∧
        List.Forall₂ Spec.SamePoint o.vertices rows ∧ (o.rays ≠ [] → s = ⟨R, false, false⟩) := by
    rw [List.append_assoc _ tv R]
    cases o.reduced with
    | true => exact key "Reduced Vertices:".toList (by decide +kernel) (by decide +kernel)
    | false => exact key "Vertices:".toList (by decide +kernel) (by decide +kernel)
  obtain ⟨NV, hNV⟩ := key2
  refine ⟨(if o.vertices ≠ [] then (if o.reduced then "Reduced ".toList else []) ++ "Vertices:\n".toList ++ tv else []) ++ R,
    max NV NR, ?_, fun fuel hf => ⟨fun hne => ?_, fun he h0 => ?_⟩⟩
  · unfold printVertexOutput
    rw [h1, hR]
    rfl
  · obtain ⟨s, rows, h5, h6, h7⟩ := hNV fuel (by omega)
    rw [if_pos hne]
    refine ⟨s, rows, h5, h6, fun h0 => ?_⟩
    rw [h7 h0, hR, if_pos h0]
    exact hNR fuel (by omega)
  · rw [if_neg (by simpa using he), hR, if_pos h0, List.nil_append]
    exact hNR fuel (by omega)

/-! ### a concrete output -/

example : Printable [3, -6, -12] ∧ printFractional [3, -6, -12] = .ok "-1/4 1/2 ".toList := by
  refine ⟨⟨by decide, ?_, by decide⟩, by decide +kernel⟩
  intro x hx
  simp at hx
  unfold Spec.IsInt
  omega

example : printVertexOutput ⟨true, [[3, -6, -12], [2, 0, 1]], [[1, -2]]⟩ =
    .ok "Reduced Vertices:\n-1/4 1/2 \n2 0 \nReduced Rays:\n  1 -2\n".toList := by decide +kernel

example : verticesConvex 20 ⟨"Reduced Vertices:\n-1/4 1/2 \n2 0 \nReduced Rays:\n  1 -2\n".toList, false, false⟩ =
    some (.ok (⟨"Reduced Rays:\n  1 -2\n".toList, false, false⟩, [[-1, 2, 4], [2, 0, 1]])) := by decide +kernel

end Panda
