import Verif.Proofs.Expand
import Verif.Spec.ReducedFile

/-! # Maps that exchange coordinates and change signs do not overflow -/

namespace Panda

/-- absolute value at most `2^31 - 1` -/
def SymInt (x : Int) : Prop := -2147483647 ≤ x ∧ x ≤ 2147483647

theorem SymInt.isInt {x : Int} (h : SymInt x) : Spec.IsInt x := by unfold SymInt at h; unfold Spec.IsInt; omega

theorem machine_sym {x : Int} (h : SymInt x) : machineInt 32 x = .ok x := by rw [machineInt32, if_pos h.isInt]

theorem tdiv_sym {a b : Int} (h : SymInt a) : SymInt (a.tdiv b) := by
  have h1 := Int.natAbs_tdiv_le_natAbs a b
  unfold SymInt at *; omega

theorem sym_divLaw : DivLaw (fixedArith 32) SymInt False False where
  zero := by unfold SymInt; omega
  div a b ha _ hb := by
    show Sim _ _ SymInt (if b = 0 then .ub else machineInt 32 (a.tdiv b)) _
    rw [if_neg hb, machine_sym (tdiv_sym ha)]; exact Sim.ok (tdiv_sym ha)
  mod a b ha hb h1 h2 := by
    show Sim _ _ SymInt (if b = 0 then .ub else (machineInt 32 (a.tdiv b)).bind fun _ => machineInt 32 (a.tmod b)) _
    have hm : SymInt (a % b) := by
      have := Int.emod_nonneg a (b := b) (by omega)
      have := Int.emod_lt_of_pos a h2
      unfold SymInt at *; omega
    rw [if_neg h2.ne', machine_sym (tdiv_sym ha), Int.tmod_eq_emod_of_nonneg h1, machine_sym hm]
    exact Sim.ok hm
  abs a ha := by
    show Sim _ _ SymInt (if a < 0 then machineInt 32 (-a) else .ok a) _
    have hs : SymInt (a.natAbs : Int) := by unfold SymInt at *; omega
    by_cases h3 : a < 0
    · rw [if_pos h3, show -a = (a.natAbs : Int) by omega, machine_sym hs]; exact Sim.ok hs
    · rw [if_neg h3, show a = (a.natAbs : Int) by omega]; exact Sim.ok hs

/-- the coordinate that a term of the image of coordinate `p.1` adds to -/
def target (tag : Tag) (p : Nat × Term) : Nat := match tag with | .facet => p.2.1 | .vertex => p.1

/-- the terms of all images with the number of the image -/
def flatTerms : Nat → SymMap → List (Nat × Term)
  | _, [] => []
  | i, im :: ims => im.map (fun t => (i, t)) ++ flatTerms (i + 1) ims

theorem applyImage_flat (A : Arith) (tag : Tag) (input : Row) (i : Nat) : ∀ (im : Image) (r : Row),
    Typed.applyImage A tag input i r im = Typed.foldM (fun r p => Typed.applyTerm A tag input p.1 r p.2) r (im.map fun t => (i, t))
  | [], _ => rfl
  | t :: ts, r => by
    show Outcome.bind _ _ = Outcome.bind _ _
    congr 1; funext r'; exact applyImage_flat A tag input i ts r'

theorem foldM_append {α β : Type} (f : β → α → Outcome β) : ∀ (l l' : List α) (b : β),
    Typed.foldM f b (l ++ l') = (Typed.foldM f b l).bind fun b' => Typed.foldM f b' l'
  | [], _, _ => rfl
  | a :: l, l', b => by
    show Outcome.bind _ _ = _
    rw [Typed.foldM]
    cases f b a with
    | ok b' => exact foldM_append f l l' b'
    | thrown => rfl
    | ub => rfl

theorem applyLoop_flat (A : Arith) (tag : Tag) (input : Row) : ∀ (ims : SymMap) (i : Nat) (r : Row),
    Typed.applyLoop A tag input i r ims = Typed.foldM (fun r p => Typed.applyTerm A tag input p.1 r p.2) r (flatTerms i ims)
  | [], _, _ => rfl
  | im :: ims, i, r => by
    rw [Typed.applyLoop, flatTerms, foldM_append, applyImage_flat]
    congr 1; funext r'; exact applyLoop_flat A tag input ims (i + 1) r'

/-- every coordinate gets at most one non-zero contribution, and the factors are 0, 1 or -1 -/
def Sparse (tag : Tag) (l : List (Nat × Term)) : Prop :=
  l.Pairwise (fun p q => target tag p = target tag q → p.2.2 = 0 ∨ q.2.2 = 0) ∧ ∀ p ∈ l, p.2.2 = 0 ∨ p.2.2 = 1 ∨ p.2.2 = -1

theorem applyTerm_sym {tag : Tag} {input r : Row} {p : Nat × Term} (hi : RowR SymInt input) (h1 : p.1 < input.length) (h2 : p.2.1 < input.length)
    (hl : r.length = input.length) (hr : RowR SymInt r) (hf : p.2.2 = 0 ∨ p.2.2 = 1 ∨ p.2.2 = -1) (h0 : r.getD (target tag p) 0 = 0 ∨ p.2.2 = 0) :
    ∃ y, SymInt y ∧ (p.2.2 = 0 → y = r.getD (target tag p) 0) ∧
      Typed.applyTerm (fixedArith 32) tag input p.1 r p.2 = .ok (r.set (target tag p) y) := by
  have key : ∀ x y : Int, SymInt x → SymInt y → (y = 0 ∨ p.2.2 = 0) → SymInt (p.2.2 * x) ∧ SymInt (y + p.2.2 * x) := by
    intro x y hx hy h
    unfold SymInt at *
    rcases hf with e | e | e <;> rw [e] <;> rw [e] at h <;> omega
  have hof : (fixedArith 32).ofInt p.2.2 = .ok p.2.2 := by
    show Outcome.ok (narrow 32 p.2.2) = _
    rw [narrow_isInt]; unfold Spec.IsInt; rcases hf with e | e | e <;> rw [e] <;> omega
  have fin : ∀ x y : Int, SymInt x → SymInt y → (y = 0 ∨ p.2.2 = 0) → ∀ j : Nat,
      ((fixedArith 32).ofInt p.2.2).bind (fun f => ((fixedArith 32).mul f x).bind fun q => ((fixedArith 32).add y q).bind fun s => .ok (r.set j s)) =
        .ok (r.set j (y + p.2.2 * x)) := by
    intro x y hx hy h j
    obtain ⟨k1, k2⟩ := key x y hx hy h
    rw [hof]
    show (machineInt 32 (p.2.2 * x)).bind (fun q => (machineInt 32 (y + q)).bind fun s => .ok (r.set j s)) = _
    rw [machine_sym k1]
    show (machineInt 32 (y + p.2.2 * x)).bind (fun s => .ok (r.set j s)) = _
    rw [machine_sym k2]; rfl
  cases tag with
  | facet =>
    have hx : SymInt input[p.1] := hi _ (List.getElem_mem h1)
    have h2' : p.2.1 < r.length := by omega
    have hy : SymInt r[p.2.1] := hr _ (List.getElem_mem h2')
    have e : r.getD p.2.1 0 = r[p.2.1] := getD_lt h2'
    have h0' : r[p.2.1] = 0 ∨ p.2.2 = 0 := by rw [← e]; exact h0
    refine ⟨_, (key _ _ hx hy h0').2, fun h => ?_, ?_⟩
    · show _ = r.getD p.2.1 0; rw [h, e]; ring
    · unfold Typed.applyTerm
      simp only [List.getElem?_eq_getElem h1, List.getElem?_eq_getElem h2']
      exact fin _ _ hx hy h0' _
  | vertex =>
    have hx : SymInt input[p.2.1] := hi _ (List.getElem_mem h2)
    have h1' : p.1 < r.length := by omega
    have hy : SymInt r[p.1] := hr _ (List.getElem_mem h1')
    have e : r.getD p.1 0 = r[p.1] := getD_lt h1'
    have h0' : r[p.1] = 0 ∨ p.2.2 = 0 := by rw [← e]; exact h0
    refine ⟨_, (key _ _ hx hy h0').2, fun h => ?_, ?_⟩
    · show _ = r.getD p.1 0; rw [h, e]; ring
    · unfold Typed.applyTerm
      simp only [List.getElem?_eq_getElem h2, List.getElem?_eq_getElem h1']
      exact fin _ _ hx hy h0' _

theorem applyFlat_sym {tag : Tag} {input : Row} (hi : RowR SymInt input) : ∀ (l : List (Nat × Term)) (r : Row), Sparse tag l →
    (∀ p ∈ l, p.1 < input.length ∧ p.2.1 < input.length) → r.length = input.length → RowR SymInt r →
    (∀ p ∈ l, r.getD (target tag p) 0 = 0 ∨ p.2.2 = 0) →
    ∃ r', Typed.foldM (fun r p => Typed.applyTerm (fixedArith 32) tag input p.1 r p.2) r l = .ok r' ∧ RowR SymInt r'
  | [], r, _, _, _, hr, _ => ⟨r, rfl, hr⟩
  | p :: l, r, hs, hb, hl, hr, h0 => by
    obtain ⟨hs1, hs2⟩ := hs
    rw [List.pairwise_cons] at hs1
    obtain ⟨y, y1, y2, y3⟩ := applyTerm_sym (tag := tag) hi (hb p (by simp)).1 (hb p (by simp)).2 hl hr (hs2 p (by simp)) (h0 p (by simp))
    have ht : target tag p < r.length := by rw [hl]; cases tag <;> simp [target, hb p]
    rw [Typed.foldM, y3]
    refine applyFlat_sym hi l _ ⟨hs1.2, fun q hq => hs2 q (by simp [hq])⟩ (fun q hq => hb q (by simp [hq])) (by simp [hl]) ?_ ?_
    · intro x hx
      rcases List.mem_or_eq_of_mem_set hx with h | rfl
      · exact hr x h
      · exact y1
    · intro q hq
      rw [getD_set ht]
      split
      · next e =>
        rcases hs1.1 q hq e.symm with h | h
        · rw [y2 h]; rw [← e]; exact h0 q (by simp [hq])
        · exact Or.inr h
      · exact h0 q (by simp [hq])

theorem mem_flatTerms {p : Nat × Term} : ∀ {ims : SymMap} {i : Nat}, p ∈ flatTerms i ims ↔ ∃ k, p.1 = i + k ∧ p.2 ∈ ims.getD k []
  | [], i => by simp [flatTerms]
  | im :: ims, i => by
    rw [flatTerms, List.mem_append, mem_flatTerms (ims := ims)]
    constructor
    · rintro (h | ⟨k, h1, h2⟩)
      · obtain ⟨t, ht, rfl⟩ := List.mem_map.1 h
        exact ⟨0, rfl, ht⟩
      · exact ⟨k + 1, by omega, h2⟩
    · rintro ⟨k, h1, h2⟩
      cases k with
      | zero => exact Or.inl (List.mem_map.2 ⟨p.2, h2, by rw [show i = p.1 by omega]⟩)
      | succ k => exact Or.inr ⟨k, by omega, h2⟩

/-- maps that add at most one entry to every coordinate do not overflow -/
theorem stepsFit_sparse {maps : Maps} {tag : Tag} {n : Nat} (hm : ∀ m ∈ maps, Spec.IsMap n m ∧ Sparse tag (flatTerms 0 m))
    (hn : ∀ x : Row, x.length = n → ∀ m ∈ maps, ∃ y, applyMap m x tag = .ok y ∧ y.length = n) :
    StepsFit maps tag n False (RowR SymInt) := by
  intro x hx hl
  have hxi : RowR Spec.IsInt x := fun z hz => (hx z hz).isInt
  refine ⟨hxi, fun m hmm => ?_⟩
  obtain ⟨⟨m1, m2⟩, m3⟩ := hm m hmm
  obtain ⟨y, h1, h2⟩ := hn x hl m hmm
  have hb : ∀ p ∈ flatTerms 0 m, p.1 < x.length ∧ p.2.1 < x.length := by
    intro p hp
    obtain ⟨k, k1, k2⟩ := mem_flatTerms.1 hp
    have hk : k < m.length := by
      by_contra hk
      rw [List.getD_eq_getElem?_getD, List.getElem?_eq_none (by omega)] at k2; simp at k2
    rw [List.getD_eq_getElem?_getD, List.getElem?_eq_getElem hk, Option.getD_some] at k2
    exact ⟨by omega, by rw [hl]; exact m2 _ (List.getElem_mem hk) _ k2⟩
  obtain ⟨r, r1, r2⟩ := applyFlat_sym (tag := tag) hx (flatTerms 0 m) (List.replicate x.length 0) m3 hb (by simp)
    (fun z hz => by rw [(List.mem_replicate.1 hz).2]; unfold SymInt; omega) (fun p hp => by
      left
      have ht : target tag p < x.length := by cases tag <;> simp [target, hb p hp]
      rw [getD_lt (by simpa using ht)]; simp)
  have e : Typed.applyMap (fixedArith 32) m x tag = Typed.makePrimitive (fixedArith 32) r := by
    unfold Typed.applyMap
    rw [applyLoop_flat, r1]; rfl
  rcases makePrimitive_sim sym_divLaw r2 with ⟨e1, h⟩ | ⟨h, -⟩ | ⟨h, -⟩
  · refine ⟨y, h1, h2, Or.inl ?_⟩
    have hfac : MapR Spec.IsInt m := fun im him t ht => by
      obtain ⟨k, hk, rfl⟩ := List.getElem_of_mem him
      have := m3.2 (k, t) (mem_flatTerms.2 ⟨k, by simp, by
        rw [List.getD_eq_getElem?_getD, List.getElem?_eq_getElem hk, Option.getD_some]; exact ht⟩)
      unfold Spec.IsInt
      dsimp only at this
      omega
    rcases applyMap_sim (fixed32_law False) fixed32_ofInt (tag := tag) hxi hfac with ⟨e', -⟩ | ⟨h, -⟩ | ⟨-, h⟩
    · rw [e', h1]; rw [e', h1, e1] at e; cases e
      exact ⟨rfl, h _ rfl⟩
    · exact h.elim
    · rw [e, e1] at h; cases h
  · exact h.elim
  · exact h.elim

theorem flatTerms_pairwise {R : Nat × Term → Nat × Term → Prop} : ∀ {ims : SymMap} {i : Nat},
    (∀ k, (ims.getD k []).Pairwise fun s t => R (i + k, s) (i + k, t)) →
    (∀ k k', k < k' → ∀ s ∈ ims.getD k [], ∀ t ∈ ims.getD k' [], R (i + k, s) (i + k', t)) → (flatTerms i ims).Pairwise R
  | [], i, _, _ => List.Pairwise.nil
  | im :: ims, i, h1, h2 => by
    rw [flatTerms, List.pairwise_append]
    refine ⟨?_, flatTerms_pairwise (fun k => ?_) fun k k' hk s hs t ht => ?_, ?_⟩
    · rw [List.pairwise_map]; exact h1 0
    · have := h1 (k + 1)
      rwa [show i + 1 + k = i + (k + 1) by omega]
    · have := h2 (k + 1) (k' + 1) (by omega) s hs t ht
      rwa [show i + 1 + k = i + (k + 1) by omega, show i + 1 + k' = i + (k' + 1) by omega]
    · intro p hp q hq
      obtain ⟨s, hs, rfl⟩ := List.mem_map.1 hp
      obtain ⟨k, k1, k2⟩ := mem_flatTerms.1 hq
      have := h2 0 (k + 1) (by omega) s hs q.2 k2
      rw [show i + (k + 1) = q.1 by omega] at this
      exact this

theorem imFactor_nodup {t : Term} : ∀ {im : Image}, (im.map Prod.fst).Nodup → t ∈ im → imFactor im t.1 = t.2
  | [], _, h => by simp at h
  | s :: im, hn, h => by
    rw [List.map_cons, List.nodup_cons] at hn
    rw [imFactor_cons]
    have zero : ∀ {j : Nat} {im : Image}, j ∉ im.map Prod.fst → imFactor im j = 0 := by
      intro j im hj
      unfold imFactor
      rw [List.filter_eq_nil_iff.2]
      · rfl
      · intro a ha hd; exact hj (List.mem_map.2 ⟨a, ha, by simpa using hd⟩)
    rcases List.mem_cons.1 h with rfl | h
    · rw [if_pos rfl, zero hn.1, add_zero]
    · rw [if_neg, zero_add, imFactor_nodup hn.2 h]
      intro e; exact hn.1 (List.mem_map.2 ⟨t, h, e.symm⟩)

section
variable {names : Names} {n : Nat} {ls : List (List (Option (List Char) × Int))} {m : SymMap}

/-- the factors of an image that is a variable with a sign -/
theorem factor_signed (hn : names.Nodup) (hl : names.length = n) (hls : ls.length = n) (h : Spec.DoesImages names ls m) {i : Nat} (hi : i < n)
    {x : List Char} {s : Int} (he : ls.getD i [] = [(some x, s)]) :
    ∀ j ≤ n, Spec.factor m i j = if j < n ∧ names.idxOf x = j then s else 0 := by
  have ex : ∀ p : Fin n → ℚ, ∑ j : Fin n, (Spec.factor m i j : ℚ) * p j + (Spec.factor m i n : ℚ) = (s : ℚ) * Spec.valuation names p x := fun p => by
    have := congrFun (pushed_hom hn hl hls h p) (Fin.castSucc ⟨i, hi⟩)
    rw [hom_castSucc] at this
    unfold Spec.pushed Spec.mapPoint at this
    rw [Fin.sum_univ_castSucc] at this
    simp only [he, Spec.imageValue, List.map_cons, List.map_nil, List.sum_cons, List.sum_nil, add_zero, Option.elim] at this
    simpa [hom_castSucc, hom_last] using this
  have e0 := ex 0
  have v0 : Spec.valuation names (0 : Fin n → ℚ) x = 0 := by unfold Spec.valuation; split <;> rfl
  simp only [Pi.zero_apply, mul_zero, Finset.sum_const_zero, zero_add, v0] at e0
  intro j hj
  by_cases hjn : j = n
  · subst hjn
    rw [if_neg (by omega)]; exact_mod_cast e0
  · have hjn' : j < n := by omega
    have := ex (Pi.single ⟨j, hjn'⟩ 1)
    rw [e0, add_zero, Finset.sum_eq_single ⟨j, hjn'⟩] at this
    · simp only [Pi.single_eq_same, mul_one] at this
      unfold Spec.valuation at this
      by_cases hx : names.idxOf x = j
      · rw [if_pos ⟨hjn', hx⟩]
        rw [dif_pos (by omega)] at this
        have e : (⟨names.idxOf x, by omega⟩ : Fin n) = ⟨j, hjn'⟩ := Fin.ext hx
        rw [e, Pi.single_eq_same, mul_one] at this
        exact_mod_cast this
      · rw [if_neg (fun h => hx h.2)]
        have e : (if h : names.idxOf x < n then (Pi.single (⟨j, hjn'⟩ : Fin n) (1 : ℚ) : Fin n → ℚ) ⟨names.idxOf x, h⟩ else 0) = 0 := by
          split
          · rw [Pi.single_eq_of_ne]; intro e; exact hx (congrArg Fin.val e)
          · rfl
        rw [e, mul_zero] at this
        exact_mod_cast this
    · intro b _ hb; rw [Pi.single_eq_of_ne hb, mul_zero]
    · intro h; exact absurd (Finset.mem_univ _) h

theorem signed_rows (hn : names.Nodup) (hl : names.length = n) (hls : ls.length = n) (h : Spec.DoesImages names ls m) (hsv : Spec.SignedVariables ls) :
    (∀ im ∈ m, (im.map Prod.fst).Nodup) ∧ ∀ i, ∀ t ∈ m.getD i [], i ≤ n ∧ t.1 ≤ n ∧ t.2 = Spec.factor m i t.1 ∧
      ((i < n ∧ ∃ x s, ls.getD i [] = [(some x, s)] ∧ (s = 1 ∨ s = -1) ∧ ∀ j ≤ n, Spec.factor m i j = if j < n ∧ names.idxOf x = j then s else 0) ∨
        (i = n ∧ ∀ j ≤ n, Spec.factor m i j = if j = n then 1 else 0)) := by
  have hnd : ∀ im ∈ m, (im.map Prod.fst).Nodup := h.2.2.2 fun l hl' => by
    obtain ⟨x, s, rfl, -⟩ := hsv l hl'; simp
  refine ⟨hnd, fun i t ht => ?_⟩
  have hi : i < m.length := by
    by_contra hk
    rw [List.getD_eq_getElem?_getD, List.getElem?_eq_none (by omega)] at ht; simp at ht
  have eg : m.getD i [] = m[i] := by rw [List.getD_eq_getElem?_getD, List.getElem?_eq_getElem hi, Option.getD_some]
  have hi' : i ≤ n := by have := h.1.size; omega
  have ht1 : t.1 ≤ n := by
    have := h.1.range m[i] (List.getElem_mem hi) t (by rw [← eg]; exact ht)
    omega
  refine ⟨hi', ht1, ?_, ?_⟩
  · rw [factor_eq, imFactor_nodup (by rw [eg]; exact hnd _ (List.getElem_mem hi)) ht]
  · by_cases hin : i = n
    · right; subst hin; exact ⟨rfl, affine_of_does hn hl hls h⟩
    · left
      have hlt : i < ls.length := by omega
      obtain ⟨x, s, e, hs⟩ := hsv ls[i] (List.getElem_mem hlt)
      have e' : ls.getD i [] = [(some x, s)] := by rw [List.getD_eq_getElem?_getD, List.getElem?_eq_getElem hlt, Option.getD_some, e]
      exact ⟨by omega, x, s, e', hs, factor_signed hn hl hls h (by omega) e'⟩

theorem getD_nodup (hnd : ∀ im ∈ m, (im.map Prod.fst).Nodup) (k : Nat) : (m.getD k []).Pairwise fun s t => s.1 ≠ t.1 := by
  by_cases hk : k < m.length
  · rw [List.getD_eq_getElem?_getD, List.getElem?_eq_getElem hk, Option.getD_some]
    have := hnd _ (List.getElem_mem hk)
    unfold List.Nodup at this
    rwa [List.pairwise_map] at this
  · rw [List.getD_eq_getElem?_getD, List.getElem?_eq_none (by omega)]; exact List.Pairwise.nil

theorem signed_unit (hn : names.Nodup) (hl : names.length = n) (hls : ls.length = n) (h : Spec.DoesImages names ls m) (hsv : Spec.SignedVariables ls) :
    ∀ p ∈ flatTerms 0 m, p.2.2 = 0 ∨ p.2.2 = 1 ∨ p.2.2 = -1 := by
  intro p hp
  obtain ⟨k, k1, k2⟩ := mem_flatTerms.1 hp
  obtain ⟨h1, h2, h3, ⟨h4, x, s, -, h5, h6⟩ | ⟨rfl, h6⟩⟩ := (signed_rows hn hl hls h hsv).2 k p.2 k2
  · rw [h3, h6 _ h2]; split
    · rcases h5 with rfl | rfl <;> simp
    · simp
  · rw [h3, h6 _ h2]; split <;> simp

/-- the images of points -/
theorem sparse_vertex (hn : names.Nodup) (hl : names.length = n) (hls : ls.length = n) (h : Spec.DoesImages names ls m) (hsv : Spec.SignedVariables ls) :
    Sparse .vertex (flatTerms 0 m) := by
  obtain ⟨hnd, hr⟩ := signed_rows hn hl hls h hsv
  refine ⟨flatTerms_pairwise (fun k => ?_) ?_, signed_unit hn hl hls h hsv⟩
  · refine (List.Pairwise.and_mem.1 (getD_nodup hnd k)).imp ?_
    rintro s t ⟨hs, ht, hne⟩ -
    obtain ⟨h1, h2, h3, ⟨h4, x, c, -, h5, h6⟩ | ⟨rfl, h6⟩⟩ := hr k s hs
    · obtain ⟨-, k2, k3, -⟩ := hr k t ht
      show s.2 = 0 ∨ t.2 = 0
      rw [h3, k3, h6 _ h2, h6 _ k2]
      by_cases e : s.1 < n ∧ names.idxOf x = s.1
      · right; rw [if_neg]; rintro ⟨-, e'⟩; exact hne (e.2.symm.trans e')
      · left; rw [if_neg e]
    · obtain ⟨-, k2, k3, -⟩ := hr _ t ht
      show s.2 = 0 ∨ t.2 = 0
      rw [h3, k3, h6 _ h2, h6 _ k2]
      by_cases e : s.1 = k
      · right; rw [if_neg]; intro e'; exact hne (e.trans e'.symm)
      · left; rw [if_neg e]
  · intro k k' hk s _ t _ e
    have e' : 0 + k = 0 + k' := e
    omega

/-- the images of inequalities -/
theorem sparse_facet (hn : names.Nodup) (hl : names.length = n) (hls : ls.length = n) (h : Spec.DoesImages names ls m) (hsv : Spec.SignedPermutation ls) :
    Sparse .facet (flatTerms 0 m) := by
  obtain ⟨hnd, hr⟩ := signed_rows hn hl hls h hsv.1
  refine ⟨flatTerms_pairwise (fun k => ?_) ?_, signed_unit hn hl hls h hsv.1⟩
  · exact (getD_nodup hnd k).imp fun hne e => absurd e hne
  · intro k k' hk s hs t ht e
    replace e : s.1 = t.1 := e
    show s.2 = 0 ∨ t.2 = 0
    obtain ⟨h1, h2, h3, ⟨h4, x, c, hx, h5, h6⟩ | ⟨rfl, h6⟩⟩ := hr k s hs
    · obtain ⟨k1, k2, k3, ⟨k4, y, c', hy, k5, k6⟩ | ⟨rfl, k6⟩⟩ := hr k' t ht
      · rw [h3, k3, h6 _ h2, k6 _ k2, ← e]
        by_cases e1 : s.1 < n ∧ names.idxOf x = s.1
        · right
          rw [if_neg]
          rintro ⟨-, e2⟩
          have hxm : x ∈ names := List.idxOf_lt_length_iff.1 (by omega)
          have hym : y ∈ names := List.idxOf_lt_length_iff.1 (by omega)
          have hxy : x = y := (List.idxOf_inj hxm).1 (e1.2.trans e2.symm)
          subst hxy
          have hnd2 := hsv.2
          have a1 : (ls.map fun l => l.map Prod.fst)[k]? = some [some x] := by
            rw [List.getElem?_map, List.getElem?_eq_getElem (by omega : k < ls.length)]
            rw [List.getD_eq_getElem?_getD, List.getElem?_eq_getElem (by omega : k < ls.length), Option.getD_some] at hx
            rw [hx]; rfl
          have a2 : (ls.map fun l => l.map Prod.fst)[k']? = some [some x] := by
            rw [List.getElem?_map, List.getElem?_eq_getElem (by omega : k' < ls.length)]
            rw [List.getD_eq_getElem?_getD, List.getElem?_eq_getElem (by omega : k' < ls.length), Option.getD_some] at hy
            rw [hy]; rfl
          have := (List.getElem?_inj (by simpa using (by omega : k < ls.length)) hnd2).1 (a1.trans a2.symm)
          omega
        · left; rw [if_neg e1]
      · rw [h3, k3, h6 _ h2, k6 _ k2, ← e]
        by_cases e1 : s.1 < k' ∧ names.idxOf x = s.1
        · right; rw [if_neg (by omega)]
        · left; rw [if_neg e1]
    · obtain ⟨k1, -⟩ := hr k' t ht
      omega

end

end Panda
