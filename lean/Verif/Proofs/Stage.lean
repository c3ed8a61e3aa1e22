import Verif.Proofs.SpecBridge

/-! # The state after each step of the elimination -/

namespace Panda

open Cone

/-- the rows and bit sets after `k` iterations of the loop of `phaseTwo`
(algorithm_fourier_motzkin_elimination.cpp:73-99, 335-352), together with the reordered, reduced input
rows `vs` and the number `d` of rows processed before the loop -/
def eliminationState (input : Matrix) (k : Nat) : Matrix × Nat × Matrix × List Words :=
  let gs := gaussSplit input
  let ez := eliminateZeroColumns gs.2.1 input
  let vs := reorder ez.2.1 gs.2.2
  let d := colSize ez.1
  let ops := dispatchOps vs.length
  (vs, d, phaseTwoLoop ops (ops.new vs.length) d ((vs.drop d).take k) (ez.1, initializeR ops ez.1 vs))

theorem dispatch_lawful' (N : Nat) : ∃ law : LawfulBitset (dispatchOps N) N, law.abs = bsAbs := by
  unfold dispatchOps
  simp only
  have key : ∀ s, 1 + (N - 1) / 32 ≤ s → ∃ law : LawfulBitset (fixedOps s) N, law.abs = bsAbs :=
    fun s hs => ⟨fixedOps_lawful s N (by omega), rfl⟩
  have ite : ∀ (s k : Nat) (rest : BitsetOps Words),
      (s = 1 + (N - 1) / 32) → (∃ law : LawfulBitset rest N, law.abs = bsAbs) →
      ∃ law : LawfulBitset (if s ≤ k then fixedOps k else rest) N, law.abs = bsAbs := by
    intro s k rest hs h
    by_cases hk : s ≤ k
    · rw [if_pos hk]; exact key k (by omega)
    · rw [if_neg hk]; exact h
  generalize hs : 1 + (N - 1) / 32 = s
  iterate 17 refine ite _ _ _ hs.symm ?_
  exact ⟨variableOps_lawful N, rfl⟩

theorem phaseTwoLoop_take {B : Type} {ops : BitsetOps B} {N : Nat} (law : LawfulBitset ops N)
    {d : Nat} {vs : Matrix} (hd : 0 < d) (hN : N = vs.length)
    (hlen : ∀ v ∈ vs, v.length = d) (dflt : B) :
    ∀ (k i : Nat) (mR : Matrix × List B), d ≤ i → i + k ≤ vs.length →
      Pointed (wOf d vs) i → PTInv law d vs i mR →
      PTInv law d vs (i + k) (phaseTwoLoop ops dflt i ((vs.drop i).take k) mR) := by
  intro k
  induction k with
  | zero => intro i mR _ _ _ h; simpa [phaseTwoLoop] using h
  | succ k ih =>
    intro i mR hdi hle hp h
    have hi : i < vs.length := by omega
    rw [List.drop_eq_getElem_cons hi, List.take_succ_cons]
    have hv : vs[i] = vs.getD i [] := by simp [List.getD_eq_getElem?_getD, List.getElem?_eq_getElem hi]
    unfold phaseTwoLoop
    have := ih (i+1) (projection ops mR dflt vs[i] i) (by omega) (by omega) (hp.mono (by omega)) (by
      rw [hv]
      refine projection_inv law hd hN hdi hi ?_ hp h dflt
      rw [← hv]; exact hlen _ (List.getElem_mem hi))
    rwa [show i + 1 + k = i + (k + 1) by omega] at this

theorem stage_spec {V : Matrix} {n : Nat} (hV : Rect V V.length n) (hm : 0 < V.length) (hn : 0 < n)
    (hnz : ∃ v ∈ V, ∃ x ∈ v, x ≠ 0) :
    ∃ (vs : Matrix) (d : Nat) (law : LawfulBitset (dispatchOps vs.length) vs.length), law.abs = bsAbs ∧
      0 < d ∧ d ≤ vs.length ∧ vs.length = V.length ∧ Pointed (wOf d vs) d ∧
      ∀ k, d + k ≤ vs.length → ∃ mR, eliminationState V k = (vs, d, mR) ∧ PTInv law d vs (d + k) mR := by
  have hsp := gaussSplit_spec hV hm hn
  set R := (gaussSplit V).2.1 with hRdef
  set T := (gaussSplit V).2.2 with hT
  have hR := hsp.rows_ne_nil hV.2 hnz
  obtain ⟨h1, h2, h3, h4, h5, h6, h7, h8, h9, h10⟩ := base_facts hV hsp hR
  set zs := zeroCols R with hzs
  set vs := reorder (V.map (eraseAll zs)) T with hvs
  set m := R.map (eraseAll zs) with hmm
  have hlen : ∀ v ∈ vs, v.length = R.length := by
    intro v hv
    obtain ⟨v', hv', rfl⟩ := List.mem_map.mp (h4.mem_iff.mp hv)
    rw [eraseAll_length h1 (hV.2 v' hv')]; omega
  obtain ⟨law, hlaw⟩ := dispatch_lawful' vs.length
  have hcolm : colSize m = R.length :=
    (show Rect m m.length R.length from ⟨rfl, fun r hr => (h7 r hr).1⟩).colSize (by simp [hmm]; exact h3)
  refine ⟨vs, R.length, law, hlaw, h3, h6, by rw [h4.length_eq]; simp, h8, fun k hk => ?_⟩
  have hez : eliminateZeroColumns (gaussSplit V).2.1 V = (m, V.map (eraseAll zs), zs) := by
    unfold eliminateZeroColumns
    rw [eliminateZeroColumnsLoop_eq]
    simp only [List.nil_append]
    rfl
  refine ⟨_, ?_, phaseTwoLoop_take law h3 rfl hlen ((dispatchOps vs.length).new vs.length) k R.length
    (m, initializeR (dispatchOps vs.length) m vs) le_rfl hk h8
    (initializeR_inv law rfl (by simp [hmm]) h6 h7 h9)⟩
  unfold eliminationState
  simp only [hez, hcolm]
  rfl

end Panda
