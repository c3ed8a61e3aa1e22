import Verif.Props.Cluster
import Verif.Props.VertexAD
import Verif.Props.MainAD

/-! # C71 for vertex enumeration -/

namespace Panda

open Cone Relation

variable {d : Nat} {A : Matrix} {maps : Maps} {known : Matrix}

theorem ThreeDim.of_plane (hE : ∀ x : Fin (d+1) → ℚ, (∀ a ∈ A, ev (d+1) a x = 0) → x = 0) (h : Spec.Plane (Spec.Solves d A)) : ThreeDim (d+1) A := by
  obtain ⟨p, q, r, hp, hq, hr, hind⟩ := h
  rintro ⟨x, y, hxy⟩
  have hval : ∀ p, Spec.Solves d A p → valL (d+1) A (hom d p) ∈ Submodule.span ℚ {x, y} := fun p hp => hxy _ (solves_iff.mp hp)
  have hli : LinearIndependent ℚ ![valL (d+1) A (hom d p), valL (d+1) A (hom d q), valL (d+1) A (hom d r)] := by
    rw [Fintype.linearIndependent_iff]
    intro g hg
    rw [Fin.sum_univ_three] at hg
    simp only [Matrix.cons_val_zero, Matrix.cons_val_one, Matrix.cons_val_two, Matrix.tail_cons, Matrix.head_cons] at hg
    rw [← map_smul, ← map_smul, ← map_smul, ← map_add, ← map_add] at hg
    have h0 := hE _ fun a ha => by
      obtain ⟨j, hj, rfl⟩ := List.getElem_of_mem ha
      have h1 := congrFun hg ⟨j, hj⟩
      rw [valL_apply] at h1
      exact h1
    have hlast : g 0 + g 1 + g 2 = 0 := by
      have := congrFun h0 (Fin.last d)
      simpa [hom] using this
    have hrest : g 1 • (q - p) + g 2 • (r - p) = 0 := by
      funext i
      have := congrFun h0 i.castSucc
      simp [hom] at this
      simp only [Pi.add_apply, Pi.smul_apply, Pi.sub_apply, smul_eq_mul, Pi.zero_apply]
      have e : g 0 = - g 1 - g 2 := by linarith
      rw [e] at this
      linarith
    obtain ⟨h1, h2⟩ := hind _ _ hrest
    have h3 : g 0 = 0 := by linarith
    intro i
    fin_cases i
    · exact h3
    · exact h1
    · exact h2
  have h1 := finrank_span_eq_card hli
  have h2 : Submodule.span ℚ (Set.range ![valL (d+1) A (hom d p), valL (d+1) A (hom d q), valL (d+1) A (hom d r)]) ≤ Submodule.span ℚ {x, y} := by
    rw [Submodule.span_le]
    rintro _ ⟨i, rfl⟩
    fin_cases i
    · exact hval p hp
    · exact hval q hq
    · exact hval r hr
  have h3 := Submodule.finrank_mono h2
  classical
  have h4 : Module.finrank ℚ (Submodule.span ℚ (({x, y} : Finset (Fin A.length → ℚ)) : Set (Fin A.length → ℚ))) ≤ _ :=
    finrank_span_finset_le_card ({x, y} : Finset (Fin A.length → ℚ))
  have h5 : ({x, y} : Finset (Fin A.length → ℚ)).card ≤ 2 := Finset.card_le_two
  rw [Finset.coe_insert, Finset.coe_singleton] at h4
  rw [h1, Fintype.card_fin] at h3
  omega

/-- **C71**, vertices: on any number of nodes, for every interleaving: what the master prints are vertices and extreme rays, no two of
them equal or equivalent. -/
theorem C71_vertices_sound (hA : ∀ a ∈ A, a.length = d + 1) (htriv : List.replicate d 0 ++ [-1] ∈ A)
    (hsat : ∃ p, Spec.Solves d A p) (hline : ¬ Spec.HasLine d A) (hd : 0 < d)
    (hmaps : ∀ m ∈ maps, Spec.IsSolutionSymmetry (d+1) A m) (hknown : ∀ k ∈ known, Spec.IsFacet (d+1) A k) :
    ∃ a N, (∀ fuel ≥ N, adStartVertices fuel A maps known = some (.ok a)) ∧
      ∀ (ι κ ν : Type) [DecidableEq ι] [Fintype ι] [DecidableEq κ] [Fintype κ] [DecidableEq ν] (node : ι → Option ν) (home : κ → ν)
        (eager : Bool) (s : Cluster ι κ ν), ClusterReach (adCluster node home eager A .vertex a) s →
        s.pool.printed.Nodup ∧
        (∀ r ∈ s.pool.printed, r.length = d + 1 ∧ 0 ≤ r.getD d 0 ∧ Spec.PrimitiveRow r ∧ Spec.IsExtremeRay (d+1) A r) ∧
        ∀ r ∈ s.pool.printed, ∀ r' ∈ s.pool.printed, Spec.PointOrbit (d+1) A maps r r' → r = r' := by
  obtain ⟨-, -, -, -, hE, -⟩ := ve_elim hA htriv hsat hline
  obtain ⟨a, N, h1, h2⟩ := C20_sound_partial hA htriv hsat hline (by rw [rank_of_no_annihilator hE]; omega) hmaps hknown
  refine ⟨a, N, h1, fun ι κ ν _ _ _ _ _ node home eager s hs => ?_⟩
  obtain ⟨b, π, e1, -, e3, -⟩ := (clusterInv hs).follows
  have := (h2 ι (fun i => node i ≠ none)).1 b e1
  rwa [e3.printed] at this

/-- C71, vertices: as soon as one thread of any node has left its loop, every vertex and every extreme ray is equivalent to exactly one
printed row, provided no edge leads straight away from the origin (see C20). -/
theorem C71_vertices_complete_partial (hA : ∀ a ∈ A, a.length = d + 1) (htriv : List.replicate d 0 ++ [-1] ∈ A)
    (hsat : ∃ p, Spec.Solves d A p) (hline : ¬ Spec.HasLine d A) (hd : 0 < d)
    (hmaps : ∀ m ∈ maps, Spec.IsSolutionSymmetry (d+1) A m) (hknown : ∀ k ∈ known, Spec.IsFacet (d+1) A k)
    (hedge : ∀ v, Spec.Vertex (Spec.Solves d A) v → ∀ t : ℚ, 0 < t → ¬ Spec.Edge (Spec.Solves d A) v (t • Spec.outward v)) :
    ∃ a N, (∀ fuel ≥ N, adStartVertices fuel A maps known = some (.ok a)) ∧
      ∀ (ι κ ν : Type) [DecidableEq ι] [Fintype ι] [DecidableEq κ] [Fintype κ] [DecidableEq ν] (node : ι → Option ν) (home : κ → ν)
        (eager : Bool) (s : Cluster ι κ ν), ClusterReach (adCluster node home eager A .vertex a) s →
        ((∃ i, s.pool.pc i = .stopped) ∨ ∃ k, s.slave k = .stopped) → ∀ g, g.length = d + 1 → Spec.PrimitiveRow g → Spec.IsExtremeRay (d+1) A g →
          ∃! r, r ∈ s.pool.printed ∧ Spec.PointOrbit (d+1) A maps r g := by
  obtain ⟨a, N, h1, h2⟩ := C20_complete_partial hA htriv hsat hline hd hmaps hknown hedge
  refine ⟨a, N, h1, fun ι κ ν _ _ _ _ _ node home eager s hs hst => ?_⟩
  obtain ⟨b, π, e1, -, e3, e4⟩ := (clusterInv hs).follows
  have := h2 ι (fun i => node i ≠ none) b e1 (stopped_in_pool hst e1 e3 e4)
  rwa [e3.printed] at this

/-- C71, vertices: with the same number of threads on all machines and a solution set of dimension at least two, the distributed run
terminates, on all nodes. -/
theorem C71_vertices_terminates (hA : ∀ a ∈ A, a.length = d + 1) (htriv : List.replicate d 0 ++ [-1] ∈ A)
    (hline : ¬ Spec.HasLine d A) (hplane : Spec.Plane (Spec.Solves d A))
    (hmaps : ∀ m ∈ maps, Spec.IsSolutionSymmetry (d+1) A m) (hknown : ∀ k ∈ known, Spec.IsFacet (d+1) A k) :
    ∃ a N, (∀ fuel ≥ N, adStartVertices fuel A maps known = some (.ok a)) ∧
      ∀ (ι κ ν : Type) [DecidableEq ι] [Fintype ι] [DecidableEq κ] [Fintype κ] [DecidableEq ν] [Fintype ν] (node : ι → Option ν) (home : κ → ν)
        (eager : Bool), (∃ i, node i = none) →
        (∀ n, (Finset.univ.filter fun k => home k = n).card = (Finset.univ.filter fun i => node i = some n).card) →
        (∀ s : Cluster ι κ ν, ClusterReach (adCluster node home eager A .vertex a) s →
          ¬ (s.MasterFinished (adCluster node home eager A .vertex a) ∧ ∀ n, s.NodeFinished (adCluster node home eager A .vertex a) n) →
          ∃ s', ClusterStep (adCluster node home eager A .vertex a) s s') ∧
        ∀ f : Nat → Cluster ι κ ν, f 0 = Cluster.init (adCluster node home eager A .vertex a) →
          ¬ ∀ n, ClusterStep (adCluster node home eager A .vertex a) (f n) (f (n + 1)) := by
  have hsat : ∃ p, Spec.Solves d A p := by obtain ⟨p, -, -, hp, -⟩ := hplane; exact ⟨p, hp⟩
  have hd : 0 < d := by
    obtain ⟨p, q, r, -, -, -, hind⟩ := hplane
    rcases Nat.eq_zero_or_pos d with rfl | h
    · exact absurd (hind 1 0 (by funext i; exact i.elim0)).1 one_ne_zero
    · exact h
  obtain ⟨W, heq, hel, hnoE, hE, hlastW⟩ := ve_elim hA htriv hsat hline
  have hrect : Rect A A.length (d+1) := ⟨rfl, hA⟩
  have hm : 0 < A.length := List.length_pos_of_mem htriv
  have hsp := gaussSplit_spec hrect hm (Nat.succ_pos d)
  rw [hnoE] at hsp
  have hr : 2 ≤ Spec.rank (d+1) A := by rw [rank_of_no_annihilator hE]; omega
  have hnz := exists_nonzero_of_rank hA (lt_of_lt_of_le Nat.zero_lt_two hr)
  obtain ⟨hact, hacts⟩ := vertex_actsOn hmaps
  obtain ⟨a, a1, a2, a3, a4, a5, a6, a7, a8⟩ := initializePool_good hsp hnoE.symm hrect hel hacts hm hnz hknown
  refine ⟨a, W.length, fun fuel hf => a1 fuel hf, fun ι κ ν _ _ _ _ _ _ node home eager hloc hT => ?_⟩
  have hsafe : (adCluster node home eager A .vertex a).pool.Safe _ := adSafe hsp hrect hel hacts hr a3 a4 a5 (fun i => node i ≠ none)
  have htot : ∀ r, ADGood (d+1) A [] maps .vertex r → ∃ m, (adCluster node home eager A .vertex a).Rot r m :=
    adTotal hsp hrect hel hacts hr a3 (fun i => node i ≠ none)
  have hne : ∀ r m, ADGood (d+1) A [] maps .vertex r → (adCluster node home eager A .vertex a).Rot r m → m ≠ [] := by
    rintro r m hr ⟨fuel, e⟩
    rw [a3] at e
    exact rot_nonempty hsp hrect hel hacts (.of_plane hE hplane) hr.1 e
  exact ⟨fun s hs hf => C71_no_deadlock_all hsafe hloc htot hne hT hs hf, fun f h0 => C71_terminates hsafe (adFinite hel) f h0⟩

/-- the triangle with the swap of the coordinates meets the hypotheses -/
example : ∃ a N, (∀ fuel ≥ N, adStartVertices fuel triangle [[[(1, 1)], [(0, 1)], [(2, 1)]]] [] = some (.ok a)) ∧
    ∃ s' : Cluster (Fin 4) (Fin 2) (Fin 1), ClusterStep (adCluster exampleNode (fun _ => 0) false triangle .vertex a)
      (Cluster.init (adCluster exampleNode (fun _ => 0) false triangle .vertex a)) s' := by
  obtain ⟨a, N, h1, h2⟩ := C71_vertices_terminates (d := 2) (A := triangle) (maps := [[[(1, 1)], [(0, 1)], [(2, 1)]]]) (known := [])
    (by decide) (by decide) triangle_no_line
    ⟨0, fun i => if i = 0 then 1 else 0, fun i => if i = 0 then 0 else 1, (triangle_iff _).mpr (by norm_num), (triangle_iff _).mpr (by norm_num),
      (triangle_iff _).mpr (by norm_num), fun a b h => ⟨by simpa using congrFun h 0, by simpa using congrFun h 1⟩⟩ triangle_swap (by simp)
  refine ⟨a, N, h1, (h2 (Fin 4) (Fin 2) (Fin 1) exampleNode (fun _ => 0) false ⟨0, rfl⟩ (by decide)).1 _ .refl ?_⟩
  rintro ⟨⟨⟨h, -⟩, -⟩, -⟩
  cases h

end Panda
