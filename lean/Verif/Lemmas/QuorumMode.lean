import Verif.Lemmas.FrontEndModes
import Verif.Lemmas.QsetOrder

/-!
# The quorums that the search for splitting sets gets in the quorum mode
-/

namespace FA
open Spec QuorumSet Analysis

theorem exists_map (φ : ℕ → Option ℕ) (n : ℕ) :
    ∃ m : Map ℕ ℕ, (∀ i < n, m.get? i = φ i) ∧ ∀ i, n ≤ i → m.get? i = none := by
  induction n with
  | zero => exact ⟨[], fun _ h => by omega, fun _ _ => rfl⟩
  | succ n ih =>
    obtain ⟨m, h1, h2⟩ := ih
    cases h : φ n with
    | none =>
      refine ⟨m, fun i hi => ?_, fun i hi => h2 i (by omega)⟩
      rcases Nat.lt_or_eq_of_le (Nat.le_of_lt_succ hi) with hi | rfl
      · exact h1 i hi
      · rw [h, h2 i (Nat.le_refl _)]
    | some v =>
      have hg : ∀ i, Map.get? ((n, v) :: m) i = if n = i then some v else m.get? i := by
        intro i
        unfold Map.get?
        rw [List.find?_cons]
        by_cases hi : n = i <;> simp [hi]
      refine ⟨(n, v) :: m, fun i hi => ?_, fun i hi => ?_⟩
      · rw [hg]
        split
        · rename_i e; rw [← e, h]
        · exact h1 i (by omega)
      · rw [hg, if_neg (by omega), h2 i (by omega)]

/-- Shrinking to `T` can be done after shrinking to a larger set. -/
theorem shrunken_factor {T R : NodeSet} (h : T ⊆ R) : ∃ m : Map ℕ ℕ, ∀ q : QuorumSet,
    q.shrunken (ShrinkManager.new T).shrinkMap =
      (q.shrunken (ShrinkManager.new R).shrinkMap).shrunken m := by
  obtain ⟨m, hm, -⟩ := exists_map (fun i => (ShrinkManager.new T).shrinkMap.get? (un R i)) R.card
  refine ⟨m, fun q => ?_⟩
  have hmap : ∀ x, (ShrinkManager.new T).shrinkMap.get? x =
      ((ShrinkManager.new R).shrinkMap.get? x).bind m.get? := by
    intro x
    cases hx : (ShrinkManager.new R).shrinkMap.get? x with
    | none => exact shrinkMap_none.2 (fun hc => shrinkMap_none.1 hx (h hc))
    | some i =>
      obtain ⟨hi, rfl⟩ := (shrinkMap_get? R x i).1 hx
      exact (hm i hi).symm
  induction q using QuorumSet.induct with
  | h t vs qs ih =>
    rw [QuorumSet.shrunken, QuorumSet.shrunken, QuorumSet.shrunken, shrunkenList_eq, shrunkenList_eq,
      shrunkenList_eq, sortIds_of_perm ((sortIds_perm (vs.filterMap _)).filterMap _),
      sortQs_of_perm (((sortQs_perm _).map _).filter _), List.filterMap_filterMap]
    congr 2
    · exact List.filterMap_congr (fun x _ => hmap x)
    · rw [List.map_congr_left (fun q hq => ih q hq)]
      clear ih
      induction qs with
      | nil => rfl
      | cons q qs ihq =>
        rw [List.map_cons, List.map_cons, List.filter_cons, List.filter_cons]
        by_cases he : q.shrunken (ShrinkManager.new R).shrinkMap = QuorumSet.empty
        · rw [he, shrunken_empty, if_neg (by simp), if_neg (by simp), ihq]
        · rw [ihq]
          conv_rhs => rw [if_pos (by simpa using he), List.map_cons, List.filter_cons]

variable {env : Env} {f fR : Fbas} {p : Params}

/-- In the quorum mode, the quorums that the search for splitting sets gets are repeated only in
symmetric clusters. -/
theorem ModeQ.quorumsFor (hwf : WF f) (hR : IsShrunken f (f.relevantNodes env) fR)
    (hp : ModeQ env f fR p) : QuorumsFor p.f' p.Q := by
  obtain ⟨he, -⟩ := hp.exact hwf hR
  refine ⟨he.Q, fun {Ks} hKs {K} hK hns {x} hx => ?_⟩
  obtain ⟨QR, hQ, hpK, hpQ⟩ := hp.QR
  have hgood := quorumsFor_of hR.wf hQ
  set R := f.relevantNodes env with hRdef
  have hmap : p.Q.map (unSet p.K) = QR.map (unSet R) := by rw [hpQ, map_reshrink hpK]
  have hsubR : ∀ S ∈ QR, S ⊆ Finset.range R.card :=
    fun S hS => hR.quorum_subset ((hgood.mem S).1 hS).prop
  have hsubK : ∀ S ∈ p.Q, S ⊆ Finset.range p.K.card :=
    fun S hS => hp.is.quorum_subset ((he.Q S).1 hS).prop
  have hKR : p.K ⊆ R := by
    rw [hpK]
    refine unSet_subset (fun y hy => ?_)
    obtain ⟨S, hS, hy⟩ := mem_involvedNodes.1 hy
    exact hsubR S hS hy
  -- either nothing is left, or `x` is in a quorum
  by_cases hnil : p.Q.filter (fun Q => decide (x ∈ Q)) = []
  · rw [hnil]; exact List.nodup_nil
  obtain ⟨P, hP⟩ := List.exists_mem_of_ne_nil _ hnil
  rw [List.mem_filter, decide_eq_true_eq] at hP
  obtain ⟨hP, hxP⟩ := hP
  have hxK : x < p.K.card := Finset.mem_range.1 (hsubK P hP hxP)
  obtain ⟨y, hy, hxy⟩ := un_surj (hKR (un_mem hxK))
  -- the quorum and the cluster of the FBAS before the second shrinking
  have hPm : unSet p.K P ∈ QR.map (unSet R) := hmap ▸ List.mem_map_of_mem hP
  obtain ⟨P', hP', hPP⟩ := List.mem_map.1 hPm
  have hyP : y ∈ P' := by
    rw [← un_mem_unSet (hsubR P' hP') hy, hxy, hPP, un_mem_unSet (hsubK P hP) hxK]
    exact hxP
  have hc := consensusClusters_spec env hR.wf
  obtain ⟨K₁, hK₁, hPK⟩ := hc.cover P' ((hgood.mem P').1 hP')
  rcases hc.findSymmetric hK₁ with ⟨q, -, -, hqK, hall⟩ | ⟨hns₁, -⟩
  · exfalso
    obtain ⟨m, hm⟩ := shrunken_factor hKR
    have hq : ∀ i, i < p.K.card → ∀ j ∈ K₁, un R j = un p.K i → p.f'.qset i = q.shrunken m := by
      intro i hi j hj hij
      have hjR : j < R.card := by
        have := hc.sat K₁ hK₁ hj
        have := fR.satisfiableNodes_spec.sub this
        simpa [Fbas.allNodes, hR.len] using this
      rw [hp.is.qset i hi, ← hij, hm, ← hR.qset j hjR, hall j hj]
    have hxq := hq x hxK y (hPK hyP) hxy
    have hment : ∀ i, i ∈ (q.shrunken m).containedNodes ↔ i < p.K.card ∧ ∃ j ∈ K₁, un R j = un p.K i := by
      intro i
      rw [mem_containedNodes, ← hxq, hp.is.qset x hxK, mentions_shrunken]
      refine and_congr_right (fun hi => ?_)
      have hiR := hKR (un_mem hi)
      obtain ⟨j, hj, hji⟩ := un_surj hiR
      have h1 : Mentions (fR.qset y) j ↔ Mentions (f.qset (un p.K x)) (un p.K i) := by
        rw [hR.qset y hy, mentions_shrunken, hxy, hji]
        exact and_iff_right hj
      rw [← h1, hall y (hPK hyP), ← mem_containedNodes, hqK]
      constructor
      · exact fun h => ⟨j, h, hji⟩
      · rintro ⟨j', hj', hji'⟩
        have hj'R : j' < R.card := by
          have := hc.sat K₁ hK₁ hj'
          have := fR.satisfiableNodes_spec.sub this
          simpa [Fbas.allNodes, hR.len] using this
        rwa [un_inj hj hj'R (hji.trans hji'.symm)]
    have hsym : SymCluster p.f' (q.shrunken m) := by
      rw [symCluster_iff]
      refine ⟨fun i hi => ?_, P, ((he.Q P).1 hP).prop, fun i hi => ?_⟩
      · obtain ⟨hi, j, hj, hij⟩ := (hment i).1 hi
        exact hq i hi j hj hij
      · have hiK := Finset.mem_range.1 (hsubK P hP hi)
        refine (hment i).2 ⟨hiK, ?_⟩
        have : un p.K i ∈ unSet R P' := by rw [hPP]; exact (un_mem_unSet (hsubK P hP) hiK).2 hi
        obtain ⟨j, hj, hji⟩ := Finset.mem_image.1 this
        exact ⟨j, hPK hj, hji⟩
    obtain ⟨K₂, hK₂, h1, h2⟩ := hKs.symCluster_mem hsym
    have hxK₂ : x ∈ K₂ := by
      rw [← h2]
      exact (hment x).2 ⟨hxK, y, hPK hyP, hxy⟩
    have hKK : K = K₂ := hKs.eq_of_mem hK hK₂ hx hxK₂
    rcases hKs.findSymmetric hK with ⟨q', h3, -⟩ | ⟨-, h3⟩
    · rw [hns] at h3; cases h3
    · rw [hKK, h1] at h3; cases h3
  · have hnd := hgood.nodup hc hK₁ hns₁ (hPK hyP)
    refine List.Nodup.of_map (unSet p.K) ?_
    have h1 : (p.Q.filter (fun Q => decide (x ∈ Q))).map (unSet p.K) =
        (p.Q.map (unSet p.K)).filter (fun Q => decide (un p.K x ∈ Q)) := by
      rw [List.filter_map]
      congr 1
      refine List.filter_congr (fun S hS => ?_)
      rw [Function.comp_apply]
      exact decide_eq_decide.2 (un_mem_unSet (hsubK S hS) hxK).symm
    have h2 : (QR.filter (fun Q => decide (y ∈ Q))).map (unSet R) =
        (QR.map (unSet R)).filter (fun Q => decide (un R y ∈ Q)) := by
      rw [List.filter_map]
      congr 1
      refine List.filter_congr (fun S hS => ?_)
      rw [Function.comp_apply]
      exact decide_eq_decide.2 (un_mem_unSet (hsubR S hS) hy).symm
    rw [h1, hmap, ← hxy, ← h2]
    refine (List.nodup_map_iff_inj_on hnd).2 (fun S hS T hT hST => ?_)
    exact unSet_injOn (hsubR S (List.mem_filter.1 hS).1) (hsubR T (List.mem_filter.1 hT).1) hST

end FA
