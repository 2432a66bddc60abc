import Verif.Lemmas.Search
import Verif.Ref.Decide

/-!
# C90: the recursive searches terminate and restore their state
-/

namespace FA.Props
open FA Spec

section
variable {f : Fbas}

/-- C90: `minimal_quorums_finder_step`, called for different nodes `l`, always returns: at most
`|l| + 1` calls are active at the same time, fewer than `2 ^ (|l| + 1)` are made in total, and apart from at
most `2 ^ |l|` sets that are added to the found ones all `&mut` arguments are as before. All executions end
in the same way, and that is what `mqStep` computes with every sufficient fuel. -/
theorem C90_minimal_quorums (f : Fbas) (l : List NodeId) (hl : l.Nodup) (found : List NodeSet) :
    ∃ new, new.length ≤ 2 ^ l.length ∧
      (∃ st' c d, MqRun f true ⟨l, ∅, ofList l, found⟩ st' c d) ∧
      (∀ st' c d, MqRun f true ⟨l, ∅, ofList l, found⟩ st' c d →
        st' = ⟨l, ∅, ofList l, found ++ new⟩ ∧ c < 2 ^ (l.length + 1) ∧ d ≤ l.length + 1) ∧
      ∀ fuel, l.length < fuel →
        mqStep f fuel true ⟨l, ∅, ofList l, found⟩ = ⟨l, ∅, ofList l, found ++ new⟩ := by
  obtain ⟨st', c, d, h⟩ := exists_mqRun f (l.length + 1) true ⟨l, ∅, ofList l, found⟩ (Nat.lt_succ_self _)
  obtain ⟨new, rfl, hn⟩ := h.restores ⟨hl, fun x hx => ⟨Finset.notMem_empty _, List.mem_toFinset.2 hx⟩⟩
  refine ⟨new, hn, ⟨_, _, _, h⟩, fun st'' c' d' h' => ?_, fun fuel hf => h.eq fuel hf⟩
  have := h'.bounds
  exact ⟨(h'.eq _ (Nat.lt_succ_self _)).symm.trans (h.eq _ (Nat.lt_succ_self _)), this.2.1, this.2.2⟩

/-- C90 for `minimal_blocking_sets_finder_step`. -/
theorem C90_minimal_blocking_sets (f : Fbas) (l : List NodeId) (hl : l.Nodup) :
    ∃ new, new.length ≤ 2 ^ l.length ∧
      (∃ st' c d, MbRun f true ⟨l, ∅, ofList l, ∅, []⟩ st' c d) ∧
      (∀ st' c d, MbRun f true ⟨l, ∅, ofList l, ∅, []⟩ st' c d →
        st' = ⟨l, ∅, ofList l, ∅, new⟩ ∧ c < 2 ^ (l.length + 1) ∧ d ≤ l.length + 1) ∧
      ∀ fuel, l.length < fuel →
        mbStep f fuel true ⟨l, ∅, ofList l, ∅, []⟩ = ⟨l, ∅, ofList l, ∅, new⟩ := by
  obtain ⟨st', c, d, h⟩ := exists_mbRun f (l.length + 1) true ⟨l, ∅, ofList l, ∅, []⟩ (Nat.lt_succ_self _)
  obtain ⟨new, rfl, hn⟩ := h.restores ⟨hl, fun x hx =>
    ⟨Finset.notMem_empty _, List.mem_toFinset.2 hx, Finset.notMem_empty _⟩⟩
  refine ⟨new, hn, ⟨_, _, _, h⟩, fun st'' c' d' h' => ?_, fun fuel hf => h.eq fuel hf⟩
  have := h'.bounds
  exact ⟨(h'.eq _ (Nat.lt_succ_self _)).symm.trans (h.eq _ (Nat.lt_succ_self _)), this.2.1, this.2.2⟩

/-- C90 for `splitting_sets_finder_step`, called with any list of sets. -/
theorem C90_minimal_splitting_sets (f : Fbas) (parts : List NodeSet) (l : List NodeId) (hl : l.Nodup) :
    ∃ new, new.length ≤ 2 ^ l.length ∧
      (∃ st' c d, MsRun f parts true ⟨l, ∅, ofList l, []⟩ st' c d) ∧
      (∀ st' c d, MsRun f parts true ⟨l, ∅, ofList l, []⟩ st' c d →
        st' = ⟨l, ∅, ofList l, new⟩ ∧ c < 2 ^ (l.length + 1) ∧ d ≤ l.length + 1) ∧
      ∀ fuel, l.length < fuel →
        msStep f fuel parts true ⟨l, ∅, ofList l, []⟩ = ⟨l, ∅, ofList l, new⟩ := by
  obtain ⟨st', c, d, h⟩ := exists_msRun f (l.length + 1) parts true ⟨l, ∅, ofList l, []⟩
    (Nat.lt_succ_self _)
  obtain ⟨new, rfl, hn⟩ := h.restores ⟨hl, fun x hx => ⟨Finset.notMem_empty _, List.mem_toFinset.2 hx⟩⟩
  refine ⟨new, hn, ⟨_, _, _, h⟩, fun st'' c' d' h' => ?_, fun fuel hf => h.eq fuel hf⟩
  have := h'.bounds
  exact ⟨(h'.eq _ (Nat.lt_succ_self _)).symm.trans (h.eq _ (Nat.lt_succ_self _)), this.2.1, this.2.2⟩

/-- C90 for `nonintersecting_quorums_finder_step`, called with any number of picks: as above; the `&mut`
arguments are restored if no quorums are returned. -/
theorem C90_nonintersecting_quorums (f : Fbas) (picks : ℕ) (l : List NodeId) (hl : l.Nodup) :
    ∃ r st, (r = none → st = ⟨l, ∅, ofList l, ofList l⟩) ∧
      (∃ r' st' c d, NqRun f picks true ⟨l, ∅, ofList l, ofList l⟩ r' st' c d) ∧
      (∀ r' st' c d, NqRun f picks true ⟨l, ∅, ofList l, ofList l⟩ r' st' c d →
        r' = r ∧ st' = st ∧ c < 2 ^ (l.length + 1) ∧ d ≤ l.length + 1) ∧
      ∀ fuel, l.length < fuel → nqStep f fuel picks true ⟨l, ∅, ofList l, ofList l⟩ = (r, st) := by
  obtain ⟨r, st, c, d, h⟩ := exists_nqRun f (l.length + 1) picks true ⟨l, ∅, ofList l, ofList l⟩
    (Nat.lt_succ_self _)
  refine ⟨r, st, fun hr => h.restores ⟨hl, fun x hx =>
    ⟨Finset.notMem_empty _, List.mem_toFinset.2 hx, List.mem_toFinset.2 hx⟩⟩ hr, ⟨_, _, _, _, h⟩,
    fun r' st' c' d' h' => ?_, fun fuel hf => h.eq fuel hf⟩
  have e := (h'.eq _ (Nat.lt_succ_self _)).symm.trans (h.eq _ (Nat.lt_succ_self _))
  have := h'.bounds
  exact ⟨(Prod.ext_iff.1 e).1, (Prod.ext_iff.1 e).2, this.2.1, this.2.2⟩

/-- C90: Loops that remove nodes without a slice among the remaining ones end after at most `|S|`
iterations, and whichever node is removed first, the result is what `find_satisfiable_nodes` returns and
what `contains_quorum` tests. -/
theorem C90_removal (f : Fbas) (S : NodeSet) :
    (∃ S' n, Removal f S S' n) ∧
      ∀ S' n, Removal f S S' n → n ≤ S.card ∧ f.findSatisfiableNodes S = (S', S \ S') ∧
        (f.containsQuorum S = true ↔ S'.Nonempty) := by
  refine ⟨exists_removal f S, fun S' n h => ?_⟩
  obtain ⟨h1, h2, h3, h4⟩ := h.max
  have hm : MaxQuorumIn f S S' := ⟨h2, h1, fun Q hQ hs => h3 Q hs (isQuorum_iff.1 hQ).2⟩
  obtain ⟨g1, g2, g3⟩ := f.findSatisfiableNodes_spec S
  have e := g1.unique hm
  refine ⟨by omega, Prod.ext e ?_, ?_⟩
  · rw [← e]
    dsimp only
    nth_rw 2 [← g2]
    rw [Finset.union_sdiff_left, Finset.sdiff_eq_self_of_disjoint g3.symm]
  · rw [hm.nonempty_iff, Fbas.containsQuorum_iff]

end

/-! ## Concrete case -/

/-- The searches find something: three nodes, two of which are needed. -/
example : ∃ new, mqStep (Ref.mkFbas [⟨2, [0, 1, 2], []⟩, ⟨2, [0, 1, 2], []⟩, ⟨2, [0, 1, 2], []⟩]) 4 true
    ⟨[0, 1, 2], ∅, ofList [0, 1, 2], []⟩ = ⟨[0, 1, 2], ∅, ofList [0, 1, 2], new⟩ ∧ new.length = 3 := by
  obtain ⟨new, -, -, -, h⟩ := C90_minimal_quorums
    (Ref.mkFbas [⟨2, [0, 1, 2], []⟩, ⟨2, [0, 1, 2], []⟩, ⟨2, [0, 1, 2], []⟩]) [0, 1, 2] (by decide) []
  have h' := h 4 (by decide)
  refine ⟨new, h', ?_⟩
  have e := congrArg (fun st => st.found.length) h'
  exact e.symm.trans (by decide +kernel)

#print axioms C90_minimal_quorums
#print axioms C90_minimal_blocking_sets
#print axioms C90_minimal_splitting_sets
#print axioms C90_nonintersecting_quorums
#print axioms C90_removal

end FA.Props
