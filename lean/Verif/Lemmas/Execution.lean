import Verif.SpecExecution
import Verif.Lemmas.QuorumSet

/-!
# Lemmas about running networks
-/

namespace FA
open Spec

theorem Spec.Halts.card {f : Fbas} {R R' : NodeSet} (h : Halts f R R') : R'.card < R.card := by
  cases h with
  | node hx _ => exact Finset.card_erase_lt_of_mem hx

theorem Spec.Halts.subset {f : Fbas} {R R' : NodeSet} (h : Halts f R R') : R' ⊆ R := by
  cases h with
  | node _ _ => exact Finset.erase_subset _ _

/-- Quorums keep running. -/
theorem Spec.Halts.keeps {f : Fbas} {R R' Q : NodeSet} (h : Halts f R R') (hQ : IsQuorum f Q) (hs : Q ⊆ R) :
    Q ⊆ R' := by
  cases h with
  | @node x hx hn =>
    intro y hy
    rw [Finset.mem_erase]
    refine ⟨?_, hs hy⟩
    rintro rfl
    obtain ⟨q, h1, h2⟩ := hQ.2 y hy
    exact hn ⟨q, h1, h2.mono hs⟩

theorem mayLeave_keeps {f : Fbas} {A R Q : NodeSet} (h : Relation.ReflTransGen (Halts f) A R)
    (hQ : IsQuorum f Q) (hs : Q ⊆ A) : Q ⊆ R := by
  induction h with
  | refl => exact hs
  | tail _ h ih => exact h.keeps hQ ih

theorem mayLeave_subset {f : Fbas} {A R : NodeSet} (h : Relation.ReflTransGen (Halts f) A R) : R ⊆ A := by
  induction h with
  | refl => exact Finset.Subset.refl _
  | tail _ h ih => exact h.subset.trans ih

theorem atRest_iff {f : Fbas} {R : NodeSet} : AtRest f R ↔ R = ∅ ∨ IsQuorum f R := by
  constructor
  · intro h
    rcases Finset.eq_empty_or_nonempty R with he | he
    · exact .inl he
    · refine .inr ⟨he, fun x hx => ?_⟩
      by_contra hn
      exact h _ (.node hx hn)
  · intro h R' hR
    cases hR with
    | node hx hn =>
      rcases h with rfl | h
      · exact absurd hx (Finset.notMem_empty _)
      · exact hn (h.2 _ hx)

theorem exists_atRest {f : Fbas} : ∀ (n : ℕ) (A : NodeSet), A.card ≤ n →
    ∃ R, Relation.ReflTransGen (Halts f) A R ∧ AtRest f R := by
  intro n
  induction n with
  | zero =>
    intro A hA
    have : A = ∅ := Finset.card_eq_zero.1 (by omega)
    exact ⟨A, .refl, atRest_iff.2 (.inl this)⟩
  | succ n ih =>
    intro A hA
    by_cases h : AtRest f A
    · exact ⟨A, .refl, h⟩
    · unfold AtRest at h
      push Not at h
      obtain ⟨A', hA'⟩ := h
      obtain ⟨R, h1, h2⟩ := ih A' (by have := hA'.card; omega)
      exact ⟨R, .head hA' h1, h2⟩

theorem quorum_subset_range {f : Fbas} {Q : NodeSet} (h : IsQuorum f Q) :
    Q ⊆ Finset.range f.nodes.length := by
  intro x hx
  obtain ⟨q, ⟨n, hn, -⟩, -⟩ := h.2 x hx
  rw [Finset.mem_range]
  exact (List.getElem?_eq_some_iff.1 hn).1

/-- Who still runs in the end. -/
theorem left_iff {f : Fbas} {B R : NodeSet} (h : MayLeave f B R) (hs : AtRest f R) (x : NodeId) :
    x ∈ R ↔ ∃ Q, IsQuorum f Q ∧ (∀ y ∈ Q, y ∉ B) ∧ x ∈ Q := by
  constructor
  · intro hx
    rcases atRest_iff.1 hs with rfl | hR
    · exact absurd hx (Finset.notMem_empty _)
    · exact ⟨R, hR, fun y hy => (Finset.mem_sdiff.1 (mayLeave_subset h hy)).2, hx⟩
  · rintro ⟨Q, hQ, hB, hx⟩
    refine mayLeave_keeps h hQ (fun y hy => ?_) hx
    exact Finset.mem_sdiff.2 ⟨quorum_subset_range hQ hy, hB y hy⟩

theorem stopsAll_iff {f : Fbas} {B : NodeSet} : StopsAll f B ↔ Blocking f B := by
  constructor
  · intro h Q hQ
    by_contra hn
    push Not at hn
    obtain ⟨R, h1, h2⟩ := exists_atRest (f := f) _ (Finset.range f.nodes.length \ B) (Nat.le_refl _)
    obtain ⟨x, hx⟩ := hQ.1
    have := (left_iff h1 h2 x).2 ⟨Q, hQ, hn, hx⟩
    rw [h R h1 h2] at this
    exact absurd this (Finset.notMem_empty _)
  · intro h R h1 h2
    refine Finset.eq_empty_of_forall_notMem fun x hx => ?_
    obtain ⟨Q, hQ, hB, -⟩ := (left_iff h1 h2 x).1 hx
    obtain ⟨y, hy, hy'⟩ := h Q hQ
    exact hB y hy hy'

/-! ## Voting -/

theorem VoteStep.votes_kept {f : Fbas} {S : NodeSet} {s s' : Voting} (h : VoteStep f S s s') {x : NodeId}
    {v : ℕ} (hx : s.votes x = some v) : s'.votes x = some v := by
  cases h with
  | @vote x' v' _ hn =>
    dsimp only
    split
    next he => subst he; rw [hn] at hx; cases hx
    next => exact hx
  | decide _ _ _ _ => exact hx

/-- Every decision is backed by votes that are kept. -/
theorem decided_backed {f : Fbas} {S : NodeSet} {s : Voting}
    (h : Relation.ReflTransGen (VoteStep f S) Voting.start s) {x : NodeId} {v : ℕ} (hd : s.decided x v) :
    ∃ Q, QuorumDespite f S Q ∧ x ∈ Q ∧ ∀ y ∈ Q, s.votes y = some v := by
  induction h with
  | refl => exact hd.elim
  | @tail s s' _ hs ih =>
    have hold : s.decided x v → ∃ Q, QuorumDespite f S Q ∧ x ∈ Q ∧ ∀ y ∈ Q, s'.votes y = some v := by
      intro h
      obtain ⟨Q, h1, h2, h3⟩ := ih h
      exact ⟨Q, h1, h2, fun y hy => VoteStep.votes_kept hs (h3 y hy)⟩
    cases hs with
    | vote _ _ _ => exact hold hd
    | @decide x' v' Q hx hQ hv hq =>
      rcases hd with hd | ⟨rfl, rfl⟩
      · exact hold hd
      · exact ⟨Q, ⟨⟨_, hx⟩, hQ, hq⟩, hx, hv⟩

/-- Nodes that have not voted can all vote for the same. -/
theorem vote_all {f : Fbas} {S : NodeSet} (v : ℕ) (Q : NodeSet) (s : Voting) (hQ : ∀ y ∈ Q, y ∉ S)
    (hn : ∀ y ∈ Q, s.votes y = none) :
    Relation.ReflTransGen (VoteStep f S) s ⟨fun y => if y ∈ Q then some v else s.votes y, s.decided⟩ := by
  induction Q using Finset.induction_on with
  | empty => simpa using Relation.ReflTransGen.refl
  | insert a Q ha ih =>
    have h1 := ih (fun y hy => hQ y (Finset.mem_insert_of_mem hy))
      (fun y hy => hn y (Finset.mem_insert_of_mem hy))
    refine h1.tail ?_
    have h2 := VoteStep.vote (f := f) (S := S)
      (s := ⟨fun y => if y ∈ Q then some v else s.votes y, s.decided⟩) (x := a) v
      (hQ a (Finset.mem_insert_self _ _)) (by
        dsimp only
        rw [if_neg ha]
        exact hn a (Finset.mem_insert_self _ _))
    convert h2 using 2
    funext y
    by_cases hy : y = a
    · rw [if_pos hy, if_pos (by rw [hy]; exact Finset.mem_insert_self _ _)]
    · rw [if_neg hy]
      refine if_congr ?_ rfl rfl
      rw [Finset.mem_insert]
      exact ⟨fun h => h.resolve_left hy, .inr⟩

/-- Two groups of nodes can make different decisions. -/
theorem disagreement {f : Fbas} {S : NodeSet} (h : Endangers f S) :
    ∃ s, Relation.ReflTransGen (VoteStep f S) Voting.start s ∧ ∃ x y, s.decided x 0 ∧ s.decided y 1 := by
  obtain ⟨Q₁, Q₂, h1, h2, h3⟩ := h
  obtain ⟨x, hx⟩ := h1.1
  obtain ⟨y, hy⟩ := h2.1
  have r1 := vote_all (f := f) (S := S) 0 Q₁ Voting.start h1.2.1 (fun _ _ => rfl)
  have r2 := r1.trans (vote_all (f := f) (S := S) 1 Q₂ _ h2.2.1 (fun y hy => by
    dsimp only
    rw [if_neg fun h => h3 y h hy]
    rfl))
  have r3 := r2.tail (VoteStep.decide (v := 0) hx h1.2.1 (fun z hz => by
    dsimp only
    rw [if_neg (h3 z hz), if_pos hz]) h1.2.2)
  have r4 := r3.tail (VoteStep.decide (v := 1) hy h2.2.1 (fun z hz => by
    dsimp only
    rw [if_pos hz]) h2.2.2)
  exact ⟨_, r4, x, y, .inl (.inr ⟨rfl, rfl⟩), .inr ⟨rfl, rfl⟩⟩

theorem alwaysAgrees_iff {f : Fbas} {S : NodeSet} : AlwaysAgrees f S ↔ ¬ Endangers f S := by
  constructor
  · intro h he
    obtain ⟨s, hs, x, y, h1, h2⟩ := disagreement he
    have := h s hs x y 0 1 h1 h2
    omega
  · intro h s hs x y v w hx hy
    obtain ⟨Q₁, h1, -, v1⟩ := decided_backed hs hx
    obtain ⟨Q₂, h2, -, v2⟩ := decided_backed hs hy
    by_contra hne
    refine h ⟨Q₁, Q₂, h1, h2, fun z hz hz' => hne ?_⟩
    have := (v1 z hz).symm.trans (v2 z hz')
    exact Option.some.inj this

end FA
