import Verif.Lemmas.Checked
import Verif.Lemmas.Subsets

/-!
# Helper lemmas: the checked versions of the searches agree with the unchecked ones
-/

namespace FA.Checked
open FA

variable {f : Fbas}

/-! ### Symmetric clusters -/

theorem symStep_ok {st : SymState} {x : ℕ} (hx : x < f.nodes.length) :
    symStep f st x = .ok (FA.symStep f st x) := by
  obtain ⟨node, h1, h2⟩ := getE_qset hx
  rw [symStep, h1, ok_bind, h2, FA.symStep]
  dsimp only
  split <;> rfl

theorem findSymmetricClustersInNodeSet_ok {K : NodeSet} (hK : InR f K) :
    findSymmetricClustersInNodeSet f K = .ok (FA.findSymmetricClustersInNodeSet f K) := by
  rw [findSymmetricClustersInNodeSet, (foldE_ok (k := FA.symStep f) (fun _ => True) trivial
    (fun b x _ hx => ⟨symStep_ok (hK.elems x hx), trivial⟩)).1]
  rfl

theorem findSymmetricCluster_ok {K : NodeSet} (hK : InR f K) :
    findSymmetricClusterInConsensusCluster f K = FA.findSymmetricClusterInConsensusCluster f K := by
  rw [findSymmetricClusterInConsensusCluster, findSymmetricClustersInNodeSet_ok hK, ok_bind,
    FA.findSymmetricClusterInConsensusCluster]
  cases FA.findSymmetricClustersInNodeSet f K <;> rfl

theorem findSymmetricCluster_contained {K : NodeSet} {q : QuorumSet}
    (h : FA.findSymmetricClusterInConsensusCluster f K = .ok (some q)) : q.containedNodes = K := by
  rw [FA.findSymmetricClusterInConsensusCluster] at h
  cases hl : FA.findSymmetricClustersInNodeSet f K with
  | nil => rw [hl] at h; simp at h
  | cons a l =>
    rw [hl] at h
    dsimp only at h
    split at h
    · simp at h
    · split at h
      · simp at h
      · rename_i h'
        simp only [Except.ok.injEq, Option.some.injEq] at h
        subst h
        exact not_not.1 h'

theorem symmetricClustersFinder_ok {Ks : List NodeSet} (hK : ∀ K ∈ Ks, InR f K) :
    symmetricClustersFinder Ks f = FA.symmetricClustersFinder Ks f := by
  rw [symmetricClustersFinder, FA.symmetricClustersFinder]
  refine (foldE_ok (fun _ => True) trivial (fun b K _ h => ⟨?_, trivial⟩)).1
  rw [findSymmetricClustersInNodeSet_ok (hK K h), ok_bind]

theorem findSymmetricClusters_ok (env : Env) (hc : Closed f) :
    findSymmetricClusters env f = FA.findSymmetricClusters env f := by
  rw [findSymmetricClusters, findSets_ok env hc, symmetricClustersFinder_ok (clusters_inR env)]
  rfl

theorem findSymmetricTopTier_ok (env : Env) (hc : Closed f) :
    findSymmetricTopTier env f = FA.findSymmetricTopTier env f := by
  rw [findSymmetricTopTier, findSymmetricClusters_ok env hc, FA.findSymmetricTopTier]
  cases FA.findSymmetricClusters env f with
  | error e => rfl
  | ok l =>
    rw [ok_bind]
    match l with
    | [] => rfl
    | [q] =>
      dsimp only
      rw [complementContainsQuorum_ok, ok_bind]
      split <;> rfl
    | _ :: _ :: _ => rfl

/-! ### Minimal quorums -/

theorem selectionSatisfiable_ok {S : NodeSet} (hS : InR f S) (A : NodeSet) :
    selectionSatisfiable f S A = .ok (FA.selectionSatisfiable f S A) :=
  allE_ok (fun x hx => nodeIsQuorumSlice_ok (hS.elems x hx) A)

theorem minimalForQuorumLoop_ok {l : List ℕ} (hl : ∀ x ∈ l, x < f.nodes.length) {S : NodeSet}
    (hS : InR f S) : minimalForQuorumLoop f l S = .ok (FA.minimalForQuorumLoop f l S) := by
  induction l generalizing S with
  | nil => rfl
  | cons x l ih =>
    rw [minimalForQuorumLoop, containsQuorum_ok hS.erase, ok_bind, FA.minimalForQuorumLoop]
    split
    · rfl
    · exact ih (fun y hy => hl y (by simp [hy])) (hS.erase.insert (hl x (by simp)))

theorem isMinimalForQuorum_ok {S : NodeSet} (hS : InR f S) :
    isMinimalForQuorum f S = .ok (FA.isMinimalForQuorum f S) :=
  minimalForQuorumLoop_ok hS.elems hS

theorem andE_ok {a b : Bool} {p : Except Panic Bool} (h : p = .ok b) : andE a p = .ok (a && b) := by
  cases a <;> simp [andE, h]

theorem mqStep_ok (fuel : ℕ) (b : Bool) {st : MqState}
    (hu : ∀ x ∈ st.unprocessed, x < f.nodes.length) (hs : InR f st.selection) :
    mqStep f fuel b st = .ok (FA.mqStep f fuel b st) ∧
      (∀ x ∈ (FA.mqStep f fuel b st).unprocessed, x < f.nodes.length) ∧
      InR f (FA.mqStep f fuel b st).selection := by
  induction fuel generalizing b st with
  | zero => exact ⟨rfl, hu, hs⟩
  | succ fuel ih =>
    rw [mqStep, andE_ok (isQuorum_ok hs), ok_bind, FA.mqStep]
    split
    · rw [isMinimalForQuorum_ok hs, ok_bind]
      split <;> exact ⟨rfl, hu, hs⟩
    · cases hun : st.unprocessed with
      | nil => exact ⟨rfl, hu, hs⟩
      | cons x rest =>
        rw [hun] at hu
        have hx : x < f.nodes.length := hu x (by simp)
        obtain ⟨h1, h2, h3⟩ := ih true
          (st := { st with unprocessed := rest, selection := insert x st.selection })
          (fun y hy => hu y (by simp [hy])) (hs.insert hx)
        dsimp only
        rw [h1, ok_bind]
        generalize FA.mqStep f fuel true
          { st with unprocessed := rest, selection := insert x st.selection } = st1 at h2 h3 ⊢
        rw [selectionSatisfiable_ok h3.erase, ok_bind]
        split
        · obtain ⟨h4, h5, h6⟩ := ih false
            (st := { st1 with selection := st1.selection.erase x,
                              available := st1.available.erase x }) h2 h3.erase
          rw [h4, ok_bind]
          refine ⟨rfl, ?_, h6⟩
          intro y hy
          rcases List.mem_cons.1 hy with rfl | hy
          exacts [hx, h5 y hy]
        · refine ⟨rfl, ?_, h3.erase⟩
          intro y hy
          rcases List.mem_cons.1 hy with rfl | hy
          exacts [hx, h2 y hy]

/-- The debug assertion inside `to_minimal_quorums` holds. -/
def MqGuard (f : Fbas) (K : NodeSet) : Prop :=
  ∀ q, FA.findSymmetricClusterInConsensusCluster f K = .ok (some q) → q.containsDuplicates = true →
    Antichain (q.toMinimalQuorums f)

theorem toMinimalQuorums_ok {dbg : Bool} {q : QuorumSet} (hq : InR f q.containedNodes)
    (hd : dbg = true → q.containsDuplicates = true → Antichain (q.toMinimalQuorums f)) :
    toMinimalQuorums dbg q f = .ok (q.toMinimalQuorums f) := by
  rw [toMinimalQuorums, QuorumSet.toMinimalQuorums]
  split
  · rename_i h
    refine removeNonMinimalX_ok (fun s hs => isMinimalForQuorum_ok
      (hq.sub (toQuorumSlices_subset hs))) (fun hb => ?_)
    have := hd hb h
    rwa [QuorumSet.toMinimalQuorums, if_pos h] at this
  · rfl

theorem minimalQuorumsFinder_ok {dbg : Bool} (env : Env) {Ks : List NodeSet}
    (hK : ∀ K ∈ Ks, InR f K) (hd : dbg = true → ∀ K ∈ Ks, MqGuard f K) :
    minimalQuorumsFinder dbg env Ks f = FA.minimalQuorumsFinder env Ks f := by
  rw [minimalQuorumsFinder, FA.minimalQuorumsFinder]
  generalize ([] : List NodeSet) = found
  induction Ks generalizing found with
  | nil => rfl
  | cons K Ks ih =>
    have hKR := hK K (by simp)
    have ih := ih (fun K hK' => hK K (by simp [hK'])) (fun hb K hK' => hd hb K (by simp [hK']))
    rw [foldE, minimalQuorumsInCluster, findSymmetricCluster_ok hKR, FA.minimalQuorumsFinderLoop]
    cases hsym : FA.findSymmetricClusterInConsensusCluster f K with
    | error e => rfl
    | ok o =>
      rw [ok_bind]
      cases o with
      | some q =>
        dsimp only
        have hq := findSymmetricCluster_contained hsym
        rw [toMinimalQuorums_ok (hq ▸ hKR) (fun hb hdup => hd hb K (by simp) q hsym hdup), ok_bind]
        exact ih _
      | none =>
        dsimp only
        rw [sortByRank_elems env hKR, ok_bind,
          (mqStep_ok _ _ (rank_inR env hKR) (InR.empty f)).1, ok_bind]
        exact ih _

theorem findMinimalSets_ok {dbg : Bool} (env : Env) (hc : Closed f)
    {finder finder' : List NodeSet → Fbas → Except Panic (List NodeSet)}
    (h : finder (FA.consensusClusters env f) f = finder' (FA.consensusClusters env f) f)
    (hd : dbg = true → ∀ L, FA.findMinimalSets env f finder' = .ok L → Antichain L) :
    findMinimalSets dbg env f finder = FA.findMinimalSets env f finder' := by
  rw [findMinimalSets, findSets_ok env hc, h]
  rw [FA.findMinimalSets, FA.findSets] at hd ⊢
  cases hf : finder' (FA.consensusClusters env f) f with
  | error e => rfl
  | ok sets =>
    rw [ok_bind, debugAssert_ok]
    · rfl
    · intro hb
      rw [isSet_iff, ← Antichain.perm ((sortLen_perm (sortLex sets)).trans (sortLex_perm sets))]
      exact hd hb _ (by rw [hf])

theorem findMinimalSets_error {dbg : Bool} (env : Env) (hc : ¬ Closed f)
    (finder : List NodeSet → Fbas → Except Panic (List NodeSet)) :
    findMinimalSets dbg env f finder = .error .outOfBounds := by
  rw [findMinimalSets, findSets_error env hc]; rfl

theorem findMinimalQuorums_ok {dbg : Bool} (env : Env) (hc : Closed f)
    (hg : dbg = true → ∀ K ∈ FA.consensusClusters env f, MqGuard f K)
    (hd : dbg = true → ∀ L, FA.findMinimalQuorums env f = .ok L → Antichain L) :
    findMinimalQuorums dbg env f = FA.findMinimalQuorums env f :=
  findMinimalSets_ok env hc (minimalQuorumsFinder_ok env (clusters_inR env) hg) hd

/-! ### Quorum intersection -/

theorem findSatisfiableNodes_inR {S : NodeSet} (h : InR f S) :
    InR f (f.findSatisfiableNodes S).1 := h.sub (findSatisfiableNodes_sub S)

/-- Invariant of the search for nonintersecting quorums. -/
structure NqInR (f : Fbas) (st : NqState) : Prop where
  unprocessed : ∀ x ∈ st.unprocessed, x < f.nodes.length
  selection : InR f st.selection
  available : InR f st.available
  antiselection : InR f st.antiselection
  disjoint : Disjoint st.selection st.antiselection

theorem nqStep_ok (dbg : Bool) (fuel picks : ℕ) (b : Bool) {st : NqState} (h : NqInR f st) :
    nqStep dbg f fuel picks b st = .ok (FA.nqStep f fuel picks b st) ∧
      NqInR f (FA.nqStep f fuel picks b st).2 ∧
      ∀ A B, (FA.nqStep f fuel picks b st).1 = some (A, B) → InR f A ∧ InR f B := by
  induction fuel generalizing picks b st with
  | zero => exact ⟨rfl, h, by simp [FA.nqStep]⟩
  | succ fuel ih =>
    rw [nqStep, debugAssert_ok (fun _ => by simpa using h.disjoint), ok_bind,
      andE_ok (isQuorum_ok h.selection), ok_bind, FA.nqStep]
    split
    · rw [findSatisfiableNodes_ok h.antiselection, ok_bind]
      dsimp only
      split
      · refine ⟨rfl, h, fun A B hAB => ?_⟩
        simp only [Option.some.injEq, Prod.mk.injEq] at hAB
        rw [← hAB.1, ← hAB.2]
        exact ⟨h.selection, findSatisfiableNodes_inR h.antiselection⟩
      · exact ⟨rfl, h, by simp⟩
    · split
      · exact ⟨rfl, h, by simp⟩
      · cases hun : st.unprocessed with
        | nil => exact ⟨rfl, h, by simp⟩
        | cons x rest =>
          have hu := h.unprocessed
          rw [hun] at hu
          have hx : x < f.nodes.length := hu x (by simp)
          have hst1 : NqInR f { st with
              unprocessed := rest
              selection := insert x st.selection
              antiselection := st.antiselection.erase x } :=
            ⟨fun y hy => hu y (by simp [hy]), h.selection.insert hx, h.available,
              h.antiselection.erase, by
                rw [Finset.disjoint_insert_left]
                exact ⟨Finset.notMem_erase x _, h.disjoint.mono_right (Finset.erase_subset _ _)⟩⟩
          obtain ⟨h1, h2, h3⟩ := ih (picks - 1) true hst1
          dsimp only
          rw [h1, ok_bind]
          revert h2 h3
          rcases FA.nqStep f fuel (picks - 1) true { st with
              unprocessed := rest
              selection := insert x st.selection
              antiselection := st.antiselection.erase x } with ⟨_ | r, st1⟩
          · intro h2 h3
            dsimp only at h2 h3 ⊢
            have hst2 : NqInR f { st1 with
                selection := st1.selection.erase x
                antiselection := insert x st1.antiselection
                available := st1.available.erase x } :=
              ⟨h2.unprocessed, h2.selection.erase, h2.available.erase, h2.antiselection.insert hx, by
                rw [Finset.disjoint_insert_right]
                exact ⟨Finset.notMem_erase x _, h2.disjoint.mono_left (Finset.erase_subset _ _)⟩⟩
            rw [selectionSatisfiable_ok h2.selection.erase, ok_bind]
            have key : ∀ r : Option (NodeSet × NodeSet) × NqState, NqInR f r.2 →
                (∀ A B, r.1 = some (A, B) → InR f A ∧ InR f B) →
                (match r with
                | (some r, st) => (Except.ok (some r, st) : Except Panic _)
                | (none, st) => .ok (none, { st with
                    unprocessed := x :: st.unprocessed
                    available := insert x st.available })) =
                  .ok (match r with
                | (some r, st) => (some r, st)
                | (none, st) => (none, { st with
                    unprocessed := x :: st.unprocessed
                    available := insert x st.available })) ∧
                NqInR f (match r with
                | (some r, st) => (some r, st)
                | (none, st) => (none, { st with
                    unprocessed := x :: st.unprocessed
                    available := insert x st.available })).2 ∧
                ∀ A B, (match r with
                | (some r, st) => (some r, st)
                | (none, st) => (none, { st with
                    unprocessed := x :: st.unprocessed
                    available := insert x st.available })).1 = some (A, B) → InR f A ∧ InR f B := by
              rintro ⟨_ | r, st3⟩ ha hb
              · refine ⟨rfl, ⟨?_, ha.selection, ha.available.insert hx, ha.antiselection,
                  ha.disjoint⟩, by simp⟩
                intro y hy
                rcases List.mem_cons.1 hy with rfl | hy
                exacts [hx, ha.unprocessed y hy]
              · exact ⟨rfl, ha, hb⟩
            cases hsat : FA.selectionSatisfiable f (st1.selection.erase x) (st1.available.erase x)
            · simp only [Bool.false_eq_true, if_false]
              rw [ok_bind]
              exact key (none, _) hst2 (by simp)
            · simp only [if_true]
              obtain ⟨h4, h5, h6⟩ := ih picks false hst2
              rw [h4, ok_bind]
              exact key _ h5 h6
          · intro h2 h3
            exact ⟨rfl, h2, h3⟩

theorem nonintersectingQuorumsFinder_ok (dbg : Bool) (env : Env) {Ks : List NodeSet}
    (hK : ∀ K ∈ Ks, InR f K) :
    nonintersectingQuorumsFinder dbg env Ks f = FA.nonintersectingQuorumsFinder env Ks f := by
  rw [nonintersectingQuorumsFinder, FA.nonintersectingQuorumsFinder]
  split
  · exact mapE_ok (fun K h => by rw [findSatisfiableNodes_ok (hK K h), ok_bind])
  · have hR : InR f (Ks.head?.getD ∅) := by
      cases Ks with
      | nil => exact InR.empty f
      | cons K Ks => exact hK K (by simp)
    have hr := rank_inR env hR
    dsimp only
    rw [sortByRank_elems env hR, ok_bind]
    obtain ⟨h1, h2, h3⟩ := nqStep_ok dbg ((env.rank f (elems (Ks.head?.getD ∅))).length + 1)
      ((env.rank f (elems (Ks.head?.getD ∅))).length / 2) true
      (st := { unprocessed := env.rank f (elems (Ks.head?.getD ∅)), selection := ∅
               available := ofList (env.rank f (elems (Ks.head?.getD ∅)))
               antiselection := ofList (env.rank f (elems (Ks.head?.getD ∅))) })
      ⟨hr, InR.empty f, InR.ofList hr, InR.ofList hr, Finset.disjoint_empty_left _⟩
    rw [h1, ok_bind]
    revert h2 h3
    rcases FA.nqStep f ((env.rank f (elems (Ks.head?.getD ∅))).length + 1)
      ((env.rank f (elems (Ks.head?.getD ∅))).length / 2) true
      { unprocessed := env.rank f (elems (Ks.head?.getD ∅)), selection := ∅
        available := ofList (env.rank f (elems (Ks.head?.getD ∅)))
        antiselection := ofList (env.rank f (elems (Ks.head?.getD ∅))) } with ⟨_ | ⟨A, B⟩, st⟩
    · intro h2 _
      rw [nonintersectingResult, isQuorum_ok h2.available, ok_bind]
    · intro _ h3
      obtain ⟨hA, hB⟩ := h3 A B rfl
      rw [nonintersectingResult, allE_ok (q := f.isQuorum) (fun S hS => by
        rcases List.mem_cons.1 hS with rfl | hS
        · exact isQuorum_ok hA
        · rw [List.mem_singleton] at hS; exact hS ▸ isQuorum_ok hB), ok_bind]
      simp only [List.all_cons, List.all_nil, Bool.and_true]

theorem findNonintersectingQuorums_ok (dbg : Bool) (env : Env) (hc : Closed f) :
    findNonintersectingQuorums dbg env f = FA.findNonintersectingQuorums env f := by
  rw [findNonintersectingQuorums, findSets_ok env hc,
    nonintersectingQuorumsFinder_ok dbg env (clusters_inR env), FA.findNonintersectingQuorums,
    FA.findSets]
  cases FA.nonintersectingQuorumsFinder env (FA.consensusClusters env f) f <;> rfl

/-! ### Minimal blocking sets -/

theorem isBlockedSet_ok {S : NodeSet} (hS : InR f S) :
    isBlockedSet f S = .ok (FA.isBlockedSet f S) := by
  rw [isBlockedSet, containsQuorum_ok hS]; rfl

theorem minimalForBlockingSetLoop_ok {l : List ℕ} (hl : ∀ x ∈ l, x < f.nodes.length) {S : NodeSet}
    (hS : InR f S) :
    minimalForBlockingSetLoop f l S = .ok (FA.minimalForBlockingSetLoop f l S) := by
  induction l generalizing S with
  | nil => rfl
  | cons x l ih =>
    have hx := hl x (by simp)
    rw [minimalForBlockingSetLoop, isBlockedSet_ok (hS.insert hx), ok_bind,
      FA.minimalForBlockingSetLoop]
    split
    · rfl
    · exact ih (fun y hy => hl y (by simp [hy])) (hS.insert hx).erase

theorem isMinimalForBlockingSetPre_ok {B S : NodeSet} (hB : InR f B) (hS : InR f S) :
    isMinimalForBlockingSetPre f B S = .ok (FA.isMinimalForBlockingSetPre f B S) :=
  minimalForBlockingSetLoop_ok hB.elems hS

/-- Invariant of the search for minimal blocking sets. -/
structure MbInR (f : Fbas) (st : MbState) : Prop where
  unprocessed : ∀ x ∈ st.unprocessed, x < f.nodes.length
  selection : InR f st.selection
  remaining : InR f st.remaining
  maxRemaining : InR f st.maxRemaining

theorem mbStep_ok (fuel : ℕ) (b : Bool) {st : MbState} (h : MbInR f st) :
    mbStep f fuel b st = .ok (FA.mbStep f fuel b st) ∧ MbInR f (FA.mbStep f fuel b st) := by
  induction fuel generalizing b st with
  | zero => exact ⟨rfl, h⟩
  | succ fuel ih =>
    rw [mbStep, andE_ok (isBlockedSet_ok h.remaining), ok_bind, FA.mbStep]
    split
    · rw [isMinimalForBlockingSetPre_ok h.selection h.remaining, ok_bind]
      split
      · exact ⟨rfl, h.1, h.2, h.3, h.4⟩
      · exact ⟨rfl, h⟩
    · cases hun : st.unprocessed with
      | nil => exact ⟨rfl, h⟩
      | cons x rest =>
        have hu := h.unprocessed
        rw [hun] at hu
        have hx : x < f.nodes.length := hu x (by simp)
        obtain ⟨h1, h2⟩ := ih true
          (st := { st with
            unprocessed := rest
            selection := insert x st.selection
            remaining := st.remaining.erase x })
          ⟨fun y hy => hu y (by simp [hy]), h.selection.insert hx, h.remaining.erase,
            h.maxRemaining⟩
        dsimp only
        rw [h1, ok_bind]
        generalize FA.mbStep f fuel true { st with
            unprocessed := rest
            selection := insert x st.selection
            remaining := st.remaining.erase x } = st1 at h2 ⊢
        have h3 : MbInR f { st1 with
            selection := st1.selection.erase x
            remaining := insert x st1.remaining
            maxRemaining := insert x st1.maxRemaining } :=
          ⟨h2.unprocessed, h2.selection.erase, h2.remaining.insert hx, h2.maxRemaining.insert hx⟩
        rw [isBlockedSet_ok h3.maxRemaining, ok_bind]
        split
        · obtain ⟨h4, h5⟩ := ih false h3
          rw [h4, ok_bind]
          refine ⟨rfl, ?_, h5.selection, h5.remaining, h5.maxRemaining.erase⟩
          intro y hy
          rcases List.mem_cons.1 hy with rfl | hy
          exacts [hx, h5.unprocessed y hy]
        · refine ⟨rfl, ?_, h3.selection, h3.remaining, h3.maxRemaining.erase⟩
          intro y hy
          rcases List.mem_cons.1 hy with rfl | hy
          exacts [hx, h3.unprocessed y hy]

/-- The debug assertion inside `to_minimal_blocking_sets` holds. -/
def MbGuard (f : Fbas) (K : NodeSet) : Prop :=
  ∀ q, FA.findSymmetricClusterInConsensusCluster f K = .ok (some q) → q.containsDuplicates = true →
    Antichain (q.toMinimalBlockingSets f)

theorem toMinimalBlockingSets_ok {dbg : Bool} {q : QuorumSet} (hq : InR f q.containedNodes)
    (hd : dbg = true → q.containsDuplicates = true → Antichain (q.toMinimalBlockingSets f)) :
    toMinimalBlockingSets dbg q f = .ok (q.toMinimalBlockingSets f) := by
  rw [toMinimalBlockingSets, QuorumSet.toMinimalBlockingSets]
  split
  · rename_i h
    refine removeNonMinimalX_ok (fun s hs => ?_) (fun hb => ?_)
    · have := hq.sub (toBlockingSets_subset hs)
      exact isMinimalForBlockingSetPre_ok this this
    · have := hd hb h
      rwa [QuorumSet.toMinimalBlockingSets, if_pos h] at this
  · rfl

theorem minimalBlockingSetsFinder_ok {dbg : Bool} (env : Env) {Ks : List NodeSet}
    (hK : ∀ K ∈ Ks, InR f K) (hd : dbg = true → ∀ K ∈ Ks, MbGuard f K) :
    minimalBlockingSetsFinder dbg env Ks f = FA.minimalBlockingSetsFinder env Ks f := by
  have key : ∀ found, foldE (minimalBlockingSetsInCluster dbg env f) found Ks =
      FA.minimalBlockingSetsPerCluster env f Ks found := by
    induction Ks with
    | nil => intro found; rfl
    | cons K Ks ih =>
      intro found
      have hKR := hK K (by simp)
      have ih := ih (fun K hK' => hK K (by simp [hK'])) (fun hb K hK' => hd hb K (by simp [hK']))
      rw [foldE, minimalBlockingSetsInCluster, findSymmetricCluster_ok hKR,
        FA.minimalBlockingSetsPerCluster]
      cases hsym : FA.findSymmetricClusterInConsensusCluster f K with
      | error e => rfl
      | ok o =>
        rw [ok_bind]
        cases o with
        | some q =>
          dsimp only
          have hq := findSymmetricCluster_contained hsym
          rw [toMinimalBlockingSets_ok (hq ▸ hKR) (fun hb hdup => hd hb K (by simp) q hsym hdup),
            ok_bind]
          exact ih _
        | none =>
          dsimp only
          rw [sortByRank_elems env hKR, ok_bind,
            (mbStep_ok _ _ ⟨rank_inR env hKR, InR.empty f, InR.ofList (rank_inR env hKR),
              InR.empty f⟩).1, ok_bind]
          exact ih _
  rw [minimalBlockingSetsFinder, FA.minimalBlockingSetsFinder, key]
  cases FA.minimalBlockingSetsPerCluster env f Ks [] <;> rfl

theorem findMinimalBlockingSets_ok {dbg : Bool} (env : Env) (hc : Closed f)
    (hg : dbg = true → ∀ K ∈ FA.consensusClusters env f, MbGuard f K)
    (hd : dbg = true → ∀ L, FA.findMinimalBlockingSets env f = .ok L → Antichain L) :
    findMinimalBlockingSets dbg env f = FA.findMinimalBlockingSets env f :=
  findMinimalSets_ok env hc (minimalBlockingSetsFinder_ok env (clusters_inR env) hg) hd

/-! ### Minimal splitting sets -/

theorem nodeIsSliceIntersection_ok {x : ℕ} (hx : x < f.nodes.length) (S : NodeSet) :
    nodeIsSliceIntersection f x S = .ok ((f.qset x).isSliceIntersection S) := by
  obtain ⟨node, h1, h2⟩ := getE_qset hx
  rw [nodeIsSliceIntersection, h1, ok_bind, h2]

theorem hasPotential_ok {S : NodeSet} (hS : InR f S) (A : NodeSet) :
    hasPotential f S A = .ok (FA.hasPotential f S A) :=
  allE_ok (fun x hx => nodeIsSliceIntersection_ok (hS.elems x hx) A)

theorem isQuorumIntersection_ok {S : NodeSet} (hS : InR f S) (parts : List NodeSet) :
    isQuorumIntersection f S parts = .ok (FA.isQuorumIntersection f S parts) := by
  rw [isQuorumIntersection, andE_ok (hasPotential_ok hS S), ok_bind]; rfl

theorem msStep_ok (fuel : ℕ) (parts : List NodeSet) (b : Bool) {st : MsState}
    (hu : ∀ x ∈ st.unprocessed, x < f.nodes.length) (hs : InR f st.selection) :
    msStep f fuel parts b st = .ok (FA.msStep f fuel parts b st) ∧
      (∀ x ∈ (FA.msStep f fuel parts b st).unprocessed, x < f.nodes.length) ∧
      InR f (FA.msStep f fuel parts b st).selection := by
  induction fuel generalizing parts b st with
  | zero => exact ⟨rfl, hu, hs⟩
  | succ fuel ih =>
    rw [msStep, FA.msStep]
    split
    · exact ⟨rfl, hu, hs⟩
    · rw [andE_ok (isQuorumIntersection_ok hs parts), ok_bind]
      split
      · exact ⟨rfl, hu, hs⟩
      · cases hun : st.unprocessed with
        | nil => exact ⟨rfl, hu, hs⟩
        | cons x rest =>
          rw [hun] at hu
          have hx : x < f.nodes.length := hu x (by simp)
          obtain ⟨h1, h2, h3⟩ := ih
            ((parts.filter (fun q => decide (x ∈ q))).map (fun q => q.erase x)) true
            (st := { st with unprocessed := rest, selection := insert x st.selection })
            (fun y hy => hu y (by simp [hy])) (hs.insert hx)
          dsimp only
          rw [h1, ok_bind]
          generalize FA.msStep f fuel
            ((parts.filter (fun q => decide (x ∈ q))).map (fun q => q.erase x)) true
            { st with unprocessed := rest, selection := insert x st.selection } = st1 at h2 h3 ⊢
          rw [hasPotential_ok h3.erase, ok_bind]
          split
          · obtain ⟨h4, h5, h6⟩ := ih
              (parts.filter (fun (q : NodeSet) => !decide (Disjoint q (st1.available.erase x)))) false
              (st := { st1 with selection := st1.selection.erase x,
                                available := st1.available.erase x }) h2 h3.erase
            rw [h4, ok_bind]
            refine ⟨rfl, ?_, h6⟩
            intro y hy
            rcases List.mem_cons.1 hy with rfl | hy
            exacts [hx, h5 y hy]
          · refine ⟨rfl, ?_, h3.erase⟩
            intro y hy
            rcases List.mem_cons.1 hy with rfl | hy
            exacts [hx, h2 y hy]

theorem toMinimalSplittingSets_ok (dbg : Bool) (q : QuorumSet) :
    toMinimalSplittingSets dbg q = .ok q.toMinimalSplittingSets := by
  rw [toMinimalSplittingSets, QuorumSet.toMinimalSplittingSets]
  split
  · exact removeNonMinimalNodeSets_ok dbg _
  · rfl

theorem minimalSplittingSetsFinder_ok (dbg : Bool) (env : Env) (mq : List NodeSet)
    {Ks : List NodeSet} (hK : ∀ K ∈ Ks, InR f K) :
    minimalSplittingSetsFinder dbg env mq Ks f = FA.minimalSplittingSetsFinder env mq Ks f := by
  rw [minimalSplittingSetsFinder, FA.minimalSplittingSetsFinder]
  generalize ([] : List NodeSet) = found
  induction Ks generalizing found with
  | nil => rfl
  | cons K Ks ih =>
    have hKR := hK K (by simp)
    have ih := ih (fun K hK' => hK K (by simp [hK']))
    rw [foldE, minimalSplittingSetsInCluster, findSymmetricCluster_ok hKR,
      FA.minimalSplittingSetsFinderLoop]
    cases hsym : FA.findSymmetricClusterInConsensusCluster f K with
    | error e => rfl
    | ok o =>
      rw [ok_bind]
      cases o with
      | some q =>
        dsimp only
        rw [toMinimalSplittingSets_ok, ok_bind]
        exact ih _
      | none =>
        dsimp only
        rw [sortByRank_elems env hKR, ok_bind,
          (msStep_ok _ _ _ (rank_inR env hKR) (InR.empty f)).1, ok_bind,
          removeNonMinimalNodeSets_ok, ok_bind]
        exact ih _

theorem findMinimalSplittingSets_ok {dbg : Bool} (env : Env) (hc : Closed f) (mq : List NodeSet)
    (hd : dbg = true → ∀ L, FA.findMinimalSplittingSets env f mq = .ok L → Antichain L) :
    findMinimalSplittingSets dbg env f mq = FA.findMinimalSplittingSets env f mq :=
  findMinimalSets_ok env hc (minimalSplittingSetsFinder_ok dbg env mq (clusters_inR env)) hd

end FA.Checked
