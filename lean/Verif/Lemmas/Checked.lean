import Verif.Model.Checked
import Verif.Lemmas.Graph
import Verif.Lemmas.Shrinking
import Verif.Lemmas.Splitting

/-!
# Helper lemmas: the checked version of the analysis agrees with the unchecked one
-/

namespace FA.Checked
open FA

@[simp] theorem ok_bind {α β : Type} (a : α) (k : α → Except Panic β) :
    (Except.ok a >>= k) = k a := rfl

@[simp] theorem error_bind {α β : Type} (e : Panic) (k : α → Except Panic β) :
    (Except.error e >>= k) = Except.error e := rfl

/-- All members exist. -/
def InR (f : Fbas) (S : NodeSet) : Prop := ∀ x ∈ S, x < f.nodes.length

theorem InR.empty (f : Fbas) : InR f ∅ := by simp [InR]
theorem InR.sub {f : Fbas} {S T : NodeSet} (h : InR f S) (hT : T ⊆ S) : InR f T :=
  fun x hx => h x (hT hx)
theorem InR.insert {f : Fbas} {S : NodeSet} {x : ℕ} (h : InR f S) (hx : x < f.nodes.length) :
    InR f (insert x S) := by
  intro y hy
  rcases Finset.mem_insert.1 hy with rfl | hy
  exacts [hx, h y hy]
theorem InR.erase {f : Fbas} {S : NodeSet} {x : ℕ} (h : InR f S) : InR f (S.erase x) :=
  h.sub (Finset.erase_subset _ _)
theorem InR.all (f : Fbas) : InR f f.allNodes := fun x hx => by
  simpa [Fbas.allNodes] using hx
theorem InR.ofList {f : Fbas} {l : List ℕ} (h : ∀ x ∈ l, x < f.nodes.length) :
    InR f (FA.ofList l) := fun x hx => h x (by simpa using hx)
theorem InR.elems {f : Fbas} {S : NodeSet} (h : InR f S) : ∀ x ∈ FA.elems S, x < f.nodes.length :=
  fun x hx => h x (by simpa using hx)

theorem findE_ok {α : Type} {p : α → Except Panic Bool} {q : α → Bool} {l : List α}
    (h : ∀ a ∈ l, p a = .ok (q a)) : findE p l = .ok (l.find? q) := by
  induction l with
  | nil => rfl
  | cons a l ih =>
    rw [findE, h a (by simp), ok_bind, ih (fun b hb => h b (by simp [hb]))]
    cases hq : q a <;> simp [List.find?, hq]

theorem filterE_ok {α : Type} {p : α → Except Panic Bool} {q : α → Bool} {l : List α}
    (h : ∀ a ∈ l, p a = .ok (q a)) : filterE p l = .ok (l.filter q) := by
  induction l with
  | nil => rfl
  | cons a l ih =>
    rw [filterE, h a (by simp), ok_bind, ih (fun b hb => h b (by simp [hb])), ok_bind]
    cases hq : q a <;> simp [hq]

theorem partitionE_ok {α : Type} {p : α → Except Panic Bool} {q : α → Bool} {l : List α}
    (h : ∀ a ∈ l, p a = .ok (q a)) :
    partitionE p l = .ok (l.filter q, l.filter (fun a => !q a)) := by
  induction l with
  | nil => rfl
  | cons a l ih =>
    rw [partitionE, h a (by simp), ok_bind, ih (fun b hb => h b (by simp [hb])), ok_bind]
    cases hq : q a <;> simp [hq]

/-- A loop that keeps an invariant under which the body does not panic. -/
theorem foldE_ok {α β : Type} {g : β → α → Except Panic β} {k : β → α → β} (P : β → Prop)
    {l : List α} {b : β} (h0 : P b)
    (h : ∀ b a, P b → a ∈ l → g b a = .ok (k b a) ∧ P (k b a)) :
    foldE g b l = .ok (l.foldl k b) ∧ P (l.foldl k b) := by
  induction l generalizing b with
  | nil => exact ⟨rfl, h0⟩
  | cons a l ih =>
    obtain ⟨h1, h2⟩ := h b a h0 (by simp)
    rw [foldE, h1]
    exact ih h2 (fun b a' hb ha' => h b a' hb (by simp [ha']))

theorem mapE_exists {α β : Type} {g : α → Except Panic β} {l : List α}
    (h : ∀ a ∈ l, ∃ b, g a = .ok b) : ∃ r, mapE g l = .ok r := by
  induction l with
  | nil => exact ⟨[], rfl⟩
  | cons a l ih =>
    obtain ⟨b, hb⟩ := h a (by simp)
    obtain ⟨r, hr⟩ := ih (fun a' ha' => h a' (by simp [ha']))
    exact ⟨b :: r, by rw [mapE, hb]; simp only [hr]⟩

variable {f : Fbas}

theorem getE_qset {x : ℕ} (hx : x < f.nodes.length) :
    ∃ node, getE f.nodes x = .ok node ∧ node.quorumSet = f.qset x := by
  refine ⟨_, getE_ok hx, ?_⟩
  simp [Fbas.qset, List.getElem?_eq_getElem hx]

theorem nodeIsQuorumSlice_ok {x : ℕ} (hx : x < f.nodes.length) (S : NodeSet) :
    nodeIsQuorumSlice f x S = .ok (f.nodeIsQuorumSlice x S) := by
  obtain ⟨node, h1, h2⟩ := getE_qset hx
  rw [nodeIsQuorumSlice, h1, ok_bind, h2]; rfl

theorem isQuorum_ok {S : NodeSet} (hS : InR f S) : isQuorum f S = .ok (f.isQuorum S) := by
  rw [isQuorum, allE_ok (fun x hx => nodeIsQuorumSlice_ok (hS.elems x hx) S), andE, Fbas.isQuorum]
  by_cases h : S = ∅ <;> simp [h]

theorem findNot_ok {S : NodeSet} (hS : InR f S) :
    findE (fun x => do let b ← nodeIsQuorumSlice f x S; .ok (!b)) (elems S) =
      .ok ((elems S).find? (fun x => !f.nodeIsQuorumSlice x S)) :=
  findE_ok (fun x hx => by rw [nodeIsQuorumSlice_ok (hS.elems x hx), ok_bind])

theorem satLoop_ok (fuel : ℕ) {st : NodeSet × NodeSet} (h1 : InR f st.1) :
    satLoop f fuel st = .ok (f.satLoop fuel st) := by
  induction fuel generalizing st with
  | zero => rfl
  | succ fuel ih =>
    obtain ⟨s, u⟩ := st
    rw [satLoop, findNot_ok h1, ok_bind, Fbas.satLoop]
    dsimp only
    cases (elems s).find? (fun x => !f.nodeIsQuorumSlice x s) with
    | none => rfl
    | some x => exact ih (InR.erase h1)

theorem findSatisfiableNodes_ok {S : NodeSet} (hS : InR f S) :
    findSatisfiableNodes f S = .ok (f.findSatisfiableNodes S) := by
  rw [findSatisfiableNodes, partitionE_ok (fun x hx => nodeIsQuorumSlice_ok (hS.elems x hx) S),
    ok_bind, satLoop_ok]
  · rfl
  · exact InR.ofList (fun x hx => hS.elems x (List.mem_filter.1 hx).1)

theorem cqLoop_ok (fuel : ℕ) {S : NodeSet} (hS : InR f S) :
    cqLoop f fuel S = .ok (f.cqLoop fuel S) := by
  induction fuel generalizing S with
  | zero => rfl
  | succ fuel ih =>
    rw [cqLoop, findNot_ok hS, ok_bind, Fbas.cqLoop]
    cases (elems S).find? (fun x => !f.nodeIsQuorumSlice x S) with
    | none => rfl
    | some x => exact ih hS.erase

theorem containsQuorum_ok {S : NodeSet} (hS : InR f S) :
    containsQuorum f S = .ok (f.containsQuorum S) := by
  rw [containsQuorum, cqLoop_ok _ hS, ok_bind]; rfl

theorem complementContainsQuorum_ok (S : NodeSet) :
    complementContainsQuorum f S = .ok (f.complementContainsQuorum S) :=
  containsQuorum_ok ((InR.all f).sub Finset.sdiff_subset)

theorem satLoop_sub (fuel : ℕ) (st : NodeSet × NodeSet) : (f.satLoop fuel st).1 ⊆ st.1 := by
  induction fuel generalizing st with
  | zero => exact subset_rfl
  | succ fuel ih =>
    obtain ⟨s, u⟩ := st
    rw [Fbas.satLoop]
    dsimp only
    cases (elems s).find? (fun x => !f.nodeIsQuorumSlice x s) with
    | none => exact subset_rfl
    | some x => exact (ih _).trans (Finset.erase_subset _ _)

theorem findSatisfiableNodes_sub (S : NodeSet) : (f.findSatisfiableNodes S).1 ⊆ S := by
  refine (satLoop_sub _ _).trans (fun x hx => ?_)
  simp only [List.mem_toFinset, List.mem_filter, mem_elems] at hx
  exact hx.1

theorem satisfiableNodes_ok : satisfiableNodes f = .ok f.satisfiableNodes := by
  rw [satisfiableNodes, findSatisfiableNodes_ok (InR.all f)]; rfl

theorem unsatisfiableNodes_ok : unsatisfiableNodes f = .ok f.unsatisfiableNodes := by
  rw [unsatisfiableNodes, findSatisfiableNodes_ok (InR.all f)]; rfl

/-! ### Strongly connected components -/

/-- The nodes that `find_sets` and `relevant_nodes` walk over exist: everything reachable from a
satisfiable node. -/
def Closed (f : Fbas) : Prop :=
  ∀ x y, x ∈ f.satisfiableNodes → Spec.Reaches f x y → y < f.nodes.length

theorem reaches_lt (hwf : Spec.WF f) {x y : ℕ} (hx : x < f.nodes.length) (h : Spec.Reaches f x y) :
    y < f.nodes.length := by
  rcases Relation.ReflTransGen.cases_tail h with h | ⟨z, _, hz⟩
  · exact h ▸ hx
  · exact hwf z y hz

theorem sat_inR (f : Fbas) : InR f f.satisfiableNodes :=
  (InR.all f).sub f.satisfiableNodes_spec.sub

theorem Closed.of_wf (hwf : Spec.WF f) : Closed f := fun x _ hx h =>
  reaches_lt hwf (sat_inR f x hx) h

/-- The external function is called on a finite graph, even if some nodes do not exist. -/
theorem scc_spec_any (env : Env) {nodes : NodeSet} (h : InR f nodes) :
    SccSpec (elems nodes) f.successors (env.scc (elems nodes) f.successors) := by
  obtain ⟨n, hn⟩ : ∃ n, ∀ x y, Spec.Trusts f x y → y < n := by
    refine ⟨((Finset.range f.nodes.length).biUnion
      (fun x => (f.qset x).containedNodes)).sup id + 1, fun x y hxy => ?_⟩
    have hx : x < f.nodes.length := by
      obtain ⟨q, hq, _⟩ := hxy
      obtain ⟨node, hn, _⟩ := hq
      exact (List.getElem?_eq_some_iff.1 hn).1
    have hy : y ∈ (f.qset x).containedNodes := by
      have := Fbas.mem_successors.2 hxy
      rwa [Fbas.successors, mem_elems] at this
    have : y ∈ (Finset.range f.nodes.length).biUnion (fun x => (f.qset x).containedNodes) :=
      Finset.mem_biUnion.2 ⟨x, Finset.mem_range.2 hx, hy⟩
    have := Finset.le_sup (f := (id : ℕ → ℕ)) this
    exact Nat.lt_succ_of_le this
  refine env.scc_spec _ _ (max n f.nodes.length) ?_ ?_
  · intro s hs
    exact lt_of_lt_of_le (h.elems s hs) (le_max_right _ _)
  · intro x _ y hy
    exact lt_of_lt_of_le (hn x y (Fbas.mem_successors.1 hy)) (le_max_left _ _)

theorem mem_scc_flatten (env : Env) {nodes : NodeSet} (h : InR f nodes) {y : ℕ} :
    y ∈ (env.scc (elems nodes) f.successors).flatten ↔ ∃ x ∈ nodes, Spec.Reaches f x y := by
  rw [(scc_spec_any env h).mem y]
  simp only [mem_elems, Fbas.reaches_iff]

theorem partitionIntoSccs_ok (env : Env) {nodes : NodeSet} (h : InR f nodes)
    (hc : ∀ x y, x ∈ nodes → Spec.Reaches f x y → y < f.nodes.length) :
    partitionIntoSccs env f nodes = .ok (f.partitionIntoSccs env nodes) := by
  obtain ⟨l, hl⟩ : ∃ l, mapE (fun x => getE f.nodes x)
      (env.scc (elems nodes) f.successors).flatten = .ok l :=
    mapE_exists (fun y hy => by
      obtain ⟨x, hx, hr⟩ := (mem_scc_flatten env h).1 hy
      exact ⟨_, getE_ok (hc x y hx hr)⟩)
  simp only [partitionIntoSccs, hl, ok_bind]
  rfl

theorem mapE_getE_error {α : Type} {v : List α} {l : List ℕ} (h : ∃ y ∈ l, v.length ≤ y) :
    mapE (fun x => getE v x) l = .error .outOfBounds := by
  induction l with
  | nil => simp at h
  | cons a l ih =>
    rw [mapE]
    by_cases ha : a < v.length
    · rw [getE_ok ha]
      obtain ⟨y, hy, hle⟩ := h
      rcases List.mem_cons.1 hy with rfl | hy
      · omega
      · simp only [ih ⟨y, hy, hle⟩]
    · rw [getE, List.getElem?_eq_none (by omega)]

theorem partitionIntoSccs_error (env : Env) {nodes : NodeSet} (h : InR f nodes)
    (hc : ∃ x y, x ∈ nodes ∧ Spec.Reaches f x y ∧ f.nodes.length ≤ y) :
    partitionIntoSccs env f nodes = .error .outOfBounds := by
  obtain ⟨x, y, hx, hr, hy⟩ := hc
  rw [partitionIntoSccs, mapE_getE_error ⟨y, (mem_scc_flatten env h).2 ⟨x, hx, hr⟩, hy⟩]
  rfl

theorem filter_containsQuorum_ok {l : List NodeSet} (h : ∀ K ∈ l, InR f K) :
    filterE (containsQuorum f) l = .ok (l.filter (fun s => f.containsQuorum s)) :=
  filterE_ok (fun K hK => containsQuorum_ok (h K hK))

theorem partition_inR (env : Env) {nodes : NodeSet} (h : InR f nodes) :
    ∀ K ∈ f.partitionIntoSccs env nodes, InR f K :=
  fun _ hK => h.sub (Fbas.partition_subset hK)

theorem consensusClusters_unfold (env : Env) : consensusClusters env f = (do
    let sccs ← partitionIntoSccs env f f.satisfiableNodes
    filterE (containsQuorum f) sccs) := by
  have : ofList (List.range f.nodes.length) = f.allNodes := range_toFinset _
  rw [consensusClusters, this, findSatisfiableNodes_ok (InR.all f)]; rfl

theorem consensusClusters_ok (env : Env) (hc : Closed f) :
    consensusClusters env f = .ok (FA.consensusClusters env f) := by
  rw [consensusClusters_unfold, partitionIntoSccs_ok env (sat_inR f) hc, ok_bind,
    filter_containsQuorum_ok (partition_inR env (sat_inR f)), consensusClusters_eq]

theorem not_closed (hc : ¬ Closed f) :
    ∃ x y, x ∈ f.satisfiableNodes ∧ Spec.Reaches f x y ∧ f.nodes.length ≤ y := by
  unfold Closed at hc
  push Not at hc
  exact hc

theorem consensusClusters_error (env : Env) (hc : ¬ Closed f) :
    consensusClusters env f = .error .outOfBounds := by
  rw [consensusClusters_unfold, partitionIntoSccs_error env (sat_inR f) (not_closed hc)]
  rfl

theorem clusters_inR (env : Env) : ∀ K ∈ FA.consensusClusters env f, InR f K := by
  rw [consensusClusters_eq]
  exact fun K hK => partition_inR env (sat_inR f) K (List.mem_filter.1 hK).1

theorem relevantNodes_ok (env : Env) (hc : Closed f) :
    relevantNodes env f = .ok (f.relevantNodes env) := by
  rw [relevantNodes, satisfiableNodes_ok, ok_bind, partitionIntoSccs_ok env (sat_inR f) hc, ok_bind,
    Fbas.relevantNodes]
  refine (foldE_ok (fun _ => True) trivial (fun b K _ hK => ⟨?_, trivial⟩)).1
  rw [relevantLoop, containsQuorum_ok (partition_inR env (sat_inR f) K hK), ok_bind]
  split <;> rfl

theorem relevantNodes_error (env : Env) (hc : ¬ Closed f) :
    relevantNodes env f = .error .outOfBounds := by
  rw [relevantNodes, satisfiableNodes_ok, ok_bind,
    partitionIntoSccs_error env (sat_inR f) (not_closed hc)]
  rfl

theorem findSets_ok {R : Type} (env : Env) (hc : Closed f)
    (finder : List NodeSet → Fbas → Except Panic (List R)) :
    findSets env f finder = finder (FA.consensusClusters env f) f := by
  rw [findSets, consensusClusters_ok env hc]; rfl

theorem findSets_error {R : Type} (env : Env) (hc : ¬ Closed f)
    (finder : List NodeSet → Fbas → Except Panic (List R)) :
    findSets env f finder = .error .outOfBounds := by
  rw [findSets, consensusClusters_error env hc]; rfl

/-! ### Ranking -/

theorem foldE_length {α : Type} {g : List ℚ → α → Except Panic (List ℚ)} {n : ℕ} {l : List α}
    {b : List ℚ} (h0 : b.length = n)
    (h : ∀ b a, b.length = n → a ∈ l → ∃ b', g b a = .ok b' ∧ b'.length = n) :
    ∃ b', foldE g b l = .ok b' ∧ b'.length = n :=
  foldE_inv (fun _ b => b.length = n) h0 (fun pre a suf b hl hb => h b a hb (by simp [hl]))

theorem rankNode_ok {last scores : List ℚ} {S : NodeSet} {x : ℕ} (hx : x < f.nodes.length)
    (hS : InR f S) (hl : last.length = f.nodes.length) (hs : scores.length = f.nodes.length) :
    ∃ b', rankNode f S last scores x = .ok b' ∧ b'.length = f.nodes.length := by
  rw [rankNode, getE_ok hx, ok_bind]
  refine foldE_length hs (fun b a hb ha => ?_)
  have ha' : a < f.nodes.length := hS a (by simpa using (List.mem_filter.1 ha).2)
  rw [addScore, getE_ok (by omega), ok_bind]
  obtain ⟨w, h1, h2, _⟩ := modifyE_spec (g := (· + last[x] / _)) (hb.symm ▸ ha')
  exact ⟨w, h1, by rw [h2, hb]⟩

theorem rankLoop_ok {nodes : List ℕ} (h : ∀ x ∈ nodes, x < f.nodes.length) (runs : ℕ)
    {last : List ℚ} (hl : last.length = f.nodes.length) :
    ∃ s, rankLoop f nodes runs last = .ok s ∧ s.length = f.nodes.length := by
  induction runs generalizing last with
  | zero => exact ⟨last, rfl, hl⟩
  | succ runs ih =>
    obtain ⟨s, h1, h2⟩ := foldE_length (g := rankNode f (ofList nodes) last) (l := nodes)
      (b := List.replicate f.nodes.length 0) (n := f.nodes.length) (by simp)
      (fun b a hb ha => rankNode_ok (h a ha) (InR.ofList h) hl hb)
    rw [rankLoop, h1, ok_bind]
    exact ih h2

theorem rankNodes_ok {nodes : List ℕ} (h : ∀ x ∈ nodes, x < f.nodes.length) (hn : nodes.Nodup) :
    ∃ s, rankNodes f nodes = .ok s ∧ s.length = f.nodes.length := by
  rw [rankNodes, if_pos (by simpa [ofList] using (List.toFinset_card_of_nodup hn).symm)]
  exact rankLoop_ok h _ (by simp)

theorem sortByRank_ok (env : Env) {nodes : List ℕ} (h : ∀ x ∈ nodes, x < f.nodes.length)
    (hn : nodes.Nodup) : sortByRank env f nodes = .ok (env.rank f nodes) := by
  obtain ⟨s, h1, h2⟩ := rankNodes_ok h hn
  rw [sortByRank, h1, ok_bind,
    mapE_ok (h := fun x => (s[x]?).getD 0) (fun x hx => by
      have : x < s.length := by rw [h2]; exact h x hx
      rw [getE_ok this, List.getElem?_eq_getElem this]; rfl)]
  rfl

theorem sortByRank_elems (env : Env) {S : NodeSet} (h : InR f S) :
    sortByRank env f (elems S) = .ok (env.rank f (elems S)) :=
  sortByRank_ok env h.elems (elems_nodup S)

theorem rank_inR (env : Env) {S : NodeSet} (h : InR f S) :
    ∀ x ∈ env.rank f (elems S), x < f.nodes.length :=
  fun x hx => h.elems x ((env.rank_perm f _).mem_iff.1 hx)

/-! ### Sets of sets -/

/-- No set of the list is contained in a set at another position. -/
def Antichain (l : List NodeSet) : Prop := l.Pairwise (fun a b => ¬ a ⊆ b ∧ ¬ b ⊆ a)

theorem isSet_iff (l : List NodeSet) : isSetOfMinimalNodeSets l = true ↔ Antichain l := by
  rw [isSetOfMinimalNodeSets, Antichain, List.pairwise_iff_getElem]
  simp only [List.all_eq_true, Bool.or_eq_true, beq_iff_eq, Bool.not_eq_true',
    decide_eq_false_iff_not, List.mem_zipIdx_iff_getElem?]
  constructor
  · intro h i j hi hj hij
    have h1 := h (l[i], i) (by simp [List.getElem?_eq_getElem hi]) (l[j], j)
      (by simp [List.getElem?_eq_getElem hj])
    have h2 := h (l[j], j) (by simp [List.getElem?_eq_getElem hj]) (l[i], i)
      (by simp [List.getElem?_eq_getElem hi])
    simp only at h1 h2
    exact ⟨h1.resolve_left (by omega), h2.resolve_left (by omega)⟩
  · rintro h ⟨a, i⟩ hp ⟨b, j⟩ hq
    simp only at hp hq ⊢
    obtain ⟨hi, rfl⟩ := List.getElem?_eq_some_iff.1 hp
    obtain ⟨hj, rfl⟩ := List.getElem?_eq_some_iff.1 hq
    rcases Nat.lt_trichotomy i j with hij | hij | hij
    · exact .inr (h i j hi hj hij).1
    · exact .inl hij
    · exact .inr (h j i hj hi hij).2

theorem Antichain.nodup {l : List NodeSet} (h : Antichain l) : l.Nodup :=
  List.Pairwise.imp (fun {a b} h (hab : a = b) => h.1 (hab ▸ Finset.Subset.refl _)) h

/-- Distinct minimal elements are incomparable. -/
theorem Antichain.of_minimal {P : NodeSet → Prop} {l : List NodeSet} (h : ∀ s ∈ l, Minimal P s)
    (hn : l.Nodup) : Antichain l := by
  refine hn.imp_of_mem (fun {a b} ha hb hab => ⟨fun hs => hab ?_, fun hs => hab ?_⟩)
  · exact Finset.Subset.antisymm hs ((h b hb).le_of_le (h a ha).prop hs)
  · exact Finset.Subset.antisymm ((h a ha).le_of_le (h b hb).prop hs) hs

theorem Antichain.perm {l l' : List NodeSet} (h : l.Perm l') : Antichain l ↔ Antichain l' :=
  h.pairwise_iff (fun h => ⟨h.2, h.1⟩)

theorem debugAssert_ok {dbg b : Bool} (h : dbg = true → b = true) : debugAssert dbg b = .ok () := by
  cases dbg <;> cases b <;> simp_all [debugAssert]

theorem intoBuckets_ok {l : List NodeSet} {bs : List (List NodeSet)}
    (h : ∀ s ∈ l, s.card < bs.length) : intoBuckets l bs = .ok (FA.intoBuckets l bs) := by
  rw [intoBuckets, FA.intoBuckets]
  refine (foldE_ok (fun b => b.length = bs.length) rfl (fun b s hb hs => ⟨?_, by simp [hb]⟩)).1
  have hlt : s.card < b.length := hb ▸ h s hs
  rw [modifyE_ok hlt, List.modify_eq_set_getElem? , List.getElem?_eq_getElem hlt]
  rfl

theorem removeNonMinimal_antichain (l : List NodeSet) :
    Antichain (FA.removeNonMinimalNodeSets l) :=
  Antichain.of_minimal (fun s hs => ((removeNonMinimal_spec l).1 s).1 hs) (removeNonMinimal_nodup l)

theorem removeNonMinimalNodeSets_ok (dbg : Bool) (l : List NodeSet) :
    removeNonMinimalNodeSets dbg l = .ok (FA.removeNonMinimalNodeSets l) := by
  have h := removeNonMinimal_antichain l
  rw [FA.removeNonMinimalNodeSets] at h
  simp only [removeNonMinimalNodeSets, FA.removeNonMinimalNodeSets]
  rw [intoBuckets_ok, ok_bind, debugAssert_ok]
  · rfl
  · exact fun _ => (isSet_iff _).2 h
  · intro s hs
    simp only [List.length_replicate]
    exact Nat.lt_succ_of_le (le_maxD (List.mem_map.2 ⟨s, hs, rfl⟩))

theorem removeNonMinimalX_ok {dbg : Bool} {l : List NodeSet} {p : NodeSet → Except Panic Bool}
    {q : NodeSet → Bool} (h : ∀ s ∈ l, p s = .ok (q s))
    (hd : dbg = true → Antichain (FA.removeNonMinimalX l q)) :
    removeNonMinimalX dbg l p = .ok (FA.removeNonMinimalX l q) := by
  rw [FA.removeNonMinimalX_eq] at hd ⊢
  rw [removeNonMinimalX, filterE_ok h, ok_bind, debugAssert_ok (fun hb => (isSet_iff _).2 (hd hb))]
  rfl

end FA.Checked
