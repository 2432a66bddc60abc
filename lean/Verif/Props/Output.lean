import Verif.Lemmas.Output
import Verif.Props.Groupings

/-!
# Property theorems about the output of results (C64)
-/

namespace FA.Props
open FA Spec Groupings

/-! ## C64 -/

/-- C64: if all nodes exist, looking up their names never panics. Every node is shown with the name of
its (last) group, or with its public key if it is in no group. -/
theorem C64_names (f : Fbas) (g : Option Groupings) (gs : List Grouping) (hg : MadeFrom g gs f)
    (ids : List NodeId) (hi : ∀ x ∈ ids, x < f.nodes.length) :
    ∃ names, toNames ids f g = .ok names ∧ List.Forall₂ (ShownAs gs f) ids names := by
  have hk : ∀ x ∈ ids, ∃ node, f.nodes[x]? = some node :=
    fun x hx => ⟨_, List.getElem?_eq_getElem (hi x hx)⟩
  have key : ∀ (F : NodeId → Except Panic PublicKey),
      (∀ x ∈ ids, ∃ nm, F x = .ok nm ∧ ShownAs gs f x nm) →
      ∃ names, mapE F ids = .ok names ∧ List.Forall₂ (ShownAs gs f) ids names := by
    intro F hF
    clear hi hk
    induction ids with
    | nil => exact ⟨[], rfl, .nil⟩
    | cons x l ih =>
      obtain ⟨nm, h1, h2⟩ := hF x List.mem_cons_self
      obtain ⟨names, h3, h4⟩ := ih fun y hy => hF y (List.mem_cons_of_mem _ hy)
      exact ⟨nm :: names, by rw [mapE, h1]; dsimp only; rw [h3], .cons h2 h4⟩
  rcases hg with ⟨rfl, rfl⟩ | ⟨g', rfl, hg⟩
  · refine key _ (fun x hx => ?_)
    obtain ⟨node, hn⟩ := hk x hx
    rw [hn]
    exact ⟨_, rfl, .inr ⟨by simp, by rw [hn]; rfl⟩⟩
  · refine key _ (fun x hx => ?_)
    rcases C33_get_by_member gs f g' hg x with ⟨h1, h2⟩ | ⟨i, org, h1, h2, h3, h4⟩
    · obtain ⟨node, hn⟩ := hk x hx
      rw [h1, hn]
      exact ⟨_, rfl, .inr ⟨h2, by rw [hn]; rfl⟩⟩
    · rw [h1]
      exact ⟨_, rfl, .inl ⟨i, org, h2, h3, rfl, h4⟩⟩

/-- C64: the recursion of `into_pretty_quorum_set` ends for every quorum set, every FBAS and arbitrary
groupings (it descends into *merged* quorum sets, which are never deeper). -/
theorem C64_terminates (f : Fbas) (g : Option Groupings) (q : QuorumSet) :
    q.intoPretty f g ≠ .error .fuel :=
  prettyLoop_ne_fuel f g _ q le_rfl

theorem mapE_forall₂ {α β : Type} {F : α → Except Panic β} {R : α → β → Prop} {l : List α}
    (h : ∀ x ∈ l, ∃ y, F x = .ok y ∧ R x y) : ∃ ys, mapE F l = .ok ys ∧ List.Forall₂ R l ys := by
  induction l with
  | nil => exact ⟨[], rfl, .nil⟩
  | cons x l ih =>
    obtain ⟨y, h1, h2⟩ := h x List.mem_cons_self
    obtain ⟨ys, h3, h4⟩ := ih fun x hx => h x (List.mem_cons_of_mem _ hx)
    exact ⟨y :: ys, by rw [mapE, h1]; dsimp only; rw [h3], .cons h2 h4⟩

theorem prettyLoop_total {f : Fbas} {g : Option Groupings} {gs : List Grouping} (hg : MadeFrom g gs f)
    (he : MembersExist gs f) (n : ℕ) (q : QuorumSet) (hq : ∀ x, Mentions q x → x < f.nodes.length)
    (h : q.height ≤ n) : ∃ p, QuorumSet.prettyLoop f g n q = .ok p := by
  induction n generalizing q with
  | zero =>
    obtain ⟨t, vs, qs⟩ := q
    rw [QuorumSet.height_eq] at h
    omega
  | succ n ih =>
    obtain ⟨q', h1, h2, h3⟩ : ∃ q', mergeOpt g q = .ok q' ∧ q'.height ≤ q.height ∧
        ∀ x, Mentions q' x → x < f.nodes.length := by
      rcases hg with ⟨rfl, rfl⟩ | ⟨g, rfl, hg⟩
      · exact ⟨q, rfl, le_rfl, hq⟩
      · have hm := mergeQuorumSet_ok (m := fun x => tailRep x gs x) q
          (fun x hx => merge_spec hg x (hq x hx))
        refine ⟨_, hm, height_merge q hm, fun x hx => ?_⟩
        obtain ⟨y, hy, rfl⟩ := mentions_mergeQ _ q x hx
        exact tailRep_lt he (hq y hy)
    rw [prettyLoop_succ, h1]
    dsimp only
    obtain ⟨names, h4, -⟩ := C64_names f g gs hg q'.validators fun x hx => h3 x (.validator hx)
    rw [h4]
    dsimp only
    obtain ⟨t, vs, qs⟩ := q'
    rw [QuorumSet.height_eq] at h2
    have hi : ∀ p ∈ qs, ∃ r, QuorumSet.prettyLoop f g n p = .ok r :=
      fun p hp => ih p (fun x hx => h3 x (.inner hp hx))
        (by have := QuorumSet.height_le_of_mem hp; omega)
    obtain ⟨ps, h5, -⟩ := mapE_forall₂ (R := fun _ _ => True)
      (fun p hp => (hi p hp).imp fun _ h => ⟨h, trivial⟩)
    rw [h5]
    exact ⟨_, rfl⟩

/-- C64: printing a quorum set never panics if its nodes and the members of all groups exist, also for
overlapping groups. -/
theorem C64_no_panic (f : Fbas) (g : Option Groupings) (gs : List Grouping) (hg : MadeFrom g gs f)
    (he : MembersExist gs f) (q : QuorumSet) (hq : ∀ x, Mentions q x → x < f.nodes.length) :
    ∃ p, q.intoPretty f g = .ok p ∧ (Value.qset q).prettyJson f g = .ok p.toJson := by
  obtain ⟨p, h⟩ := prettyLoop_total hg he q.height q hq le_rfl
  refine ⟨p, h, ?_⟩
  unfold Value.prettyJson
  dsimp only
  rw [show q.intoPretty f g = .ok p from h]

/-- C64: without groupings, a quorum set is printed with its shape and thresholds, and with public
keys. -/
theorem C64_quorum_set_keys (f : Fbas) (q : QuorumSet) (hq : ∀ x, Mentions q x → x < f.nodes.length) :
    ∃ p, q.intoPretty f none = .ok p ∧ ShowsQSet (ShownAs [] f) q p ∧
      (Value.qset q).prettyJson f none = .ok p.toJson := by
  obtain ⟨p, h1, h2⟩ := prettyLoop_ok f none (ShownAs [] f)
    (fun q => ∀ x, Mentions q x → x < f.nodes.length) (fun _ _ => rfl)
    (fun q hq p hp x hx => hq x (.inner hp hx))
    (fun q hq => C64_names f none [] (.inl ⟨rfl, rfl⟩) q.validators fun x hx => hq x (.validator hx))
    _ q hq le_rfl
  refine ⟨p, h1, h2, ?_⟩
  unfold Value.prettyJson
  dsimp only
  rw [show q.intoPretty f none = .ok p from h1]

/-- C64: for disjoint groups, merging a quorum set by group is idempotent. -/
theorem C64_merge_idempotent (gs : List Grouping) (f : Fbas) (g : Groupings)
    (hg : Groupings.new gs f = .ok g) (hd : DisjointGroups gs) (he : MembersExist gs f)
    (q : QuorumSet) (hq : ∀ x, Mentions q x → x < f.nodes.length) :
    ∃ q', g.mergeQuorumSet q = .ok q' ∧ g.mergeQuorumSet q' = .ok q' := by
  have hm := merge_spec hg
  have h1 := mergeQuorumSet_ok (m := fun x => tailRep x gs x) q (fun x hx => hm x (hq x hx))
  refine ⟨_, h1, ?_⟩
  rw [mergeQuorumSet_ok (m := fun x => tailRep x gs x), mergeQ_idem (fun x => tailRep_idem hd x)]
  intro x hx
  obtain ⟨y, hy, rfl⟩ := mentions_mergeQ _ q x hx
  exact hm _ (tailRep_lt he (hq y hy))

/-- C64: for disjoint groups, a quorum set is printed with the shape and the thresholds of the quorum
set merged by group (once), and with the names of the groups.

Missing for the full statement: overlapping groups, for which the claim is false, see
`C64_counterexample`. -/
theorem C64_quorum_set_groups_partial (gs : List Grouping) (f : Fbas) (g : Groupings)
    (hg : Groupings.new gs f = .ok g) (hd : DisjointGroups gs) (he : MembersExist gs f)
    (q : QuorumSet) (hq : ∀ x, Mentions q x → x < f.nodes.length) :
    ∃ q' p, g.mergeQuorumSet q = .ok q' ∧ q.intoPretty f (some g) = .ok p ∧
      ShowsQSet (ShownAs gs f) q' p ∧ (Value.qset q).prettyJson f (some g) = .ok p.toJson := by
  have hm := merge_spec hg
  have hlt : ∀ q : QuorumSet, (∀ x, Mentions q x → x < f.nodes.length) →
      ∀ x, Mentions (mergeQ (fun x => tailRep x gs x) q) x → x < f.nodes.length := by
    intro q hq x hx
    obtain ⟨y, hy, rfl⟩ := mentions_mergeQ _ q x hx
    exact tailRep_lt he (hq y hy)
  have hok : ∀ q : QuorumSet, (∀ x, Mentions q x → x < f.nodes.length) →
      g.mergeQuorumSet q = .ok (mergeQ (fun x => tailRep x gs x) q) :=
    fun q hq => mergeQuorumSet_ok q (fun x hx => hm x (hq x hx))
  have hidem : ∀ q : QuorumSet, (∀ x, Mentions q x → x < f.nodes.length) →
      g.mergeQuorumSet (mergeQ (fun x => tailRep x gs x) q) =
        .ok (mergeQ (fun x => tailRep x gs x) q) := fun q hq => by
    rw [hok _ (hlt q hq), mergeQ_idem (fun x => tailRep_idem hd x)]
  obtain ⟨p, h1, h2⟩ := prettyLoop_ok f (some g) (ShownAs gs f)
    (fun q => ∃ q₀ : QuorumSet, (∀ x, Mentions q₀ x → x < f.nodes.length) ∧
      q = mergeQ (fun x => tailRep x gs x) q₀)
    (fun q hq => by obtain ⟨q₀, h, rfl⟩ := hq; exact hidem q₀ h)
    (fun q hq p hp => by
      obtain ⟨⟨t, vs, qs⟩, h, rfl⟩ := hq
      rw [mergeQ_eq, mergeFinish_threshold] at hp
      obtain ⟨p₀, hp₀, rfl⟩ := List.mem_map.1 (List.mem_filter.1 hp).1
      exact ⟨p₀, fun x hx => h x (.inner hp₀ hx), rfl⟩)
    (fun q hq => by
      obtain ⟨q₀, h, rfl⟩ := hq
      exact C64_names f (some g) gs (.inr ⟨g, rfl, hg⟩) _
        fun x hx => hlt q₀ h x (.validator hx))
    q.height _ ⟨q, hq, rfl⟩ (height_merge q (hok q hq))
  have h3 : q.intoPretty f (some g) = .ok p := by
    rw [← h1]
    unfold QuorumSet.intoPretty
    obtain ⟨n, hn⟩ : ∃ n, q.height = n + 1 := by
      obtain ⟨t, vs, qs⟩ := q
      exact ⟨_, QuorumSet.height_eq t vs qs⟩
    rw [hn, prettyLoop_succ, prettyLoop_succ]
    show (match g.mergeQuorumSet q with | .error e => _ | .ok q' => _) =
      (match g.mergeQuorumSet _ with | .error e => _ | .ok q' => _)
    rw [hok q hq, hidem q hq]
  refine ⟨_, p, hok q hq, h3, h2, ?_⟩
  unfold Value.prettyJson
  dsimp only
  rw [h3]

/-- Four nodes without trust, for examples. -/
def fbasKeys : Fbas := Ref.mkFbas [⟨1, [0], []⟩, ⟨1, [1], []⟩, ⟨1, [2], []⟩, ⟨1, [3], []⟩]

/-- C64 does not hold for overlapping groups A = {0, 1} and B = {1, 2}: in the printed form of one
quorum set, node 2 is shown as "B" at the outer level and as "A" at the inner level, where merging is
applied twice. -/
theorem C64_counterexample :
    ∃ g, Groupings.new [⟨"A", [0, 1]⟩, ⟨"B", [1, 2]⟩] fbasKeys = .ok g ∧
      (QuorumSet.mk 3 [2, 3] [⟨2, [2, 3], []⟩]).intoPretty fbasKeys (some g) =
        .ok ⟨3, ["B", "n3"], [⟨2, ["A", "n3"], []⟩]⟩ ∧
      g.mergeQuorumSet ⟨3, [2, 3], [⟨2, [2, 3], []⟩]⟩ = .ok ⟨3, [1, 3], [⟨2, [1, 3], []⟩]⟩ := by
  refine ⟨_, rfl, ?_, ?_⟩
  · rfl
  · rfl

/-- C64: printed as IDs, a list of sets is the list of the ascending lists of their (original) IDs. -/
theorem C64_ids (r : SetVecResult) (l : List NodeSet) (hr : r.unwrap = .ok l) :
    ∃ js, (Value.sets r).idJson = .ok (.arr js) ∧ List.Forall₂ ListsIds l js := by
  refine ⟨l.map (fun S => .arr ((elems S).map .nat)), ?_, ?_⟩
  · unfold Value.idJson SetVecResult.intoVecVec
    dsimp only
    rw [SetVecResult.unshrink_of_unwrap hr]
    dsimp only
    unfold Value.idLists
    rw [List.map_map]
    rfl
  · rw [List.forall₂_map_right_iff, List.forall₂_same]
    exact fun S _ => ⟨elems S, elems_pairwise S, toFinset_elems S, rfl⟩

/-- C64: the same for a single set; with `describe` just its size is printed. -/
theorem C64_set (r : SetResult) :
    (∃ j, (Value.set r).idJson = .ok j ∧ ListsIds r.unwrap j) ∧
      (Value.set r).describeJson = .ok (.nat r.unwrap.card) :=
  ⟨⟨_, rfl, elems r.unwrap, elems_pairwise _, toFinset_elems _, rfl⟩, rfl⟩

/-- C64: in pretty form, a single set is printed as the list of the names of its members. -/
theorem C64_set_names (f : Fbas) (g : Option Groupings) (gs : List Grouping) (hg : MadeFrom g gs f)
    (r : SetResult) (hr : ∀ x ∈ r.unwrap, x < f.nodes.length) :
    ∃ j, (Value.set r).prettyJson f g = .ok j ∧ ListsNames (ShownAs gs f) r.unwrap j := by
  obtain ⟨names, h1, h2⟩ := C64_names f g gs hg (elems r.unwrap) fun x hx => hr x (mem_elems.1 hx)
  refine ⟨.arr (names.map .str), ?_, elems r.unwrap, names, elems_pairwise _, toFinset_elems _, h2, rfl⟩
  unfold Value.prettyJson
  dsimp only
  rw [show r.intoPrettyVec f g = .ok names by rw [← h1]; cases g <;> rfl]

/-- C64: in pretty form, a list of sets is printed as the list of the lists of names. -/
theorem C64_sets_names (f : Fbas) (g : Option Groupings) (gs : List Grouping) (hg : MadeFrom g gs f)
    (r : SetVecResult) (l : List NodeSet) (hr : r.unwrap = .ok l)
    (hl : ∀ S ∈ l, ∀ x ∈ S, x < f.nodes.length) :
    ∃ js, (Value.sets r).prettyJson f g = .ok (.arr js) ∧
      List.Forall₂ (ListsNames (ShownAs gs f)) l js := by
  have h : ∀ l : List NodeSet, (∀ S ∈ l, ∀ x ∈ S, x < f.nodes.length) →
      ∃ ll, mapE (fun S => (SetResult.mk S).intoPrettyVec f g) l = .ok ll ∧
        List.Forall₂ (fun (S : NodeSet) names =>
          List.Forall₂ (ShownAs gs f) (elems S) names) l ll := by
    intro l hl
    induction l with
    | nil => exact ⟨[], rfl, .nil⟩
    | cons S l ih =>
      obtain ⟨names, h1, h2⟩ := C64_names f g gs hg (elems S)
        fun x hx => hl S List.mem_cons_self x (mem_elems.1 hx)
      obtain ⟨ll, h3, h4⟩ := ih fun S hS => hl S (List.mem_cons_of_mem _ hS)
      have h5 : (SetResult.mk S).intoPrettyVec f g = .ok names := by rw [← h1]; cases g <;> rfl
      exact ⟨names :: ll, by rw [mapE, h5]; dsimp only; rw [h3], .cons h2 h4⟩
  obtain ⟨ll, h1, h2⟩ := h l hl
  refine ⟨ll.map (fun names => .arr (names.map .str)), ?_, ?_⟩
  · unfold Value.prettyJson
    dsimp only
    rw [C35_pretty r l hr]
    rw [show (SetVecResult.new l none).intoPrettyVecVec f g = .ok ll from h1]
  · rw [List.forall₂_map_right_iff]
    exact h2.imp fun S names h => ⟨elems S, names, elems_pairwise S, toFinset_elems S, h, rfl⟩

theorem foldr_union (l : List NodeSet) : l.foldr (· ∪ ·) ∅ = involvedNodes l := by
  unfold involvedNodes
  show _ = unionAll l
  induction l with
  | nil => rfl
  | cons S l ih => rw [List.foldr_cons, ih, unionAll_cons]

/-- C64: with `describe`, the printed numbers are those of the list of sets. -/
theorem C64_summary (l : List NodeSet) :
    ∃ j, (Value.sets (SetVecResult.new l none)).describeJson = .ok j ∧ Summary l j := by
  obtain ⟨h, h1, h2⟩ := C34_describe (SetVecResult.new l none)
  obtain ⟨h', h1', h3, -, h4⟩ := C34_histogram (SetVecResult.new l none)
  obtain ⟨s1, -, -, s4, s5, s6, s7⟩ := C34_statistics (SetVecResult.new l none)
  rw [h1] at h1'
  obtain rfl := Except.ok.inj h1'
  refine ⟨_, by unfold Value.describeJson; dsimp only; rw [h2], _, _, _, h, ?_, s4, s5, s6, s7, h3, h4⟩
  rw [foldr_union]
  rfl

/-- C64: shrunken results give the same numbers as their original sets. -/
theorem C64_summary_shrunken (l l' : List NodeSet) (K : NodeSet)
    (h : (SetVecResult.new l (some (ShrinkManager.new K))).unwrap = .ok l') :
    ∃ j, (Value.sets (SetVecResult.new l (some (ShrinkManager.new K)))).describeJson = .ok j ∧
      Summary l' j := by
  obtain ⟨j, h1, h2⟩ := C64_summary l'
  refine ⟨j, ?_, h2⟩
  rw [← h1]
  unfold Value.describeJson
  dsimp only
  rw [(C34_unshrink l l' K h).2.2.2.2.2.2.2]

theorem qset_toJson_inj : ∀ (q q' : QuorumSet), q.toJson = q'.toJson → q = q' := by
  intro q
  induction q using QuorumSet.induct with
  | h t vs qs ih =>
    rintro ⟨t', vs', qs'⟩ h
    have hl : ∀ qs' : List QuorumSet, QuorumSet.toJsonList qs = QuorumSet.toJsonList qs' →
        qs = qs' := by
      clear h
      induction qs with
      | nil =>
        intro qs' h
        cases qs' with
        | nil => rfl
        | cons p ps => rw [QuorumSet.toJsonList, QuorumSet.toJsonList] at h; cases h
      | cons q qs ihq =>
        intro qs' h
        cases qs' with
        | nil => rw [QuorumSet.toJsonList, QuorumSet.toJsonList] at h; cases h
        | cons p ps =>
          rw [QuorumSet.toJsonList, QuorumSet.toJsonList] at h
          obtain ⟨h1, h2⟩ := List.cons.inj h
          rw [ih q List.mem_cons_self p h1,
            ihq (fun q hq => ih q (List.mem_cons_of_mem _ hq)) ps h2]
    have hv : ∀ vs' : List ℕ, vs.map Json.nat = vs'.map Json.nat → vs = vs' := fun vs' h =>
      List.map_injective_iff.2 (fun a b h => Json.nat.inj h) h
    rw [QuorumSet.toJson, QuorumSet.toJson] at h
    have h := Json.obj.inj h
    by_cases h1 : vs = [] <;> by_cases h2 : vs' = [] <;> by_cases h3 : qs = [] <;>
      by_cases h4 : qs' = [] <;> simp only [h1, h2, h3, h4, List.isEmpty_iff, ↓reduceIte,
        List.append_nil, List.cons_append, List.nil_append, List.cons.injEq, Prod.mk.injEq,
        Json.nat.injEq, Json.arr.injEq, true_and, and_true, false_and, and_false,
        reduceCtorEq, String.reduceEq] at h
    · rw [h, h1, h2, h3, h4]
    · rw [h.1, h1, h2, hl _ h.2]
    · rw [h.1, hv _ h.2, h3, h4]
    · rw [h.1, hv _ h.2.1, hl _ h.2.2]

/-- C64: different quorum sets are printed differently (as IDs). -/
theorem C64_quorum_set_ids (q q' : QuorumSet) :
    (Value.qset q).idJson = (Value.qset q').idJson ↔ q = q' :=
  ⟨fun h => qset_toJson_inj q q' (Except.ok.inj h), fun h => by rw [h]⟩

/-- C64: a quorum set is printed (as IDs) as an object with the threshold, the validators and the inner quorum sets,
in this order and without empty lists; a list of quorum sets as an array of such objects. The same is printed instead
of a summary. -/
theorem C64_quorum_set_shown (q : QuorumSet) (L : List QuorumSet) (j : Json) :
    ((Value.qset q).idJson = .ok j ↔ ListsQSet q j) ∧
    ((Value.qsets L).idJson = .ok j ↔ ∃ js, j = .arr js ∧ List.Forall₂ ListsQSet L js) ∧
    (Value.qset q).describeJson = (Value.qset q).idJson ∧ (Value.qsets L).describeJson = (Value.qsets L).idJson := by
  refine ⟨?_, ?_, rfl, rfl⟩
  · rw [listsQSet_iff]
    exact ⟨fun h => (Except.ok.inj h).symm, fun h => by rw [h]; rfl⟩
  · constructor
    · exact fun h => ⟨_, (Except.ok.inj h).symm, (forall₂_listsQSet _ _).2 rfl⟩
    · rintro ⟨js, rfl, h⟩
      rw [(forall₂_listsQSet _ _).1 h]; rfl

/-- A nested quorum set without validators at the top. -/
example : ListsQSet ⟨1, [], [⟨2, [3, 5], []⟩]⟩ (.obj [("threshold", .nat 1),
    ("innerQuorumSets", .arr [.obj [("threshold", .nat 2), ("validators", .arr [.nat 3, .nat 5])]])]) :=
  (listsQSet_iff _ _).2 rfl

/-- Concrete case: an organization with two of four nodes; a nested quorum set in all formats. -/
example : ∃ g, Groupings.new [⟨"A", [0, 1]⟩] fbasKeys = .ok g ∧ DisjointGroups [⟨"A", [0, 1]⟩] ∧
    MembersExist [⟨"A", [0, 1]⟩] fbasKeys ∧
    (QuorumSet.mk 2 [1, 2] [⟨2, [0, 1], []⟩, ⟨1, [1, 3], []⟩]).intoPretty fbasKeys (some g) =
      .ok ⟨2, ["A", "n2", "A"], [⟨1, ["A", "n3"], []⟩]⟩ ∧
    (QuorumSet.mk 2 [1, 2] [⟨2, [0, 1], []⟩, ⟨1, [1, 3], []⟩]).intoPretty fbasKeys none =
      .ok ⟨2, ["n1", "n2"], [⟨2, ["n0", "n1"], []⟩, ⟨1, ["n1", "n3"], []⟩]⟩ ∧
    (∀ x, Mentions (QuorumSet.mk 2 [1, 2] [⟨2, [0, 1], []⟩, ⟨1, [1, 3], []⟩]) x →
      x < fbasKeys.nodes.length) := by
  refine ⟨_, rfl, ?_, ?_, rfl, rfl, ?_⟩
  · unfold DisjointGroups; decide
  · unfold MembersExist; decide
  · intro x hx
    rw [← QuorumSet.mem_containedNodesWithDuplicates] at hx
    revert x
    decide

/-- Concrete case for lists of sets. -/
example : (Value.sets (SetVecResult.new [{0, 2}, {1}] none)).prettyJson fbasKeys none =
      .ok (.arr [.arr [.str "n0", .str "n2"], .arr [.str "n1"]]) ∧
    ListsIds {0, 2} (.arr [.nat 0, .nat 2]) :=
  ⟨rfl, [0, 2], by decide, by decide, rfl⟩

#print axioms C64_names
#print axioms C64_terminates
#print axioms C64_no_panic
#print axioms C64_quorum_set_keys
#print axioms C64_merge_idempotent
#print axioms C64_quorum_set_groups_partial
#print axioms C64_counterexample
#print axioms C64_ids
#print axioms C64_set
#print axioms C64_set_names
#print axioms C64_sets_names
#print axioms C64_summary
#print axioms C64_summary_shrunken
#print axioms C64_quorum_set_ids
#print axioms C64_quorum_set_shown

end FA.Props
