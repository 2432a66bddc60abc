import Verif.Lemmas.Weights
import Verif.Props.RandomRange

/-!
# C100: weights of random choices
-/

namespace FA
open Spec Simulator Props

theorem enoughWeight_iff {G : Graph} {ds : List ℕ} {size m : ℕ}
    (h : ∀ y : ℕ, ds.getD y 1 = if y < G.outlinks.length then linksInto G y else 1) :
    EnoughWeight size m ds ↔ EnoughTargets G size m := by
  refine forall_congr' (fun x => forall_congr' (fun _ => ?_))
  have hset : {y : ℕ | y < m ∧ y ≠ x ∧ (y < G.outlinks.length → 1 ≤ linksInto G y)} =
      ↑(choosable m ds [x]) := by
    ext y
    rw [Set.mem_ofPred_eq, Finset.mem_coe, mem_choosable, List.mem_singleton]
    refine and_congr Iff.rfl (and_congr Iff.rfl ?_)
    rw [h]
    by_cases hy : y < G.outlinks.length
    · rw [if_pos hy]; exact ⟨fun h => h hy, fun h _ => h⟩
    · rw [if_neg hy]; exact ⟨fun _ => Nat.one_pos, fun _ h => absurd h hy⟩
  rw [hset, Set.ncard_coe_finset]

end FA

namespace FA.Props
open FA Spec Simulator

/-- C100: `new_random_scale_free` prefers nodes with many links. Each later node chooses its links one after the other
among all earlier nodes, and the weight of a node is the number of its links at that time. -/
theorem C100_scale_free (R : Rand) (Ok : List (NodeId × ℕ) → NodeId → Prop) (hR : Follows R Ok) (s s' : R.State)
    (n m0 m : ℕ) (h2 : 2 ≤ m0) (hn : m0 ≤ n) (hm : 1 ≤ m) (hmm : m ≤ m0) (g : Graph)
    (h : Graph.newRandomScaleFree R s n m0 m = .ok (g, s')) (x : NodeId) (hx0 : m0 ≤ x) (hx : x < n) :
    ∃ js, js.length = m ∧ js.Nodup ∧ (∀ y, y ∈ js ↔ y < x ∧ Link g x y) ∧
      ChosenBy Ok (List.range x) (fun y => Set.ncard {z : ℕ | z < x ∧ Link g y z}) js := by
  obtain ⟨g1, s1, h1, h3, -, -, ⟨-, h6⟩, -, h8, -⟩ := C48_scale_free R s n m0 m h2 hn hm hmm
  rw [h] at h1
  obtain ⟨rfl, rfl⟩ := Prod.mk.inj (Except.ok.inj h1)
  have hw := scaleFree_weighed hR s h2 hn hm hmm h x hx0 hx
  obtain ⟨o⟩ := g
  have hrow : ∀ y : ℕ, y < n → o[y]? = some (row o y) := by
    intro y hy
    have : y < o.length := by rw [show o.length = n from h3]; exact hy
    rw [List.getElem?_eq_getElem this, row_eq (List.getElem?_eq_getElem this)]
  have hdeg : ∀ y : ℕ, y < n →
      ((row o y).filter (fun z => decide (z < x))).length = Set.ncard {z : ℕ | z < x ∧ Link ⟨o⟩ y z} := by
    intro y hy
    rw [← List.toFinset_card_of_nodup ((h6 y _ (hrow y hy)).filter _), ← Set.ncard_coe_finset]
    congr 1
    ext z
    rw [Finset.mem_coe, List.mem_toFinset, List.mem_filter, decide_eq_true_eq]
    change _ ↔ z < x ∧ Link ⟨o⟩ y z
    rw [link_row]
    exact and_comm
  refine ⟨(row o x).filter (fun z => decide (z < x)), h8 x hx0 _ (hrow x hx), (h6 x _ (hrow x hx)).filter _,
    fun y => ?_, fun k v hk => ?_⟩
  · rw [List.mem_filter, decide_eq_true_eq, link_row]
    exact and_comm
  · have h9 := hw k v hk
    have : ∀ l : List ℕ, (∀ y ∈ l, y < x) →
        l.map (fun y => (y, ((row o y).filter (fun z => decide (z < x))).length)) =
        l.map (fun y => (y, Set.ncard {z : ℕ | z < x ∧ Link ⟨o⟩ y z})) := by
      intro l hl
      refine List.map_congr_left (fun y hy => ?_)
      rw [hdeg y (Nat.lt_trans (hl y hy) hx)]
    rw [this _ (fun y hy => List.mem_range.1 (List.mem_filter.1 hy).1)] at h9
    exact h9

/-- C100: with `Random`, every node chooses among the nodes that are present and not yet listed, all with the same
weight. -/
theorem C100_random (R : Rand) (Ok : List (NodeId × ℕ) → NodeId → Prop) (hR : Follows R Ok) (rnd : ℚ → ℚ)
    (i g size : ℕ) (hsize : 2 ≤ size) (s : R.State) :
    Prints (QscSimulator.main R rnd ⟨i, g, .random size⟩ s) (i + g)
      (fun x q => ChosenInTurn Ok i (fun _ => 1) x q.validators) := by
  have hp : QscSimulator.parseQscConfig R rnd (.random size) = .ok (Qsc.random R size none [], 0) := rfl
  obtain ⟨h1, h2⟩ := main_simulates (args := ⟨i, g, .random size⟩) hp s
  have hi : initialSize ⟨i, g, .random size⟩ 0 = i := by
    unfold initialSize
    split
    · rename_i h; exact h.1.symm
    · rfl
  rw [hi] at h2
  have hw : EnoughWeight size (max i (min size (i + g))) [] := by
    intro x hx
    have h3 : choosable (max i (min size (i + g))) [] [x] =
        (Finset.range (max i (min size (i + g)))).erase x := by
      ext y
      rw [mem_choosable, Finset.mem_erase, Finset.mem_range, List.mem_singleton]
      exact ⟨fun h => ⟨h.2.1, h.1⟩, fun h => ⟨h.2, h.1, by simp⟩⟩
    rw [h3, Finset.card_erase_of_mem (Finset.mem_range.2 hx), Finset.card_range]
    omega
  obtain ⟨f, h3, -, h4, h5⟩ := (gradual_weights hR (t := none) hw hsize).simulate g (Nat.le_refl _) s trivial
  refine ⟨f, ?_, h4, fun x q hq => ?_⟩
  · rw [h2]
    change Except.map _ (QscSimulator.simulate _ _ g s) = _
    rw [h3]; rfl
  · exact (h5 x q hq).2

/-- C100: with `FameWeightedRandom`, the weight of a node of the graph is the number of links that lead to it; other
nodes have the weight 1. -/
theorem C100_fame (R : Rand) (Ok : List (NodeId × ℕ) → NodeId → Prop) (hR : Follows R Ok) (rnd : ℚ → ℚ)
    (i g size : ℕ) (t : Text) (th : Option ℕ) (G : Graph)
    (hG : Graph.fromAsRelString t = .ok G) (hsize : 2 ≤ size) (s : R.State) (doc : Json)
    (h : QscSimulator.main R rnd ⟨i, g, .fameWeightedRandom size t th⟩ s = .ok doc) :
    let args : QscSimulator.Cli := ⟨i, g, .fameWeightedRandom size t th⟩
    Prints (.ok doc) (wantedSize args G.outlinks.length)
      (fun x q => ChosenInTurn Ok (initialSize args G.outlinks.length)
        (fun y => if y < G.outlinks.length then linksInto G y else 1) x q.validators) := by
  intro args
  obtain ⟨ds, hds1, hds2, hds3⟩ := C52_in_degrees G (fromAsRel_spec hG).1
  have hp : QscSimulator.parseQscConfig R rnd (.fameWeightedRandom size t th) =
      .ok (Qsc.random R size th ds, G.outlinks.length) := by
    dsimp only [QscSimulator.parseQscConfig]; exact withGraph_ok hG (by rw [hds1])
  have hwt : (fun y : ℕ => ds.getD y 1) = fun y => if y < G.outlinks.length then linksInto G y else 1 := by
    funext y
    rw [List.getD_eq_getElem?_getD]
    by_cases hy : y < G.outlinks.length
    · rw [hds3 y hy, if_pos hy]; rfl
    · rw [List.getElem?_eq_none (by rw [hds2]; exact Nat.le_of_not_lt hy), if_neg hy]; rfl
  obtain ⟨h1, h2⟩ := main_simulates (args := args) hp s
  change initialSize args G.outlinks.length + g = wantedSize args G.outlinks.length at h1
  have he : EnoughTargets G size (max (initialSize args G.outlinks.length)
      (min size (wantedSize args G.outlinks.length))) := by
    by_contra hne
    obtain ⟨e, he⟩ := (C71_fame R rnd i g size t th G hG hsize s).2.2 hne
    rw [h] at he; cases he
  have hw := (enoughWeight_iff (fun y => congrFun hwt y)).2 he
  rw [← h1] at hw
  obtain ⟨f, h3, -, h4, h5⟩ := (gradual_weights hR (t := th) hw hsize).simulate g (Nat.le_refl _) s trivial
  rw [h1] at h4 h5
  refine ⟨f, ?_, h4, fun x q hq => ?_⟩
  · rw [← h, h2]
    change Except.map _ (QscSimulator.simulate _ _ g s) = _
    rw [h3]; rfl
  · have h6 := (h5 x q hq).2
    rw [hwt] at h6
    exact h6

/-- No candidate has more weight than the chosen one. -/
def Heaviest (l : List (NodeId × ℕ)) (x : NodeId) : Prop := ∀ p ∈ l, ∀ k, (x, k) ∈ l → p.2 ≤ k

/-- C100: if always a candidate of the largest weight is chosen, then `new_random_scale_free` connects every later
node with those that had the most links. -/
theorem C100_most_links (R : Rand) (hR : Follows R Heaviest) (s s' : R.State) (n m0 m : ℕ) (h2 : 2 ≤ m0)
    (hn : m0 ≤ n) (hm : 1 ≤ m) (hmm : m ≤ m0) (g : Graph)
    (h : Graph.newRandomScaleFree R s n m0 m = .ok (g, s')) (x y z : NodeId) (hx0 : m0 ≤ x) (hx : x < n)
    (hy : y < x) (hxy : Link g x y) (hz : z < x) (hxz : ¬ Link g x z) :
    Set.ncard {u : ℕ | u < x ∧ Link g z u} ≤ Set.ncard {u : ℕ | u < x ∧ Link g y u} := by
  obtain ⟨js, -, h1, h3, h4⟩ := C100_scale_free R Heaviest hR s s' n m0 m h2 hn hm hmm g h x hx0 hx
  obtain ⟨k, hk⟩ := List.mem_iff_getElem?.1 ((h3 y).2 ⟨hy, hxy⟩)
  have hmem : ∀ u : ℕ, u < x → u ∉ js.take k → (u, Set.ncard {v : ℕ | v < x ∧ Link g u v}) ∈
      ((List.range x).filter (fun y => decide (y ∉ js.take k))).map
        (fun y => (y, Set.ncard {v : ℕ | v < x ∧ Link g y v})) := by
    intro u hu hj
    exact List.mem_map.2 ⟨u, List.mem_filter.2 ⟨List.mem_range.2 hu, by rw [decide_eq_true_eq]; exact hj⟩, rfl⟩
  refine h4 k y hk _ (hmem z hz fun hj => hxz ((h3 z).1 (List.mem_of_mem_take hj)).2) _ (hmem y hy fun hj => ?_)
  obtain ⟨a, ha⟩ := List.mem_iff_getElem?.1 hj
  rw [List.getElem?_take] at ha
  split at ha
  · rename_i hak
    obtain ⟨b1, b2⟩ := List.getElem?_eq_some_iff.1 ha
    obtain ⟨c1, c2⟩ := List.getElem?_eq_some_iff.1 hk
    have := (List.Nodup.getElem_inj_iff h1).1 (b2.trans c2.symm)
    omega
  · cases ha

/-- A generator that always chooses the first of the heaviest candidates. -/
def heaviestRand : Rand where
  State := ℕ
  shuffle s l := (l, s)
  shuffle_perm _ l := .refl l
  chooseWeighted s w l := (l.find? (fun x => decide (0 < w x ∧ ∀ y ∈ l, w y ≤ w x)), s)
  chooseWeighted_some s w l x h := by
    have := List.find?_some h
    rw [decide_eq_true_eq] at this
    exact ⟨List.mem_of_find?_eq_some h, this.1⟩
  chooseWeighted_none s w l h x hx := by
    by_contra hne
    obtain ⟨y, hy, hmax⟩ := l.toFinset.exists_max_image w ⟨x, List.mem_toFinset.2 hx⟩
    have h1 := List.find?_eq_none.1 h y (List.mem_toFinset.1 hy)
    rw [decide_eq_true_eq] at h1
    have h2 := hmax x (List.mem_toFinset.2 hx)
    exact h1 ⟨Nat.lt_of_lt_of_le (Nat.pos_of_ne_zero hne) h2, fun z hz => hmax z (List.mem_toFinset.2 hz)⟩
  choose s l := (l.head?, s)
  choose_some s l x h := List.mem_of_mem_head? h
  choose_none s l h := by simpa using h
  genBool s _ := (false, s)
  genBool_zero _ := rfl

theorem heaviestRand_follows : Follows heaviestRand Heaviest := by
  intro s w l x s' h p hp k hk
  obtain ⟨y, hy, rfl⟩ := List.mem_map.1 hp
  obtain ⟨z, -, hz⟩ := List.mem_map.1 hk
  obtain ⟨rfl, rfl⟩ := Prod.mk.inj hz
  have h1 : l.find? (fun x => decide (0 < w x ∧ ∀ y ∈ l, w y ≤ w x)) = some z := (Prod.mk.inj h).1
  have h2 := List.find?_some h1
  rw [decide_eq_true_eq] at h2
  exact h2.2 y hy

/-- With this generator a star emerges: everybody is linked to node 0. -/
example : (Graph.newRandomScaleFree heaviestRand (0 : ℕ) 5 2 1).map (fun r => r.1.outlinks) =
    .ok [[1, 2, 3, 4], [0], [0], [0], [0]] := Ref.ok_of (by decide +kernel)

/-- Node 0 is the target of two links and node 1 of one, so the others choose node 0. -/
example : QscSimulator.main heaviestRand id
      ⟨3, 0, .fameWeightedRandom 2 "0|2|-1\n1|2|-1\n0|1|-1\n".toList none⟩ (0 : ℕ) =
    .ok (Ref.mkFbas [⟨2, [0, 1], []⟩, ⟨2, [1, 0], []⟩, ⟨2, [2, 0], []⟩]).toJson ∧
    (Graph.fromAsRelString "0|2|-1\n1|2|-1\n0|1|-1\n".toList).map (·.outlinks) = .ok [[], [0], [0, 1]] :=
  ⟨Ref.doc_of (by decide +kernel), Ref.ok_of (by decide +kernel)⟩

#print axioms C100_scale_free
#print axioms C100_random
#print axioms C100_fame
#print axioms C100_most_links

end FA.Props
