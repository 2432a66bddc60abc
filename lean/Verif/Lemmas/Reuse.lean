import Verif.Model.Reuse
import Verif.SpecReuse
import Verif.Lemmas.BulkAnalyze
import Verif.Props.StandardForm
import Verif.Props.IoGroupings
import Mathlib.Data.Fintype.EquivFin

/-!
# Proofs about reused results
-/

namespace FA
open Spec Analysis Props

namespace Reuse

/-! ### `do_analysis` -/

/-- What the result says. -/
structure Says (env : Env) (f : Fbas) (r : Results) (B S : List NodeSet) : Prop where
  blocking : answerAfter env f [] .minimalBlockingSets = .ok (.sets B)
  splitting : answerAfter env f [.minimalBlockingSets] .minimalSplittingSets = .ok (.sets S)
  top : answerAfter env f [.minimalBlockingSets, .minimalSplittingSets] .topTier =
    .ok (.set r.topTier.unwrap)
  hqi : answerAfter env f [.minimalBlockingSets, .minimalSplittingSets, .topTier]
    .hasQuorumIntersection = .ok (.bool r.hasQuorumIntersection)
  unwrapB : r.minimalBlockingSets.unwrap = .ok B
  unwrapS : r.minimalSplittingSets.unwrap = .ok S

theorem doAnalysis_spec (env : Env) {f : Fbas} (hwf : WF f) :
    ∃ r B S, doAnalysis env f = .ok r ∧ Says env f r B S ∧
      (∃ K l, r.minimalBlockingSets = SetVecResult.new l (some (ShrinkManager.new K))) ∧
      (∀ S ∈ B, ∀ x ∈ S, x < f.nodes.length) := by
  obtain ⟨fR, pq, pb, a, s, hn, hst⟩ := exists_setting env f
  have h0 : After env f fR pq pb [] a := After.new hn hst
  obtain ⟨ans₁, a₁, b1, b2, h1⟩ := h0.call s (c := .minimalBlockingSets) (by simp)
  obtain ⟨ans₂, a₂, s1, s2, h2⟩ := h1.call s (c := .minimalSplittingSets) (by simp)
  obtain ⟨ans₃, a₃, t1, t2, h3⟩ := h2.call s (c := .topTier) (by simp)
  obtain ⟨ans₄, a₄, v1, v2, h4⟩ := h3.call s (c := .hasQuorumIntersection) (by simp)
  rw [show a.call env .minimalBlockingSets = answerSets (a.minimalBlockingSets env) from rfl] at b1
  obtain ⟨rb, B, b3, b4, rfl⟩ := answerSets_ok b1
  rw [show a₁.call env .minimalSplittingSets = answerSets (a₁.minimalSplittingSets env) from rfl] at s1
  obtain ⟨rs, S, s3, s4, rfl⟩ := answerSets_ok s1
  rw [show a₂.call env .topTier = (a₂.topTier env).map (fun r => (.set r.1.unwrap, r.2)) from rfl] at t1
  rw [show a₃.call env .hasQuorumIntersection =
    (a₃.hasQuorumIntersection env).map (fun r => (.bool r.1, r.2)) from rfl] at v1
  cases ht : a₂.topTier env with
  | error e => rw [ht] at t1; cases t1
  | ok t =>
    rw [ht] at t1
    cases hv : a₃.hasQuorumIntersection env with
    | error e => rw [hv] at v1; cases v1
    | ok v =>
      rw [hv] at v1
      obtain ⟨e1, e2⟩ := Prod.mk.inj (Except.ok.inj t1)
      obtain ⟨e3, e4⟩ := Prod.mk.inj (Except.ok.inj v1)

      obtain ⟨l, rfl⟩ := isMethod_minimalBlockingSets.2.1 _ _ _ b3
      obtain ⟨hK, hL⟩ := h1.sets hwf s b4
      refine ⟨⟨_, rs, t.1, v.1⟩, B, S, ?_, ⟨b2, s2, ?_, ?_, b4, s4⟩, hK, hL⟩
      · unfold doAnalysis
        obtain ⟨t, a₃'⟩ := t
        dsimp only at e2
        subst e2
        simp only [hn, b3, s3, ht, hv, bind, Except.bind]
        rfl
      · rw [e1]; exact t2
      · rw [e3]; exact v2

/-! ### The cache -/

theorem toRaw_of_nodes {f g : Fbas} (h : f.nodes = g.nodes) : f.toRaw = g.toRaw := by
  have hn : f.rawName = g.rawName := by
    funext v
    unfold Fbas.rawName
    rw [h]
  have hq : ∀ q, QuorumSet.toRaw f q = QuorumSet.toRaw g q := by
    intro q
    induction q using QuorumSet.induct with
    | h t vs qs ih =>
      rw [QuorumSet.toRaw_eq, QuorumSet.toRaw_eq, hn]
      dsimp only
      rw [List.map_congr_left ih]
  unfold Fbas.toRaw
  rw [h]
  refine List.map_congr_left (fun n _ => ?_)
  unfold Node.toRaw
  rw [hq]

theorem fromRaw_of_nodes {r r' : RawFbas} (h : (Fbas.fromRaw r).nodes = (Fbas.fromRaw r').nodes) :
    Fbas.fromRaw r = Fbas.fromRaw r' := by
  rw [← C36_load_save_load r, ← C36_load_save_load r', toRaw_of_nodes h]

/-- The results in the cache were computed for loaded FBASs, in environments `E`. -/
def Consistent (E : Env → Prop) (cache : Cache) : Prop :=
  ∀ e ∈ cache, (∃ r, e.1 = Fbas.fromRaw r) ∧ ∃ env, E env ∧ doAnalysis env e.1 = .ok e.2

theorem get_some {cache : Cache} {f : Fbas} {r : Results} (h : cache.get f = some r) :
    ∃ e ∈ cache, e.1.nodes = f.nodes ∧ e.2 = r := by
  induction cache with
  | nil => cases h
  | cons e cache ih =>
    rw [Cache.get] at h
    split at h
    next h' =>
      exact ⟨e, List.mem_cons_self, by simpa [sameNodes] using h', Option.some.inj h⟩
    · obtain ⟨e', h1, h2⟩ := ih h
      exact ⟨e', List.mem_cons_of_mem _ h1, h2⟩

theorem get_none {cache : Cache} {f : Fbas} (h : cache.get f = none) :
    ∀ e ∈ cache, e.1.nodes ≠ f.nodes := by
  induction cache with
  | nil => simp
  | cons e cache ih =>
    rw [Cache.get] at h
    split at h
    · cases h
    next h' =>
      intro e' he'
      rcases List.mem_cons.1 he' with rfl | he'
      · simpa [sameNodes] using h'
      · exact ih h _ he'

theorem cached_spec {E : Env → Prop} {env : Env} (hE : E env) {cache : Cache}
    (hc : Consistent E cache) {f : Fbas} (hf : ∃ r, f = Fbas.fromRaw r) :
    ∃ env' r cache', E env' ∧ doAnalysis env' f = .ok r ∧ cached env cache f = .ok (r, cache') ∧
      Consistent E cache' ∧ (∀ e ∈ cache, e ∈ cache') ∧ cache'.get f = some r := by
  unfold cached
  cases h : cache.get f with
  | some r' =>
    obtain ⟨e, h1, h2, rfl⟩ := get_some h
    obtain ⟨⟨x, h3⟩, env', h4, h5⟩ := hc e h1
    obtain ⟨y, rfl⟩ := hf
    rw [h3] at h2
    rw [h3, fromRaw_of_nodes h2] at h5
    exact ⟨env', _, cache, h4, h5, rfl, hc, fun _ h => h, h⟩
  | none =>
    have hwf : WF f := by obtain ⟨x, rfl⟩ := hf; exact wf_fromRaw x
    obtain ⟨r, _, _, hr, -⟩ := doAnalysis_spec env hwf
    refine ⟨env, r, (f, r) :: cache, hE, hr, ?_, ?_, fun _ h => List.mem_cons_of_mem _ h, ?_⟩
    · simp only [hr, bind, Except.bind]
    · intro e he
      rcases List.mem_cons.1 he with rfl | he
      · exact ⟨hf, env, hE, hr⟩
      · exact hc e he
    · rw [Cache.get, if_pos (by simp [sameNodes])]

/-! ### Sizes -/

theorem fewest_of_minimal {P : NodeSet → Prop} (hP : ∀ S T, S ⊆ T → P S → P T) {F : NodeSet}
    {L : List NodeSet} (hL : ∀ B, B ∈ L ↔ Minimal (fun B => Disjoint B F ∧ P (B ∪ F)) B)
    {r : SetVecResult} (hr : r.nodeSets = L) :
    (Fewest P F r.min ∧ L ≠ []) ∨ (L = [] ∧ r.min = 0 ∧ ∀ X, ¬ P X) := by
  obtain ⟨h1, h2, h3⟩ := SetVecResult.min_spec r
  rw [hr] at h1 h2 h3
  have cover : ∀ X, P (X ∪ F) → ∃ B ∈ L, B ⊆ X := by
    intro X hX
    obtain ⟨B, hB, hsub⟩ := exists_minimal_sub (P := fun B => Disjoint B F ∧ P (B ∪ F)) (S := X \ F)
      ⟨Finset.sdiff_disjoint, by rwa [Finset.sdiff_union_self_eq_union]⟩
    exact ⟨B, (hL B).2 hB, hsub.trans Finset.sdiff_subset⟩
  by_cases hn : L = []
  · refine .inr ⟨hn, h3 hn, fun X hX => ?_⟩
    obtain ⟨B, hB, -⟩ := cover X (hP _ _ Finset.subset_union_left hX)
    rw [hn] at hB
    cases hB
  · refine .inl ⟨⟨?_, ?_⟩, hn⟩
    · obtain ⟨S, hS, hc⟩ := h2 hn
      exact ⟨S, hc, ((hL S).1 hS).prop.2⟩
    · rintro n ⟨X, rfl, hX⟩
      obtain ⟨B, hB, hsub⟩ := cover X hX
      exact (h1 B hB).trans (Finset.card_le_card hsub)

theorem containsEmpty_iff {P : NodeSet → Prop} {F : NodeSet} {L : List NodeSet}
    (hL : ∀ B, B ∈ L ↔ Minimal (fun B => Disjoint B F ∧ P (B ∪ F)) B) : ∅ ∈ L ↔ P F := by
  rw [hL]
  constructor
  · intro h
    have := h.prop.2
    rwa [Finset.empty_union] at this
  · intro h
    exact ⟨⟨Finset.disjoint_empty_left _, by rwa [Finset.empty_union]⟩, fun _ _ _ => Finset.empty_subset _⟩

/-- The smallest number of further nodes, in terms of public keys. -/
theorem fewest_names {f : Fbas} (hd : DistinctNames f) {P : NodeSet → Prop}
    (hP : ∀ S T, S ⊆ T → P S → P T) (hlt : ∀ S, Minimal P S → S ⊆ f.allNodes)
    {keys : List PublicKey} {F : NodeSet}
    (hF : ∀ x < f.nodes.length, x ∈ F ↔ nameOf f x ∈ keys) (n : ℕ) :
    Fewest P F n ↔
      IsLeast {n | ∃ N, Named f (Minimal P) N ∧ (N \ keys.toFinset).card = n} n := by
  have card : ∀ B, Minimal P B → (names f B \ keys.toFinset).card = (B \ F).card := by
    intro B hB
    have e : names f B \ keys.toFinset = names f (B \ F) := by
      ext p
      rw [Finset.mem_sdiff, List.mem_toFinset]
      constructor
      · rintro ⟨h1, h2⟩
        obtain ⟨x, hx, rfl⟩ := Finset.mem_image.1 h1
        refine Finset.mem_image_of_mem _ (Finset.mem_sdiff.2 ⟨hx, fun h => h2 ?_⟩)
        exact (hF x (Finset.mem_range.1 (hlt B hB hx))).1 h
      · intro h
        obtain ⟨x, hx, rfl⟩ := Finset.mem_image.1 h
        obtain ⟨h1, h2⟩ := Finset.mem_sdiff.1 hx
        exact ⟨Finset.mem_image_of_mem _ h1,
          fun h => h2 ((hF x (Finset.mem_range.1 (hlt B hB h1))).2 h)⟩
    rw [e]
    exact Finset.card_image_of_injOn (fun x hx y hy h => nameOf_inj hd
      (Finset.mem_range.1 (hlt B hB (Finset.mem_sdiff.1 hx).1))
      (Finset.mem_range.1 (hlt B hB (Finset.mem_sdiff.1 hy).1)) h)
  have key : ∀ n, n ∈ {n | ∃ X : NodeSet, X.card = n ∧ P (X ∪ F)} ↔
      ∃ B, Minimal P B ∧ (B \ F).card ≤ n := by
    intro n
    constructor
    · rintro ⟨X, rfl, hX⟩
      obtain ⟨B, hB, hsub⟩ := exists_minimal_sub hX
      refine ⟨B, hB, Finset.card_le_card (fun x hx => ?_)⟩
      obtain ⟨h1, h2⟩ := Finset.mem_sdiff.1 hx
      exact (Finset.mem_union.1 (hsub h1)).resolve_right h2
    · rintro ⟨B, hB, hle⟩
      obtain ⟨X, hX, hc⟩ := Infinite.exists_superset_card_eq (B \ F) n hle
      refine ⟨X, hc, hP B _ (fun x hx => ?_) hB.prop⟩
      rw [Finset.mem_union]
      by_cases hxF : x ∈ F
      · exact .inr hxF
      · exact .inl (hX (Finset.mem_sdiff.2 ⟨hx, hxF⟩))
  constructor
  · rintro ⟨h1, h2⟩
    obtain ⟨B, hB, hle⟩ := (key n).1 h1
    have h3 : n ≤ (B \ F).card := h2 ((key _).2 ⟨B, hB, le_rfl⟩)
    refine ⟨⟨names f B, ⟨B, hB, rfl⟩, by rw [card B hB]; omega⟩, ?_⟩
    rintro m ⟨_, ⟨B', hB', rfl⟩, rfl⟩
    rw [card B' hB']
    exact h2 ((key _).2 ⟨B', hB', le_rfl⟩)
  · rintro ⟨⟨_, ⟨B, hB, rfl⟩, hc⟩, h2⟩
    rw [card B hB] at hc
    refine ⟨(key n).2 ⟨B, hB, hc.le⟩, fun m hm => ?_⟩
    obtain ⟨B', hB', hle⟩ := (key m).1 hm
    have : n ≤ (names f B' \ keys.toFinset).card := h2 ⟨_, ⟨B', hB', rfl⟩, rfl⟩
    rw [card B' hB'] at this
    exact this.trans hle

/-! ### Organizations -/

theorem owner_eq_iff {gs : List RawGrouping} (hd : DisjointOrganizations gs) {p q : PublicKey} :
    owner gs p = owner gs q ↔ p = q ∨ ∃ g ∈ gs, p ∈ g.validators ∧ q ∈ g.validators := by
  unfold owner
  cases hp : gs.find? (fun g => decide (p ∈ g.validators)) with
  | none =>
    have hp' : ∀ g ∈ gs, p ∉ g.validators := by simpa using hp
    cases hq : gs.find? (fun g => decide (q ∈ g.validators)) with
    | none =>
      simp only [Sum.inr.injEq]
      exact ⟨.inl, fun h => h.resolve_right (fun ⟨g, h1, h2, _⟩ => hp' g h1 h2)⟩
    | some g =>
      have h1 := List.mem_of_find?_eq_some hq
      have h2 : q ∈ g.validators := by simpa using List.find?_some hq
      simp only [reduceCtorEq, false_iff, not_or]
      exact ⟨fun h => hp' g h1 (h ▸ h2), fun ⟨g, h1, h2, _⟩ => hp' g h1 h2⟩
  | some g =>
    have h1 := List.mem_of_find?_eq_some hp
    have h2 : p ∈ g.validators := by simpa using List.find?_some hp
    cases hq : gs.find? (fun g => decide (q ∈ g.validators)) with
    | none =>
      have hq' : ∀ g ∈ gs, q ∉ g.validators := by simpa using hq
      simp only [reduceCtorEq, false_iff, not_or]
      exact ⟨fun h => hq' g h1 (h ▸ h2), fun ⟨g, h1, _, h2⟩ => hq' g h1 h2⟩
    | some g' =>
      have h3 := List.mem_of_find?_eq_some hq
      have h4 : q ∈ g'.validators := by simpa using List.find?_some hq
      simp only [Sum.inl.injEq]
      constructor
      · exact fun h => .inr ⟨g, h1, h2, h ▸ h4⟩
      · rintro (rfl | ⟨g'', h5, h6, h7⟩)
        · exact hd g h1 g' h3 _ h2 h4
        · rw [hd g h1 g'' h5 _ h2 h6, hd g'' h5 g' h3 _ h7 h4]

theorem card_image_congr {α β γ : Type} [DecidableEq β] [DecidableEq γ] {S : Finset α} {u : α → β}
    {v : α → γ} (h : ∀ x ∈ S, ∀ y ∈ S, u x = u y ↔ v x = v y) :
    (S.image u).card = (S.image v).card := by
  refine Finset.card_bij' (fun b hb => v (Finset.mem_image.1 hb).choose)
    (fun c hc => u (Finset.mem_image.1 hc).choose) ?_ ?_ ?_ ?_
  · intro b hb
    exact Finset.mem_image_of_mem _ (Finset.mem_image.1 hb).choose_spec.1
  · intro c hc
    exact Finset.mem_image_of_mem _ (Finset.mem_image.1 hc).choose_spec.1
  · intro b hb
    have h1 := (Finset.mem_image.1 hb).choose_spec
    have hc : v (Finset.mem_image.1 hb).choose ∈ S.image v := Finset.mem_image_of_mem _ h1.1
    have h2 := (Finset.mem_image.1 hc).choose_spec
    exact ((h _ h2.1 _ h1.1).2 h2.2).trans h1.2
  · intro c hc
    have h1 := (Finset.mem_image.1 hc).choose_spec
    have hb : u (Finset.mem_image.1 hc).choose ∈ S.image u := Finset.mem_image_of_mem _ h1.1
    have h2 := (Finset.mem_image.1 hb).choose_spec
    exact ((h _ h2.1 _ h1.1).1 h2.2).trans h1.2

/-- The smallest number of owners, in terms of public keys. -/
theorem fewestOwners_names {gs : List RawGrouping} {f : Fbas} {P : NodeSet → Prop}
    (n : ℕ) : FewestOwners gs f P n ↔
      IsLeast {n | ∃ N, Named f (Minimal P) N ∧ (N.image (owner gs)).card = n} n := by
  have card : ∀ X : NodeSet, ((names f X).image (owner gs)).card =
      (X.image (fun x => owner gs (nameOf f x))).card := by
    intro X
    unfold names
    rw [Finset.image_image]
    rfl
  constructor
  · rintro ⟨⟨X, hX, hc⟩, h2⟩
    obtain ⟨B, hB, hsub⟩ := exists_minimal_sub hX
    have h3 : n ≤ _ := h2 ⟨B, hB.prop, rfl⟩
    have h4 : (B.image (fun x => owner gs (nameOf f x))).card ≤ _ :=
      Finset.card_le_card (Finset.image_subset_image hsub)
    refine ⟨⟨names f B, ⟨B, hB, rfl⟩, by rw [card]; omega⟩, ?_⟩
    rintro m ⟨_, ⟨B', hB', rfl⟩, rfl⟩
    rw [card]
    exact h2 ⟨B', hB'.prop, rfl⟩
  · rintro ⟨⟨_, ⟨B, hB, rfl⟩, hc⟩, h2⟩
    rw [card] at hc
    refine ⟨⟨B, hB.prop, hc⟩, ?_⟩
    rintro m ⟨X, hX, rfl⟩
    obtain ⟨B', hB', hsub⟩ := exists_minimal_sub hX
    have h3 : n ≤ _ := h2 ⟨_, ⟨B', hB', rfl⟩, rfl⟩
    rw [card] at h3
    exact h3.trans (Finset.card_le_card (Finset.image_subset_image hsub))

theorem min_minimalSets (l : List NodeSet) :
    (SetVecResult.mk l none).minimalSets.min = (SetVecResult.mk l none).min := by
  obtain ⟨h1, h2, h3⟩ := SetVecResult.min_spec (SetVecResult.mk l none)
  obtain ⟨g1, g2, g3⟩ := SetVecResult.min_spec (SetVecResult.mk l none).minimalSets
  change ∀ S ∈ removeNonMinimalNodeSets l, _ at g1
  change removeNonMinimalNodeSets l ≠ [] → ∃ S ∈ removeNonMinimalNodeSets l, _ at g2
  change removeNonMinimalNodeSets l = [] → _ at g3
  dsimp only at h1 h2 h3
  by_cases hl : l = []
  · rw [h3 hl, g3 (by rw [hl]; rfl)]
  · obtain ⟨S, hS, hc⟩ := h2 hl
    obtain ⟨T, hT, hTS⟩ := C30_covers l S hS
    have hne : removeNonMinimalNodeSets l ≠ [] := fun h => by rw [h] at hT; cases hT
    obtain ⟨U, hU, hc'⟩ := g2 hne
    have h4 := g1 T hT
    have h5 := Finset.card_le_card hTS
    have h6 := h1 U (((C30_minimal l).1 U).1 hU).1
    omega

end Reuse
end FA
