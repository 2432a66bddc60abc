import Verif.Lemmas.TidyInput
import Verif.Props.StandardForm

/-!
# Standard forms of networks with a tidy top tier
-/

namespace FA
open Spec Fbas QuorumSet

section
variable {f : Fbas} {q : QuorumSet}

theorem sane_toRaw (h : Sane q) : RawSane (toRaw f q) := by
  induction h with
  | intro q hpos hle hi ih =>
    rw [toRaw_eq]
    refine .intro _ hpos (by simpa using hle) fun p hp => ?_
    obtain ⟨q', hq', rfl⟩ := List.mem_map.1 hp
    exact ih q' hq'

theorem majority_toRaw (h : Majority q) : RawMajority (toRaw f q) := by
  induction h with
  | intro q hmaj hle hc hi ih =>
    rw [toRaw_eq]
    refine .intro _ (by simpa using hmaj) (by simpa using hle) (by simpa using hc) fun p hp => ?_
    obtain ⟨q', hq', rfl⟩ := List.mem_map.1 hp
    exact ih q' hq'

theorem dupFree_toRaw (h : DupFree q)
    (hn : ∀ x y, Mentions q x → Mentions q y → f.rawName x = f.rawName y → x = y) :
    RawDupFree (toRaw f q) := by
  induction h with
  | intro q hv hvi hii hi ih =>
    rw [toRaw_eq]
    refine .intro _ ?_ ?_ ?_ ?_
    · exact List.Nodup.map_on (fun x hx y hy e => hn x y (.validator hx) (.validator hy) e) hv
    · intro p hp k hk hk'
      obtain ⟨q', hq', rfl⟩ := List.mem_map.1 hp
      obtain ⟨x, hx, rfl⟩ := mentions_toRaw.1 hk
      obtain ⟨y, hy, e⟩ := List.mem_map.1 hk'
      obtain rfl := hn y x (.validator hy) (.inner hq' hx) e
      exact hvi q' hq' y hx hy
    · rw [List.pairwise_map]
      refine hii.imp_of_mem fun {a b} ha hb hab k hk hk' => ?_
      obtain ⟨x, hx, rfl⟩ := mentions_toRaw.1 hk
      obtain ⟨y, hy, e⟩ := mentions_toRaw.1 hk'
      obtain rfl := hn y x (.inner hb hy) (.inner ha hx) e
      exact hab y hx hy
    · intro p hp
      obtain ⟨q', hq', rfl⟩ := List.mem_map.1 hp
      exact ih q' hq' fun x y hx hy => hn x y (.inner hq' hx) (.inner hq' hy)

theorem sane_ne_empty {q : RawQuorumSet} (h : RawSane q) : q ≠ ⟨0, [], []⟩ := by
  rintro rfl
  cases h with
  | intro _ hpos _ _ => exact absurd hpos (by decide)

/-- Nothing is removed from a quorum set if all entries are kept. -/
theorem restrict_all {keep : PublicKey → Prop} {q : RawQuorumSet} (h : RawSane q)
    (hk : ∀ p, RawMentions q p → keep p) : restrict keep q = q := by
  classical
  induction h with
  | intro q hpos hle hi ih =>
    obtain ⟨t, vs, qs⟩ := q
    have e : qs.map (restrict keep) = qs := by
      conv_rhs => rw [← List.map_id qs]
      exact List.map_congr_left fun p hp => ih p hp fun k hk' => hk k (.inner hp hk')
    rw [restrict_eq]
    dsimp only
    rw [e, List.filter_eq_self.2, List.filter_eq_self.2]
    · intro p hp
      simpa using sane_ne_empty (hi p hp)
    · intro p hp
      simpa using hk p (.validator hp)

end

section
variable {env : Env} {f g : Fbas}

theorem standardForm_tidy (hd : DistinctNames f) (hwf : WF f) (hg : f.toStandardForm env = .ok g)
    (h : TidyTopTier f) : TidyTopTier g ∧ (MajoritiesInside f → MajoritiesInside g) := by
  have htop := (Props.C39_analysis env f g hd hwf hg).2.2.2
  rw [toStandardForm_eq env hd hwf] at hg
  obtain rfl := Except.ok.inj hg
  have hxd : DistinctKeys (sortByKey (restrictFbas (RawRelevant f.toRaw) f.toRaw)) :=
    distinct_perm (sortByKey_perm _).symm (restrictFbas_distinct (toRaw_keys_distinct hd))
  have ht : ∀ p, RawInTopTier (sortByKey (restrictFbas (RawRelevant f.toRaw) f.toRaw)) p ↔
      ∃ x, InTopTier f x ∧ nameOf f x = p := fun p => (rawInTopTier_iff hxd).symm.trans (htop p)
  have key : ∀ n ∈ sortByKey (restrictFbas (RawRelevant f.toRaw) f.toRaw),
      RawInTopTier (sortByKey (restrictFbas (RawRelevant f.toRaw) f.toRaw)) n.publicKey →
      ∃ x q, InTopTier f x ∧ HasQSet f x q ∧ n.quorumSet = toRaw f q := by
    intro n hn hp
    obtain ⟨m, hm, hk, rfl⟩ := mem_restrictFbas.1 ((sortByKey_perm _).mem_iff.1 hn)
    obtain ⟨x, hx, e⟩ := (ht _).1 hp
    obtain ⟨v, hv, rfl⟩ := List.mem_map.1 hm
    obtain ⟨i, hi, rfl⟩ := List.getElem_of_mem hv
    have hvi := List.getElem?_eq_getElem hi
    have hlt : x < f.nodes.length := by
      obtain ⟨Q, hQ, hxQ⟩ := hx
      exact Finset.mem_range.1 (hQ.prop.subset_all hxQ)
    have hxi : x = i := by
      refine nameOf_inj hd hlt hi (e.trans ?_)
      unfold nameOf; rw [hvi]; rfl
    subst hxi
    have hq : HasQSet f x f.nodes[x].quorumSet := ⟨_, hvi, rfl⟩
    obtain ⟨-, h2, h3⟩ := h x _ hx hq
    refine ⟨x, _, hx, hq, restrict_all (sane_toRaw h2) fun p hp => ?_⟩
    obtain ⟨y, hy, rfl⟩ := mentions_toRaw.1 hp
    obtain ⟨Q, hQ, hyQ⟩ := h3 y hy
    have hy' := Finset.mem_range.1 (hQ.prop.subset_all hyQ)
    rw [rawName_of_lt hy', relevant_toRaw env hd hwf hy']
    exact Props.C08_contains_minQuorums env f hwf Q hQ hyQ
  have hm : ∀ x q, InTopTier f x → HasQSet f x q → ∀ y, Mentions q y → y < f.nodes.length := by
    intro x q hx hq y hy
    obtain ⟨Q, hQ, hyQ⟩ := (h x q hx hq).2.2 y hy
    exact Finset.mem_range.1 (hQ.prop.subset_all hyQ)
  have hraw : RawTidyTopTier (sortByKey (restrictFbas (RawRelevant f.toRaw) f.toRaw)) := by
    intro n hn hp
    obtain ⟨x, q, hx, hq, e⟩ := key n hn hp
    obtain ⟨h1, h2, h3⟩ := h x q hx hq
    rw [e]
    refine ⟨dupFree_toRaw h1 fun a b ha hb hab => ?_, sane_toRaw h2, fun k hk => ?_⟩
    · rw [rawName_of_lt (hm x q hx hq a ha), rawName_of_lt (hm x q hx hq b hb)] at hab
      exact nameOf_inj hd (hm x q hx hq a ha) (hm x q hx hq b hb) hab
    · obtain ⟨y, hy, rfl⟩ := mentions_toRaw.1 hk
      exact (ht _).2 ⟨y, h3 y hy, (rawName_of_lt (hm x q hx hq y hy)).symm⟩
  refine ⟨hraw.loaded hxd, fun hmaj => RawMajoritiesInside.loaded hxd hraw ?_⟩
  intro n hn hp p hpq
  obtain ⟨x, q, hx, hq, e⟩ := key n hn hp
  rw [e, toRaw_eq] at hpq
  obtain ⟨q', hq', rfl⟩ := List.mem_map.1 hpq
  exact majority_toRaw (hmaj x q hx hq q' hq')

end
end FA
