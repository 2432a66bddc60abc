import Verif.Lemmas.RenameCalls
import Verif.Lemmas.StandardFormIdem
import Verif.SpecInputOrder

/-!
# Inputs that list the nodes in another order
-/

namespace FA
open Spec QuorumSet Analysis

theorem exists_position_perm {r l : RawFbas} (hd : DistinctKeys r) (hp : r.Perm l) :
    ∃ σ : Equiv.Perm ℕ, ∀ i, l[σ i]? = r[i]? := by
  have hn : r.Nodup := hd.of_map _
  have hn' : l.Nodup := hp.nodup_iff.1 hn
  have hlen := hp.length_eq
  have hex : ∀ i : {i // i < r.length}, ∃ j : {i // i < r.length}, l[j.1]? = r[i.1]? := by
    rintro ⟨i, hi⟩
    obtain ⟨j, hj, h⟩ := List.getElem_of_mem (hp.mem_iff.1 (List.getElem_mem hi))
    exact ⟨⟨j, by omega⟩, by rw [List.getElem?_eq_getElem hj, List.getElem?_eq_getElem hi, h]⟩
  choose e he using hex
  have hex' : ∀ j : {i // i < r.length}, ∃ i : {i // i < r.length}, r[i.1]? = l[j.1]? := by
    rintro ⟨j, hj⟩
    obtain ⟨i, hi, h⟩ := List.getElem_of_mem (hp.mem_iff.2 (List.getElem_mem (hlen ▸ hj)))
    exact ⟨⟨i, by omega⟩,
      by rw [List.getElem?_eq_getElem hi, List.getElem?_eq_getElem (hlen ▸ hj), h]⟩
  choose e' he' using hex'
  let E : Equiv.Perm {i // i < r.length} :=
    { toFun := e
      invFun := e'
      left_inv := fun i => Subtype.ext ((List.getElem?_inj i.2 hn).1 ((he i).symm.trans
        (he' (e i)).symm)).symm
      right_inv := fun j => Subtype.ext ((List.getElem?_inj (hlen ▸ j.2) hn').1
        ((he' j).symm.trans (he (e' j)).symm)).symm }
  refine ⟨Equiv.Perm.subtypeCongr E (Equiv.refl _), fun i => ?_⟩
  by_cases hi : i < r.length
  · rw [Equiv.Perm.subtypeCongr.left_apply E _ hi]
    exact he ⟨i, hi⟩
  · rw [Equiv.Perm.subtypeCongr.right_apply E _ hi, Equiv.refl_apply,
      List.getElem?_eq_none (Nat.le_of_not_lt hi),
      List.getElem?_eq_none (Nat.le_of_not_lt (hlen ▸ hi))]

theorem fromRaw_rename {σ : Equiv.Perm ℕ} {m m' : Map PublicKey ℕ}
    (h : ∀ p, m'.get? p = (m.get? p).map σ) (q : RawQuorumSet) :
    fromRaw m' q = rename σ (fromRaw m q) := by
  induction q using RawQuorumSet.induct with
  | h t vs qs ih =>
    rw [fromRaw_eq, fromRaw_eq, rename_eq]
    dsimp only
    rw [sortIds_of_perm ((sortIds_perm (vs.filterMap _)).map σ),
      sortQs_of_perm ((sortQs_perm _).map (rename σ)), List.map_filterMap, List.map_map]
    congr 2
    · exact List.filterMap_congr (fun p _ => h p)
    · exact List.map_congr_left (fun q hq => ih q hq)

theorem qset_fromRaw {r : RawFbas} {x : ℕ} : (Fbas.fromRaw r).qset x =
    ((r[x]?).map (fun n => fromRaw (Fbas.rawIds r) n.quorumSet)).getD QuorumSet.empty := by
  unfold Fbas.qset Fbas.fromRaw
  dsimp only
  rw [List.getElem?_map]
  cases r[x]? <;> rfl

/-- Inputs that list the same nodes in another order give FBASs that differ in the IDs of nodes. -/
theorem exists_renamed {r r' : RawFbas} (hd : DistinctKeys r) (h : Reordered r r') :
    ∃ σ : Equiv.Perm ℕ, Renamed σ (Fbas.fromRaw r) (Fbas.fromRaw r') ∧
      ∀ x, nameOf (Fbas.fromRaw r') (σ x) = nameOf (Fbas.fromRaw r) x := by
  obtain ⟨l, hp, hf⟩ := h
  rw [← fromRaw_forall₂ (r := l) (r' := r') hf]
  have hd' : DistinctKeys l := distinct_perm hp hd
  obtain ⟨σ, hσ⟩ := exists_position_perm hd hp
  have hm : ∀ p, (Fbas.rawIds l).get? p = ((Fbas.rawIds r).get? p).map σ := by
    intro p
    ext j
    rw [rawIds_get?, lastIndex_of_distinct hd', Option.map_eq_some_iff]
    simp only [rawIds_get?, lastIndex_of_distinct hd]
    constructor
    · rintro ⟨n, hn, hk⟩
      refine ⟨σ.symm j, ⟨n, ?_, hk⟩, σ.apply_symm_apply j⟩
      rw [← hσ, σ.apply_symm_apply, hn]
    · rintro ⟨i, ⟨n, hn, hk⟩, rfl⟩
      exact ⟨n, by rw [hσ, hn], hk⟩
  refine ⟨σ, ⟨fun x => ?_, fun x => ?_, fun x => ?_⟩, fun x => ?_⟩
  · have h1 : l[σ x]? = none ↔ r[x]? = none := by rw [hσ]
    rw [List.getElem?_eq_none_iff, List.getElem?_eq_none_iff] at h1
    rw [fromRaw_length, fromRaw_length]
    omega
  · rw [qset_fromRaw, qset_fromRaw, hσ]
    cases r[x]? with
    | none => exact rename_empty.symm
    | some n => exact fromRaw_rename hm _
  · rw [qset_fromRaw]
    cases r[x]? with
    | none =>
      rw [← rename_empty (σ := (Equiv.refl ℕ : Equiv.Perm ℕ))]
      exact rename_sorted _
    | some n => exact sorted_fromRaw _ _
  · unfold nameOf Fbas.fromRaw
    dsimp only
    rw [List.getElem?_map, List.getElem?_map, hσ]
    cases r[x]? <;> rfl

section
variable {σ : Equiv.Perm ℕ} {f g : Fbas}

theorem names_img (hn : ∀ x, nameOf g (σ x) = nameOf f x) (S : NodeSet) :
    names f S = names g (img σ S) := by
  ext p
  simp only [names, Finset.mem_image]
  constructor
  · rintro ⟨x, hx, rfl⟩
    exact ⟨σ x, apply_mem_img.2 hx, hn x⟩
  · rintro ⟨x, hx, rfl⟩
    refine ⟨σ.symm x, mem_img.1 hx, ?_⟩
    rw [← hn, σ.apply_symm_apply]

theorem toRaw_rename (h : Renamed σ f g) (hn : ∀ x, nameOf g (σ x) = nameOf f x) (q : QuorumSet)
    (hq : ∀ x, Mentions q x → x < f.nodes.length) :
    SameQSet (q.toRaw f) ((rename σ q).toRaw g) := by
  induction q using QuorumSet.induct with
  | h t vs qs ih =>
    rw [rename_eq, toRaw_eq, toRaw_eq]
    dsimp only
    have h1 : vs.map f.rawName = (vs.map σ).map g.rawName := by
      rw [List.map_map]
      refine List.map_congr_left (fun x hx => ?_)
      have hx' := hq x (.validator hx)
      rw [Function.comp_apply, rawName_of_lt hx', rawName_of_lt ((h.lt x).2 hx'), hn]
    rw [h1]
    refine .trans (.validators _ _ ((sortIds_perm (vs.map σ)).symm.map g.rawName)) ?_
    refine .trans (.of_forall₂ _ _ (l' := (qs.map (rename σ)).map (QuorumSet.toRaw g)) ?_)
      (.inner _ _ ((sortQs_perm (qs.map (rename σ))).symm.map _))
    rw [List.map_map, List.forall₂_map_left_iff, List.forall₂_map_right_iff, List.forall₂_same]
    exact fun q' hq' => ih q' hq' (fun x hx => hq x (.inner hq' hx))

theorem MovedAnswer.same (h : Renamed σ f g) (hn : ∀ x, nameOf g (σ x) = nameOf f x) {a b : Answer}
    (hm : MovedAnswer σ f.nodes.length a b) : SameAnswer f g a b := by
  cases a <;> cases b <;> try exact hm.elim
  case bool.bool b b' => cases (hm : b' = b); exact .bool _
  case set.set s s' => cases (hm : s' = img σ s); exact .set (names_img hn s)
  case sets.sets l l' =>
    refine .sets ?_
    have hm' : l'.Perm (l.map (img σ)) := hm
    refine .trans ?_ (hm'.map (names g)).symm
    rw [List.map_map, List.map_congr_left (f := names f) (g := names g ∘ img σ)
      (fun S _ => names_img hn S)]
  case verdict.verdict v w v' w' =>
    obtain ⟨rfl, h1, h2⟩ : v' = v ∧ w.isSome = !v ∧ w'.isSome = !v := hm
    cases v' <;> cases w <;> cases w' <;> simp at h1 h2
    · exact .disjoint _ _
    · exact .intersecting
  case qset.qset q q' =>
    obtain ⟨rfl, h1⟩ : q' = q.map (rename σ) ∧ ∀ r ∈ q, ∀ x, Mentions r x → x < f.nodes.length := hm
    cases q with
    | none => exact .noQset
    | some q => exact .qset (toRaw_rename h hn q (h1 q rfl))
  case qsets.qsets l l' =>
    obtain ⟨h1, h2⟩ : l'.Perm (l.map (rename σ)) ∧
      ∀ r ∈ l, ∀ x, Mentions r x → x < f.nodes.length := hm
    refine .qsets h1 ?_
    rw [List.forall₂_map_right_iff, List.forall₂_same]
    exact fun q hq => toRaw_rename h hn q (h2 q hq)

end

theorem sameResult_of {r r' : RawFbas} (hd : DistinctKeys r) (ho : Reordered r r') (env env' : Env)
    (history : List Call) (c : Call)
    (hc : Calm (Fbas.fromRaw r) ∨ (¬ BlockingFirst history ∧ c ≠ .minimalBlockingSets)) :
    SameResult (Fbas.fromRaw r) (Fbas.fromRaw r') (answerAfter env (Fbas.fromRaw r) history c)
      (answerAfter env' (Fbas.fromRaw r') history c) := by
  obtain ⟨σ, h, hn⟩ := exists_renamed hd ho
  rcases h.answers (wf_fromRaw r) env env' history c hc with ⟨h1, h2⟩ | ⟨ans, ans', h1, h2, h3⟩
  · rw [h1, h2]
    exact .error _
  · rw [h1, h2]
    exact .ok (h3.same h hn)

end FA
