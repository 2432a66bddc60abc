import Verif.Model.Machine
import Verif.SpecMachine
import Verif.Lemmas.IoQuorums
import Verif.Lemmas.Machine

/-!
# Helper lemmas: loading with machine words
-/

namespace FA.Machine
open FA Spec

variable {w : Word} {m : Map PublicKey ℕ}

theorem fromRawList_eq (qs : List RawQuorumSet) : fromRawList w m qs = qs.map (fromRaw w m) := by
  induction qs with
  | nil => rfl
  | cons q qs ih => rw [fromRawList, ih]; rfl

theorem slice_machine {S : NodeSet} {q : RawQuorumSet} (h : EntriesFit w.size (QuorumSet.fromRaw m q)) :
    Slice S (fromRaw w m q) ↔ Slice S (QuorumSet.fromRaw m q) := by
  classical
  induction q using RawQuorumSet.induct with
  | h t vs qs ih =>
    have hh := Everywhere.here h
    rw [slice_iff_count, slice_iff_count, fromRaw, QuorumSet.fromRaw_eq, fromRawList_eq]
    rw [QuorumSet.fromRaw_eq] at hh h
    dsimp only at hh ⊢
    have h2 : ((QuorumSet.sortQs (qs.map (fromRaw w m))).filter (fun q' => decide (Slice S q'))).length =
        ((QuorumSet.sortQs (qs.map (QuorumSet.fromRaw m))).filter
          (fun q' => decide (Slice S q'))).length := by
      rw [((sortQs_perm _).filter _).length_eq, ((sortQs_perm _).filter _).length_eq,
        List.filter_map, List.length_map, List.filter_map, List.length_map]
      congr 1
      refine List.filter_congr (fun q hq => ?_)
      exact decide_eq_decide.2
        (ih q hq (Everywhere.inner h ((sortQs_perm _).mem_iff.2 (List.mem_map_of_mem hq))))
    rw [h2]
    have h3 := List.length_filter_le (fun x => decide (x ∈ S)) (sortIds (vs.filterMap m.get?))
    have h4 := List.length_filter_le (fun q' => decide (Slice S q'))
      (QuorumSet.sortQs (qs.map (QuorumSet.fromRaw m)))
    split
    · exact Iff.rfl
    · constructor <;> rintro ⟨h5, h6⟩ <;> exfalso <;> omega

theorem fits_machine {q : RawQuorumSet} (h : EntriesFit w.size (QuorumSet.fromRaw m q)) :
    Representable w.size (fromRaw w m q) := by
  induction q using RawQuorumSet.induct with
  | h t vs qs ih =>
    have hh := Everywhere.here h
    rw [QuorumSet.fromRaw_eq] at hh h
    rw [fromRaw, fromRawList_eq]
    refine ⟨_, ⟨?_, ?_⟩, fun q' hq' => ?_⟩
    · dsimp only
      split <;> omega
    · dsimp only at hh ⊢
      rw [(sortQs_perm _).length_eq, List.length_map] at hh ⊢
      exact hh
    · obtain ⟨q, hq, rfl⟩ := List.mem_map.1 ((sortQs_perm _).mem_iff.1 hq')
      exact ih q hq (Everywhere.inner h ((sortQs_perm _).mem_iff.2 (List.mem_map_of_mem hq)))

theorem fromRaw_same {q : RawQuorumSet} (h : Everywhere (fun q => q.threshold < w.size)
    (QuorumSet.fromRaw m q)) : fromRaw w m q = QuorumSet.fromRaw m q := by
  induction q using RawQuorumSet.induct with
  | h t vs qs ih =>
    have hh := Everywhere.here h
    rw [QuorumSet.fromRaw_eq] at hh h
    rw [fromRaw, fromRawList_eq, QuorumSet.fromRaw_eq, if_pos hh]
    congr 2
    refine List.map_congr_left (fun q hq => ih q hq ?_)
    exact Everywhere.inner h ((sortQs_perm _).mem_iff.2 (List.mem_map_of_mem hq))

theorem hasQSet_machine {r : RawFbas} {x : ℕ} {q : QuorumSet} :
    HasQSet (fbasFromRaw w r) x q ↔
      ∃ n, r[x]? = some n ∧ q = fromRaw w (Fbas.rawIds r) n.quorumSet := by
  simp only [HasQSet, fbasFromRaw, List.getElem?_map, Option.map_eq_some_iff]
  constructor
  · rintro ⟨_, ⟨n, h1, rfl⟩, rfl⟩; exact ⟨n, h1, rfl⟩
  · rintro ⟨n, h1, rfl⟩; exact ⟨_, ⟨n, h1, rfl⟩, rfl⟩

theorem hasQSet_fromRaw {r : RawFbas} {x : ℕ} {q : QuorumSet} :
    HasQSet (Fbas.fromRaw r) x q ↔
      ∃ n, r[x]? = some n ∧ q = QuorumSet.fromRaw (Fbas.rawIds r) n.quorumSet := by
  simp only [HasQSet, Fbas.fromRaw, List.getElem?_map, Option.map_eq_some_iff]
  constructor
  · rintro ⟨_, ⟨n, h1, rfl⟩, rfl⟩; exact ⟨n, h1, rfl⟩
  · rintro ⟨n, h1, rfl⟩; exact ⟨_, ⟨n, h1, rfl⟩, rfl⟩

theorem isQuorum_machine {r : RawFbas}
    (h : ∀ x q, HasQSet (Fbas.fromRaw r) x q → EntriesFit w.size q) (S : NodeSet) :
    IsQuorum (fbasFromRaw w r) S ↔ IsQuorum (Fbas.fromRaw r) S := by
  refine and_congr_right (fun _ => forall₂_congr (fun x _ => ?_))
  constructor
  · rintro ⟨q, h1, h2⟩
    obtain ⟨n, h3, rfl⟩ := hasQSet_machine.1 h1
    have h4 := hasQSet_fromRaw.2 ⟨n, h3, rfl⟩
    exact ⟨_, h4, (slice_machine (h _ _ h4)).1 h2⟩
  · rintro ⟨q, h1, h2⟩
    obtain ⟨n, h3, rfl⟩ := hasQSet_fromRaw.1 h1
    exact ⟨_, hasQSet_machine.2 ⟨n, h3, rfl⟩, (slice_machine (h _ _ h1)).2 h2⟩

theorem fbas_fits_machine {r : RawFbas}
    (h : ∀ x q, HasQSet (Fbas.fromRaw r) x q → EntriesFit w.size q) {x : ℕ} {q : QuorumSet}
    (hq : HasQSet (fbasFromRaw w r) x q) : Representable w.size q := by
  obtain ⟨n, h3, rfl⟩ := hasQSet_machine.1 hq
  exact fits_machine (h _ _ (hasQSet_fromRaw.2 ⟨n, h3, rfl⟩))

theorem fbas_same_machine {r : RawFbas}
    (h : ∀ x q, HasQSet (Fbas.fromRaw r) x q → Everywhere (fun q => q.threshold < w.size) q) :
    fbasFromRaw w r = Fbas.fromRaw r := by
  unfold fbasFromRaw Fbas.fromRaw
  dsimp only
  congr 1
  refine List.map_congr_left (fun n hn => ?_)
  obtain ⟨x, hx⟩ := List.mem_iff_getElem?.1 hn
  unfold Node.fromRaw
  rw [fromRaw_same (h x _ (hasQSet_fromRaw.2 ⟨n, hx, rfl⟩))]

end FA.Machine
