import Verif.Lemmas.MergeOrder
import Verif.Lemmas.SameQSet
import Verif.Lemmas.ToolRun

/-!
# Merged quorum sets of a network in another order
-/

namespace FA
open Spec QuorumSet Groupings

theorem rename_congr_validators {φ ψ : ℕ → ℕ} {p q : QuorumSet} (h : rename ψ p = rename φ q) :
    (p.validators.map ψ).Perm (q.validators.map φ) := by
  rw [rename_eq, rename_eq] at h
  have := (QuorumSet.mk.injEq .. ▸ h).2.1
  exact (sortIds_perm _).symm.trans (this ▸ sortIds_perm _)

theorem rename_congr_inner {φ ψ : ℕ → ℕ} {p q : QuorumSet} (h : rename ψ p = rename φ q) :
    (p.inner.map (rename ψ)).Perm (q.inner.map (rename φ)) := by
  rw [rename_eq, rename_eq] at h
  have := (QuorumSet.mk.injEq .. ▸ h).2.2
  exact (sortQs_perm _).symm.trans (this ▸ sortQs_perm _)

theorem rename_congr_threshold {φ ψ : ℕ → ℕ} {p q : QuorumSet} (h : rename ψ p = rename φ q) :
    p.threshold = q.threshold := by
  rw [rename_eq, rename_eq] at h
  exact (QuorumSet.mk.injEq .. ▸ h).1

theorem rename_congr {φ ψ : ℕ → ℕ} {p q : QuorumSet} (h1 : p.threshold = q.threshold)
    (h2 : (p.validators.map ψ).Perm (q.validators.map φ))
    (h3 : (p.inner.map (rename ψ)).Perm (q.inner.map (rename φ))) : rename ψ p = rename φ q := by
  rw [rename_eq, rename_eq, h1, sortIds_of_perm h2, sortQs_of_perm h3]

/-- Quorum sets that differ only in the order, up to `φ`: all parts of `merge_quorum_set`. -/
theorem mergeFinish_congr {φ : ℕ → ℕ} {t : ℕ} {vs vs' : List ℕ} {qs qs' : List QuorumSet}
    (hv : vs'.Perm (vs.map φ))
    (hq : (qs'.map (rename id)).Perm (qs.map (rename φ)))
    (hinj : ∀ x ∈ collected vs qs, ∀ y ∈ collected vs qs, φ x = φ y → x = y) :
    rename id (mergeFinish t vs' qs') = rename φ (mergeFinish t vs qs) := by
  have hlen : ∀ (ψ : ℕ → ℕ) (q : QuorumSet), (rename ψ q).validators.length = q.validators.length := by
    intro ψ q
    rw [rename_eq]
    dsimp only
    rw [(sortIds_perm _).length_eq, List.length_map]
  have hfil : ∀ (P : ℕ → Bool) (ψ : ℕ → ℕ) (l : List QuorumSet),
      (l.map (rename ψ)).filter (fun q => P q.validators.length) =
        (l.filter (fun q => P q.validators.length)).map (rename ψ) := by
    intro P ψ l
    rw [List.filter_map]
    congr 1
    refine List.filter_congr fun q _ => ?_
    rw [Function.comp_apply, hlen]
  have hin : ∀ P : ℕ → Bool, ((qs'.filter (fun q => P q.validators.length)).map (rename id)).Perm
      ((qs.filter (fun q => P q.validators.length)).map (rename φ)) := by
    intro P
    rw [← hfil, ← hfil]
    exact hq.filter _
  have hone : ∀ (ψ : ℕ → ℕ) (l : List QuorumSet),
      ((l.filter (fun q => q.validators.length == 1)).map (rename ψ)).flatMap
        (fun q => q.validators.take 1) =
      ((l.filter (fun q => q.validators.length == 1)).flatMap (fun q => q.validators.take 1)).map ψ := by
    intro ψ l
    rw [List.flatMap_map, List.map_flatMap]
    refine List.flatMap_congr fun q hq => ?_
    obtain ⟨v, hv⟩ := List.length_eq_one_iff.1 (by simpa using (List.mem_filter.1 hq).2)
    rw [rename_eq, hv]
    rfl
  have hcol : (collected vs' qs').Perm ((collected vs qs).map φ) := by
    unfold collected
    rw [List.map_append]
    refine hv.append ?_
    rw [← hone φ]
    have := (hin (fun n => n == 1)).flatMap_right (fun q => q.validators.take 1)
    rw [hone id, List.map_id] at this
    exact this
  have hinner := hin (fun n => !(n == 1))
  rcases mergeFinish_eq t vs qs with ⟨w, hw, hall, he⟩ | ⟨hne, he⟩ <;>
    rcases mergeFinish_eq t vs' qs' with ⟨w', hw', hall', he'⟩ | ⟨hne', he'⟩ <;> rw [he, he']
  · have : w' = φ w := (hall' (φ w) (hcol.mem_iff.2 (List.mem_map_of_mem hw))).symm
    exact rename_congr rfl (by simp [this]) hinner
  · exfalso
    obtain ⟨x, hx, hxne⟩ := hne' (φ w) (hcol.mem_iff.2 (List.mem_map_of_mem hw))
    obtain ⟨y, hy, rfl⟩ := List.mem_map.1 (hcol.mem_iff.1 hx)
    exact hxne (by rw [hall y hy])
  · exfalso
    obtain ⟨x, hx, rfl⟩ := List.mem_map.1 (hcol.mem_iff.1 hw')
    obtain ⟨y, hy, hyne⟩ := hne x hx
    exact hyne (hinj y hy x hx (hall' _ (hcol.mem_iff.2 (List.mem_map_of_mem hy))))
  · exact rename_congr rfl (by simpa using hcol) hinner

section
variable {σ : Equiv.Perm ℕ} {m m' φ : ℕ → ℕ} {n : ℕ}

/-- Merging commutes with renaming, up to the order. -/
theorem mergeQ_rename (h1 : ∀ x, x < n → φ (m x) = m' (σ x))
    (h2 : ∀ x y, x < n → y < n → φ (m x) = φ (m y) → m x = m y) (q : QuorumSet)
    (hq : ∀ x, Mentions q x → x < n) :
    rename id (mergeQ m' (rename σ q)) = rename φ (mergeQ m q) := by
  induction q using QuorumSet.induct with
  | h t vs qs ih =>
    rw [rename_eq σ, mergeQ_eq, mergeQ_eq]
    refine mergeFinish_congr ?_ ?_ ?_
    · refine ((sortIds_perm _).map m').trans ?_
      rw [List.map_map, List.map_map]
      refine List.Perm.of_eq (List.map_congr_left fun x hx => ?_)
      exact (h1 x (hq x (.validator hx))).symm
    · refine (((sortQs_perm _).map _).map _).trans ?_
      rw [List.map_map, List.map_map, List.map_map]
      refine List.Perm.of_eq (List.map_congr_left fun p hp => ?_)
      exact ih p hp fun x hx => hq x (.inner hp hx)
    · have hcol : ∀ w ∈ collected (vs.map m) (qs.map (mergeQ m)), ∃ x, x < n ∧ m x = w := by
        intro w hw
        rcases mem_collected.1 hw with hw | ⟨p, hp, hpv⟩
        · obtain ⟨x, hx, rfl⟩ := List.mem_map.1 hw
          exact ⟨x, hq x (.validator hx), rfl⟩
        · obtain ⟨p', hp', rfl⟩ := List.mem_map.1 hp
          obtain ⟨x, hx, rfl⟩ := mentions_mergeQ m p' w (by
            cases hmq : mergeQ m p' with
            | mk t' vs' qs' =>
              rw [hmq] at hpv
              obtain rfl : vs' = [w] := hpv
              exact .validator (by simp))
          exact ⟨x, hq x (.inner hp' hx), rfl⟩
      intro x hx y hy hxy
      obtain ⟨a, ha, rfl⟩ := hcol x hx
      obtain ⟨b, hb, rfl⟩ := hcol y hy
      exact h2 a b ha hb hxy

end

theorem forall₂_of_get {α β : Type} {R : α → β → Prop} {l : List α} {l' : List β}
    (hlen : l.length = l'.length) (h : ∀ (i : ℕ) a b, l[i]? = some a → l'[i]? = some b → R a b) :
    List.Forall₂ R l l' :=
  List.forall₂_iff_get.2 ⟨hlen, fun i h1 h2 => h i _ _
    (by rw [List.getElem?_eq_getElem h1]; rfl) (by rw [List.getElem?_eq_getElem h2]; rfl)⟩

/-- Quorum sets that differ only in the order are shown with the same names. -/
theorem showsQSet_same {R R' : ℕ → String → Prop} {φ : ℕ → ℕ}
    (hu : ∀ x a b, R' x a → R' x b → a = b) (q q' : QuorumSet) (he : rename id q' = rename φ q)
    (hR : ∀ x, Mentions q x → ∀ nm, R x nm → R' (φ x) nm) {p p' : RawQuorumSet}
    (h : ShowsQSet R q p) (h' : ShowsQSet R' q' p') : SameQSet p p' := by
  induction q using QuorumSet.induct generalizing q' p p' with
  | h t vs qs ih =>
    obtain ⟨t', vs', qs'⟩ := q'
    cases h with
    | @intro _ _ nm _ ps hvs hlen hin =>
    cases h' with
    | @intro _ _ nm' _ ps' hvs' hlen' hin' =>
    have e1 : t' = t := rename_congr_threshold he
    subst e1
    have e2 : vs'.Perm (vs.map φ) := by
      have := rename_congr_validators he
      rwa [List.map_id] at this
    have e3 : (qs'.map (rename id)).Perm (qs.map (rename φ)) := rename_congr_inner he
    have hnames : nm.Perm nm' := by
      have hs2 : List.Forall₂ R' (vs.map φ) nm := by
        rw [List.forall₂_map_left_iff]
        refine List.forall₂_iff_get.2 ⟨hvs.length_eq, fun i a b => ?_⟩
        exact hR _ (.validator (List.get_mem _ _)) _ ((List.forall₂_iff_get.1 hvs).2 i a b)
      obtain ⟨l, a1, a2⟩ := List.perm_comp_forall₂ e2 hs2
      rw [Props.forall₂_unique hu hvs' a1]
      exact a2.symm
    have hps : List.Forall₂ (fun a p => ShowsQSet R a p) qs ps := forall₂_of_get hlen hin
    have hps' : List.Forall₂ (fun a p => ShowsQSet R' a p) qs' ps' := forall₂_of_get hlen' hin'
    -- bring the inner quorum sets into the same order
    have hc : List.Forall₂ (fun c p => ∃ a ∈ qs, c = rename φ a ∧ ShowsQSet R a p)
        (qs.map (rename φ)) ps := by
      rw [List.forall₂_map_left_iff]
      refine List.forall₂_iff_get.2 ⟨hps.length_eq, fun i a b => ?_⟩
      exact ⟨_, List.get_mem _ _, rfl, (List.forall₂_iff_get.1 hps).2 i a b⟩
    obtain ⟨l, a1, a2⟩ := List.perm_comp_forall₂ e3 hc
    rw [List.forall₂_map_left_iff] at a1
    have hl : List.Forall₂ SameQSet l ps' := by
      refine List.forall₂_iff_get.2 ⟨a1.length_eq.symm.trans hps'.length_eq, fun i a b => ?_⟩
      have c : i < qs'.length := a1.length_eq ▸ a
      obtain ⟨x, hx, ex, hs⟩ := (List.forall₂_iff_get.1 a1).2 i c a
      exact ih x hx _ ex (fun y hy => hR y (.inner hx hy)) hs ((List.forall₂_iff_get.1 hps').2 i c b)
    exact .trans (.validators _ _ hnames) (.trans (.inner _ _ a2.symm) (.of_forall₂ _ _ hl))

end FA
