import Verif.Lemmas.RenameShrink
import Verif.Lemmas.FrontEndShape
import Verif.Lemmas.QuorumMode
import Verif.Lemmas.CheckedAntichain

/-!
# The front end on an FBAS with renamed nodes
-/

namespace FA
open Spec Analysis QuorumSet

/-- Answers that correspond under a renaming; the lists may be in different orders, and the
alternative check may find other quorums. Quorum sets only list nodes below `n`. -/
def MovedAnswer (σ : Equiv.Perm ℕ) (n : ℕ) : Answer → Answer → Prop
  | .bool b, .bool b' => b' = b
  | .set s, .set s' => s' = img σ s
  | .sets l, .sets l' => l'.Perm (l.map (img σ))
  | .verdict b w, .verdict b' w' => b' = b ∧ w.isSome = !b ∧ w'.isSome = !b
  | .qset q, .qset q' => q' = q.map (rename σ) ∧ ∀ r ∈ q, ∀ x, Mentions r x → x < n
  | .qsets l, .qsets l' => l'.Perm (l.map (rename σ)) ∧ ∀ r ∈ l, ∀ x, Mentions r x → x < n
  | _, _ => False

theorem unSet_img {σ τ : Equiv.Perm ℕ} {K S : NodeSet} (hS : S ⊆ Finset.range K.card)
    (hu : ∀ i < K.card, un (img σ K) (τ i) = σ (un K i)) :
    unSet (img σ K) (img τ S) = img σ (unSet K S) := by
  ext x
  rw [unSet, Finset.mem_image]
  constructor
  · rintro ⟨i, hi, rfl⟩
    obtain ⟨i, rfl⟩ := τ.surjective i
    rw [apply_mem_img] at hi
    rw [hu i (Finset.mem_range.1 (hS hi)), apply_mem_img]
    exact Finset.mem_image_of_mem _ hi
  · intro hx
    obtain ⟨x, rfl⟩ := σ.surjective x
    rw [apply_mem_img] at hx
    obtain ⟨i, hi, rfl⟩ := Finset.mem_image.1 hx
    exact ⟨τ i, apply_mem_img.2 hi, hu i (Finset.mem_range.1 (hS hi))⟩

theorem map_unSet_img {σ τ : Equiv.Perm ℕ} {K : NodeSet} {l l' : List NodeSet}
    (hl : ∀ S ∈ l, S ⊆ Finset.range K.card)
    (hu : ∀ i < K.card, un (img σ K) (τ i) = σ (un K i)) (hp : l'.Perm (l.map (img τ))) :
    (l'.map (unSet (img σ K))).Perm ((l.map (unSet K)).map (img σ)) := by
  refine (hp.map _).trans (.of_eq ?_)
  rw [List.map_map, List.map_map]
  exact List.map_congr_left (fun S hS => unSet_img (hl S hS) hu)

theorem involvedNodes_img {σ : Equiv.Perm ℕ} {l l' : List NodeSet} (h : l'.Perm (l.map (img σ))) :
    involvedNodes l' = img σ (involvedNodes l) := by
  ext x
  obtain ⟨x, rfl⟩ := σ.surjective x
  rw [mem_involvedNodes, apply_mem_img, mem_involvedNodes]
  constructor
  · rintro ⟨S, hS, hx⟩
    obtain ⟨T, hT, rfl⟩ := List.mem_map.1 (h.mem_iff.1 hS)
    exact ⟨T, hT, apply_mem_img.1 hx⟩
  · rintro ⟨S, hS, hx⟩
    exact ⟨_, h.mem_iff.2 (List.mem_map_of_mem hS), apply_mem_img.2 hx⟩

theorem unSet_involvedNodes (K : NodeSet) (l : List NodeSet) :
    unSet K (involvedNodes l) = involvedNodes (l.map (unSet K)) := by
  ext x
  rw [unSet, Finset.mem_image, mem_involvedNodes]
  constructor
  · rintro ⟨i, hi, rfl⟩
    obtain ⟨S, hS, hx⟩ := mem_involvedNodes.1 hi
    exact ⟨_, List.mem_map_of_mem hS, Finset.mem_image_of_mem _ hx⟩
  · rintro ⟨S, hS, hx⟩
    obtain ⟨T, hT, rfl⟩ := List.mem_map.1 hS
    obtain ⟨i, hi, rfl⟩ := Finset.mem_image.1 hx
    exact ⟨i, mem_involvedNodes.2 ⟨T, hT, hi⟩, rfl⟩

/-- The values of two objects correspond; `H` is a condition for blocking sets. -/
structure Pair (σ : Equiv.Perm ℕ) (H : Prop) (p p' : Params) : Prop where
  K : p'.K = img σ p.K
  f' : ∃ τ, Renamed τ p.f' p'.f'
  v : verdictOf p'.Q = verdictOf p.Q
  Q : (p'.Q.map (unSet p'.K)).Perm ((p.Q.map (unSet p.K)).map (img σ))
  B : H → (p'.B.map (unSet p'.K)).Perm ((p.B.map (unSet p.K)).map (img σ))
  S : (p'.S.map (unSet p'.K)).Perm ((p.S.map (unSet p.K)).map (img σ))

namespace Renamed
variable {σ : Equiv.Perm ℕ} {f g : Fbas}

theorem quorumIntersection (h : Renamed σ f g) : QuorumIntersection g ↔ QuorumIntersection f := by
  unfold QuorumIntersection
  constructor
  · rintro ⟨⟨Q, hQ⟩, hh⟩
    rw [← img_img_symm (σ := σ) (S := Q), h.isQuorum] at hQ
    refine ⟨⟨_, hQ⟩, fun P Q hP hQ => ?_⟩
    obtain ⟨x, h1, h2⟩ := hh _ _ (h.isQuorum.2 hP) (h.isQuorum.2 hQ)
    obtain ⟨x, rfl⟩ := σ.surjective x
    exact ⟨x, apply_mem_img.1 h1, apply_mem_img.1 h2⟩
  · rintro ⟨⟨Q, hQ⟩, hh⟩
    refine ⟨⟨_, h.isQuorum.2 hQ⟩, fun P Q hP hQ => ?_⟩
    rw [← img_img_symm (σ := σ) (S := P), h.isQuorum] at hP
    rw [← img_img_symm (σ := σ) (S := Q), h.isQuorum] at hQ
    obtain ⟨x, h1, h2⟩ := hh _ _ hP hQ
    rw [mem_img] at h1 h2
    refine ⟨σ x, ?_, ?_⟩
    · simpa using h1
    · simpa using h2

theorem exists_quorum (h : Renamed σ f g) : (∃ Q, IsQuorum g Q) ↔ ∃ Q, IsQuorum f Q := by
  constructor
  · rintro ⟨Q, hQ⟩
    rw [← img_img_symm (σ := σ) (S := Q), h.isQuorum] at hQ
    exact ⟨_, hQ⟩
  · rintro ⟨Q, hQ⟩
    exact ⟨_, h.isQuorum.2 hQ⟩

theorem _root_.FA.Checked.NoRepeats.isShrunken {f f' : Fbas} (h : Checked.NoRepeats f) {K : NodeSet}
    (hsh : IsShrunken f K f') : Checked.NoRepeats f' := by
  intro x
  by_cases hx : x < f'.nodes.length
  · rw [hsh.qset x (hsh.len ▸ hx)]; exact Checked.dupFree_shrunken (h _) K
  · rw [Fbas.qset_of_ge (Nat.le_of_not_lt hx)]; exact Checked.dupFree_empty

/-- No quorum set lists a node twice, or no single node is a quorum. -/
def _root_.FA.Calm (f : Fbas) : Prop := Checked.NoRepeats f ∨ ∀ x, ¬ IsQuorum f {x}

theorem _root_.FA.Calm.isShrunken {f f' : Fbas} (h : Calm f) {K : NodeSet}
    (hsh : IsShrunken f K f') : Calm f' := by
  refine h.imp (fun h => h.isShrunken hsh) (fun h x hx => h (un K x) ?_)
  have := (hsh.isQuorum (hsh.quorum_subset hx)).1 hx
  rwa [unSet, Finset.image_singleton] at this

theorem _root_.FA.Calm.symCluster {f : Fbas} (h : Calm f) {q : QuorumSet} (hq : SymCluster f q) :
    DupFree q ∨ ∀ x, Mentions q x → ¬ IsQuorum f {x} :=
  h.imp (fun h => h.symCluster hq) (fun h x _ => h x)

variable {env env' : Env} {fR gR : Fbas} {p p' : Params}

/-- Splitting sets of corresponding FBASs. -/
theorem split {τ : Equiv.Perm ℕ} {f' g' : Fbas} (h : Renamed τ f' g') (hwf : WF f')
    {Q Q' S S' : List NodeSet} (hQ : QuorumsFor f' Q) (hQ' : QuorumsFor g' Q') (hv : verdictOf Q' = verdictOf Q)
    (hS : (if verdictOf Q = true then FA.findMinimalSplittingSets env f' Q else .ok [∅]) = .ok S)
    (hS' : (if verdictOf Q' = true then FA.findMinimalSplittingSets env' g' Q' else .ok [∅]) =
      .ok S') : S'.Perm (S.map (img τ)) := by
  by_cases hn : verdictOf Q = true
  · rw [if_pos hn] at hS
    rw [if_pos (hv ▸ hn)] at hS'
    obtain ⟨L, L', h1, h2, h3⟩ := h.findMinimalSplittingSets hwf env env' hQ hQ'
    rw [hS] at h1
    rw [hS'] at h2
    rw [Except.ok.inj h1, Except.ok.inj h2]
    exact h3
  · rw [if_neg hn] at hS
    rw [if_neg (hv ▸ hn)] at hS'
    rw [← Except.ok.inj hS, ← Except.ok.inj hS']
    simp [img]

theorem verdict {τ : Equiv.Perm ℕ} {f' g' : Fbas} (h : Renamed τ f' g') {Q Q' : List NodeSet}
    (hQ : ∀ S, S ∈ Q ↔ IsMinQuorum f' S) (hQ' : ∀ S, S ∈ Q' ↔ IsMinQuorum g' S) :
    verdictOf Q' = verdictOf Q := by
  rw [Bool.eq_iff_iff, verdictOf_iff hQ, verdictOf_iff hQ']
  exact h.quorumIntersection

/-- The values in the quorum mode. -/
theorem pairQ (h : Renamed σ f g) (hwf : WF f) (hR : IsShrunken f (f.relevantNodes env) fR)
    (hR' : IsShrunken g (g.relevantNodes env') gR)
    (hp : ModeQ env f fR p) (hp' : ModeQ env' g gR p') : Pair σ (Calm f) p p' := by
  have hg := h.wf hwf
  obtain ⟨QR, hQ, hK, hpQ⟩ := hp.QR
  obtain ⟨QR', hQ', hK', hpQ'⟩ := hp'.QR
  have hrel := h.relevantNodes hwf env env'
  rw [hrel] at hK' hpQ'
  have hR'' := hrel ▸ hR'
  obtain ⟨τ, hτ, hu⟩ := h.shrunken hR hR''
  obtain ⟨L, L', h1, h2, h3⟩ := hτ.findMinimalQuorums hR.wf env env'
  rw [hQ] at h1
  rw [hQ'] at h2
  obtain rfl := Except.ok.inj h1
  obtain rfl := Except.ok.inj h2
  have hsub : ∀ S ∈ QR, S ⊆ Finset.range (f.relevantNodes env).card := by
    obtain ⟨L, h1, h2, _⟩ := findMinimalQuorums_spec env hR.wf
    rw [hQ] at h1
    rw [Except.ok.inj h1]
    exact fun S hS => hR.quorum_subset ((h2 S).1 hS).prop
  have hKK : p'.K = img σ p.K := by
    rw [hK', hK, involvedNodes_img h3, unSet_img ?_ hu]
    exact unionAll_subset.2 hsub
  have his' : IsShrunken g (img σ p.K) p'.f' := hKK ▸ hp'.is
  obtain ⟨τ', hτ', hu'⟩ := h.shrunken hp.is his'
  have he := (hp.exact hwf hR).1
  have he' := (hp'.exact hg hR').1
  have hv := hτ'.verdict he.Q he'.Q
  refine ⟨hKK, ⟨τ', hτ'⟩, hv, ?_, fun hn => ?_, ?_⟩
  · rw [hpQ', map_reshrink hK', hpQ, map_reshrink hK]
    exact map_unSet_img hsub hu h3
  · obtain ⟨B, B', b1, b2, b3⟩ := hτ'.findMinimalBlockingSets hp.is.wf
      (fun q hq => (hn.isShrunken hp.is).symCluster hq) env env'
    rw [hp.B] at b1
    rw [hp'.B] at b2
    rw [Except.ok.inj b1, Except.ok.inj b2, hKK]
    exact map_unSet_img (fun S hS => hp.good.B S (Except.ok.inj b1 ▸ hS)) hu' b3
  · rw [hKK]
    refine map_unSet_img hp.good.S hu' (hτ'.split hp.is.wf (hp.quorumsFor hwf hR)
      (hp'.quorumsFor hg hR') hv hp.split hp'.split)

/-- The values in the blocking mode. -/
theorem pairB (h : Renamed σ f g) (hwf : WF f) (hR : IsShrunken f (f.relevantNodes env) fR)
    (hR' : IsShrunken g (g.relevantNodes env') gR) (hn : Calm f)
    (hp : ModeB env f fR p) (hp' : ModeB env' g gR p') : Pair σ (Calm f) p p' := by
  have hg := h.wf hwf
  obtain ⟨BR, hB, hK, hpB⟩ := hp.BR
  obtain ⟨BR', hB', hK', hpB'⟩ := hp'.BR
  have hrel := h.relevantNodes hwf env env'
  rw [hrel] at hK' hpB'
  have hR'' := hrel ▸ hR'
  obtain ⟨τ, hτ, hu⟩ := h.shrunken hR hR''
  obtain ⟨L, L', h1, h2, h3⟩ := hτ.findMinimalBlockingSets hR.wf
      (fun q hq => (hn.isShrunken hR).symCluster hq) env env'
  rw [hB] at h1
  rw [hB'] at h2
  obtain rfl := Except.ok.inj h1
  obtain rfl := Except.ok.inj h2
  have hsub : ∀ S ∈ BR, S ⊆ Finset.range (f.relevantNodes env).card := by
    intro S hS
    rw [← hR.subset]
    exact findMinimalBlockingSets_subset env hR.wf hB hS
  have hKK : p'.K = img σ p.K := by
    rw [hK', hK, involvedNodes_img h3, unSet_img ?_ hu]
    exact unionAll_subset.2 hsub
  have his' : IsShrunken g (img σ p.K) p'.f' := hKK ▸ hp'.is
  obtain ⟨τ', hτ', hu'⟩ := h.shrunken hp.is his'
  obtain ⟨M, m1, m2, -⟩ := findMinimalQuorums_spec env hp.is.wf
  obtain ⟨M', m1', m2', -⟩ := findMinimalQuorums_spec env' hp'.is.wf
  rw [hp.Q] at m1
  rw [hp'.Q] at m1'
  rw [← Except.ok.inj m1] at m2
  rw [← Except.ok.inj m1'] at m2'
  have hv := hτ'.verdict m2 m2'
  refine ⟨hKK, ⟨τ', hτ'⟩, hv, ?_, fun _ => ?_, ?_⟩
  · obtain ⟨Q, Q', q1, q2, q3⟩ := hτ'.findMinimalQuorums hp.is.wf env env'
    rw [hp.Q] at q1
    rw [hp'.Q] at q2
    rw [Except.ok.inj q1, Except.ok.inj q2, hKK]
    exact map_unSet_img (fun S hS => hp.good.Q S (Except.ok.inj q1 ▸ hS)) hu' q3
  · rw [hpB', map_reshrink hK', hpB, map_reshrink hK]
    exact map_unSet_img hsub hu h3
  · rw [hKK]
    exact map_unSet_img hp.good.S hu' (hτ'.split hp.is.wf (quorumsFor_of hp.is.wf hp.Q)
      (quorumsFor_of hp'.is.wf hp'.Q) hv hp.split hp'.split)

end Renamed
end FA
