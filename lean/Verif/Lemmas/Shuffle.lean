import Verif.Lemmas.Graph
import Verif.Lemmas.Shrinking

/-!
# Lemmas about shuffled graphs
-/

namespace FA
open Spec

theorem invertPerm_spec {p : List ℕ} (hp : p.Perm (List.range p.length)) :
    ∃ v : List ℕ, Graph.invertPerm p = .ok v ∧ v.length = p.length ∧
      ∀ i k : ℕ, p[i]? = some k → v[k]? = some i := by
  have hnd : p.Nodup := hp.nodup_iff.2 List.nodup_range
  obtain ⟨v, h1, h2, h3⟩ := foldE_inv
    (g := fun (v : List ℕ) (q : ℕ × ℕ) => modifyE v q.1 (fun _ => q.2))
    (fun pre v => v.length = p.length ∧ ∀ q ∈ pre, v[q.1]? = some q.2)
    (l := p.zipIdx) (b := List.replicate p.length 0) ⟨by simp, by simp⟩ (by
      rintro pre ⟨k, i⟩ suf b hs ⟨hb1, hb2⟩
      have hki : p[i]? = some k := List.mem_zipIdx_iff_getElem?.1 (by
        rw [hs]; exact List.mem_append_right _ List.mem_cons_self)
      have hk : k < b.length := by
        rw [hb1]; exact List.mem_range.1 (hp.mem_iff.1 (List.mem_of_getElem? hki))
      obtain ⟨b', g1, g2, g3⟩ := modifyE_spec (v := b) (i := k) (g := fun _ => i) hk
      refine ⟨b', g1, g2.trans hb1, fun q hq => ?_⟩
      rcases List.mem_append.1 hq with hq | hq
      · rw [g3, if_neg, hb2 q hq]
        intro he
        have hnd2 : (p.zipIdx.map Prod.fst).Nodup := by
          rw [List.zipIdx_map_fst]; exact hnd
        rw [hs, List.map_append, List.nodup_append'] at hnd2
        exact hnd2.2.2 (List.mem_map_of_mem hq) (by rw [he]; simp)
      · rw [List.mem_singleton.1 hq, g3, if_pos rfl, List.getElem?_eq_getElem hk]; rfl)
  refine ⟨v, h1, h2, fun i k hik => ?_⟩
  exact h3 (k, i) (List.mem_zipIdx_iff_getElem?.2 hik)

/-- Shuffling renames the nodes by the permutation `p`. -/
theorem shuffled_spec (R : Rand) (s : R.State) (g : Graph) (hg : LinksInRange g) :
    ∃ g', g.shuffled R s = .ok (g', (R.shuffle s (List.range g.outlinks.length)).2) ∧
      g'.outlinks.length = g.outlinks.length ∧
      ∀ (i k : ℕ) (l : List ℕ), (R.shuffle s (List.range g.outlinks.length)).1[i]? = some k →
        g.outlinks[i]? = some l →
        g'.outlinks[k]? = some (l.map (fun j =>
          (R.shuffle s (List.range g.outlinks.length)).1.getD j 0)) := by
  have hp := R.shuffle_perm s (List.range g.outlinks.length)
  unfold Graph.shuffled
  dsimp only
  rw [rangeFT_zero]
  generalize R.shuffle s (List.range g.outlinks.length) = r at hp
  obtain ⟨p, s'⟩ := r
  dsimp only at hp ⊢
  have hlen : p.length = g.outlinks.length := by have := hp.length_eq; simpa using this
  obtain ⟨v, h1, h2, h3⟩ := invertPerm_spec (p := p) (by rw [hlen]; exact hp)
  rw [h1]
  dsimp only
  have hv : ∀ oi ∈ v, oi < g.outlinks.length := by
    intro oi hoi
    obtain ⟨k, hk, hkv⟩ := List.getElem_of_mem hoi
    have hkp : k ∈ p := hp.mem_iff.2 (List.mem_range.2 (by rw [← hlen, ← h2]; exact hk))
    obtain ⟨i, hi, hik⟩ := List.getElem_of_mem hkp
    have := h3 i k (by rw [List.getElem?_eq_getElem hi, hik])
    rw [List.getElem?_eq_getElem hk, hkv] at this
    rw [Option.some.inj this, ← hlen]; exact hi
  have hbody : ∀ oi ∈ v, Graph.renamedLinks g p oi =
      .ok ((g.outlinks.getD oi []).map (fun j => p.getD j 0)) := by
    intro oi hoi
    unfold Graph.renamedLinks
    rw [getE_ok (hv oi hoi)]
    dsimp only
    rw [mapE_ok (h := fun j => p.getD j 0)]
    · simp [hv oi hoi]
    · intro j hj
      have hjn := hg oi j ⟨_, List.getElem?_eq_getElem (hv oi hoi), hj⟩
      rw [getE_ok (by rw [hlen]; exact hjn)]
      simp [show j < p.length by rw [hlen]; exact hjn]
  rw [mapE_ok hbody]
  refine ⟨_, rfl, by simp [h2, hlen], fun i k l hik hl => ?_⟩
  dsimp only
  rw [List.getElem?_map, h3 i k hik]
  simp [hl]

end FA
