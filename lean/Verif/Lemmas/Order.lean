import Verif.Lemmas.Sets
import Verif.Spec

/-! The reporting order of node sets. -/

namespace FA
open Spec
theorem lex_lt_first {l m : List ℕ} (hl : l.Pairwise (· < ·)) (hm : m.Pairwise (· < ·))
    (hlen : l.length = m.length) (h : l < m) : ∃ x ∈ l, x ∉ m ∧ ∀ y < x, (y ∈ l ↔ y ∈ m) := by
  induction l generalizing m with
  | nil => 
    cases m with
    | nil => simp at h
    | cons => simp at hlen
  | cons a l ih =>
    cases m with
    | nil => simp at hlen
    | cons b m =>
      rw [List.pairwise_cons] at hl hm
      rw [List.cons_lt_cons_iff] at h
      rcases h with h | ⟨rfl, h⟩
      · refine ⟨a, by simp, ?_, ?_⟩
        · intro hmem
          rcases List.mem_cons.1 hmem with e | e
          · omega
          · have := hm.1 a e; omega
        · intro y hy
          constructor
          · intro hmem
            rcases List.mem_cons.1 hmem with e | e
            · omega
            · have := hl.1 y e; omega
          · intro hmem
            rcases List.mem_cons.1 hmem with e | e
            · omega
            · have := hm.1 y e; omega
      · obtain ⟨x, hx, hxm, hy⟩ := ih hl.2 hm.2 (by simpa using hlen) h
        have hax := hl.1 x hx
        refine ⟨x, by simp [hx], ?_, ?_⟩
        · simp only [List.mem_cons, not_or]; exact ⟨by omega, hxm⟩
        · intro y hyx
          simp only [List.mem_cons, hy y hyx]

theorem lenLexLt_iff {a b : NodeSet} : lenLexLt a b ↔ Before a b := by
  constructor
  · rintro ⟨h | ⟨h1, h2⟩, hne⟩
    · exact .inl h
    · refine .inr ⟨h1, ?_⟩
      have hlt : elems a < elems b := lt_of_le_of_ne h2 (fun e => hne (elems_injective e))
      have := lex_lt_first (elems_pairwise a) (elems_pairwise b) (by simpa using h1) hlt
      simpa using this
  · rintro (h | ⟨h1, x, hx, hxb, hy⟩)
    · exact ⟨.inl h, by rintro rfl; omega⟩
    · refine ⟨.inr ⟨h1, ?_⟩, by rintro rfl; exact hxb hx⟩
      by_contra hle
      have hlt : elems b < elems a := not_le.1 hle
      obtain ⟨z, hz, hza, hz'⟩ := lex_lt_first (elems_pairwise b) (elems_pairwise a)
        (by simpa using h1.symm) hlt
      simp only [mem_elems] at hz hza hz'
      rcases lt_trichotomy x z with h | rfl | h
      · exact hxb ((hz' x h).2 hx)
      · exact hza hx
      · exact hza ((hy z h).2 hz)
end FA
