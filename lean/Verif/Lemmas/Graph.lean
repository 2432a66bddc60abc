import Verif.SpecGraph
import Verif.Lemmas.Loop

/-!
# Lemmas about graphs: undirectedness, degrees, connected nodes, shuffling
-/

namespace FA
open Spec

theorem Spec.Link.lt {g : Graph} {i j : NodeId} (h : Link g i j) : i < g.outlinks.length := by
  obtain ⟨l, h, -⟩ := h
  exact (List.getElem?_eq_some_iff.1 h).1

theorem Spec.link_iff {g : Graph} {i j : NodeId} : Link g i j ↔ j ∈ g.outlinks.getD i [] := by
  unfold Link
  rw [List.getD_eq_getElem?_getD]
  cases h : g.outlinks[i]? <;> simp

theorem allE_ok {α : Type} {p : α → Except Panic Bool} {q : α → Bool} {l : List α}
    (h : ∀ a ∈ l, p a = .ok (q a)) : allE p l = .ok (l.all q) := by
  induction l with
  | nil => rfl
  | cons a l ih =>
    rw [allE, h a List.mem_cons_self, List.all_cons]
    cases hq : q a with
    | false => rfl
    | true => simpa using ih (fun b hb => h b (List.mem_cons_of_mem _ hb))

theorem isUndirected_eq {g : Graph} (hg : LinksInRange g) :
    g.isUndirected = .ok (g.outlinks.zipIdx.all (fun p => p.1.all (fun j =>
      (g.outlinks.getD j []).any (fun x => x == p.2)))) := by
  unfold Graph.isUndirected
  apply allE_ok
  rintro ⟨l, i⟩ hp
  have hl : g.outlinks[i]? = some l := List.mem_zipIdx_iff_getElem?.1 hp
  apply allE_ok
  intro j hj
  have hjn := hg i j ⟨l, hl, hj⟩
  rw [getE_ok hjn]
  simp [hjn]

theorem isUndirected_iff {g : Graph} (hg : LinksInRange g) :
    ∃ b, g.isUndirected = .ok b ∧ (b = true ↔ Undirected g) := by
  refine ⟨_, isUndirected_eq hg, ?_⟩
  rw [List.all_eq_true]
  constructor
  · intro h i j hij
    obtain ⟨l, hl, hj⟩ := hij
    have := h (l, i) (List.mem_zipIdx_iff_getElem?.2 hl)
    rw [List.all_eq_true] at this
    have := this j hj
    rw [List.any_eq_true] at this
    obtain ⟨x, hx, hxi⟩ := this
    rw [link_iff]
    have : x = i := by simpa using hxi
    rwa [← this]
  · rintro h ⟨l, i⟩ hp
    have hl : g.outlinks[i]? = some l := List.mem_zipIdx_iff_getElem?.1 hp
    rw [List.all_eq_true]
    intro j hj
    rw [List.any_eq_true]
    exact ⟨i, link_iff.1 (h i j ⟨l, hl, hj⟩), by simp⟩

theorem assertUndirected_ok {g : Graph} (hg : LinksInRange g) (hu : Undirected g) :
    g.assertUndirected = .ok g := by
  obtain ⟨b, h1, h2⟩ := isUndirected_iff hg
  unfold Graph.assertUndirected
  rw [h1, h2.2 hu]

/-! ### Degrees -/

theorem countLoop {l : List NodeId} {r : List ℕ} (hl : ∀ j ∈ l, j < r.length) :
    ∃ r', foldE (fun r j => modifyE r j (· + 1)) r l = .ok r' ∧ r'.length = r.length ∧
      ∀ j, r'[j]? = (r[j]?).map (· + l.count j) := by
  obtain ⟨r', h1, h2, h3⟩ := foldE_inv (g := fun (r : List ℕ) j => modifyE r j (· + 1))
    (fun pre r' => r'.length = r.length ∧ ∀ j, r'[j]? = (r[j]?).map (· + pre.count j))
    (l := l) (b := r) ⟨rfl, fun j => by cases r[j]? <;> simp⟩ (by
      intro pre a suf b hs ⟨hb1, hb2⟩
      have ha : a < b.length := by rw [hb1]; exact hl a (by rw [hs]; simp)
      obtain ⟨b', g1, g2, g3⟩ := modifyE_spec (g := (· + 1)) ha
      refine ⟨b', g1, g2.trans hb1, fun j => ?_⟩
      rw [g3, hb2, List.count_append]
      by_cases hj : j = a
      · subst hj
        cases r[j]? <;> simp
        omega
      · have h0 : List.count j [a] = 0 := by
          rw [List.count_eq_zero]; simpa using hj
        rw [if_neg hj, h0]; rfl)
  exact ⟨r', h1, h2, h3⟩

theorem getInDegrees_spec {g : Graph} (hg : LinksInRange g) :
    g.getInDegrees = .ok ((List.range g.outlinks.length).map (linksInto g)) := by
  obtain ⟨r', h1, h2, h3⟩ := foldE_inv
    (g := fun r l => foldE (fun r j => modifyE r j (· + 1)) r l)
    (fun (pre : List (List NodeId)) (r' : List ℕ) => r'.length = g.outlinks.length ∧
      ∀ j < g.outlinks.length, r'[j]? = some ((pre.map (fun l => l.count j)).sum))
    (l := g.outlinks) (b := List.replicate g.outlinks.length 0)
    ⟨by simp, fun j hj => by simp [hj]⟩ (by
      intro pre a suf b hs ⟨hb1, hb2⟩
      have hmem : a ∈ g.outlinks := by rw [hs]; simp
      obtain ⟨i, hi, hia⟩ := List.getElem_of_mem hmem
      obtain ⟨r', g1, g2, g3⟩ := countLoop (l := a) (r := b) (fun j hj => by
        rw [hb1]
        exact hg i j ⟨a, by rw [List.getElem?_eq_getElem hi, hia], hj⟩)
      refine ⟨r', g1, g2.trans hb1, fun j hj => ?_⟩
      rw [g3, hb2 j hj]; simp)
  unfold Graph.getInDegrees
  rw [h1]
  congr 1
  apply List.ext_getElem?
  intro j
  by_cases hj : j < g.outlinks.length
  · rw [h3 j hj]; simp [hj, linksInto]
  · rw [List.getElem?_eq_none (by omega), List.getElem?_eq_none (by simp; omega)]

theorem sum_count (n : ℕ) (l : List NodeId) (hl : ∀ j ∈ l, j < n) :
    ((List.range n).map (fun j => l.count j)).sum = l.length := by
  induction l with
  | nil => simp
  | cons a l ih =>
    have h1 : ∀ j, (a :: l).count j = l.count j + if a = j then 1 else 0 := by
      intro j; rw [List.count_cons]; by_cases h : a = j <;> simp [h]
    simp only [h1]
    rw [List.sum_map_add, ih (fun j hj => hl j (List.mem_cons_of_mem _ hj)), List.length_cons]
    congr 1
    have : ((List.range n).map (fun j => if a = j then 1 else 0)).sum = (List.range n).count a := by
      rw [List.count_eq_countP, List.countP_eq_length_filter]
      generalize List.range n = r
      induction r with
      | nil => rfl
      | cons b r ih =>
        rw [List.map_cons, List.sum_cons, ih, List.filter_cons]
        by_cases h : a = b
        · simp [h, Nat.add_comm]
        · have : ¬ b = a := fun h' => h h'.symm
          simp [h, this]
    rw [this, List.count_eq_one_of_mem List.nodup_range
      (List.mem_range.2 (hl a List.mem_cons_self))]

theorem sum_linksInto {g : Graph} (hg : LinksInRange g) :
    ((List.range g.outlinks.length).map (linksInto g)).sum = numLinks g := by
  have key : ∀ (n : ℕ) (o : List (List NodeId)), (∀ l ∈ o, ∀ j ∈ l, j < n) →
      ((List.range n).map (fun j => (o.map (fun l => l.count j)).sum)).sum =
        (o.map List.length).sum := by
    intro n o ho
    induction o with
    | nil => simp
    | cons l o ih =>
      simp only [List.map_cons, List.sum_cons]
      rw [List.sum_map_add, ih (fun l' hl' => ho l' (List.mem_cons_of_mem _ hl')),
        sum_count n l (ho l List.mem_cons_self)]
  apply key
  intro l hl j hj
  obtain ⟨i, hi, hil⟩ := List.getElem_of_mem hl
  exact hg i j ⟨l, by rw [List.getElem?_eq_getElem hi, hil], hj⟩

/-! ### Connected nodes -/

theorem mem_getConnectedNodes {g : Graph} {x : NodeId} :
    x ∈ g.getConnectedNodes ↔ (∃ j, Link g x j) ∨ ∃ i, Link g i x := by
  have key : ∀ (l : List (List NodeId × ℕ)) (r : NodeSet),
      x ∈ l.foldl (fun r p => if p.1 = [] then r else insert p.2 r ∪ ofList p.1) r ↔
        x ∈ r ∨ ∃ p ∈ l, (p.2 = x ∧ p.1 ≠ []) ∨ x ∈ p.1 := by
    intro l
    induction l with
    | nil => intro r; simp
    | cons p l ih =>
      intro r
      rw [List.foldl_cons, ih]
      by_cases hp : p.1 = []
      · rw [if_pos hp]; simp [hp]
      · rw [if_neg hp]
        simp only [Finset.mem_union, Finset.mem_insert, List.mem_toFinset, List.mem_cons,
          exists_eq_or_imp]
        constructor
        · rintro (((h | h) | h) | h)
          · exact .inr (.inl (.inl ⟨h.symm, hp⟩))
          · exact .inl h
          · exact .inr (.inl (.inr h))
          · exact .inr (.inr h)
        · rintro (h | (⟨h, -⟩ | h) | h)
          · exact .inl (.inl (.inr h))
          · exact .inl (.inl (.inl h.symm))
          · exact .inl (.inr h)
          · exact .inr h
  unfold Graph.getConnectedNodes
  rw [key]
  simp only [Finset.notMem_empty, false_or]
  constructor
  · rintro ⟨⟨l, i⟩, hp, h⟩
    have hl : g.outlinks[i]? = some l := List.mem_zipIdx_iff_getElem?.1 hp
    rcases h with ⟨rfl, h⟩ | h
    · obtain ⟨j, hj⟩ := List.exists_mem_of_ne_nil l h
      exact .inl ⟨j, l, hl, hj⟩
    · exact .inr ⟨i, l, hl, h⟩
  · rintro (⟨j, l, hl, hj⟩ | ⟨i, l, hl, hx⟩)
    · exact ⟨(l, x), List.mem_zipIdx_iff_getElem?.2 hl, .inl ⟨rfl, List.ne_nil_of_mem hj⟩⟩
    · exact ⟨(l, i), List.mem_zipIdx_iff_getElem?.2 hl, .inr hx⟩

end FA
