import Mathlib.Data.Set.Card
import Verif.Lemmas.AsRel
import Verif.SpecSimulator
import Verif.Props.AsRel
import Verif.Props.RandomGraph

/-!
# Lemmas: the graph generator
-/

namespace FA
open Spec Graph

/-! ### An additional empty line at the end -/

theorem foldE_concat_ok {α σ : Type} {g : σ → α → Except Panic σ} {l : List α} {a : α} {s s' : σ}
    (h : foldE g s l = .ok s') : foldE g s (l ++ [a]) = g s' a := by
  induction l generalizing s with
  | nil =>
    cases h
    rw [List.nil_append, foldE]
    cases hb : g s' a <;> rfl
  | cons b l ih =>
    rw [List.cons_append, foldE]
    rw [foldE] at h
    cases hb : g s b with
    | error e => rw [hb] at h; cases h
    | ok s1 =>
      rw [hb] at h
      exact ih h

theorem lines_edges_blank (es : List (ℕ × ℕ × Bool)) :
    Text.lines (es.flatMap edgeText ++ ['\n']) = es.map edgeBody ++ [[]] := by
  induction es with
  | nil => decide
  | cons e es ih =>
    rw [List.flatMap_cons, List.append_assoc, edgeText_eq, Text.lines_append, ih, stripCr_edgeBody,
      List.map_cons, List.cons_append]
    intro h
    rcases edgeBody_chars h with h | h | h <;> revert h <;> decide

/-- What has been written with a head comment can be read with an additional line break at the end. -/
theorem fromAsRel_blank {g : Graph} (hr : LinksInRange g) {c : Text} (hc : '\n' ∉ c) {t : Text}
    {g' : Graph} (ht : toAsRelString g (some c) = .ok t) (hg : fromAsRelString t = .ok g') :
    fromAsRelString (t ++ ['\n']) = .ok g' := by
  rw [toAsRelString_eq hr] at ht
  obtain rfl := Except.ok.inj ht
  have hn : '\n' ∉ '#' :: ' ' :: c := by
    intro h
    rcases List.mem_cons.1 h with h | h
    · revert h; decide
    · rcases List.mem_cons.1 h with h | h
      · revert h; decide
      · exact hc h
  have e : header (some c) ++ (edgesOf g).flatMap edgeText =
      ('#' :: ' ' :: c) ++ '\n' :: (edgesOf g).flatMap edgeText := by simp [header]
  have e' : header (some c) ++ (edgesOf g).flatMap edgeText ++ ['\n'] =
      ('#' :: ' ' :: c) ++ '\n' :: ((edgesOf g).flatMap edgeText ++ ['\n']) := by simp [header]
  unfold fromAsRelString at hg ⊢
  rw [e'] 
  rw [e] at hg
  rw [Text.lines_append hn, lines_edges] at hg
  rw [Text.lines_append hn, lines_edges_blank, ← List.cons_append]
  cases hf : foldE readLine [] (Text.stripCr ('#' :: ' ' :: c) :: (edgesOf g).map edgeBody) with
  | error e => rw [hf] at hg; cases hg
  | ok o =>
    rw [hf] at hg
    rw [foldE_concat_ok hf]
    exact hg

/-! ### The head comment is a single line -/

theorem headComment_line {showF64 : ℚ → Text} (h : ∀ x, '\n' ∉ showF64 x)
    (config : GraphGenerator.Config) : '\n' ∉ GraphGenerator.headComment showF64 config := by
  have hd : ∀ n, '\n' ∉ Text.ofNat n := fun n => Text.not_mem_ofNat (by decide)
  cases config with
  | barabasiAlbert n m0 m =>
    unfold GraphGenerator.headComment
    simp only [List.mem_append, not_or]
    exact ⟨⟨⟨⟨⟨⟨by decide, hd _⟩, by decide⟩, hd _⟩, by decide⟩, hd _⟩, by decide⟩
  | wattsStrogatz n k beta =>
    unfold GraphGenerator.headComment
    simp only [List.mem_append, not_or]
    exact ⟨⟨⟨⟨⟨⟨by decide, hd _⟩, by decide⟩, hd _⟩, by decide⟩, h _⟩, by decide⟩

theorem ofNat_append_inj {a b : ℕ} {c c' : Char} {s s' : Text} (hc : c.isDigit = false)
    (hc' : c'.isDigit = false) (h : Text.ofNat a ++ c :: s = Text.ofNat b ++ c' :: s') :
    a = b ∧ c :: s = c' :: s' := by
  have ht : ∀ (n : ℕ) (c : Char) (s : Text), c.isDigit = false →
      (Text.ofNat n ++ c :: s).takeWhile Char.isDigit = Text.ofNat n := by
    intro n c s hc
    rw [List.takeWhile_append_of_pos (fun x hx => Text.isDigit_ofNat hx)]
    simp [List.takeWhile, hc]
  have h1 : Text.ofNat a = Text.ofNat b := by rw [← ht a c s hc, h, ht b c' s' hc']
  refine ⟨?_, ?_⟩
  · have := congrArg Text.digits? h1
    rw [Text.digits?_ofNat, Text.digits?_ofNat] at this
    exact Option.some.inj this
  · rw [h1] at h
    exact List.append_cancel_left h

theorem headComment_inj {showF64 : ℚ → Text} (hs : ∀ x y, showF64 x = showF64 y → x = y)
    {c c' : GraphGenerator.Config}
    (h : GraphGenerator.headComment showF64 c = GraphGenerator.headComment showF64 c') : c = c' := by
  have hd : (',' : Char).isDigit = false := by decide
  have hsp : (' ' : Char).isDigit = false := by decide
  cases c with
  | barabasiAlbert n m0 m =>
    cases c' with
    | barabasiAlbert n' m0' m' =>
      unfold GraphGenerator.headComment at h
      simp only [List.append_assoc] at h
      have h1 := List.append_cancel_left h
      obtain ⟨rfl, h2⟩ := ofNat_append_inj (c := ',') (c' := ',') hd hd h1
      have h3 := List.append_cancel_left (as := ", m0: ".toList) h2
      obtain ⟨rfl, h4⟩ := ofNat_append_inj (c := ',') (c' := ',') hd hd h3
      have h5 := List.append_cancel_left (as := ", m: ".toList) h4
      obtain ⟨rfl, -⟩ := ofNat_append_inj (c := ' ') (c' := ' ') hsp hsp h5
      rfl
    | wattsStrogatz n' k beta =>
      exfalso
      have h := congrArg (fun t => t.drop 22 |>.head?) h
      unfold GraphGenerator.headComment at h
      simp at h
  | wattsStrogatz n k beta =>
    cases c' with
    | barabasiAlbert n' m0' m' =>
      exfalso
      have h := congrArg (fun t => t.drop 22 |>.head?) h
      unfold GraphGenerator.headComment at h
      simp at h
    | wattsStrogatz n' k' beta' =>
      unfold GraphGenerator.headComment at h
      simp only [List.append_assoc] at h
      have h1 := List.append_cancel_left h
      obtain ⟨rfl, h2⟩ := ofNat_append_inj (c := ',') (c' := ',') hd hd h1
      have h3 := List.append_cancel_left (as := ", k: ".toList) h2
      obtain ⟨rfl, h4⟩ := ofNat_append_inj (c := ',') (c' := ',') hd hd h3
      have h5 := List.append_cancel_left (as := ", beta: ".toList) h4
      obtain rfl := hs _ _ (List.append_cancel_right h5)
      rfl

/-! ### Generated graphs -/

theorem scaleFree_one (R : Rand) (s : R.State) :
    newRandomScaleFree R s 1 1 1 = .ok (⟨[[]]⟩, s) := rfl

theorem generated_inRange {R : Rand} {s s' : R.State} {config : GraphGenerator.Config} {g : Graph}
    (h : GraphGenerator.applyGraphGenAlg R s config = .ok (g, s')) :
    LinksInRange g ∧ Undirected g ∧ SimpleLinks g := by
  cases config with
  | barabasiAlbert n m0 m =>
    dsimp only [GraphGenerator.applyGraphGenAlg] at h
    have hp := mt (Props.C48_panics_iff R s n m0 m).2 (by rw [h]; rintro ⟨e, he⟩; cases he)
    by_cases h2 : 2 ≤ m0
    · obtain ⟨g1, s1, h1, -, a, b, c, -⟩ :=
        Props.C48_scale_free R s n m0 m h2 (by omega) (by omega) (by omega)
      rw [h1] at h
      cases h
      exact ⟨a, b, c⟩
    · obtain rfl : m0 = 1 := by omega
      obtain rfl : m = 1 := by omega
      obtain rfl : n = 1 := by omega
      rw [scaleFree_one] at h
      cases h
      have hno : ∀ i j, ¬ Link ⟨[[]]⟩ i j := by
        rintro i j ⟨l, hl, hj⟩
        cases i with
        | zero => cases hl; cases hj
        | succ i => cases hl
      refine ⟨fun i j hij => (hno i j hij).elim, fun i j hij => (hno i j hij).elim,
        fun i => hno i i, fun i l hl => ?_⟩
      cases i with
      | zero => cases hl; exact List.nodup_nil
      | succ i => cases hl
  | wattsStrogatz n k beta =>
    dsimp only [GraphGenerator.applyGraphGenAlg] at h
    have hp := mt (Props.C49_panics_iff R s n k beta).2 (by rw [h]; rintro ⟨e, he⟩; cases he)
    obtain ⟨m, s1, h1, h2, h3, -⟩ := smallWorld_spec R s (n := n) (k := k) (by omega) (by omega) beta
    rw [h1] at h
    cases h
    refine ⟨?_, ?_, ⟨?_, ?_⟩⟩
    · intro i j hij
      rw [smallWorld_link] at hij
      simpa using hij.2.1
    · intro i j hij
      rw [smallWorld_link] at hij ⊢
      exact ⟨hij.2.1, hij.1, by rw [h2]; exact hij.2.2⟩
    · intro i hi
      rw [smallWorld_link, h3] at hi
      cases hi.2.2
    · intro i l hl
      rw [List.getElem?_map] at hl
      cases hc : (rangeFT 0 n)[i]? with
      | none => rw [hc] at hl; cases hl
      | some x =>
        rw [hc] at hl
        cases hl
        exact (List.nodup_range' ..).filter _

/-! ### Renamed graphs -/

theorem link_lt {g : Graph} {i j : ℕ} (h : Link g i j) : i < g.outlinks.length := by
  obtain ⟨l, hl, -⟩ := h
  exact (List.getElem?_eq_some_iff.1 hl).1

theorem Spec.Renamed.surj {π : ℕ → ℕ} {g h : Graph} (r : Renamed π g h) {k : ℕ}
    (hk : k < g.outlinks.length) : ∃ i < g.outlinks.length, π i = k := by
  have hs : (Finset.range g.outlinks.length).image π = Finset.range g.outlinks.length := by
    apply Finset.eq_of_subset_of_card_le
    · intro x hx
      obtain ⟨i, hi, rfl⟩ := Finset.mem_image.1 hx
      exact Finset.mem_range.2 (r.range i (Finset.mem_range.1 hi))
    · rw [Finset.card_image_of_injOn]
      intro a ha b hb hab
      exact r.inj a (by simpa using ha) b (by simpa using hb) hab
  have := Finset.mem_range.2 hk
  rw [← hs] at this
  obtain ⟨i, hi, he⟩ := Finset.mem_image.1 this
  exact ⟨i, Finset.mem_range.1 hi, he⟩

theorem mem_outlinks {g : Graph} {i j : ℕ} : j ∈ g.outlinks.getD i [] ↔ Link g i j := by
  obtain ⟨o⟩ := g
  exact link_row.symm

theorem Spec.Renamed.outDegree {π : ℕ → ℕ} {g h : Graph} (r : Renamed π g h) (hg : LinksInRange g)
    (hh : LinksInRange h) (sg : SimpleLinks g) (sh : SimpleLinks h) {i : ℕ}
    (hi : i < g.outlinks.length) : outDegree h (π i) = outDegree g i := by
  unfold Spec.outDegree
  have ng : (g.outlinks.getD i []).Nodup := sg.2 i _ (by simp [hi])
  have nh : (h.outlinks.getD (π i) []).Nodup :=
    sh.2 (π i) _ (by have := r.range i hi; rw [← r.size] at this; simp [this])
  rw [← List.toFinset_card_of_nodup ng, ← List.toFinset_card_of_nodup nh]
  have : (h.outlinks.getD (π i) []).toFinset = ((g.outlinks.getD i []).toFinset).image π := by
    ext x
    rw [List.mem_toFinset, mem_outlinks, Finset.mem_image]
    constructor
    · intro hx
      have hlt := hh _ _ hx
      rw [r.size] at hlt
      obtain ⟨j, hj, rfl⟩ := r.surj hlt
      exact ⟨j, List.mem_toFinset.2 (mem_outlinks.2 ((r.links i hi j hj).1 hx)), rfl⟩
    · rintro ⟨j, hj, rfl⟩
      have hl := mem_outlinks.1 (List.mem_toFinset.1 hj)
      exact (r.links i hi j (hg _ _ hl)).2 hl
  rw [this, Finset.card_image_of_injOn]
  intro a ha b hb hab
  have ha' := hg _ _ (mem_outlinks.1 (List.mem_toFinset.1 ha))
  have hb' := hg _ _ (mem_outlinks.1 (List.mem_toFinset.1 hb))
  exact r.inj a ha' b hb' hab

theorem numLinks_sum (g : Graph) :
    numLinks g = ∑ i ∈ Finset.range g.outlinks.length, outDegree g i := by
  obtain ⟨o⟩ := g
  induction o using List.reverseRecOn with
  | nil => rfl
  | append_singleton o r ih =>
    have h1 : Spec.numLinks ⟨o ++ [r]⟩ = Spec.numLinks ⟨o⟩ + r.length := by simp [Spec.numLinks]
    have h2 : Spec.outDegree ⟨o ++ [r]⟩ o.length = r.length := by simp [Spec.outDegree]
    show _ = ∑ i ∈ Finset.range (o ++ [r]).length, _
    rw [h1, List.length_append, List.length_singleton, Finset.sum_range_succ, h2, ih]
    congr 1
    refine Finset.sum_congr rfl (fun i hi => ?_)
    have hi' : i < o.length := Finset.mem_range.1 hi
    simp [Spec.outDegree, List.getElem?_append_left hi']

theorem Spec.Renamed.numLinks {π : ℕ → ℕ} {g h : Graph} (r : Renamed π g h) (hg : LinksInRange g)
    (hh : LinksInRange h) (sg : SimpleLinks g) (sh : SimpleLinks h) :
    numLinks h = numLinks g := by
  rw [numLinks_sum, numLinks_sum, r.size]
  symm
  refine Finset.sum_bij (fun i _ => π i) ?_ ?_ ?_ ?_
  · intro i hi
    exact Finset.mem_range.2 (r.range i (Finset.mem_range.1 hi))
  · intro i hi j hj hij
    exact r.inj i (Finset.mem_range.1 hi) j (Finset.mem_range.1 hj) hij
  · intro k hk
    obtain ⟨i, hi, he⟩ := r.surj (Finset.mem_range.1 hk)
    exact ⟨i, Finset.mem_range.2 hi, he⟩
  · intro i hi
    exact (r.outDegree hg hh sg sh (Finset.mem_range.1 hi)).symm

/-! ### The output -/

theorem generate_spec {R : Rand} {s s' : R.State} {config : GraphGenerator.Config} {g : Graph}
    (h : GraphGenerator.applyGraphGenAlg R s config = .ok (g, s')) (dontShuffle : Bool) :
    ∃ (g' : Graph) (s2 : R.State) (π : ℕ → ℕ),
      GraphGenerator.generate R s dontShuffle config = .ok (g', s2) ∧
      (dontShuffle = true → ∀ i, π i = i) ∧
      (dontShuffle = false → ∀ i < g.outlinks.length,
        (R.shuffle s' (List.range g.outlinks.length)).1[i]? = some (π i)) ∧
      Renamed π g g' ∧ LinksInRange g' := by
  obtain ⟨hr, -, -⟩ := generated_inRange h
  unfold GraphGenerator.generate
  rw [h]
  cases dontShuffle with
  | true =>
    exact ⟨g, s', fun i => i, rfl, fun _ _ => rfl, (fun e => by cases e),
      ⟨rfl, fun i hi => hi, fun i _ j _ e => e, fun i _ j _ => Iff.rfl⟩, hr⟩
  | false =>
    obtain ⟨g', s2, π, h1, h2, h3, h4, h5, h6, h7, h8⟩ := Props.C50_isomorphic R s' g hr
    refine ⟨g', s2, π, h1, (fun e => by cases e), fun _ => h3, ⟨h2, h4, h5, h8⟩, fun a b hab => ?_⟩
    have ha := link_lt hab
    rw [h2] at ha ⊢
    obtain ⟨i, hi, rfl⟩ := h6 a ha
    obtain ⟨l, hl, hb⟩ := hab
    rw [h7 i hi, List.getElem?_eq_getElem hi] at hl
    cases hl
    obtain ⟨j, hj, rfl⟩ := List.mem_map.1 hb
    exact h4 j (hr i j ⟨_, List.getElem?_eq_getElem hi, hj⟩)

theorem output_spec {R : Rand} {s s' : R.State} {config : GraphGenerator.Config} {g : Graph}
    (h : GraphGenerator.applyGraphGenAlg R s config = .ok (g, s')) {showF64 : ℚ → Text}
    (hs : ∀ x, '\n' ∉ showF64 x) (toFile dontShuffle : Bool) :
    ∃ (t : Text) (G : Graph) (π : ℕ → ℕ),
      GraphGenerator.main R showF64 s toFile dontShuffle config = .ok t ∧
      fromAsRelString t = .ok G ∧
      (dontShuffle = true → ∀ i, π i = i) ∧
      (dontShuffle = false → ∀ i < g.outlinks.length,
        (R.shuffle s' (List.range g.outlinks.length)).1[i]? = some (π i)) ∧
      (∀ i < g.outlinks.length, π i < g.outlinks.length) ∧
      (∀ i < g.outlinks.length, ∀ j < g.outlinks.length, π i = π j → i = j) ∧
      (∀ i < g.outlinks.length, ∀ j < g.outlinks.length, (Link G (π i) (π j) ↔ Link g i j)) ∧
      LinksInRange G ∧ Undirected G ∧ SimpleLinks G ∧ (∀ l ∈ G.outlinks, l.Pairwise (· < ·)) ∧
      G.outlinks.length ≤ g.outlinks.length ∧
      ((∀ l ∈ g.outlinks, l ≠ []) → Renamed π g G) := by
  obtain ⟨hr, hu, hsl⟩ := generated_inRange h
  obtain ⟨g', s2, π, h1, h2, h2', h3, h4⟩ := generate_spec h dontShuffle
  have hc := headComment_line hs config
  obtain ⟨t, G, k1, k2, k3, k4, k5⟩ := readBack h4 (some (GraphGenerator.headComment showF64 config))
    (fun c e => by cases e; exact hc)
  have hu' : ∀ a b, Link g' a b → a ≠ b ∧ Link g' b a := by
    intro a b hab
    have ha := link_lt hab
    have hb := h4 _ _ hab
    rw [h3.size] at ha hb
    obtain ⟨i, hi, rfl⟩ := h3.surj ha
    obtain ⟨j, hj, rfl⟩ := h3.surj hb
    have hij := (h3.links i hi j hj).1 hab
    refine ⟨?_, (h3.links j hj i hi).2 (hu _ _ hij)⟩
    intro e
    have := h3.inj i hi j hj e
    subst this
    exact hsl.1 i hij
  have hlink : ∀ a b, Link G a b ↔ Link g' a b := by
    intro a b
    rw [k3]
    exact ⟨fun x => (hu' _ _ x.2).2, fun x => hu' _ _ x⟩
  have hlen : G.outlinks.length ≤ g.outlinks.length := by
    rw [k5, ← h3.size]
    exact fun i j _ hij => ⟨link_lt hij, h4 _ _ hij⟩
  have hUnd : Undirected G := fun i j hij => (hlink _ _).2 (hu' _ _ ((hlink _ _).1 hij)).2
  have hsz : (∀ l ∈ g.outlinks, l ≠ []) → G.outlinks.length = g.outlinks.length := by
    intro hne
    refine Nat.le_antisymm hlen ?_
    rcases Nat.eq_zero_or_pos g.outlinks.length with h0 | h0
    · omega
    · obtain ⟨i, hi, hi'⟩ := h3.surj (k := g.outlinks.length - 1) (by omega)
      obtain ⟨j, hj⟩ := List.exists_mem_of_ne_nil _ (hne _ (List.getElem_mem hi))
      have hij : Link g i j := ⟨_, List.getElem?_eq_getElem hi, hj⟩
      have := link_lt ((hlink _ _).2 ((h3.links i hi j (hr _ _ hij)).2 hij))
      omega
  have hpair : ∀ i < g.outlinks.length, ∀ j < g.outlinks.length,
      (Link G (π i) (π j) ↔ Link g i j) := fun i hi j hj => by rw [hlink, h3.links i hi j hj]
  refine ⟨if toFile then t else t ++ ['\n'], G, π, ?_, ?_, h2, h2', h3.range, h3.inj, hpair, ?_, hUnd,
    ⟨?_, ?_⟩, k4, hlen, fun hne => ⟨hsz hne, h3.range, h3.inj, hpair⟩⟩
  · unfold GraphGenerator.main
    rw [h1]
    dsimp only
    rw [k1]
  · cases toFile with
    | true => exact k2
    | false => exact fromAsRel_blank h4 hc k1 k2
  · exact fun i j hij => link_lt (hUnd i j hij)
  · exact fun i hi => (hu' i i ((hlink i i).1 hi)).1 rfl
  · intro i l hl
    exact (k4 l (List.mem_of_getElem? hl)).imp (fun hlt => Nat.ne_of_lt hlt)

theorem ncard_filter {l : List ℕ} (hn : l.Nodup) (i : ℕ) :
    Set.ncard {j | j < i ∧ j ∈ l} = (l.filter (fun j => j < i)).length := by
  have : {j | j < i ∧ j ∈ l} = ((l.filter (fun j => j < i)).toFinset : Set ℕ) := by
    ext j
    simp [and_comm]
  rw [this, Set.ncard_coe_finset, List.toFinset_card_of_nodup (hn.filter _)]

theorem scaleFree_ne {g : Graph} {m0 m : ℕ} (h2 : 2 ≤ m0) (hm : 1 ≤ m)
    (h7 : ∀ i < m0, ∀ j < m0, i ≠ j → Link g i j)
    (h8 : ∀ i, m0 ≤ i → ∀ l, g.outlinks[i]? = some l → (l.filter (fun j => j < i)).length = m) :
    ∀ l ∈ g.outlinks, l ≠ [] := by
  rintro l hl rfl
  obtain ⟨i, hi, he⟩ := List.getElem_of_mem hl
  have he' : g.outlinks[i]? = some [] := by rw [List.getElem?_eq_getElem hi, he]
  rcases Nat.lt_or_ge i m0 with hlt | hge
  · obtain ⟨l, hl, hj⟩ := h7 i hlt (if i = 0 then 1 else 0) (by split <;> omega)
      (by split <;> omega)
    rw [he'] at hl
    cases hl
    cases hj
  · have := h8 i hge [] he'
    rw [List.filter_nil, List.length_nil] at this
    omega

theorem suitable_spec (R : Rand) (s : R.State) {config : GraphGenerator.Config} {n : ℕ}
    (h : Suitable config n) :
    ∃ g s', GraphGenerator.applyGraphGenAlg R s config = .ok (g, s') ∧ g.outlinks.length = n ∧
      ∀ l ∈ g.outlinks, l ≠ [] := by
  cases config with
  | barabasiAlbert n' m0 m =>
    obtain ⟨rfl, h2, h3, h4, h5⟩ := h
    obtain ⟨g, s', k1, k2, -, -, -, k7, k8, -⟩ := Props.C48_scale_free R s n' m0 m h2 h3 h4 h5
    exact ⟨g, s', k1, k2, scaleFree_ne h2 h4 k7 k8⟩
  | wattsStrogatz n' k beta =>
    obtain ⟨rfl, h2, h3, h4⟩ := h
    obtain ⟨g, s', k1, k2, -⟩ := Props.C49_small_world R s n' k beta h3 h4
    refine ⟨g, s', k1, k2, fun l hl e => ?_⟩
    have := Props.C49_min_degree R s n' k beta h3 h4 g s' k1 l hl
    rw [e, List.length_nil] at this
    omega

theorem hasQSet_lt {f : Fbas} {x : NodeId} {q : QuorumSet} (h : HasQSet f x q) :
    x < f.nodes.length := by
  obtain ⟨n, hn, -⟩ := h
  exact (List.getElem?_eq_some_iff.1 hn).1

/-! ### The first line -/

theorem firstLine {R : Rand} {showF64 : ℚ → Text} (hs : ∀ x, '\n' ∉ showF64 x) {s : R.State}
    {toFile dontShuffle : Bool} {config : GraphGenerator.Config} {t : Text}
    (h : GraphGenerator.main R showF64 s toFile dontShuffle config = .ok t) :
    (Text.lines t).head? = some ('#' :: ' ' :: GraphGenerator.headComment showF64 config) ∧
      t.head? = some '#' := by
  have hc := headComment_line hs config
  have hn : '\n' ∉ '#' :: ' ' :: GraphGenerator.headComment showF64 config := by
    intro h
    rcases List.mem_cons.1 h with h | h
    · revert h; decide
    · rcases List.mem_cons.1 h with h | h
      · revert h; decide
      · exact hc h
  have hlast : Text.stripCr ('#' :: ' ' :: GraphGenerator.headComment showF64 config) =
      '#' :: ' ' :: GraphGenerator.headComment showF64 config := by
    have : ∃ u, GraphGenerator.headComment showF64 config = u ++ ['}'] := by
      cases config with
      | barabasiAlbert n m0 m =>
        exact ⟨"Graph generated using BarabasiAlbert { n: ".toList ++ Text.ofNat n ++ ", m0: ".toList ++
          Text.ofNat m0 ++ ", m: ".toList ++ Text.ofNat m ++ [' '], by
            rw [List.append_assoc _ [' ']]; rfl⟩
      | wattsStrogatz n k beta =>
        exact ⟨"Graph generated using WattsStrogatz { n: ".toList ++ Text.ofNat n ++ ", k: ".toList ++
          Text.ofNat k ++ ", beta: ".toList ++ showF64 beta ++ [' '], by
            rw [List.append_assoc _ [' ']]; rfl⟩
    obtain ⟨u, hu⟩ := this
    unfold Text.stripCr
    rw [if_neg]
    rw [hu, ← List.cons_append, ← List.cons_append, List.getLast?_concat]
    decide
  unfold GraphGenerator.main at h
  cases hg : GraphGenerator.applyGraphGenAlg R s config with
  | error e =>
    unfold GraphGenerator.generate at h
    rw [hg] at h; cases h
  | ok p =>
    obtain ⟨g, s'⟩ := p
    obtain ⟨g', s2, π, h1, -, -, -, h4⟩ := generate_spec hg dontShuffle
    rw [h1] at h
    dsimp only at h
    rw [toAsRelString_eq h4] at h
    dsimp only at h
    obtain rfl := Except.ok.inj h
    have e : ∀ u : Text, header (some (GraphGenerator.headComment showF64 config)) ++ u =
        ('#' :: ' ' :: GraphGenerator.headComment showF64 config) ++ '\n' :: u := by
      intro u; simp [header]
    cases toFile with
    | true =>
      refine ⟨?_, rfl⟩
      show (Text.lines (header _ ++ _)).head? = _
      rw [e, Text.lines_append hn, hlast]
      rfl
    | false =>
      refine ⟨?_, rfl⟩
      show (Text.lines (header _ ++ _ ++ _)).head? = _
      rw [List.append_assoc, e, Text.lines_append hn, hlast]
      rfl

end FA
