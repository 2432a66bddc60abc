import Verif.Model.AsRel
import Verif.Lemmas.Graph
import Verif.Lemmas.ScaleFree

/-!
# Lemmas about AS relationship files
-/

namespace FA
open Spec

namespace Text

theorem split_ne_nil (sep : Char) (s : Text) : split sep s ≠ [] := by
  cases s with
  | nil => simp [split]
  | cons c s =>
    rw [split]
    split
    · simp
    · split <;> simp

theorem split_of_notMem {sep : Char} {s : Text} (h : sep ∉ s) : split sep s = [s] := by
  induction s with
  | nil => rfl
  | cons c s ih =>
    rw [split, if_neg (fun hc => h (by rw [← hc]; simp)), ih (fun hs => h (by simp [hs]))]

theorem split_append {sep : Char} {a : Text} (h : sep ∉ a) (b : Text) :
    split sep (a ++ sep :: b) = a :: split sep b := by
  induction a with
  | nil => rw [List.nil_append, split, if_pos rfl]
  | cons c a ih =>
    rw [List.cons_append, split, if_neg (fun hc => h (by rw [← hc]; simp)),
      ih (fun hs => h (by simp [hs]))]

theorem lines_append {a : Text} (h : '\n' ∉ a) (b : Text) :
    lines (a ++ '\n' :: b) = stripCr a :: lines b := by
  unfold lines
  rw [split_append h]
  obtain ⟨p, ps, hp⟩ := List.exists_cons_of_ne_nil (split_ne_nil '\n' b)
  dsimp only
  rw [hp, List.getLast?_cons_cons]
  split
  · rw [List.dropLast_cons_cons]; rfl
  · rfl

theorem lines_nil : lines [] = [] := by
  simp [lines, split]

theorem isDigit_ofNat {n : ℕ} {c : Char} (h : c ∈ ofNat n) : c.isDigit = true :=
  Nat.isDigit_of_mem_toDigits (by decide) (by decide) h

theorem not_mem_ofNat {n : ℕ} {c : Char} (hc : c.isDigit = false) : c ∉ ofNat n := by
  intro h
  rw [isDigit_ofNat h] at hc; cases hc

theorem digits?_ofNat (n : ℕ) : digits? (ofNat n) = some n := by
  unfold digits?
  rw [if_pos ⟨Nat.toDigits_ne_nil, List.all_eq_true.2 (fun c hc => isDigit_ofNat hc)⟩]
  rw [ofNat, Nat.ofDigitChars_ten_toDigits]

theorem parseUsize_ofNat (n : ℕ) : parseUsize (ofNat n) = some n := by
  have hd := digits?_ofNat n
  have hplus : '+' ∉ ofNat n := not_mem_ofNat (by decide)
  unfold parseUsize
  split
  · rename_i s heq
    rw [heq] at hplus
    simp at hplus
  · exact hd

end Text

open Graph

/-- The lines for the edges. -/
def edgeText (e : ℕ × ℕ × Bool) : Text :=
  edgeLine e.1 e.2.1 (if e.2.2 then ['0'] else ['-', '1'])

/-- The line without the line break. -/
def edgeBody (e : ℕ × ℕ × Bool) : Text :=
  Text.ofNat e.1 ++ '|' :: (Text.ofNat e.2.1 ++ '|' :: (if e.2.2 then ['0'] else ['-', '1']))

theorem edgeText_eq (e : ℕ × ℕ × Bool) (s : Text) : edgeText e ++ s = edgeBody e ++ '\n' :: s := by
  simp [edgeText, edgeBody, edgeLine]

theorem edgeBody_chars {e : ℕ × ℕ × Bool} {c : Char} (h : c ∈ edgeBody e) :
    c.isDigit = true ∨ c = '|' ∨ c = '-' := by
  unfold edgeBody at h
  rw [List.mem_append, List.mem_cons, List.mem_append, List.mem_cons] at h
  rcases h with h | h | h | h | h
  · exact .inl (Text.isDigit_ofNat h)
  · exact .inr (.inl h)
  · exact .inl (Text.isDigit_ofNat h)
  · exact .inr (.inl h)
  · by_cases hp : e.2.2
    · rw [if_pos hp, List.mem_singleton] at h
      subst h; exact .inl (by decide)
    · rw [if_neg hp] at h
      rcases List.mem_cons.1 h with rfl | h
      · exact .inr (.inr rfl)
      · rw [List.mem_singleton] at h
        subst h; exact .inl (by decide)

theorem stripCr_edgeBody (e : ℕ × ℕ × Bool) : Text.stripCr (edgeBody e) = edgeBody e := by
  unfold Text.stripCr
  rw [if_neg]
  intro h
  rcases edgeBody_chars (List.mem_of_getLast? h) with h | h | h <;> revert h <;> decide

theorem lines_edges (es : List (ℕ × ℕ × Bool)) :
    Text.lines (es.flatMap edgeText) = es.map edgeBody := by
  induction es with
  | nil => exact Text.lines_nil
  | cons e es ih =>
    rw [List.flatMap_cons, edgeText_eq, Text.lines_append, ih, stripCr_edgeBody, List.map_cons]
    intro h
    rcases edgeBody_chars h with h | h | h <;> revert h <;> decide

theorem getEdge_edgeBody (e : ℕ × ℕ × Bool) :
    getEdgeFromAsRelLine (edgeBody e) = .ok (some e) := by
  unfold getEdgeFromAsRelLine
  rw [if_neg]
  · have h1 : Text.split '|' (edgeBody e) =
        Text.ofNat e.1 :: Text.ofNat e.2.1 :: [if e.2.2 then ['0'] else ['-', '1']] := by
      unfold edgeBody
      rw [Text.split_append (Text.not_mem_ofNat (by decide)),
        Text.split_append (Text.not_mem_ofNat (by decide)), Text.split_of_notMem]
      split <;> decide
    rw [h1]
    dsimp only
    rw [Text.parseUsize_ofNat, Text.parseUsize_ofNat]
    dsimp only
    obtain ⟨i, j, p⟩ := e
    cases p with
    | true =>
      have : parsePeering [if (true : Bool) then ['0'] else ['-', '1']] = .ok true := by decide +kernel
      dsimp only
      rw [this]
    | false =>
      have : parsePeering [if (false : Bool) then ['0'] else ['-', '1']] = .ok false := by
        decide +kernel
      dsimp only
      rw [this]
  · rintro (h | h)
    · unfold edgeBody at h
      simp at h
    · have hm : '#' ∈ edgeBody e := List.mem_of_head? h
      rcases edgeBody_chars hm with h | h | h <;> revert h <;> decide

theorem foldE_readLine (es : List (ℕ × ℕ × Bool)) (o : List NodeSet) :
    foldE readLine o (es.map edgeBody) = foldE insertEdge o es := by
  induction es generalizing o with
  | nil => rfl
  | cons e es ih =>
    rw [List.map_cons, foldE, foldE]
    have : readLine o (edgeBody e) = insertEdge o e := by
      unfold readLine
      rw [getEdge_edgeBody]
    rw [this]
    cases insertEdge o e with
    | error _ => rfl
    | ok o' => exact ih o'

/-! ### Writing -/

/-- The edges in the order in which they are written. -/
def edgesOf (g : Graph) : List (ℕ × ℕ × Bool) :=
  (List.range g.outlinks.length).flatMap (fun i => (row g.outlinks i).filterMap (fun j =>
    if i ∈ row g.outlinks j ∧ i < j then some (i, j, true)
    else if i ∉ row g.outlinks j then some (i, j, false) else none))

theorem mem_edgesOf {g : Graph} {i j : ℕ} {p : Bool} :
    (i, j, p) ∈ edgesOf g ↔ Link g i j ∧
      ((Link g j i ∧ i < j ∧ p = true) ∨ (¬ Link g j i ∧ p = false)) := by
  obtain ⟨o⟩ := g
  simp only [link_row]
  unfold edgesOf
  simp only [List.mem_flatMap, List.mem_filterMap, List.mem_range]
  constructor
  · rintro ⟨a, ha, b, hb, h⟩
    split at h
    · rename_i hc
      obtain ⟨rfl, rfl, rfl⟩ : a = i ∧ b = j ∧ true = p := by simpa using h
      exact ⟨hb, .inl ⟨hc.1, hc.2, rfl⟩⟩
    · split at h
      · rename_i hc
        obtain ⟨rfl, rfl, rfl⟩ : a = i ∧ b = j ∧ false = p := by simpa using h
        exact ⟨hb, .inr ⟨hc, rfl⟩⟩
      · cases h
  · rintro ⟨h1, h2⟩
    refine ⟨i, ?_, j, h1, ?_⟩
    · by_contra hge
      rw [row_of_ge (Nat.not_lt.1 hge)] at h1
      cases h1
    · rcases h2 with ⟨h3, h4, rfl⟩ | ⟨h3, rfl⟩
      · rw [if_pos ⟨h3, h4⟩]
      · rw [if_neg (fun h => h3 h.1), if_pos h3]

theorem getE_row {o : List (List ℕ)} {i : ℕ} (h : i < o.length) : getE o i = .ok (row o i) := by
  rw [getE_eq_ok]
  simp [row, h]

theorem foldE_append {α : Type} {g : Text → α → Except Panic Text} {f : α → Text} {l : List α}
    (h : ∀ a ∈ l, ∀ s, g s a = .ok (s ++ f a)) (s : Text) :
    foldE g s l = .ok (s ++ l.flatMap f) := by
  induction l generalizing s with
  | nil => simp [foldE]
  | cons a l ih =>
    rw [foldE, h a List.mem_cons_self]
    dsimp only
    rw [ih (fun x hx => h x (List.mem_cons_of_mem _ hx)), List.flatMap_cons, List.append_assoc]

/-- The first line of the text. -/
def header : Option Text → Text
  | some c => '#' :: ' ' :: (c ++ ['\n'])
  | none => []

theorem flatMap_filterMap {α β γ : Type} (f : α → Option β) (h : β → List γ) (l : List α) :
    (l.filterMap f).flatMap h = l.flatMap (fun a => ((f a).map h).getD []) := by
  induction l with
  | nil => rfl
  | cons a l ih =>
    rw [List.flatMap_cons, ← ih]
    cases hf : f a with
    | none => rw [List.filterMap_cons_none hf]; rfl
    | some b => rw [List.filterMap_cons_some hf]; simp

theorem toAsRelString_eq {g : Graph} (hr : LinksInRange g) (comment : Option Text) :
    toAsRelString g comment = .ok (header comment ++ (edgesOf g).flatMap edgeText) := by
  obtain ⟨o⟩ := g
  have hs : toAsRelString ⟨o⟩ comment = foldE (fun s i =>
      match getE o i with
      | .error e => .error e
      | .ok l => foldE (writeLink ⟨o⟩ i) s l) (header comment) (rangeFT 0 o.length) := by
    cases comment <;> rfl
  rw [hs]
  rw [foldE_append (f := fun i => (row o i).flatMap (fun j =>
    ((if i ∈ row o j ∧ i < j then some (i, j, true)
      else if i ∉ row o j then some (i, j, false) else none).map edgeText).getD []))]
  · rw [rangeFT_zero]
    unfold edgesOf
    rw [List.flatMap_assoc]
    simp only [flatMap_filterMap]
  · intro i hi s
    rw [mem_rangeFT] at hi
    rw [getE_row hi.2]
    dsimp only
    apply foldE_append
    intro j hj s
    have hj' : j < o.length := hr i j (link_row.2 hj)
    unfold writeLink
    rw [getE_row hj']
    dsimp only
    by_cases h1 : i ∈ row o j ∧ i < j
    · rw [if_pos h1, if_pos h1]; rfl
    · rw [if_neg h1, if_neg h1]
      by_cases h2 : i ∉ row o j
      · rw [if_pos h2, if_pos h2]; rfl
      · rw [if_neg h2, if_neg h2]; simp

/-! ### Reading -/

/-- The neighbours of a node while reading. -/
def rowSet (o : List NodeSet) (x : ℕ) : NodeSet := o.getD x ∅

theorem rowSet_resize {o : List NodeSet} {n x : ℕ} : rowSet (resize o n) x = rowSet o x := by
  unfold rowSet resize
  rw [List.getD_eq_getElem?_getD, List.getD_eq_getElem?_getD]
  rcases Nat.lt_or_ge x o.length with h | h
  · rw [List.getElem?_append_left h]
  · rw [List.getElem?_append_right h, List.getElem?_replicate, List.getElem?_eq_none h]
    split <;> rfl

theorem length_resize {o : List NodeSet} {n : ℕ} (h : o.length ≤ n) : (resize o n).length = n := by
  unfold resize
  rw [List.length_append, List.length_replicate]; omega

theorem insertRow_spec {o : List NodeSet} {a b : ℕ} (h : a < o.length) :
    ∃ o', modifyE o a (fun r => insert b r) = .ok o' ∧ o'.length = o.length ∧
      ∀ x, rowSet o' x = if x = a then insert b (rowSet o x) else rowSet o x := by
  refine ⟨_, modifyE_ok h, by simp, fun x => ?_⟩
  by_cases hx : x = a
  · subst hx
    rw [if_pos rfl]
    simp [rowSet, h]
  · rw [if_neg hx]
    unfold rowSet
    rw [List.getD_eq_getElem?_getD, List.getD_eq_getElem?_getD,
      List.getElem?_set_ne (fun h => hx h.symm)]

theorem insertEdge_spec (o : List NodeSet) (a b : ℕ) (p : Bool) :
    ∃ o', insertEdge o (a, b, p) = .ok o' ∧ o'.length = max o.length (max a b + 1) ∧
      ∀ x y, y ∈ rowSet o' x ↔ y ∈ rowSet o x ∨ (x = b ∧ y = a) ∨ (p = true ∧ x = a ∧ y = b) := by
  have hlen : (resize o (max o.length (max a b + 1))).length = max o.length (max a b + 1) :=
    length_resize (Nat.le_max_left _ _)
  obtain ⟨o1, h1, h2, h3⟩ := insertRow_spec (o := resize o (max o.length (max a b + 1)))
    (a := b) (b := a) (by rw [hlen]; omega)
  have hm : ∀ x y, y ∈ rowSet o1 x ↔ y ∈ rowSet o x ∨ (x = b ∧ y = a) := by
    intro x y
    rw [h3, rowSet_resize]
    by_cases hx : x = b
    · rw [if_pos hx, Finset.mem_insert]
      constructor
      · rintro (h | h)
        · exact .inr ⟨hx, h⟩
        · exact .inl h
      · rintro (h | h)
        · exact .inr h
        · exact .inl h.2
    · rw [if_neg hx]
      constructor
      · exact .inl
      · rintro (h | h)
        · exact h
        · exact absurd h.1 hx
  cases p with
  | false =>
    refine ⟨o1, ?_, h2.trans hlen, fun x y => ?_⟩
    · unfold insertEdge
      dsimp only
      rw [h1]; rfl
    · rw [hm]; simp
  | true =>
    obtain ⟨o2, g1, g2, g3⟩ := insertRow_spec (o := o1) (a := a) (b := b)
      (by rw [h2, hlen]; omega)
    refine ⟨o2, ?_, g2.trans (h2.trans hlen), fun x y => ?_⟩
    · unfold insertEdge
      dsimp only
      rw [h1]; exact g1
    · rw [g3]
      by_cases hx : x = a
      · rw [if_pos hx, Finset.mem_insert, hm]
        constructor
        · rintro (h | h | h)
          · exact .inr (.inr ⟨rfl, hx, h⟩)
          · exact .inl h
          · exact .inr (.inl h)
        · rintro (h | h | h)
          · exact .inr (.inl h)
          · exact .inr (.inr h)
          · exact .inl h.2.2
      · rw [if_neg hx, hm]
        constructor
        · rintro (h | h)
          · exact .inl h
          · exact .inr (.inl h)
        · rintro (h | h | h)
          · exact .inl h
          · exact .inr h
          · exact absurd h.2.1 hx

theorem max_succ_le (a b N : ℕ) : max a b + 1 ≤ N ↔ a < N ∧ b < N := by omega

theorem insertEdges_spec (es : List (ℕ × ℕ × Bool)) :
    ∃ o, foldE insertEdge [] es = .ok o ∧
      (∀ N, o.length ≤ N ↔ ∀ a b p, (a, b, p) ∈ es → a < N ∧ b < N) ∧
      ∀ x y, y ∈ rowSet o x ↔ ∃ a b p, (a, b, p) ∈ es ∧
        ((x = b ∧ y = a) ∨ (p = true ∧ x = a ∧ y = b)) := by
  obtain ⟨o, h1, h2, h3⟩ := foldE_inv (g := insertEdge)
    (fun pre o => (∀ N, o.length ≤ N ↔ ∀ a b p, (a, b, p) ∈ pre → a < N ∧ b < N) ∧
      ∀ x y : ℕ, y ∈ rowSet o x ↔ ∃ a b p, (a, b, p) ∈ pre ∧
        ((x = b ∧ y = a) ∨ (p = true ∧ x = a ∧ y = b)))
    (l := es) (b := []) (by simp [rowSet]) (by
      rintro pre ⟨a, b, p⟩ suf o - ⟨h1, h2⟩
      obtain ⟨o', g1, g2, g3⟩ := insertEdge_spec o a b p
      refine ⟨o', g1, fun N => ?_, fun x y => ?_⟩
      · rw [g2, Nat.max_le, h1]
        constructor
        · rintro ⟨h, h'⟩ a' b' p' hm
          rcases List.mem_append.1 hm with hm | hm
          · exact h a' b' p' hm
          · obtain ⟨rfl, rfl, rfl⟩ : a' = a ∧ b' = b ∧ p' = p := by simpa using hm
            exact (max_succ_le a' b' N).1 h'
        · intro h
          refine ⟨fun a' b' p' hm => h a' b' p' (List.mem_append_left _ hm), ?_⟩
          exact (max_succ_le a b N).2 (h a b p (by simp))
      · rw [g3, h2]
        constructor
        · rintro (⟨a', b', p', hm, h⟩ | h)
          · exact ⟨a', b', p', List.mem_append_left _ hm, h⟩
          · exact ⟨a, b, p, by simp, h⟩
        · rintro ⟨a', b', p', hm, h⟩
          rcases List.mem_append.1 hm with hm | hm
          · exact .inl ⟨a', b', p', hm, h⟩
          · obtain ⟨rfl, rfl, rfl⟩ : a' = a ∧ b' = b ∧ p' = p := by simpa using hm
            exact .inr h)
  exact ⟨o, h1, h2, h3⟩

theorem link_elems {o : List NodeSet} {i j : ℕ} : Link ⟨o.map elems⟩ i j ↔ j ∈ rowSet o i := by
  unfold Link rowSet
  rw [List.getD_eq_getElem?_getD]
  simp only [List.getElem?_map]
  cases o[i]? with
  | none => simp
  | some r => simp

theorem readBack {g : Graph} (hr : LinksInRange g) (comment : Option Text)
    (hc : ∀ c, comment = some c → '\n' ∉ c) :
    ∃ t g', toAsRelString g comment = .ok t ∧ fromAsRelString t = .ok g' ∧
      (∀ i j, Link g' i j ↔ i ≠ j ∧ Link g j i) ∧ (∀ l ∈ g'.outlinks, l.Pairwise (· < ·)) ∧
      ∀ N, g'.outlinks.length ≤ N ↔ ∀ i j, i ≠ j → Link g i j → i < N ∧ j < N := by
  obtain ⟨o, h1, h2, h3⟩ := insertEdges_spec (edgesOf g)
  refine ⟨_, ⟨o.map elems⟩, toAsRelString_eq hr comment, ?_, ?_, ?_, ?_⟩
  · have hrd : foldE readLine [] (Text.lines (header comment ++ (edgesOf g).flatMap edgeText)) =
        .ok o := by
      have h0 : foldE readLine [] ((edgesOf g).map edgeBody) = .ok o := by
        rw [foldE_readLine]; exact h1
      cases comment with
      | none =>
        rw [header, List.nil_append, lines_edges]; exact h0
      | some c =>
        have : header (some c) ++ (edgesOf g).flatMap edgeText =
            ('#' :: ' ' :: c) ++ '\n' :: (edgesOf g).flatMap edgeText := by simp [header]
        have hn : '\n' ∉ '#' :: ' ' :: c := by
          intro h
          rcases List.mem_cons.1 h with h | h
          · revert h; decide
          · rcases List.mem_cons.1 h with h | h
            · revert h; decide
            · exact hc c rfl h
        rw [this, Text.lines_append hn, lines_edges, foldE]
        have hhead : (Text.stripCr ('#' :: ' ' :: c)).head? = some '#' := by
          unfold Text.stripCr
          split
          · simp [List.dropLast]
          · rfl
        have hline : readLine [] (Text.stripCr ('#' :: ' ' :: c)) = .ok [] := by
          unfold readLine getEdgeFromAsRelLine
          rw [if_pos (.inr hhead)]
        rw [hline]; exact h0
    unfold fromAsRelString
    rw [hrd]
  · intro i j
    rw [link_elems, h3]
    constructor
    · rintro ⟨a, b, p, hm, h⟩
      obtain ⟨h4, h5⟩ := mem_edgesOf.1 hm
      rcases h with ⟨rfl, rfl⟩ | ⟨rfl, rfl, rfl⟩
      · refine ⟨?_, h4⟩
        rintro rfl
        rcases h5 with ⟨-, h5, -⟩ | ⟨h5, -⟩
        · exact Nat.lt_irrefl _ h5
        · exact h5 h4
      · rcases h5 with ⟨h5, h6, -⟩ | ⟨-, h5⟩
        · exact ⟨Nat.ne_of_lt h6, h5⟩
        · cases h5
    · rintro ⟨hij, h⟩
      by_cases hrev : Link g i j
      · rcases Nat.lt_or_gt_of_ne hij with hlt | hgt
        · exact ⟨i, j, true, mem_edgesOf.2 ⟨hrev, .inl ⟨h, hlt, rfl⟩⟩, .inr ⟨rfl, rfl, rfl⟩⟩
        · exact ⟨j, i, true, mem_edgesOf.2 ⟨h, .inl ⟨hrev, hgt, rfl⟩⟩, .inl ⟨rfl, rfl⟩⟩
      · exact ⟨j, i, false, mem_edgesOf.2 ⟨h, .inr ⟨hrev, rfl⟩⟩, .inl ⟨rfl, rfl⟩⟩
  · intro l hl
    obtain ⟨r, -, rfl⟩ := List.mem_map.1 hl
    exact elems_pairwise r
  · intro N
    rw [List.length_map, h2]
    constructor
    · intro h i j hij hl
      by_cases hrev : Link g j i
      · rcases Nat.lt_or_gt_of_ne hij with hlt | hgt
        · exact h i j true (mem_edgesOf.2 ⟨hl, .inl ⟨hrev, hlt, rfl⟩⟩)
        · exact (h j i true (mem_edgesOf.2 ⟨hrev, .inl ⟨hl, hgt, rfl⟩⟩)).symm
      · exact h i j false (mem_edgesOf.2 ⟨hl, .inr ⟨hrev, rfl⟩⟩)
    · intro h a b p hm
      obtain ⟨h4, h5⟩ := mem_edgesOf.1 hm
      refine h a b ?_ h4
      rintro rfl
      rcases h5 with ⟨-, h5, -⟩ | ⟨h5, -⟩
      · exact Nat.lt_irrefl _ h5
      · exact h5 h4

end FA
