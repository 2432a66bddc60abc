import Verif.SpecNames
import Verif.Lemmas.Groupings
import Verif.Lemmas.IoQuorums

/-!
# Lemmas about reading groupings
-/

namespace FA
open Spec

theorem byteLen_append (a b : List Char) : byteLen (a ++ b) = byteLen a + byteLen b := by
  simp [byteLen]

theorem byteLen_cons (c : Char) (l : List Char) : byteLen (c :: l) = c.utf8Size + byteLen l := by
  simp [byteLen]

theorem byteLen_eq_zero {l : List Char} : byteLen l = 0 ↔ l = [] := by
  cases l with
  | nil => simp [byteLen]
  | cons c l =>
    rw [byteLen_cons]
    have := Char.utf8Size_pos c
    simp; omega

theorem splitOff_iff {l a b : List Char} {n : ℕ} :
    splitOff l n = .ok (a, b) ↔ l = a ++ b ∧ byteLen a = n := by
  induction l generalizing a b n with
  | nil =>
    rw [splitOff]
    split
    · next h =>
      subst h
      constructor
      · intro h
        obtain ⟨rfl, rfl⟩ := Prod.mk.inj (Except.ok.inj h)
        simp [byteLen]
      · rintro ⟨h, -⟩
        obtain ⟨rfl, rfl⟩ := List.append_eq_nil_iff.1 h.symm
        rfl
    · next h =>
      constructor
      · intro h; cases h
      · rintro ⟨h', rfl⟩
        obtain ⟨rfl, rfl⟩ := List.append_eq_nil_iff.1 h'.symm
        exact absurd rfl h
  | cons c l ih =>
    have hpos := Char.utf8Size_pos c
    rw [splitOff]
    by_cases hn : n = 0
    · rw [if_pos hn]
      subst hn
      constructor
      · intro h
        obtain ⟨rfl, rfl⟩ := Prod.mk.inj (Except.ok.inj h)
        simp [byteLen]
      · rintro ⟨h, h0⟩
        obtain rfl := byteLen_eq_zero.1 h0
        rw [List.nil_append] at h
        rw [h]
    · rw [if_neg hn]
      by_cases hc : c.utf8Size ≤ n
      · rw [if_pos hc]
        cases hs : splitOff l (n - c.utf8Size) with
        | error e =>
          dsimp only
          constructor
          · intro h; cases h
          · rintro ⟨h, hb⟩
            cases a with
            | nil => exact absurd hb.symm hn
            | cons d a =>
              rw [List.cons_append] at h
              obtain ⟨rfl, rfl⟩ := List.cons.inj h
              rw [byteLen_cons] at hb
              rw [ih.2 ⟨rfl, by omega⟩] at hs
              cases hs
        | ok p =>
          obtain ⟨a', b'⟩ := p
          obtain ⟨rfl, hb⟩ := ih.1 hs
          dsimp only
          constructor
          · intro h
            obtain ⟨rfl, rfl⟩ := Prod.mk.inj (Except.ok.inj h)
            refine ⟨rfl, ?_⟩
            rw [byteLen_cons, hb]
            omega
          · rintro ⟨h, hb'⟩
            cases a with
            | nil => exact absurd hb'.symm hn
            | cons d a =>
              rw [List.cons_append] at h
              obtain ⟨rfl, h2⟩ := List.cons.inj h
              rw [byteLen_cons] at hb'
              have := ih.2 ⟨h2, show byteLen a = n - c.utf8Size by omega⟩
              rw [hs] at this
              obtain ⟨rfl, rfl⟩ := Prod.mk.inj (Except.ok.inj this)
              rfl
      · rw [if_neg hc]
        constructor
        · intro h; cases h
        · rintro ⟨h, hb⟩
          cases a with
          | nil => exact absurd hb.symm hn
          | cons d a =>
            rw [List.cons_append] at h
            obtain ⟨rfl, -⟩ := List.cons.inj h
            rw [byteLen_cons] at hb
            omega

theorem byteLen_eq_one {l : List Char} : byteLen l = 1 ↔ ∃ c, l = [c] ∧ c.toNat < 128 := by
  constructor
  · intro h
    cases l with
    | nil => simp [byteLen] at h
    | cons c l =>
      rw [byteLen_cons] at h
      have := Char.utf8Size_pos c
      have h0 : byteLen l = 0 := by omega
      obtain rfl := byteLen_eq_zero.1 h0
      have h1 : c.utf8Size = 1 := by omega
      rw [Char.utf8Size_eq_one_iff] at h1
      refine ⟨c, rfl, ?_⟩
      have : c.toNat ≤ 127 := h1
      omega
  · rintro ⟨c, rfl, h⟩
    rw [byteLen_cons]
    have : c.utf8Size = 1 := by
      rw [Char.utf8Size_eq_one_iff]
      have : c.toNat ≤ 127 := by omega
      exact this
    simp [byteLen, this]

theorem removeSpecialChars_ok {name s : String} : removeSpecialChars name = .ok s ↔
    AsciiEnd name ∧ s.toList = plainName name := by
  unfold removeSpecialChars AsciiEnd plainName
  dsimp only
  generalize name.toList.filter (fun c => c != ',') = l
  by_cases h0 : byteLen l = 0
  · rw [if_pos h0]
    obtain rfl := byteLen_eq_zero.1 h0
    simp
  rw [if_neg h0]
  have hval : ∀ a c, c.toNat < 128 → l = a ++ [c] →
      splitOff l (byteLen l - 1) = .ok (a, [c]) := by
    intro a c hc he
    refine splitOff_iff.2 ⟨he, ?_⟩
    rw [he, byteLen_append, byteLen_eq_one.2 ⟨c, rfl, hc⟩]
    rfl
  have hfin : ∀ a c, l = a ++ [c] →
      a ++ [c].filter (fun c => c != '.') =
        if l.getLast? = some '.' then l.dropLast else l := by
    intro a c he
    subst he
    rw [List.getLast?_concat, List.dropLast_concat]
    by_cases hd : c = '.'
    · subst hd
      simp
    · rw [if_neg (fun h => hd (Option.some.inj h))]
      simp [hd]
  constructor
  · intro h
    cases hs : splitOff l (byteLen l - 1) with
    | error e => rw [hs] at h; cases h
    | ok p =>
      obtain ⟨a, b⟩ := p
      obtain ⟨he, hb⟩ := splitOff_iff.1 hs
      have hb1 : byteLen b = 1 := by
        have := congrArg byteLen he
        rw [byteLen_append, hb] at this
        omega
      obtain ⟨c, rfl, hc⟩ := byteLen_eq_one.1 hb1
      rw [hs] at h
      have := Except.ok.inj h
      refine ⟨⟨c, by rw [he, List.getLast?_concat], hc⟩, ?_⟩
      rw [← this, String.toList_ofList]
      exact hfin a c he
  · rintro ⟨⟨c, hl, hc⟩, hs⟩
    obtain ⟨a, he⟩ := List.getLast?_eq_some_iff.1 hl
    rw [hval a c hc he]
    dsimp only
    rw [hfin a c he, ← hs, String.ofList_toList]

/-! ### Maps -/

theorem Map.get?_isSome {K V : Type} [DecidableEq K] (m : Map K V) (k : K) :
    (∃ v, m.get? k = some v) ↔ k ∈ m.map Prod.fst := by
  unfold Map.get?
  constructor
  · rintro ⟨v, hv⟩
    rw [Option.map_eq_some_iff] at hv
    obtain ⟨p, hp, rfl⟩ := hv
    have := List.find?_some hp
    simp only [decide_eq_true_eq] at this
    exact List.mem_map.2 ⟨p, List.mem_of_find?_eq_some hp, this⟩
  · intro h
    obtain ⟨p, hp, rfl⟩ := List.mem_map.1 h
    cases hf : m.find? (fun q => decide (q.1 = p.1)) with
    | none =>
      have := List.find?_eq_none.1 hf p hp
      simp at this
    | some q => exact ⟨q.2, rfl⟩

theorem Map.nodup_insert {K V : Type} [DecidableEq K] {m : Map K V} (k : K) (v : V)
    (h : (m.map Prod.fst).Nodup) : ((m.insert k v).map Prod.fst).Nodup := by
  unfold Map.insert
  rw [List.map_cons, List.nodup_cons]
  constructor
  · intro hm
    obtain ⟨p, hp, he⟩ := List.mem_map.1 hm
    have := (List.mem_filter.1 hp).2
    simp only [decide_eq_true_eq] at this
    exact this he
  · exact h.sublist ((List.filter_sublist (l := m)).map _)

/-! ### The loop over the nodes -/

/-- The map holds exactly the non-empty groups. -/
structure GroupInv (key : RawNode → Option String) (done : RawFbas)
    (m : Map String (List PublicKey)) : Prop where
  nodup : (m.map Prod.fst).Nodup
  get : ∀ nm vs, m.get? nm = some vs ↔ vs = membersOf key done nm ∧ vs ≠ []

theorem groupStep_inv {key : RawNode → Option String} {done : RawFbas}
    {m m' : Map String (List PublicKey)} {n : RawNode} {s : String} (hi : GroupInv key done m)
    (hn : key n = some s) (h : groupStep m n.publicKey s = .ok m') :
    AsciiEnd s ∧ GroupInv key (done ++ [n]) m' := by
  unfold groupStep at h
  cases hr : removeSpecialChars s with
  | error e => rw [hr] at h; cases h
  | ok nm =>
    rw [hr] at h
    obtain ⟨ha, hp⟩ := removeSpecialChars_ok.1 hr
    refine ⟨ha, ?_⟩
    dsimp only at h
    have hmem : ∀ nm', membersOf key (done ++ [n]) nm' =
        if nm' = nm then membersOf key done nm' ++ [n.publicKey] else membersOf key done nm' := by
      intro nm'
      unfold membersOf
      rw [List.filter_append, List.map_append]
      by_cases he : nm' = nm
      · rw [if_pos he, List.filter_cons_of_pos (by simp [hn, he, hp])]
        rfl
      · rw [if_neg he, List.filter_cons_of_neg]
        · simp
        · rw [hn]
          simp only [beq_iff_eq]
          intro hc
          rw [← hp] at hc
          exact he (String.toList_injective hc).symm
    have hfin : ∀ l, l = membersOf key done nm → ∀ m₀ : Map String (List PublicKey),
        (m₀.map Prod.fst).Nodup → (∀ nm', nm' ≠ nm → m₀.get? nm' = m.get? nm') →
        GroupInv key (done ++ [n]) (m₀.insert nm (l ++ [n.publicKey])) := by
      intro l hl m₀ hnd hg
      refine ⟨Map.nodup_insert _ _ hnd, fun nm' vs => ?_⟩
      rw [Map.get?_insert, hmem]
      by_cases he : nm' = nm
      · rw [if_pos he, if_pos he, he, hl]
        constructor
        · intro h
          obtain rfl := Option.some.inj h
          simp
        · rintro ⟨rfl, -⟩; rfl
      · rw [if_neg he, if_neg he, hg nm' he]
        exact hi.get nm' vs
    cases hg : m.get? nm with
    | none =>
      rw [hg] at h
      simp only [Option.isNone_none, if_true, Map.get?_insert] at h
      rw [← Except.ok.inj h]
      have he : membersOf key done nm = [] := by
        by_contra hc
        rw [(hi.get nm _).2 ⟨rfl, hc⟩] at hg
        cases hg
      refine hfin [] he.symm _ (Map.nodup_insert _ _ hi.nodup) (fun nm' hne => ?_)
      rw [Map.get?_insert, if_neg hne]
    | some l =>
      rw [hg] at h
      simp only [Option.isNone_some, Bool.false_eq_true, if_false, hg] at h
      rw [← Except.ok.inj h]
      exact hfin l ((hi.get nm l).1 hg).1 _ hi.nodup (fun _ _ => rfl)

theorem groupStep_ok {m : Map String (List PublicKey)} {pk : PublicKey} {s : String}
    (h : AsciiEnd s) : ∃ m', groupStep m pk s = .ok m' := by
  unfold groupStep
  rw [removeSpecialChars_ok.2 ⟨h, (String.toList_ofList (l := plainName s))⟩]
  dsimp only
  generalize String.ofList (plainName s) = nm
  cases hg : m.get? nm with
  | none => simp [Map.get?_insert]
  | some l => simp [hg]

theorem groupLoop_ok (key : RawNode → Option String) (r : RawFbas)
    (m : Map String (List PublicKey)) :
    (∃ m', groupLoop key r m = .ok m') ↔ ∀ n ∈ r, ∀ s, key n = some s → AsciiEnd s := by
  induction r generalizing m with
  | nil => simp [groupLoop]
  | cons n r ih =>
    rw [groupLoop, List.forall_mem_cons]
    cases hn : key n with
    | none => simpa using ih m
    | some s =>
      dsimp only
      constructor
      · rintro ⟨m', hm'⟩
        cases hs : groupStep m n.publicKey s with
        | error e => rw [hs] at hm'; cases hm'
        | ok m₁ =>
          rw [hs] at hm'
          refine ⟨fun s' hs' => ?_, (ih m₁).1 ⟨m', hm'⟩⟩
          obtain rfl := Option.some.inj hs'
          unfold groupStep at hs
          cases hr : removeSpecialChars s with
          | error e => rw [hr] at hs; cases hs
          | ok nm => exact (removeSpecialChars_ok.1 hr).1
      · rintro ⟨h1, h2⟩
        obtain ⟨m₁, hm₁⟩ := groupStep_ok (m := m) (pk := n.publicKey) (h1 s rfl)
        rw [hm₁]
        exact (ih m₁).2 h2

theorem groupLoop_inv (key : RawNode → Option String) (r done : RawFbas)
    (m m' : Map String (List PublicKey)) (hi : GroupInv key done m)
    (h : groupLoop key r m = .ok m') : GroupInv key (done ++ r) m' := by
  induction r generalizing m done with
  | nil =>
    rw [groupLoop] at h
    rw [List.append_nil, ← Except.ok.inj h]
    exact hi
  | cons n r ih =>
    rw [groupLoop] at h
    have happ : done ++ n :: r = (done ++ [n]) ++ r := by simp
    cases hn : key n with
    | none =>
      rw [hn] at h
      rw [happ]
      refine ih (done ++ [n]) m ⟨hi.nodup, fun nm vs => ?_⟩ h
      have : membersOf key (done ++ [n]) nm = membersOf key done nm := by
        unfold membersOf
        rw [List.filter_append, List.filter_cons_of_neg (by simp [hn])]
        simp
      rw [this]
      exact hi.get nm vs
    | some s =>
      rw [hn] at h
      dsimp only at h
      cases hs : groupStep m n.publicKey s with
      | error e => rw [hs] at h; cases h
      | ok m₁ =>
        rw [hs] at h
        rw [happ]
        exact ih (done ++ [n]) m₁ (groupStep_inv hi hn hs).2 h

theorem groupInv_nil (key : RawNode → Option String) : GroupInv key [] [] :=
  ⟨List.nodup_nil, fun nm vs => by simp [membersOf]⟩

end FA
