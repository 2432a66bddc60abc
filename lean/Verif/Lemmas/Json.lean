import Verif.SpecJson
import Mathlib.Data.List.Forall2

/-!
# Lemmas about JSON values
-/

namespace FA
open Spec

/-- One field of a struct: visiting the entries of an object. -/
def Json.slot {α : Type} (g : Json → Option α) (name : String) :
    List (String × Json) → Option α → Option (Option α)
  | [], s => some s
  | (n, j) :: l, s =>
    if n = name then
      match s, g j with
      | none, some a => Json.slot g name l (some a)
      | _, _ => none
    else Json.slot g name l s

theorem slot_cons {α : Type} (g : Json → Option α) (name n : String) (j : Json)
    (l : List (String × Json)) (s : Option α) : Json.slot g name ((n, j) :: l) s =
      if n = name then
        match s, g j with
        | none, some a => Json.slot g name l (some a)
        | _, _ => none
      else Json.slot g name l s := rfl

theorem slot_some {α : Type} (g : Json → Option α) (name : String) (l : List (String × Json)) (a : α)
    (o : Option α) : Json.slot g name l (some a) = some o ↔ NoEntry l name ∧ o = some a := by
  induction l with
  | nil =>
    simp only [Json.slot, Option.some.injEq, NoEntry, List.not_mem_nil, false_imp_iff, implies_true,
      true_and]
    exact eq_comm
  | cons e l ih =>
    obtain ⟨n, j⟩ := e
    rw [slot_cons]
    split
    next h => simp [NoEntry, h]
    next h => rw [ih]; simp [NoEntry, h]

theorem Spec.OneEntry.cons_self {l : List (String × Json)} {name : String} {j j' : Json} :
    OneEntry ((name, j) :: l) name j' ↔ j' = j ∧ NoEntry l name := by
  constructor
  · rintro ⟨pre, post, h, hn⟩
    cases pre with
    | nil =>
      simp only [List.nil_append, List.cons.injEq, Prod.mk.injEq, true_and] at h
      obtain ⟨rfl, rfl⟩ := h
      exact ⟨rfl, hn⟩
    | cons e pre =>
      simp only [List.cons_append, List.cons.injEq] at h
      obtain ⟨rfl, -⟩ := h
      exact absurd rfl (hn (name, j) (by simp))
  · rintro ⟨rfl, h⟩
    exact ⟨[], l, rfl, h⟩

theorem Spec.OneEntry.cons_ne {l : List (String × Json)} {n name : String} {j j' : Json} (h : n ≠ name) :
    OneEntry ((n, j) :: l) name j' ↔ OneEntry l name j' := by
  constructor
  · rintro ⟨pre, post, he, hn⟩
    cases pre with
    | nil =>
      simp only [List.nil_append, List.cons.injEq, Prod.mk.injEq] at he
      exact absurd he.1.1 h
    | cons e pre =>
      simp only [List.cons_append, List.cons.injEq] at he
      exact ⟨pre, post, he.2, fun e he => hn e (by simp only [List.cons_append, List.mem_cons]; exact .inr he)⟩
  · rintro ⟨pre, post, rfl, hn⟩
    refine ⟨(n, j) :: pre, post, rfl, fun e he => ?_⟩
    rcases List.mem_cons.1 he with rfl | he
    · exact h
    · exact hn e he

theorem Spec.OneEntry.nil {name : String} {j : Json} : ¬ OneEntry [] name j := by
  rintro ⟨pre, post, h, -⟩
  simp at h

theorem Spec.NoEntry.cons_ne {l : List (String × Json)} {n name : String} {j : Json} (h : n ≠ name) :
    NoEntry ((n, j) :: l) name ↔ NoEntry l name := by
  simp [NoEntry, h]

theorem slot_none {α : Type} (g : Json → Option α) (name : String) (l : List (String × Json))
    (o : Option α) : Json.slot g name l none = some o ↔
      (NoEntry l name ∧ o = none) ∨ ∃ j a, OneEntry l name j ∧ g j = some a ∧ o = some a := by
  induction l with
  | nil =>
    simp only [Json.slot, Option.some.injEq]
    constructor
    · rintro rfl
      exact .inl ⟨fun e he => absurd he (by simp), rfl⟩
    · rintro (⟨-, rfl⟩ | ⟨j, a, h, -⟩)
      · rfl
      · exact absurd h OneEntry.nil
  | cons e l ih =>
    obtain ⟨n, j⟩ := e
    rw [slot_cons]
    by_cases h : n = name
    · subst h
      rw [if_pos rfl]
      cases hg : g j with
      | none =>
        simp only [reduceCtorEq, false_iff, not_or, not_and, not_exists]
        refine ⟨fun hn => absurd rfl (hn (n, j) (by simp)), fun j' a h1 h2 => ?_⟩
        rw [OneEntry.cons_self] at h1
        rw [h1.1, hg] at h2
        cases h2
      | some a =>
        dsimp only
        rw [slot_some]
        constructor
        · rintro ⟨h1, rfl⟩
          exact .inr ⟨j, a, OneEntry.cons_self.2 ⟨rfl, h1⟩, hg, rfl⟩
        · rintro (⟨h1, -⟩ | ⟨j', a', h1, h2, rfl⟩)
          · exact absurd rfl (h1 (n, j) (by simp))
          · rw [OneEntry.cons_self] at h1
            rw [h1.1, hg] at h2
            exact ⟨h1.2, h2.symm⟩
    · rw [if_neg h, ih, NoEntry.cons_ne h]
      simp only [OneEntry.cons_ne h]

theorem elems?_iff {α : Type} {g : Json → Option α} {js : List Json} {l : List α} :
    Json.elems? g js = some l ↔ List.Forall₂ (fun j a => g j = some a) js l := by
  induction js generalizing l with
  | nil =>
    simp only [Json.elems?, Option.some.injEq, List.forall₂_nil_left_iff]
    exact eq_comm
  | cons j js ih =>
    rw [Json.elems?]
    cases hg : g j with
    | none =>
      simp only [reduceCtorEq, false_iff]
      intro h
      cases h with
      | cons h _ => rw [hg] at h; cases h
    | some a =>
      dsimp only
      cases hl : Json.elems? g js with
      | none =>
        simp only [reduceCtorEq, false_iff]
        intro h
        cases h with
        | cons _ h => rw [ih.2 h] at hl; cases hl
      | some as =>
        simp only [Option.some.injEq]
        constructor
        · rintro rfl
          exact .cons hg (ih.1 hl)
        · intro h
          cases h with
          | cons h h' =>
            rw [hg] at h
            rw [ih.2 h'] at hl
            rw [Option.some.inj h, Option.some.inj hl]

theorem vec?_iff {α : Type} {g : Json → Option α} {j : Json} {l : List α} :
    j.vec? g = some l ↔ ∃ js, j = .arr js ∧ List.Forall₂ (fun j a => g j = some a) js l := by
  unfold Json.vec?
  split
  next js =>
    rw [elems?_iff]
    simp
  next h =>
    simp only [reduceCtorEq, false_iff, not_exists, not_and]
    intro js hj
    exact absurd hj (h js)

theorem str?_iff {j : Json} {s : String} : j.str? = some s ↔ j = .str s := by
  cases j <;> simp [Json.str?]

theorem optStr?_iff {j : Json} {o : Option String} : j.optStr? = some o ↔ DescribesOptStr j o := by
  unfold DescribesOptStr
  cases j <;> simp [Json.optStr?, eq_comm]

theorem u64?_iff {j : Json} {t : ℕ} : j.u64? = some t ↔ j = .nat t ∧ t < 2 ^ 64 := by
  cases j with
  | nat n =>
    rw [Json.u64?]
    split
    next h =>
      simp only [Option.some.injEq, Json.nat.injEq]
      constructor
      · rintro rfl; exact ⟨rfl, h⟩
      · exact fun h => h.1
    next h =>
      simp only [reduceCtorEq, Json.nat.injEq, false_iff, not_and]
      rintro rfl
      exact h
  | _ => simp [Json.u64?]

theorem strVec?_iff {j : Json} {vs : List String} : j.vec? Json.str? = some vs ↔ j = strings vs := by
  rw [vec?_iff]
  unfold strings
  have : ∀ js vs, List.Forall₂ (fun j (a : String) => Json.str? j = some a) js vs ↔
      js = vs.map Json.str := by
    intro js vs
    simp only [str?_iff]
    induction js generalizing vs with
    | nil => cases vs <;> simp
    | cons j js ih => cases vs <;> simp [ih]
  constructor
  · rintro ⟨js, rfl, h⟩
    rw [(this _ _).1 h]
  · rintro rfl
    exact ⟨_, rfl, (this _ _).2 rfl⟩

/-! ### Quorum sets -/

theorem qsetEntries_cons (name : String) (j : Json) (l : List (String × Json))
    (s : RawQuorumSet.Slots) : RawQuorumSet.fromEntries ((name, j) :: l) s =
    if name = "threshold" then
      match s.threshold, j.u64? with
      | none, some t => RawQuorumSet.fromEntries l { s with threshold := some t }
      | _, _ => none
    else if name = "validators" then
      match s.validators, j.vec? Json.str? with
      | none, some vs => RawQuorumSet.fromEntries l { s with validators := some vs }
      | _, _ => none
    else if name = "innerQuorumSets" then
      match s.inner, RawQuorumSet.fromJsonVec j with
      | none, some qs => RawQuorumSet.fromEntries l { s with inner := some qs }
      | _, _ => none
    else RawQuorumSet.fromEntries l s := by
  simp only [RawQuorumSet.fromEntries]
  rfl

theorem fromEntries_slots (l : List (String × Json)) (s s' : RawQuorumSet.Slots) :
    RawQuorumSet.fromEntries l s = some s' ↔
      Json.slot Json.u64? "threshold" l s.threshold = some s'.threshold ∧
      Json.slot (Json.vec? Json.str?) "validators" l s.validators = some s'.validators ∧
      Json.slot RawQuorumSet.fromJsonVec "innerQuorumSets" l s.inner = some s'.inner := by
  induction l generalizing s with
  | nil =>
    simp only [RawQuorumSet.fromEntries, Json.slot, Option.some.injEq]
    constructor
    · rintro rfl; exact ⟨rfl, rfl, rfl⟩
    · rintro ⟨h1, h2, h3⟩
      cases s; cases s'; simp_all
  | cons e l ih =>
    obtain ⟨n, j⟩ := e
    rw [qsetEntries_cons, slot_cons, slot_cons, slot_cons]
    by_cases h1 : n = "threshold"
    · subst h1
      simp only [if_true, (by decide : ¬ "threshold" = "validators"),
        (by decide : ¬ "threshold" = "innerQuorumSets"), if_false]
      cases s.threshold <;> cases j.u64? <;> simp [ih]
    · by_cases h2 : n = "validators"
      · subst h2
        simp only [if_true, (by decide : ¬ "validators" = "threshold"),
          (by decide : ¬ "validators" = "innerQuorumSets"), if_false]
        cases s.validators <;> cases j.vec? Json.str? <;> simp [ih]
      · by_cases h3 : n = "innerQuorumSets"
        · subst h3
          simp only [if_true, (by decide : ¬ "innerQuorumSets" = "threshold"),
            (by decide : ¬ "innerQuorumSets" = "validators"), if_false]
          cases s.inner <;> cases RawQuorumSet.fromJsonVec j <;> simp [ih]
        · simp only [if_neg h1, if_neg h2, if_neg h3, ih]

theorem fromJsonList_eq (js : List Json) :
    RawQuorumSet.fromJsonList js = Json.elems? RawQuorumSet.fromJson js := by
  induction js with
  | nil => rw [RawQuorumSet.fromJsonList, Json.elems?]
  | cons j js ih =>
    rw [RawQuorumSet.fromJsonList, Json.elems?, ih]
    cases RawQuorumSet.fromJson j <;> cases Json.elems? RawQuorumSet.fromJson js <;> rfl

theorem fromJsonVec_eq (j : Json) :
    RawQuorumSet.fromJsonVec j = j.vec? RawQuorumSet.fromJson := by
  cases j with
  | arr l => rw [RawQuorumSet.fromJsonVec, Json.vec?, fromJsonList_eq]
  | _ => rw [RawQuorumSet.fromJsonVec, Json.vec?] <;> simp

theorem fromJsonVec_iff {j : Json} {qs : List RawQuorumSet} :
    RawQuorumSet.fromJsonVec j = some qs ↔ ∃ js, j = .arr js ∧
      List.Forall₂ (fun j q => RawQuorumSet.fromJson j = some q) js qs := by
  rw [fromJsonVec_eq, vec?_iff]

theorem forall₂_index {α β : Type} {R : α → β → Prop} {l : List α} {l' : List β} :
    List.Forall₂ R l l' ↔ l.length = l'.length ∧
      ∀ (i : ℕ) a b, l[i]? = some a → l'[i]? = some b → R a b := by
  rw [List.forall₂_iff_get]
  refine and_congr_right fun hlen => ⟨fun h i a b ha hb => ?_, fun h i h1 h2 => ?_⟩
  · obtain ⟨h1, rfl⟩ := List.getElem?_eq_some_iff.1 ha
    obtain ⟨h2, rfl⟩ := List.getElem?_eq_some_iff.1 hb
    exact h i h1 h2
  · exact h i _ _ (by simp) (by simp)

theorem Spec.OneEntry.mem {l : List (String × Json)} {name : String} {j : Json} (h : OneEntry l name j) :
    (name, j) ∈ l := by
  obtain ⟨pre, post, rfl, -⟩ := h
  simp

theorem Spec.OneEntry.not_none {l : List (String × Json)} {name : String} {j : Json}
    (h : OneEntry l name j) (hn : NoEntry l name) : False := hn _ h.mem rfl

theorem Spec.OneEntry.unique {l : List (String × Json)} {name : String} {j j' : Json}
    (h : OneEntry l name j) (h' : OneEntry l name j') : j = j' := by
  induction l with
  | nil => exact absurd h OneEntry.nil
  | cons e l ih =>
    obtain ⟨n, k⟩ := e
    by_cases hn : n = name
    · subst hn
      rw [OneEntry.cons_self] at h h'
      rw [h.1, h'.1]
    · rw [OneEntry.cons_ne hn] at h h'
      exact ih h h'

/-- Deserialization of a quorum set from an object, with the specification of the parts. -/
theorem qsetObj_iff {l : List (String × Json)} {q : RawQuorumSet} :
    RawQuorumSet.fromJson (.obj l) = some q ↔
      OneEntry l "threshold" (.nat q.threshold) ∧ q.threshold < 2 ^ 64 ∧
      OneEntry l "validators" (strings q.validators) ∧
      ((NoEntry l "innerQuorumSets" ∧ q.inner = []) ∨ ∃ js, OneEntry l "innerQuorumSets" (.arr js) ∧
        List.Forall₂ (fun j q => RawQuorumSet.fromJson j = some q) js q.inner) := by
  have key : RawQuorumSet.fromJson (.obj l) = some q ↔ ∃ s, RawQuorumSet.fromEntries l
      ⟨none, none, none⟩ = some s ∧ s.finish = some q := by
    rw [RawQuorumSet.fromJson]
    cases RawQuorumSet.fromEntries l ⟨none, none, none⟩ <;> simp
  rw [key]
  simp only [fromEntries_slots, slot_none]
  obtain ⟨t, vs, qs⟩ := q
  constructor
  · rintro ⟨⟨st, sv, sq⟩, ⟨h1, h2, h3⟩, hf⟩
    dsimp only at h1 h2 h3
    unfold RawQuorumSet.Slots.finish at hf
    rcases h1 with ⟨-, rfl⟩ | ⟨j1, t', h1, h1', rfl⟩
    · simp at hf
    rcases h2 with ⟨-, rfl⟩ | ⟨j2, vs', h2, h2', rfl⟩
    · simp at hf
    simp only [Option.some.injEq, RawQuorumSet.mk.injEq] at hf
    obtain ⟨rfl, rfl, rfl⟩ := hf
    rw [u64?_iff] at h1'
    rw [strVec?_iff] at h2'
    obtain ⟨rfl, h64⟩ := h1'
    subst h2'
    refine ⟨h1, h64, h2, ?_⟩
    rcases h3 with ⟨h3, rfl⟩ | ⟨j3, qs', h3, h3', rfl⟩
    · exact .inl ⟨h3, rfl⟩
    · obtain ⟨js, rfl, h⟩ := fromJsonVec_iff.1 h3'
      exact .inr ⟨js, h3, h⟩
  · rintro ⟨h1, h64, h2, h3⟩
    dsimp only at h1 h64 h2 h3
    rcases h3 with ⟨h3, rfl⟩ | ⟨js, h3, h⟩
    · exact ⟨⟨some t, some vs, none⟩, ⟨.inr ⟨_, t, h1, u64?_iff.2 ⟨rfl, h64⟩, rfl⟩,
        .inr ⟨_, vs, h2, strVec?_iff.2 rfl, rfl⟩, .inl ⟨h3, rfl⟩⟩, rfl⟩
    · exact ⟨⟨some t, some vs, some qs⟩, ⟨.inr ⟨_, t, h1, u64?_iff.2 ⟨rfl, h64⟩, rfl⟩,
        .inr ⟨_, vs, h2, strVec?_iff.2 rfl, rfl⟩,
        .inr ⟨_, qs, h3, fromJsonVec_iff.2 ⟨js, rfl, h⟩, rfl⟩⟩, rfl⟩

/-- ... from an array. -/
theorem qsetArr_iff {l : List Json} {q : RawQuorumSet} :
    RawQuorumSet.fromJson (.arr l) = some q ↔ q.threshold < 2 ^ 64 ∧
      ((l = [.nat q.threshold, strings q.validators] ∧ q.inner = []) ∨
        ∃ js, l = [.nat q.threshold, strings q.validators, .arr js] ∧
          List.Forall₂ (fun j q => RawQuorumSet.fromJson j = some q) js q.inner) := by
  obtain ⟨t, vs, qs⟩ := q
  dsimp only
  match l with
  | [] => simp [RawQuorumSet.fromJson]
  | [_] => simp [RawQuorumSet.fromJson]
  | [a, b] =>
    rw [RawQuorumSet.fromJson]
    constructor
    · intro h
      split at h
      next t' vs' ht hv =>
        simp only [Option.some.injEq, RawQuorumSet.mk.injEq] at h
        obtain ⟨rfl, rfl, rfl⟩ := h
        rw [u64?_iff] at ht
        rw [strVec?_iff] at hv
        exact ⟨ht.2, .inl ⟨by rw [ht.1, hv], rfl⟩⟩
      · cases h
    · rintro ⟨h64, ⟨h, rfl⟩ | ⟨js, h, -⟩⟩
      · simp only [List.cons.injEq, and_true] at h
        rw [h.1, h.2, u64?_iff.2 ⟨rfl, h64⟩, strVec?_iff.2 rfl]
      · simp at h
  | [a, b, c] =>
    rw [RawQuorumSet.fromJson]
    constructor
    · intro h
      split at h
      next t' vs' qs' ht hv hq =>
        simp only [Option.some.injEq, RawQuorumSet.mk.injEq] at h
        obtain ⟨rfl, rfl, rfl⟩ := h
        rw [u64?_iff] at ht
        rw [strVec?_iff] at hv
        obtain ⟨js, rfl, hjs⟩ := fromJsonVec_iff.1 hq
        exact ⟨ht.2, .inr ⟨js, by rw [ht.1, hv], hjs⟩⟩
      · cases h
    · rintro ⟨h64, ⟨h, rfl⟩ | ⟨js, h, hjs⟩⟩
      · simp at h
      · simp only [List.cons.injEq, and_true] at h
        rw [h.1, h.2.1, h.2.2, u64?_iff.2 ⟨rfl, h64⟩, strVec?_iff.2 rfl,
          fromJsonVec_iff.2 ⟨js, rfl, hjs⟩]
  | a :: b :: c :: d :: l => simp [RawQuorumSet.fromJson]

theorem sizeOf_entry {l : List (String × Json)} {n : String} {j : Json} (h : (n, j) ∈ l) :
    sizeOf j < sizeOf l := by
  have h1 := List.sizeOf_lt_of_mem h
  have h2 : sizeOf (n, j) = 1 + sizeOf n + sizeOf j := rfl
  omega

theorem describesQSet_sound : ∀ (n : ℕ) (j : Json) (q : RawQuorumSet), sizeOf j < n →
    RawQuorumSet.fromJson j = some q → DescribesQSet j q := by
  intro n
  induction n with
  | zero => intro j q h; omega
  | succ n ih =>
    intro j q hn h
    cases j with
    | obj l =>
      rw [qsetObj_iff] at h
      obtain ⟨h1, h64, h2, ⟨h3, h4⟩ | ⟨js, h3, h4⟩⟩ := h
      · obtain ⟨t, vs, qs⟩ := q
        dsimp only at *
        subst h4
        exact .flatObj h1 h64 h2 h3
      · obtain ⟨t, vs, qs⟩ := q
        dsimp only at *
        rw [forall₂_index] at h4
        refine .obj h1 h64 h2 h3 h4.1 (fun i j' q' hj hq => ih _ _ ?_ (h4.2 i j' q' hj hq))
        have e1 := sizeOf_entry h3.mem
        have e2 := List.sizeOf_lt_of_mem (List.mem_of_getElem? hj)
        simp only [Json.arr.sizeOf_spec] at e1
        simp only [Json.obj.sizeOf_spec] at hn
        omega
    | arr l =>
      rw [qsetArr_iff] at h
      obtain ⟨h64, ⟨h3, h4⟩ | ⟨js, h3, h4⟩⟩ := h
      · obtain ⟨t, vs, qs⟩ := q
        dsimp only at *
        subst h4 h3
        exact .flatArr h64
      · obtain ⟨t, vs, qs⟩ := q
        dsimp only at *
        subst h3
        rw [forall₂_index] at h4
        refine .arr h64 h4.1 (fun i j' q' hj hq => ih _ _ ?_ (h4.2 i j' q' hj hq))
        have e2 := List.sizeOf_lt_of_mem (List.mem_of_getElem? hj)
        simp only [Json.arr.sizeOf_spec, List.cons.sizeOf_spec] at hn
        omega
    | _ => simp [RawQuorumSet.fromJson] at h

theorem describesQSet_complete {j : Json} {q : RawQuorumSet} (h : DescribesQSet j q) :
    RawQuorumSet.fromJson j = some q := by
  induction h with
  | obj ht h64 hvs hqs hlen _ ih =>
    exact qsetObj_iff.2 ⟨ht, h64, hvs, .inr ⟨_, hqs, forall₂_index.2 ⟨hlen, ih⟩⟩⟩
  | flatObj ht h64 hvs hqs => exact qsetObj_iff.2 ⟨ht, h64, hvs, .inl ⟨hqs, rfl⟩⟩
  | arr h64 hlen _ ih => exact qsetArr_iff.2 ⟨h64, .inr ⟨_, rfl, forall₂_index.2 ⟨hlen, ih⟩⟩⟩
  | flatArr h64 => exact qsetArr_iff.2 ⟨h64, .inl ⟨rfl, rfl⟩⟩

theorem qset_fromJson_iff {j : Json} {q : RawQuorumSet} :
    RawQuorumSet.fromJson j = some q ↔ DescribesQSet j q :=
  ⟨describesQSet_sound _ j q (Nat.lt_succ_self _), describesQSet_complete⟩

/-! ### Nodes and groups -/

theorem geoEntries_slot (l : List (String × Json)) (s : Option (Option String)) :
    geoFromEntries l s = Json.slot Json.optStr? "countryName" l s := by
  induction l generalizing s with
  | nil => rfl
  | cons e l ih =>
    obtain ⟨n, j⟩ := e
    rw [slot_cons, show geoFromEntries ((n, j) :: l) s = if n = "countryName" then
      match s, j.optStr? with
      | none, some c => geoFromEntries l (some c)
      | _, _ => none
    else geoFromEntries l s from rfl]
    split
    · cases s <;> cases j.optStr? <;> simp [ih]
    · exact ih s

theorem geo_iff {j : Json} {c : Option String} : geoFromJson j = some c ↔ DescribesGeo j c := by
  unfold DescribesGeo
  match j with
  | .obj l =>
    have key : geoFromJson (.obj l) = some c ↔ ∃ s, geoFromEntries l none = some s ∧
        s.getD none = c := by
      rw [geoFromJson]
      cases geoFromEntries l none <;> simp
    rw [key]
    simp only [geoEntries_slot, slot_none, optStr?_iff, Json.obj.injEq, reduceCtorEq, false_and,
      exists_false, or_false]
    constructor
    · rintro ⟨s, ⟨h, rfl⟩ | ⟨j', a, h1, h2, rfl⟩, rfl⟩
      · exact ⟨l, rfl, .inl ⟨h, rfl⟩⟩
      · exact ⟨l, rfl, .inr ⟨j', h1, h2⟩⟩
    · rintro ⟨l', rfl, ⟨h, rfl⟩ | ⟨j', h1, h2⟩⟩
      · exact ⟨none, .inl ⟨h, rfl⟩, rfl⟩
      · exact ⟨some c, .inr ⟨j', c, h1, h2, rfl⟩, rfl⟩
  | .arr [] => simp [geoFromJson]
  | .arr [a] => simp [geoFromJson, optStr?_iff]
  | .arr (a :: b :: l) => simp [geoFromJson]
  | .null => simp [geoFromJson]
  | .bool b => simp [geoFromJson]
  | .nat b => simp [geoFromJson]
  | .rat b => simp [geoFromJson]
  | .str b => simp [geoFromJson]

theorem optGeo_iff {j : Json} {o : Option (Option String)} :
    optGeoFromJson j = some o ↔ DescribesOptGeo j o := by
  unfold DescribesOptGeo
  by_cases hj : j = .null
  · subst hj
    have : ∀ c, ¬ DescribesGeo .null c := fun c h => by
      rw [← geo_iff] at h; simp [geoFromJson] at h
    simp only [optGeoFromJson, Option.some.injEq, true_and, this, false_and, exists_false, or_false]
    exact eq_comm
  · have key : optGeoFromJson j = some o ↔ ∃ c, geoFromJson j = some c ∧ some c = o := by
      unfold optGeoFromJson
      split
      · exact absurd rfl hj
      · split <;> simp_all
    rw [key]
    simp only [hj, false_and, false_or, geo_iff]
    exact exists_congr fun c => and_congr_right fun _ => eq_comm

theorem nodeEntries_cons (name : String) (j : Json) (l : List (String × Json))
    (s : RawNode.Slots) : RawNode.fromEntries ((name, j) :: l) s =
    if name = "publicKey" then
      match s.publicKey, j.str? with
      | none, some pk => RawNode.fromEntries l { s with publicKey := some pk }
      | _, _ => none
    else if name = "quorumSet" then
      match s.quorumSet, RawQuorumSet.fromJson j with
      | none, some q => RawNode.fromEntries l { s with quorumSet := some q }
      | _, _ => none
    else if name = "isp" then
      match s.isp, j.optStr? with
      | none, some isp => RawNode.fromEntries l { s with isp := some isp }
      | _, _ => none
    else if name = "geoData" then
      match s.geoData, optGeoFromJson j with
      | none, some g => RawNode.fromEntries l { s with geoData := some g }
      | _, _ => none
    else RawNode.fromEntries l s := rfl

theorem nodeEntries_slots (l : List (String × Json)) (s s' : RawNode.Slots) :
    RawNode.fromEntries l s = some s' ↔
      Json.slot Json.str? "publicKey" l s.publicKey = some s'.publicKey ∧
      Json.slot RawQuorumSet.fromJson "quorumSet" l s.quorumSet = some s'.quorumSet ∧
      Json.slot Json.optStr? "isp" l s.isp = some s'.isp ∧
      Json.slot optGeoFromJson "geoData" l s.geoData = some s'.geoData := by
  induction l generalizing s with
  | nil =>
    simp only [RawNode.fromEntries, Json.slot, Option.some.injEq]
    constructor
    · rintro rfl; exact ⟨rfl, rfl, rfl, rfl⟩
    · rintro ⟨h1, h2, h3, h4⟩
      cases s; cases s'; simp_all
  | cons e l ih =>
    obtain ⟨n, j⟩ := e
    rw [nodeEntries_cons, slot_cons, slot_cons, slot_cons, slot_cons]
    by_cases h1 : n = "publicKey"
    · subst h1
      simp only [if_true, (by decide : ¬ "publicKey" = "quorumSet"),
        (by decide : ¬ "publicKey" = "isp"), (by decide : ¬ "publicKey" = "geoData"), if_false]
      cases s.publicKey <;> cases j.str? <;> simp [ih]
    · by_cases h2 : n = "quorumSet"
      · subst h2
        simp only [if_true, (by decide : ¬ "quorumSet" = "publicKey"),
          (by decide : ¬ "quorumSet" = "isp"), (by decide : ¬ "quorumSet" = "geoData"), if_false]
        cases s.quorumSet <;> cases RawQuorumSet.fromJson j <;> simp [ih]
      · by_cases h3 : n = "isp"
        · subst h3
          simp only [if_true, (by decide : ¬ "isp" = "publicKey"),
            (by decide : ¬ "isp" = "quorumSet"), (by decide : ¬ "isp" = "geoData"), if_false]
          cases s.isp <;> cases j.optStr? <;> simp [ih]
        · by_cases h4 : n = "geoData"
          · subst h4
            simp only [if_true, (by decide : ¬ "geoData" = "publicKey"),
              (by decide : ¬ "geoData" = "quorumSet"), (by decide : ¬ "geoData" = "isp"), if_false]
            cases s.geoData <;> cases optGeoFromJson j <;> simp [ih]
          · simp only [if_neg h1, if_neg h2, if_neg h3, if_neg h4, ih]

theorem node_fromJson_iff {j : Json} {n : RawNode} :
    RawNode.fromJson j = some n ↔ DescribesNode j n := by
  unfold DescribesNode
  obtain ⟨pk, q, isp, geo⟩ := n
  match j with
  | .obj l =>
    have key : RawNode.fromJson (.obj l) = some ⟨pk, q, isp, geo⟩ ↔ ∃ s, RawNode.fromEntries l
        ⟨none, none, none, none⟩ = some s ∧ s.finish = some ⟨pk, q, isp, geo⟩ := by
      rw [RawNode.fromJson]
      cases RawNode.fromEntries l ⟨none, none, none, none⟩ <;> simp
    rw [key]
    simp only [nodeEntries_slots, slot_none, optStr?_iff, qset_fromJson_iff, optGeo_iff, str?_iff]
    constructor
    · rintro ⟨⟨s1, s2, s3, s4⟩, ⟨h1, h2, h3, h4⟩, hf⟩
      dsimp only at h1 h2 h3 h4
      unfold RawNode.Slots.finish at hf
      rcases h1 with ⟨-, rfl⟩ | ⟨j1, pk', h1, h1', rfl⟩
      · simp at hf
      simp only [Option.some.injEq, RawNode.mk.injEq] at hf
      obtain ⟨rfl, rfl, rfl, rfl⟩ := hf
      subst h1'
      refine .inl ⟨l, rfl, h1, ?_, ?_, ?_⟩
      · rcases h2 with ⟨h, rfl⟩ | ⟨j', a, h, h', rfl⟩
        · exact .inl ⟨h, rfl⟩
        · exact .inr ⟨j', h, h'⟩
      · rcases h3 with ⟨h, rfl⟩ | ⟨j', a, h, h', rfl⟩
        · exact .inl ⟨h, rfl⟩
        · exact .inr ⟨j', h, h'⟩
      · rcases h4 with ⟨h, rfl⟩ | ⟨j', a, h, h', rfl⟩
        · exact .inl ⟨h, rfl⟩
        · exact .inr ⟨j', h, h'⟩
    · rintro (⟨l', hl, h1, h2, h3, h4⟩ | ⟨j1, j2, j3, h, -⟩)
      · obtain rfl : l = l' := by simpa using hl
        have e2 : ∃ s2 : Option RawQuorumSet, ((NoEntry l "quorumSet" ∧ s2 = none) ∨
            ∃ j a, OneEntry l "quorumSet" j ∧ DescribesQSet j a ∧ s2 = some a) ∧
            s2.getD RawQuorumSet.default = q := by
          rcases h2 with ⟨h, rfl⟩ | ⟨j', h, h'⟩
          · exact ⟨none, .inl ⟨h, rfl⟩, rfl⟩
          · exact ⟨some q, .inr ⟨j', q, h, h', rfl⟩, rfl⟩
        have e3 : ∃ s3 : Option (Option String), ((NoEntry l "isp" ∧ s3 = none) ∨
            ∃ j a, OneEntry l "isp" j ∧ DescribesOptStr j a ∧ s3 = some a) ∧
            s3.getD none = isp := by
          rcases h3 with ⟨h, rfl⟩ | ⟨j', h, h'⟩
          · exact ⟨none, .inl ⟨h, rfl⟩, rfl⟩
          · exact ⟨some isp, .inr ⟨j', isp, h, h', rfl⟩, rfl⟩
        have e4 : ∃ s4 : Option (Option (Option String)), ((NoEntry l "geoData" ∧ s4 = none) ∨
            ∃ j a, OneEntry l "geoData" j ∧ DescribesOptGeo j a ∧ s4 = some a) ∧
            s4.getD none = geo := by
          rcases h4 with ⟨h, rfl⟩ | ⟨j', h, h'⟩
          · exact ⟨none, .inl ⟨h, rfl⟩, rfl⟩
          · exact ⟨some geo, .inr ⟨j', geo, h, h', rfl⟩, rfl⟩
        obtain ⟨s2, k2, rfl⟩ := e2
        obtain ⟨s3, k3, rfl⟩ := e3
        obtain ⟨s4, k4, rfl⟩ := e4
        exact ⟨⟨some pk, s2, s3, s4⟩, ⟨.inr ⟨_, pk, h1, rfl, rfl⟩, k2, k3, k4⟩, rfl⟩
      · cases h
  | .arr [] => simp [RawNode.fromJson]
  | .arr [_] => simp [RawNode.fromJson]
  | .arr [_, _] => simp [RawNode.fromJson]
  | .arr [_, _, _] => simp [RawNode.fromJson]
  | .arr [a, b, c, d] =>
    rw [RawNode.fromJson]
    constructor
    · intro h
      split at h
      next h1 h2 h3 h4 =>
        simp only [Option.some.injEq, RawNode.mk.injEq] at h
        obtain ⟨rfl, rfl, rfl, rfl⟩ := h
        rw [str?_iff] at h1
        exact .inr ⟨b, c, d, by rw [h1], qset_fromJson_iff.1 h2, optStr?_iff.1 h3, optGeo_iff.1 h4⟩
      · cases h
    · rintro (⟨l', hl, -⟩ | ⟨j1, j2, j3, h, h2, h3, h4⟩)
      · cases hl
      · simp only [Json.arr.injEq, List.cons.injEq, and_true] at h
        obtain ⟨rfl, rfl, rfl, rfl⟩ := h
        rw [str?_iff.2 rfl, qset_fromJson_iff.2 h2, optStr?_iff.2 h3, optGeo_iff.2 h4]
  | .arr (_ :: _ :: _ :: _ :: _ :: _) => simp [RawNode.fromJson]
  | .null => simp [RawNode.fromJson]
  | .bool _ => simp [RawNode.fromJson]
  | .nat _ => simp [RawNode.fromJson]
  | .rat _ => simp [RawNode.fromJson]
  | .str _ => simp [RawNode.fromJson]

theorem fbas_fromJson_iff {j : Json} {r : RawFbas} :
    RawFbas.fromJson j = some r ↔ DescribesFbas j r := by
  unfold RawFbas.fromJson DescribesFbas
  rw [vec?_iff]
  simp only [node_fromJson_iff]

theorem groupingEntries_cons (name : String) (j : Json) (l : List (String × Json))
    (s : RawGrouping.Slots) : RawGrouping.fromEntries ((name, j) :: l) s =
    if name = "name" then
      match s.name, j.str? with
      | none, some n => RawGrouping.fromEntries l { s with name := some n }
      | _, _ => none
    else if name = "validators" then
      match s.validators, j.vec? Json.str? with
      | none, some vs => RawGrouping.fromEntries l { s with validators := some vs }
      | _, _ => none
    else RawGrouping.fromEntries l s := rfl

theorem groupingEntries_slots (l : List (String × Json)) (s s' : RawGrouping.Slots) :
    RawGrouping.fromEntries l s = some s' ↔
      Json.slot Json.str? "name" l s.name = some s'.name ∧
      Json.slot (Json.vec? Json.str?) "validators" l s.validators = some s'.validators := by
  induction l generalizing s with
  | nil =>
    simp only [RawGrouping.fromEntries, Json.slot, Option.some.injEq]
    constructor
    · rintro rfl; exact ⟨rfl, rfl⟩
    · rintro ⟨h1, h2⟩
      cases s; cases s'; simp_all
  | cons e l ih =>
    obtain ⟨n, j⟩ := e
    rw [groupingEntries_cons, slot_cons, slot_cons]
    by_cases h1 : n = "name"
    · subst h1
      simp only [if_true, (by decide : ¬ "name" = "validators"), if_false]
      cases s.name <;> cases j.str? <;> simp [ih]
    · by_cases h2 : n = "validators"
      · subst h2
        simp only [if_true, (by decide : ¬ "validators" = "name"), if_false]
        cases s.validators <;> cases j.vec? Json.str? <;> simp [ih]
      · simp only [if_neg h1, if_neg h2, ih]

theorem grouping_fromJson_iff {j : Json} {g : RawGrouping} :
    RawGrouping.fromJson j = some g ↔ DescribesGrouping j g := by
  unfold DescribesGrouping
  obtain ⟨name, vs⟩ := g
  match j with
  | .obj l =>
    have key : RawGrouping.fromJson (.obj l) = some ⟨name, vs⟩ ↔ ∃ s, RawGrouping.fromEntries l
        ⟨none, none⟩ = some s ∧ s.finish = some ⟨name, vs⟩ := by
      rw [RawGrouping.fromJson]
      cases RawGrouping.fromEntries l ⟨none, none⟩ <;> simp
    rw [key]
    simp only [groupingEntries_slots, slot_none, strVec?_iff, str?_iff]
    constructor
    · rintro ⟨⟨s1, s2⟩, ⟨h1, h2⟩, hf⟩
      dsimp only at h1 h2
      unfold RawGrouping.Slots.finish at hf
      rcases h1 with ⟨-, rfl⟩ | ⟨j1, pk', h1, rfl, rfl⟩
      · simp at hf
      rcases h2 with ⟨-, rfl⟩ | ⟨j1, vs', h2, rfl, rfl⟩
      · simp at hf
      simp only [Option.some.injEq, RawGrouping.mk.injEq] at hf
      obtain ⟨rfl, rfl⟩ := hf
      exact .inl ⟨l, rfl, h1, h2⟩
    · rintro (⟨l', hl, h1, h2⟩ | h)
      · obtain rfl : l = l' := by simpa using hl
        exact ⟨⟨some name, some vs⟩, ⟨.inr ⟨_, _, h1, rfl, rfl⟩, .inr ⟨_, _, h2, rfl, rfl⟩⟩, rfl⟩
      · cases h
  | .arr [] => simp [RawGrouping.fromJson]
  | .arr [_] => simp [RawGrouping.fromJson]
  | .arr [a, b] =>
    rw [RawGrouping.fromJson]
    constructor
    · intro h
      split at h
      next h1 h2 =>
        simp only [Option.some.injEq, RawGrouping.mk.injEq] at h
        obtain ⟨rfl, rfl⟩ := h
        rw [str?_iff] at h1
        rw [strVec?_iff] at h2
        exact .inr (by rw [h1, h2])
      · cases h
    · rintro (⟨l', hl, -⟩ | h)
      · cases hl
      · simp only [Json.arr.injEq, List.cons.injEq, and_true] at h
        obtain ⟨rfl, rfl⟩ := h
        rw [str?_iff.2 rfl, strVec?_iff.2 rfl]
  | .arr (_ :: _ :: _ :: _) => simp [RawGrouping.fromJson]
  | .null => simp [RawGrouping.fromJson]
  | .bool _ => simp [RawGrouping.fromJson]
  | .nat _ => simp [RawGrouping.fromJson]
  | .rat _ => simp [RawGrouping.fromJson]
  | .str _ => simp [RawGrouping.fromJson]

theorem groupings_fromJson_iff {j : Json} {gs : List RawGrouping} :
    j.vec? RawGrouping.fromJson = some gs ↔ DescribesGroupings j gs := by
  unfold DescribesGroupings
  rw [vec?_iff]
  simp only [grouping_fromJson_iff]

/-! ### Round trips -/

theorem toJsonList_eq (qs : List RawQuorumSet) :
    RawQuorumSet.toJsonList qs = qs.map RawQuorumSet.toJson := by
  induction qs with
  | nil => rfl
  | cons q qs ih => rw [RawQuorumSet.toJsonList, ih]; rfl

theorem describes_toJson {q : RawQuorumSet} (h : Fits q) : DescribesQSet q.toJson q := by
  induction h with
  | @intro t vs qs ht _ ih =>
    rw [RawQuorumSet.toJson, toJsonList_eq]
    have e1 : ∀ l : List (String × Json), (∀ e ∈ l, e.1 = "innerQuorumSets") →
        OneEntry ([("threshold", .nat t), ("validators", .arr (vs.map .str))] ++ l)
          "threshold" (.nat t) := fun l hl => ⟨[], _ :: l, rfl, fun e he => by
        simp only [List.nil_append, List.mem_cons] at he
        rcases he with rfl | he
        · simp
        · rw [hl e he]; decide⟩
    have e2 : ∀ l : List (String × Json), (∀ e ∈ l, e.1 = "innerQuorumSets") →
        OneEntry ([("threshold", .nat t), ("validators", .arr (vs.map .str))] ++ l)
          "validators" (strings vs) := fun l hl => ⟨[_], l, rfl, fun e he => by
        simp only [List.cons_append, List.nil_append, List.mem_cons] at he
        rcases he with rfl | he
        · simp
        · rw [hl e he]; decide⟩
    by_cases hq : qs = []
    · subst hq
      simp only [List.isEmpty_nil, if_true]
      refine .flatObj (e1 [] (by simp)) ht (e2 [] (by simp)) (fun e he => ?_)
      simp only [List.append_nil, List.mem_cons, List.not_mem_nil, or_false] at he
      rcases he with rfl | rfl <;> simp
    · rw [if_neg (by simpa using hq)]
      refine .obj (e1 _ (by simp)) ht (e2 _ (by simp)) (js := qs.map RawQuorumSet.toJson)
        ⟨[_, _], [], rfl, fun e he => ?_⟩ (by simp) (fun i j q hj hq => ?_)
      · simp only [List.append_nil, List.mem_cons, List.not_mem_nil, or_false] at he
        rcases he with rfl | rfl <;> simp
      · rw [List.getElem?_map, hq] at hj
        obtain rfl : q.toJson = j := by simpa using hj
        exact ih q (List.mem_of_getElem? hq)

theorem describes_optStr (o : Option String) : DescribesOptStr (optStrToJson o) o := by
  unfold DescribesOptStr
  cases o <;> simp [optStrToJson]

theorem describesNode_toJson {n : RawNode} (h : Fits n.quorumSet) : DescribesNode n.toJson n := by
  refine .inl ⟨_, rfl, ⟨[], _, rfl, ?_⟩, .inr ⟨n.quorumSet.toJson, ⟨[_], _, rfl, ?_⟩,
    describes_toJson h⟩, ?_, ?_⟩
  · cases n.isp <;> cases n.geoData <;> simp
  · cases n.isp <;> cases n.geoData <;> simp
  · cases hi : n.isp with
    | none =>
      refine .inl ⟨?_, rfl⟩
      cases n.geoData <;> simp [NoEntry]
    | some s =>
      refine .inr ⟨.str s, ⟨[_, _], _, rfl, ?_⟩, .inr ⟨s, rfl, rfl⟩⟩
      cases n.geoData <;> simp
  · cases hg : n.geoData with
    | none =>
      refine .inl ⟨?_, rfl⟩
      cases n.isp <;> simp [NoEntry]
    | some c =>
      refine .inr ⟨.obj [("countryName", optStrToJson c)], ?_, .inr ⟨c, .inl ⟨_, rfl, .inr
        ⟨_, ⟨[], [], rfl, by simp⟩, describes_optStr c⟩⟩, rfl⟩⟩
      cases n.isp with
      | none => exact ⟨[_, _], [], rfl, by simp⟩
      | some s => exact ⟨[_, _, _], [], rfl, by simp⟩

theorem describesFbas_toJson {r : RawFbas} (h : ∀ n ∈ r, Fits n.quorumSet) :
    DescribesFbas (RawFbas.toJson r) r := by
  refine ⟨_, rfl, ?_⟩
  rw [List.forall₂_map_left_iff, List.forall₂_same]
  exact fun n hn => describesNode_toJson (h n hn)

theorem describesGrouping_toJson (g : RawGrouping) : DescribesGrouping g.toJson g :=
  .inl ⟨_, rfl, ⟨[], _, rfl, by simp⟩, ⟨[_], [], rfl, by simp⟩⟩

theorem describesGroupings_toJson (gs : List RawGrouping) :
    DescribesGroupings (.arr (gs.map RawGrouping.toJson)) gs := by
  refine ⟨_, rfl, ?_⟩
  rw [List.forall₂_map_left_iff, List.forall₂_same]
  exact fun g _ => describesGrouping_toJson g

end FA
