import Verif.SpecSearch
import Verif.Lemmas.Quorums
import Verif.Lemmas.Blocking
import Verif.Lemmas.Splitting
import Verif.Lemmas.Nonintersecting

/-!
# Lemmas: executions of the recursive searches
-/

namespace FA
open Spec

theorem pow_step {c c' n : ℕ} (h : c + 1 ≤ 2 ^ (n + 1)) (h' : c' + 1 ≤ 2 ^ (n + 1)) :
    c + c' + 1 + 1 ≤ 2 ^ (n + 1 + 1) := by
  rw [pow_succ 2 (n + 1)]; omega

theorem pow_step_one {c n : ℕ} (h : c + 1 ≤ 2 ^ (n + 1)) : c + 1 + 1 ≤ 2 ^ (n + 1 + 1) := by
  have : 1 ≤ 2 ^ (n + 1) := Nat.one_le_two_pow
  rw [pow_succ 2 (n + 1)]; omega

theorem two_le_pow (n : ℕ) : 1 + 1 ≤ 2 ^ (n + 1) := by
  have : 1 ≤ 2 ^ n := Nat.one_le_two_pow
  rw [pow_succ]; omega

/-! ## Minimal quorums -/

theorem mq_test {f : Fbas} {ch : Bool} {S : NodeSet} :
    (ch && f.isQuorum S) = true ↔ ch = true ∧ IsQuorum f S := by
  rw [Bool.and_eq_true, Fbas.isQuorum_iff]

theorem Spec.MqRun.bounds {f : Fbas} {ch : Bool} {st st' : MqState} {c d : ℕ} (h : MqRun f ch st st' c d) :
    st'.unprocessed = st.unprocessed ∧ c + 1 ≤ 2 ^ (st.unprocessed.length + 1) ∧
      d ≤ st.unprocessed.length + 1 := by
  induction h with
  | found => exact ⟨rfl, two_le_pow _, by omega⟩
  | notMinimal => exact ⟨rfl, two_le_pow _, by omega⟩
  | done => exact ⟨rfl, two_le_pow _, by omega⟩
  | cut h hu h₁ hs ih =>
    obtain ⟨e, h2, h3⟩ := ih
    dsimp only at e h2 h3
    rw [hu, List.length_cons]
    exact ⟨by rw [e], pow_step_one h2, by omega⟩
  | both h hu h₁ hs h₂ ih ih' =>
    obtain ⟨e, h2, h3⟩ := ih
    obtain ⟨e', h2', h3'⟩ := ih'
    dsimp only at e h2 h3 e' h2' h3'
    rw [e] at h2' h3' e'
    rw [hu, List.length_cons]
    exact ⟨by rw [e'], pow_step h2 h2', by omega⟩

theorem Spec.MqRun.eq {f : Fbas} {ch : Bool} {st st' : MqState} {c d : ℕ} (h : MqRun f ch st st' c d) :
    ∀ fuel, st.unprocessed.length < fuel → mqStep f fuel ch st = st' := by
  induction h with
  | found h =>
    rintro (_ | fuel) hf
    · omega
    · rw [mqStep, if_pos (mq_test.2 ⟨rfl, h.prop⟩), if_pos ((isMinimalForQuorum_of_quorum h.prop).2 h)]
  | notMinimal h hm =>
    rintro (_ | fuel) hf
    · omega
    · rw [mqStep, if_pos (mq_test.2 ⟨rfl, h⟩), if_neg (mt (isMinimalForQuorum_of_quorum h).1 hm)]
  | done h hu =>
    rintro (_ | fuel) hf
    · omega
    · rw [mqStep, if_neg (mt mq_test.1 h), hu]
  | cut h hu h₁ hs ih =>
    rintro (_ | fuel) hf
    · omega
    · rw [hu, List.length_cons] at hf
      rw [mqStep, if_neg (mt mq_test.1 h), hu]
      dsimp only
      rw [ih fuel (by dsimp only; omega), if_neg (mt selectionSatisfiable_iff.1 hs)]
  | both h hu h₁ hs h₂ ih ih' =>
    have e := h₁.bounds.1
    dsimp only at e
    rintro (_ | fuel) hf
    · omega
    · rw [hu, List.length_cons] at hf
      rw [mqStep, if_neg (mt mq_test.1 h), hu]
      dsimp only
      rw [ih fuel (by dsimp only; omega), if_pos (selectionSatisfiable_iff.2 hs),
        ih' fuel (by dsimp only; rw [e]; omega)]

theorem exists_mqRun (f : Fbas) (fuel : ℕ) : ∀ (ch : Bool) (st : MqState), st.unprocessed.length < fuel →
    ∃ st' c d, MqRun f ch st st' c d := by
  induction fuel with
  | zero => intro ch st h; omega
  | succ fuel ih =>
    intro ch st h
    by_cases ht : ch = true ∧ IsQuorum f st.selection
    · obtain ⟨rfl, hq⟩ := ht
      by_cases hm : IsMinQuorum f st.selection
      · exact ⟨_, _, _, .found hm⟩
      · exact ⟨_, _, _, .notMinimal hq hm⟩
    · cases hu : st.unprocessed with
      | nil => exact ⟨_, _, _, .done ht hu⟩
      | cons x rest =>
        rw [hu, List.length_cons] at h
        obtain ⟨st₁, c, d, h₁⟩ := ih true ⟨rest, insert x st.selection, st.available, st.found⟩
          (by dsimp only; omega)
        by_cases hs : Supported f (st₁.selection.erase x) (st₁.available.erase x)
        · have e := h₁.bounds.1
          dsimp only at e
          obtain ⟨st₂, c', d', h₂⟩ := ih false
            ⟨st₁.unprocessed, st₁.selection.erase x, st₁.available.erase x, st₁.found⟩
            (by dsimp only; rw [e]; omega)
          exact ⟨_, _, _, .both ht hu h₁ hs h₂⟩
        · exact ⟨_, _, _, .cut ht hu h₁ hs⟩

/-- Between calls: nodes to be processed are different, available and not selected. -/
structure MqFresh (st : MqState) : Prop where
  nodup : st.unprocessed.Nodup
  fresh : ∀ x ∈ st.unprocessed, x ∉ st.selection ∧ x ∈ st.available

theorem Spec.MqRun.restores {f : Fbas} {ch : Bool} {st st' : MqState} {c d : ℕ}
    (h : MqRun f ch st st' c d) (hf : MqFresh st) :
    ∃ new, st' = { st with found := st.found ++ new } ∧ new.length ≤ 2 ^ st.unprocessed.length := by
  induction h with
  | found h => exact ⟨_, rfl, Nat.one_le_two_pow⟩
  | notMinimal h hm => exact ⟨[], by rw [List.append_nil], Nat.zero_le _⟩
  | done h hu => exact ⟨[], by rw [List.append_nil], Nat.zero_le _⟩
  | @cut ch st st₁ x rest c d h hu h₁ hs ih =>
    obtain ⟨hn, hfr⟩ := hf
    rw [hu] at hn hfr
    obtain ⟨hx, hr⟩ := List.nodup_cons.1 hn
    obtain ⟨new, rfl, hl⟩ := ih ⟨hr, fun y hy => ⟨fun hm => by
      rcases Finset.mem_insert.1 hm with rfl | hm
      · exact hx hy
      · exact (hfr y (List.mem_cons_of_mem _ hy)).1 hm, (hfr y (List.mem_cons_of_mem _ hy)).2⟩⟩
    obtain ⟨h1, h2⟩ := hfr x (by simp)
    refine ⟨new, ?_, ?_⟩
    · dsimp only
      rw [Finset.erase_insert h1, Finset.insert_erase h2, ← hu]
    · dsimp only at hl
      rw [hu, List.length_cons, pow_succ]; omega
  | @both ch st st₁ st₂ x rest c d c' d' h hu h₁ hs h₂ ih ih' =>
    obtain ⟨hn, hfr⟩ := hf
    rw [hu] at hn hfr
    obtain ⟨hx, hr⟩ := List.nodup_cons.1 hn
    obtain ⟨new, rfl, hl⟩ := ih ⟨hr, fun y hy => ⟨fun hm => by
      rcases Finset.mem_insert.1 hm with rfl | hm
      · exact hx hy
      · exact (hfr y (List.mem_cons_of_mem _ hy)).1 hm, (hfr y (List.mem_cons_of_mem _ hy)).2⟩⟩
    obtain ⟨h1, h2⟩ := hfr x (by simp)
    dsimp only at ih' hl
    rw [Finset.erase_insert h1] at ih'
    obtain ⟨new', rfl, hl'⟩ := ih' ⟨hr, fun y hy => ⟨(hfr y (List.mem_cons_of_mem _ hy)).1,
      Finset.mem_erase.2 ⟨fun he => hx (he ▸ hy), (hfr y (List.mem_cons_of_mem _ hy)).2⟩⟩⟩
    refine ⟨new ++ new', ?_, ?_⟩
    · dsimp only
      rw [Finset.insert_erase h2, ← hu, List.append_assoc]
    · rw [hu, List.length_cons, List.length_append, pow_succ]; omega

/-! ## Minimal blocking sets -/

theorem mb_test {f : Fbas} {ch : Bool} {S : NodeSet} :
    (ch && isBlockedSet f S) = true ↔ ch = true ∧ NoQuorumIn f S := by
  rw [Bool.and_eq_true, isBlockedSet_iff]; rfl

theorem Spec.MbRun.bounds {f : Fbas} {ch : Bool} {st st' : MbState} {c d : ℕ} (h : MbRun f ch st st' c d) :
    st'.unprocessed = st.unprocessed ∧ c + 1 ≤ 2 ^ (st.unprocessed.length + 1) ∧
      d ≤ st.unprocessed.length + 1 := by
  induction h with
  | found => exact ⟨rfl, two_le_pow _, by omega⟩
  | notMinimal => exact ⟨rfl, two_le_pow _, by omega⟩
  | done => exact ⟨rfl, two_le_pow _, by omega⟩
  | cut h hu h₁ hs ih =>
    obtain ⟨e, h2, h3⟩ := ih
    dsimp only at e h2 h3
    rw [hu, List.length_cons]
    exact ⟨by rw [e], pow_step_one h2, by omega⟩
  | both h hu h₁ hs h₂ ih ih' =>
    obtain ⟨e, h2, h3⟩ := ih
    obtain ⟨e', h2', h3'⟩ := ih'
    dsimp only at e h2 h3 e' h2' h3'
    rw [e] at h2' h3' e'
    rw [hu, List.length_cons]
    exact ⟨by rw [e'], pow_step h2 h2', by omega⟩

theorem Spec.MbRun.eq {f : Fbas} {ch : Bool} {st st' : MbState} {c d : ℕ} (h : MbRun f ch st st' c d) :
    ∀ fuel, st.unprocessed.length < fuel → mbStep f fuel ch st = st' := by
  induction h with
  | found h hm =>
    rintro (_ | fuel) hf
    · omega
    · rw [mbStep, if_pos (mb_test.2 ⟨rfl, h⟩), if_pos hm]
  | notMinimal h hm =>
    rintro (_ | fuel) hf
    · omega
    · rw [mbStep, if_pos (mb_test.2 ⟨rfl, h⟩), if_neg hm]
  | done h hu =>
    rintro (_ | fuel) hf
    · omega
    · rw [mbStep, if_neg (mt mb_test.1 h), hu]
  | cut h hu h₁ hs ih =>
    rintro (_ | fuel) hf
    · omega
    · rw [hu, List.length_cons] at hf
      rw [mbStep, if_neg (mt mb_test.1 h), hu]
      dsimp only
      rw [ih fuel (by dsimp only; omega), if_neg (mt isBlockedSet_iff.1 hs)]
  | both h hu h₁ hs h₂ ih ih' =>
    have e := h₁.bounds.1
    dsimp only at e
    rintro (_ | fuel) hf
    · omega
    · rw [hu, List.length_cons] at hf
      rw [mbStep, if_neg (mt mb_test.1 h), hu]
      dsimp only
      rw [ih fuel (by dsimp only; omega), if_pos (isBlockedSet_iff.2 hs),
        ih' fuel (by dsimp only; rw [e]; omega)]

theorem exists_mbRun (f : Fbas) (fuel : ℕ) : ∀ (ch : Bool) (st : MbState), st.unprocessed.length < fuel →
    ∃ st' c d, MbRun f ch st st' c d := by
  induction fuel with
  | zero => intro ch st h; omega
  | succ fuel ih =>
    intro ch st h
    by_cases ht : ch = true ∧ NoQuorumIn f st.remaining
    · obtain ⟨rfl, hq⟩ := ht
      by_cases hm : isMinimalForBlockingSetPre f st.selection st.remaining = true
      · exact ⟨_, _, _, .found hq hm⟩
      · exact ⟨_, _, _, .notMinimal hq hm⟩
    · cases hu : st.unprocessed with
      | nil => exact ⟨_, _, _, .done ht hu⟩
      | cons x rest =>
        rw [hu, List.length_cons] at h
        obtain ⟨st₁, c, d, h₁⟩ := ih true
          ⟨rest, insert x st.selection, st.remaining.erase x, st.maxRemaining, st.found⟩
          (by dsimp only; omega)
        by_cases hs : NoQuorumIn f (insert x st₁.maxRemaining)
        · have e := h₁.bounds.1
          dsimp only at e
          obtain ⟨st₂, c', d', h₂⟩ := ih false
            ⟨st₁.unprocessed, st₁.selection.erase x, insert x st₁.remaining, insert x st₁.maxRemaining,
              st₁.found⟩ (by dsimp only; rw [e]; omega)
          exact ⟨_, _, _, .both ht hu h₁ hs h₂⟩
        · exact ⟨_, _, _, .cut ht hu h₁ hs⟩

/-- Between calls: nodes to be processed are different, remaining and neither selected nor rejected. -/
structure MbFresh (st : MbState) : Prop where
  nodup : st.unprocessed.Nodup
  fresh : ∀ x ∈ st.unprocessed, x ∉ st.selection ∧ x ∈ st.remaining ∧ x ∉ st.maxRemaining

theorem Spec.MbRun.restores {f : Fbas} {ch : Bool} {st st' : MbState} {c d : ℕ}
    (h : MbRun f ch st st' c d) (hf : MbFresh st) :
    ∃ new, st' = { st with found := st.found ++ new } ∧ new.length ≤ 2 ^ st.unprocessed.length := by
  induction h with
  | found h => exact ⟨_, rfl, Nat.one_le_two_pow⟩
  | notMinimal h hm => exact ⟨[], by rw [List.append_nil], Nat.zero_le _⟩
  | done h hu => exact ⟨[], by rw [List.append_nil], Nat.zero_le _⟩
  | @cut ch st st₁ x rest c d h hu h₁ hs ih =>
    obtain ⟨hn, hfr⟩ := hf
    rw [hu] at hn hfr
    obtain ⟨hx, hr⟩ := List.nodup_cons.1 hn
    have hne : ∀ y ∈ rest, y ≠ x := fun y hy he => hx (he ▸ hy)
    obtain ⟨new, rfl, hl⟩ := ih ⟨hr, fun y hy => by
      obtain ⟨a1, a2, a3⟩ := hfr y (List.mem_cons_of_mem _ hy)
      exact ⟨by simp [hne y hy, a1], Finset.mem_erase.2 ⟨hne y hy, a2⟩, a3⟩⟩
    obtain ⟨h1, h2, h3⟩ := hfr x (by simp)
    refine ⟨new, ?_, ?_⟩
    · dsimp only
      rw [Finset.erase_insert h1, Finset.insert_erase h2, Finset.erase_insert h3, ← hu]
    · dsimp only at hl
      rw [hu, List.length_cons, pow_succ]; omega
  | @both ch st st₁ st₂ x rest c d c' d' h hu h₁ hs h₂ ih ih' =>
    obtain ⟨hn, hfr⟩ := hf
    rw [hu] at hn hfr
    obtain ⟨hx, hr⟩ := List.nodup_cons.1 hn
    have hne : ∀ y ∈ rest, y ≠ x := fun y hy he => hx (he ▸ hy)
    obtain ⟨new, rfl, hl⟩ := ih ⟨hr, fun y hy => by
      obtain ⟨a1, a2, a3⟩ := hfr y (List.mem_cons_of_mem _ hy)
      exact ⟨by simp [hne y hy, a1], Finset.mem_erase.2 ⟨hne y hy, a2⟩, a3⟩⟩
    obtain ⟨h1, h2, h3⟩ := hfr x (by simp)
    dsimp only at ih' hl
    rw [Finset.erase_insert h1, Finset.insert_erase h2] at ih'
    obtain ⟨new', rfl, hl'⟩ := ih' ⟨hr, fun y hy => by
      obtain ⟨a1, a2, a3⟩ := hfr y (List.mem_cons_of_mem _ hy)
      exact ⟨a1, a2, by simp [hne y hy, a3]⟩⟩
    refine ⟨new ++ new', ?_, ?_⟩
    · dsimp only
      rw [Finset.erase_insert h3, ← hu, List.append_assoc]
    · rw [hu, List.length_cons, List.length_append, pow_succ]; omega

/-! ## Minimal splitting sets -/

theorem ms_test {f : Fbas} {ch : Bool} {S : NodeSet} {parts : List NodeSet} :
    (ch && isQuorumIntersection f S parts) = true ↔ ch = true ∧ isQuorumIntersection f S parts = true := by
  rw [Bool.and_eq_true]

theorem Spec.MsRun.bounds {f : Fbas} {parts : List NodeSet} {ch : Bool} {st st' : MsState} {c d : ℕ}
    (h : MsRun f parts ch st st' c d) :
    st'.unprocessed = st.unprocessed ∧ c + 1 ≤ 2 ^ (st.unprocessed.length + 1) ∧
      d ≤ st.unprocessed.length + 1 := by
  induction h with
  | few => exact ⟨rfl, two_le_pow _, by omega⟩
  | found => exact ⟨rfl, two_le_pow _, by omega⟩
  | done => exact ⟨rfl, two_le_pow _, by omega⟩
  | cut hp h hu h₁ hs ih =>
    obtain ⟨e, h2, h3⟩ := ih
    dsimp only at e h2 h3
    rw [hu, List.length_cons]
    exact ⟨by rw [e], pow_step_one h2, by omega⟩
  | both hp h hu h₁ hs h₂ ih ih' =>
    obtain ⟨e, h2, h3⟩ := ih
    obtain ⟨e', h2', h3'⟩ := ih'
    dsimp only at e h2 h3 e' h2' h3'
    rw [e] at h2' h3' e'
    rw [hu, List.length_cons]
    exact ⟨by rw [e'], pow_step h2 h2', by omega⟩

theorem Spec.MsRun.eq {f : Fbas} {parts : List NodeSet} {ch : Bool} {st st' : MsState} {c d : ℕ}
    (h : MsRun f parts ch st st' c d) :
    ∀ fuel, st.unprocessed.length < fuel → msStep f fuel parts ch st = st' := by
  induction h with
  | few h =>
    rintro (_ | fuel) hf
    · omega
    · rw [msStep, if_pos h]
  | found hp h =>
    rintro (_ | fuel) hf
    · omega
    · rw [msStep, if_neg (by omega), if_pos (ms_test.2 ⟨rfl, h⟩)]
  | done hp h hu =>
    rintro (_ | fuel) hf
    · omega
    · rw [msStep, if_neg (by omega), if_neg (mt ms_test.1 h), hu]
  | cut hp h hu h₁ hs ih =>
    rintro (_ | fuel) hf
    · omega
    · rw [hu, List.length_cons] at hf
      rw [msStep, if_neg (by omega), if_neg (mt ms_test.1 h), hu]
      dsimp only
      rw [ih fuel (by dsimp only; omega), if_neg hs]
  | both hp h hu h₁ hs h₂ ih ih' =>
    have e := h₁.bounds.1
    dsimp only at e
    rintro (_ | fuel) hf
    · omega
    · rw [hu, List.length_cons] at hf
      rw [msStep, if_neg (by omega), if_neg (mt ms_test.1 h), hu]
      dsimp only
      rw [ih fuel (by dsimp only; omega), if_pos hs, ih' fuel (by dsimp only; rw [e]; omega)]

theorem exists_msRun (f : Fbas) (fuel : ℕ) : ∀ (parts : List NodeSet) (ch : Bool) (st : MsState),
    st.unprocessed.length < fuel → ∃ st' c d, MsRun f parts ch st st' c d := by
  induction fuel with
  | zero => intro parts ch st h; omega
  | succ fuel ih =>
    intro parts ch st h
    by_cases hp : parts.length < 2
    · exact ⟨_, _, _, .few hp⟩
    have hp : 2 ≤ parts.length := by omega
    by_cases ht : ch = true ∧ isQuorumIntersection f st.selection parts = true
    · obtain ⟨rfl, hq⟩ := ht
      exact ⟨_, _, _, .found hp hq⟩
    · cases hu : st.unprocessed with
      | nil => exact ⟨_, _, _, .done hp ht hu⟩
      | cons x rest =>
        rw [hu, List.length_cons] at h
        obtain ⟨st₁, c, d, h₁⟩ := ih
          ((parts.filter (fun q => decide (x ∈ q))).map (fun q => q.erase x)) true
          ⟨rest, insert x st.selection, st.available, st.found⟩ (by dsimp only; omega)
        by_cases hs : hasPotential f (st₁.selection.erase x) (st₁.available.erase x) = true
        · have e := h₁.bounds.1
          dsimp only at e
          obtain ⟨st₂, c', d', h₂⟩ := ih
            (parts.filter (fun (q : NodeSet) => !decide (Disjoint q (st₁.available.erase x)))) false
            ⟨st₁.unprocessed, st₁.selection.erase x, st₁.available.erase x, st₁.found⟩
            (by dsimp only; rw [e]; omega)
          exact ⟨_, _, _, .both hp ht hu h₁ hs h₂⟩
        · exact ⟨_, _, _, .cut hp ht hu h₁ hs⟩

/-- Between calls: nodes to be processed are different, available and not selected. -/
structure MsFresh (st : MsState) : Prop where
  nodup : st.unprocessed.Nodup
  fresh : ∀ x ∈ st.unprocessed, x ∉ st.selection ∧ x ∈ st.available

theorem Spec.MsRun.restores {f : Fbas} {parts : List NodeSet} {ch : Bool} {st st' : MsState} {c d : ℕ}
    (h : MsRun f parts ch st st' c d) (hf : MsFresh st) :
    ∃ new, st' = { st with found := st.found ++ new } ∧ new.length ≤ 2 ^ st.unprocessed.length := by
  induction h with
  | few h => exact ⟨[], by rw [List.append_nil], Nat.zero_le _⟩
  | found hp h => exact ⟨_, rfl, Nat.one_le_two_pow⟩
  | done hp h hu => exact ⟨[], by rw [List.append_nil], Nat.zero_le _⟩
  | @cut parts ch st st₁ x rest c d hp h hu h₁ hs ih =>
    obtain ⟨hn, hfr⟩ := hf
    rw [hu] at hn hfr
    obtain ⟨hx, hr⟩ := List.nodup_cons.1 hn
    have hne : ∀ y ∈ rest, y ≠ x := fun y hy he => hx (he ▸ hy)
    obtain ⟨new, rfl, hl⟩ := ih ⟨hr, fun y hy => by
      obtain ⟨a1, a2⟩ := hfr y (List.mem_cons_of_mem _ hy)
      exact ⟨by simp [hne y hy, a1], a2⟩⟩
    obtain ⟨h1, h2⟩ := hfr x (by simp)
    refine ⟨new, ?_, ?_⟩
    · dsimp only
      rw [Finset.erase_insert h1, Finset.insert_erase h2, ← hu]
    · dsimp only at hl
      rw [hu, List.length_cons, pow_succ]; omega
  | @both parts ch st st₁ st₂ x rest c d c' d' hp h hu h₁ hs h₂ ih ih' =>
    obtain ⟨hn, hfr⟩ := hf
    rw [hu] at hn hfr
    obtain ⟨hx, hr⟩ := List.nodup_cons.1 hn
    have hne : ∀ y ∈ rest, y ≠ x := fun y hy he => hx (he ▸ hy)
    obtain ⟨new, rfl, hl⟩ := ih ⟨hr, fun y hy => by
      obtain ⟨a1, a2⟩ := hfr y (List.mem_cons_of_mem _ hy)
      exact ⟨by simp [hne y hy, a1], a2⟩⟩
    obtain ⟨h1, h2⟩ := hfr x (by simp)
    dsimp only at ih' hl
    rw [Finset.erase_insert h1] at ih'
    obtain ⟨new', rfl, hl'⟩ := ih' ⟨hr, fun y hy => by
      obtain ⟨a1, a2⟩ := hfr y (List.mem_cons_of_mem _ hy)
      exact ⟨a1, Finset.mem_erase.2 ⟨hne y hy, a2⟩⟩⟩
    refine ⟨new ++ new', ?_, ?_⟩
    · dsimp only
      rw [Finset.insert_erase h2, ← hu, List.append_assoc]
    · rw [hu, List.length_cons, List.length_append, pow_succ]; omega

/-! ## Nonintersecting quorums -/

theorem noQuorumIn_iff {f : Fbas} {S : NodeSet} :
    NoQuorumIn f S ↔ (f.findSatisfiableNodes S).1 = ∅ := by
  rw [← Finset.not_nonempty_iff_eq_empty, (f.findSatisfiableNodes_spec S).1.nonempty_iff]
  exact ⟨fun h ⟨Q, hQ, hs⟩ => h Q hQ hs, fun h Q hQ hs => h ⟨Q, hQ, hs⟩⟩

theorem Spec.NqRun.bounds {f : Fbas} {picks : ℕ} {ch : Bool} {st st' : NqState}
    {r : Option (NodeSet × NodeSet)} {c d : ℕ} (h : NqRun f picks ch st r st' c d) :
    (r = none → st'.unprocessed = st.unprocessed) ∧ c + 1 ≤ 2 ^ (st.unprocessed.length + 1) ∧
      d ≤ st.unprocessed.length + 1 := by
  induction h with
  | found => exact ⟨fun _ => rfl, two_le_pow _, by omega⟩
  | intersects => exact ⟨fun _ => rfl, two_le_pow _, by omega⟩
  | stop => exact ⟨fun _ => rfl, two_le_pow _, by omega⟩
  | done => exact ⟨fun _ => rfl, two_le_pow _, by omega⟩
  | early h hu h₁ ih =>
    obtain ⟨-, h2, h3⟩ := ih
    dsimp only at h2 h3
    rw [hu, List.length_cons]
    exact ⟨nofun, pow_step_one h2, by omega⟩
  | cut h hu h₁ hs ih =>
    obtain ⟨e, h2, h3⟩ := ih
    replace e := e rfl
    dsimp only at e h2 h3
    rw [hu, List.length_cons]
    exact ⟨fun _ => by rw [e], pow_step_one h2, by omega⟩
  | late h hu h₁ hs h₂ ih ih' =>
    obtain ⟨e, h2, h3⟩ := ih
    obtain ⟨-, h2', h3'⟩ := ih'
    replace e := e rfl
    dsimp only at e h2 h3 h2' h3'
    rw [e] at h2' h3'
    rw [hu, List.length_cons]
    exact ⟨nofun, pow_step h2 h2', by omega⟩
  | both h hu h₁ hs h₂ ih ih' =>
    obtain ⟨e, h2, h3⟩ := ih
    obtain ⟨e', h2', h3'⟩ := ih'
    replace e := e rfl
    replace e' := e' rfl
    dsimp only at e h2 h3 e' h2' h3'
    rw [e] at h2' h3' e'
    rw [hu, List.length_cons]
    exact ⟨fun _ => by rw [e'], pow_step h2 h2', by omega⟩

theorem Spec.NqRun.eq {f : Fbas} {picks : ℕ} {ch : Bool} {st st' : NqState}
    {r : Option (NodeSet × NodeSet)} {c d : ℕ} (h : NqRun f picks ch st r st' c d) :
    ∀ fuel, st.unprocessed.length < fuel → nqStep f fuel picks ch st = (r, st') := by
  induction h with
  | found h hs =>
    rintro (_ | fuel) hf
    · omega
    · rw [nqStep, if_pos (mq_test.2 ⟨rfl, h⟩), if_pos (Finset.nonempty_iff_ne_empty.1 hs)]
  | intersects h hs =>
    rintro (_ | fuel) hf
    · omega
    · rw [nqStep, if_pos (mq_test.2 ⟨rfl, h⟩), if_neg (fun hn => hn (noQuorumIn_iff.1 hs))]
  | stop h =>
    rintro (_ | fuel) hf
    · omega
    · rw [nqStep, if_neg (mt mq_test.1 h), if_pos rfl]
  | done h hu =>
    rintro (_ | fuel) hf
    · omega
    · rw [nqStep, if_neg (mt mq_test.1 h), hu]
      exact ite_self _
  | early h hu h₁ ih =>
    rintro (_ | fuel) hf
    · omega
    · rw [hu, List.length_cons] at hf
      rw [nqStep, if_neg (mt mq_test.1 h), if_neg (by omega), hu]
      dsimp only
      rw [Nat.add_sub_cancel, ih fuel (by dsimp only; omega)]
  | cut h hu h₁ hs ih =>
    rintro (_ | fuel) hf
    · omega
    · rw [hu, List.length_cons] at hf
      rw [nqStep, if_neg (mt mq_test.1 h), if_neg (by omega), hu]
      dsimp only
      rw [Nat.add_sub_cancel, ih fuel (by dsimp only; omega)]
      dsimp only
      rw [if_neg (mt selectionSatisfiable_iff.1 hs)]
  | late h hu h₁ hs h₂ ih ih' =>
    have e := h₁.bounds.1 rfl
    dsimp only at e
    rintro (_ | fuel) hf
    · omega
    · rw [hu, List.length_cons] at hf
      rw [nqStep, if_neg (mt mq_test.1 h), if_neg (by omega), hu]
      dsimp only
      rw [Nat.add_sub_cancel, ih fuel (by dsimp only; omega)]
      dsimp only
      rw [if_pos (selectionSatisfiable_iff.2 hs), ih' fuel (by dsimp only; rw [e]; omega)]
  | both h hu h₁ hs h₂ ih ih' =>
    have e := h₁.bounds.1 rfl
    dsimp only at e
    rintro (_ | fuel) hf
    · omega
    · rw [hu, List.length_cons] at hf
      rw [nqStep, if_neg (mt mq_test.1 h), if_neg (by omega), hu]
      dsimp only
      rw [Nat.add_sub_cancel, ih fuel (by dsimp only; omega)]
      dsimp only
      rw [if_pos (selectionSatisfiable_iff.2 hs), ih' fuel (by dsimp only; rw [e]; omega)]

theorem exists_nqRun (f : Fbas) (fuel : ℕ) : ∀ (picks : ℕ) (ch : Bool) (st : NqState),
    st.unprocessed.length < fuel → ∃ r st' c d, NqRun f picks ch st r st' c d := by
  induction fuel with
  | zero => intro picks ch st h; omega
  | succ fuel ih =>
    intro picks ch st h
    by_cases ht : ch = true ∧ IsQuorum f st.selection
    · obtain ⟨rfl, hq⟩ := ht
      by_cases hm : NoQuorumIn f st.antiselection
      · exact ⟨_, _, _, _, .intersects hq hm⟩
      · exact ⟨_, _, _, _, .found hq (Finset.nonempty_iff_ne_empty.2 (mt noQuorumIn_iff.2 hm))⟩
    · rcases picks with _ | picks
      · exact ⟨_, _, _, _, .stop ht⟩
      cases hu : st.unprocessed with
      | nil => exact ⟨_, _, _, _, .done ht hu⟩
      | cons x rest =>
        rw [hu, List.length_cons] at h
        obtain ⟨r, st₁, c, d, h₁⟩ := ih picks true
          ⟨rest, insert x st.selection, st.available, st.antiselection.erase x⟩ (by dsimp only; omega)
        rcases r with _ | r
        · by_cases hs : Supported f (st₁.selection.erase x) (st₁.available.erase x)
          · have e := h₁.bounds.1 rfl
            dsimp only at e
            obtain ⟨r, st₂, c', d', h₂⟩ := ih (picks + 1) false ⟨st₁.unprocessed, st₁.selection.erase x,
              st₁.available.erase x, insert x st₁.antiselection⟩ (by dsimp only; rw [e]; omega)
            rcases r with _ | r
            · exact ⟨_, _, _, _, .both ht hu h₁ hs h₂⟩
            · exact ⟨_, _, _, _, .late ht hu h₁ hs h₂⟩
          · exact ⟨_, _, _, _, .cut ht hu h₁ hs⟩
        · exact ⟨_, _, _, _, .early ht hu h₁⟩

/-- Between calls: nodes to be processed are different, available, not selected and available for the
other quorum. -/
structure NqFresh (st : NqState) : Prop where
  nodup : st.unprocessed.Nodup
  fresh : ∀ x ∈ st.unprocessed, x ∉ st.selection ∧ x ∈ st.available ∧ x ∈ st.antiselection

theorem Spec.NqRun.restores {f : Fbas} {picks : ℕ} {ch : Bool} {st st' : NqState}
    {r : Option (NodeSet × NodeSet)} {c d : ℕ} (h : NqRun f picks ch st r st' c d) (hf : NqFresh st)
    (hr : r = none) : st' = st := by
  induction h with
  | found h hs => cases hr
  | intersects h hs => rfl
  | stop h => rfl
  | done h hu => rfl
  | early h hu h₁ ih => cases hr
  | late h hu h₁ hs h₂ ih ih' => cases hr
  | @cut picks ch st st₁ x rest c d h hu h₁ hs ih =>
    obtain ⟨hn, hfr⟩ := hf
    rw [hu] at hn hfr
    obtain ⟨hx, hr⟩ := List.nodup_cons.1 hn
    have hne : ∀ y ∈ rest, y ≠ x := fun y hy he => hx (he ▸ hy)
    obtain rfl := ih ⟨hr, fun y hy => by
      obtain ⟨a1, a2, a3⟩ := hfr y (List.mem_cons_of_mem _ hy)
      exact ⟨by simp [hne y hy, a1], a2, Finset.mem_erase.2 ⟨hne y hy, a3⟩⟩⟩ rfl
    obtain ⟨h1, h2, h3⟩ := hfr x (by simp)
    dsimp only
    rw [Finset.erase_insert h1, Finset.insert_erase h2, Finset.insert_erase h3, ← hu]
  | @both picks ch st st₁ st₂ x rest c d c' d' h hu h₁ hs h₂ ih ih' =>
    obtain ⟨hn, hfr⟩ := hf
    rw [hu] at hn hfr
    obtain ⟨hx, hr⟩ := List.nodup_cons.1 hn
    have hne : ∀ y ∈ rest, y ≠ x := fun y hy he => hx (he ▸ hy)
    obtain rfl := ih ⟨hr, fun y hy => by
      obtain ⟨a1, a2, a3⟩ := hfr y (List.mem_cons_of_mem _ hy)
      exact ⟨by simp [hne y hy, a1], a2, Finset.mem_erase.2 ⟨hne y hy, a3⟩⟩⟩ rfl
    obtain ⟨h1, h2, h3⟩ := hfr x (by simp)
    dsimp only at ih'
    rw [Finset.erase_insert h1, Finset.insert_erase h3] at ih'
    obtain rfl := ih' ⟨hr, fun y hy => by
      obtain ⟨a1, a2, a3⟩ := hfr y (List.mem_cons_of_mem _ hy)
      exact ⟨a1, Finset.mem_erase.2 ⟨hne y hy, a2⟩, a3⟩⟩ rfl
    dsimp only
    rw [Finset.insert_erase h2, ← hu]

/-! ## Loops that remove nodes -/

theorem Spec.Removal.max {f : Fbas} {S S' : NodeSet} {n : ℕ} (h : Removal f S S' n) :
    Supported f S' S' ∧ S' ⊆ S ∧ (∀ T ⊆ S, Supported f T T → T ⊆ S') ∧ S'.card + n = S.card := by
  induction h with
  | done h => exact ⟨h, Finset.Subset.rfl, fun T hT _ => hT, rfl⟩
  | @next S S' x n hx hs h ih =>
    obtain ⟨h1, h2, h3, h4⟩ := ih
    refine ⟨h1, h2.trans (Finset.erase_subset _ _), fun T hT hTT => h3 T ?_ hTT, ?_⟩
    · refine Finset.subset_erase.2 ⟨hT, fun hxT => hs ((hTT x hxT).mono hT)⟩
    · rw [Finset.card_erase_of_mem hx] at h4
      have := Finset.card_pos.2 ⟨x, hx⟩
      omega

theorem exists_removal (f : Fbas) (S : NodeSet) : ∃ S' n, Removal f S S' n := by
  induction h : S.card generalizing S with
  | zero =>
    obtain rfl := Finset.card_eq_zero.1 h
    exact ⟨_, _, .done (by intro x hx; simp at hx)⟩
  | succ k ih =>
    by_cases hs : Supported f S S
    · exact ⟨_, _, .done hs⟩
    · unfold Supported at hs
      push Not at hs
      obtain ⟨x, hx, hs⟩ := hs
      obtain ⟨S', n, hr⟩ := ih (S.erase x) (by rw [Finset.card_erase_of_mem hx, h]; omega)
      exact ⟨_, _, .next hx hs hr⟩

theorem Spec.Removal.unique {f : Fbas} {S S₁ S₂ : NodeSet} {n₁ n₂ : ℕ} (h₁ : Removal f S S₁ n₁)
    (h₂ : Removal f S S₂ n₂) : S₁ = S₂ ∧ n₁ = n₂ := by
  obtain ⟨a1, a2, a3, a4⟩ := h₁.max
  obtain ⟨b1, b2, b3, b4⟩ := h₂.max
  have e : S₁ = S₂ := (b3 _ a2 a1).antisymm (a3 _ b2 b1)
  subst e
  exact ⟨rfl, by omega⟩

end FA
