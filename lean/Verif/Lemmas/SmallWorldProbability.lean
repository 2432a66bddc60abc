import Verif.Lemmas.Rewire
import Verif.Lemmas.Probability
import Verif.SpecSmallWorld
import Mathlib.Tactic.Linarith

/-!
# Lemmas about the probabilities of networks of Watts and Strogatz
-/

namespace FA
open Spec Graph

theorem probability_coin {L N b : ℕ} (hL : 0 < L) (hb : b ≤ L) {P Q Q' : List ℕ → Prop}
    (hP : ∀ a r, P (a :: r) ↔ if a < b then Q r else Q' r) :
    Probability L (N + 1) P =
      (b : ℚ) / L * Probability L N Q + (1 - (b : ℚ) / L) * Probability L N Q' := by
  rw [probability_succ]
  have h1 : ∀ a ∈ Finset.range L, Probability L N (fun r => P (a :: r)) =
      if a < b then Probability L N Q else Probability L N Q' := by
    intro a _
    split
    · rename_i h
      exact probability_congr (fun r _ _ => by rw [hP, if_pos h])
    · rename_i h
      exact probability_congr (fun r _ _ => by rw [hP, if_neg h])
  rw [Finset.sum_congr rfl h1, Finset.sum_ite, Finset.sum_const, Finset.sum_const]
  have h2 : ((Finset.range L).filter (fun a => a < b)).card = b := by
    rw [show (Finset.range L).filter (fun a => a < b) = Finset.range b by
      ext a; rw [Finset.mem_filter, Finset.mem_range, Finset.mem_range]; omega, Finset.card_range]
  have h3 : ((Finset.range L).filter (fun a => ¬ a < b)).card = L - b := by
    have := Finset.card_filter_add_card_filter_not (s := Finset.range L) (fun a => a < b)
    rw [h2, Finset.card_range] at this
    omega
  rw [h2, h3, nsmul_eq_mul, nsmul_eq_mul, Nat.cast_sub hb]
  have hL' : (L : ℚ) ≠ 0 := by exact_mod_cast hL.ne'
  field_simp

theorem probability_tail {L N : ℕ} (hL : 0 < L) {P Q : List ℕ → Prop} (hP : ∀ a r, P (a :: r) ↔ Q r) :
    Probability L (N + 1) P = Probability L N Q := by
  rw [probability_coin (b := 0) hL (Nat.zero_le _) (Q := Q) (Q' := Q) (fun a r => by rw [hP, ite_self])]
  rw [Nat.cast_zero, zero_div, zero_mul, sub_zero, one_mul, zero_add]

theorem selectStep_true {R : Rand} {m : List (List Bool)} {beta : ℚ} {i : ℕ} {acc : List NodeId} {s s' : R.State}
    {j : NodeId} {b : Bool} (h : getM m i j = .ok true) (hg : R.genBool s beta = (b, s')) :
    selectStep R m beta i (acc, s) j = .ok (if b then acc ++ [j] else acc, s') := by
  unfold selectStep
  rw [h]
  dsimp only
  rw [hg]
  cases b <;> rfl

theorem afterCoins_spec {L b n M : ℕ} (hL : 0 < L) (hb : b ≤ L) {m : List (List Bool)} (hm : Square n m) {i : ℕ}
    (hi : i < n) {P : List ℕ → List ℕ → Prop} {K : List ℕ → ℚ} {l : List ℕ} (hl : ∀ j ∈ l, j < n) {acc : List ℕ}
    (hK : ∀ t, t.Sublist l → (∀ j ∈ t, linksOf m i j) → ∀ N, M ≤ N → Probability L N (P (acc ++ t)) = K (acc ++ t))
    {N : ℕ} (hN : l.length + M ≤ N) :
    Probability L N (fun r => ∃ js s', foldE (selectStep (lottery L) m ((b : ℚ) / L) i) (acc, r) l = .ok (js, s') ∧
      P js s') = AfterCoins ((b : ℚ) / L) (linksOf m i) K acc l := by
  induction l generalizing acc N with
  | nil =>
    rw [AfterCoins]
    have := hK [] (List.Sublist.refl _) (by simp) N (by simpa using hN)
    rw [List.append_nil] at this
    rw [← this]
    refine probability_congr (fun r _ _ => ⟨?_, fun h => ⟨acc, r, rfl, h⟩⟩)
    rintro ⟨js, s', h1, h2⟩
    obtain ⟨rfl, rfl⟩ := Prod.mk.inj (Except.ok.inj h1)
    exact h2
  | cons j l ih =>
    have hl' : ∀ x ∈ l, x < n := fun x hx => hl x (List.mem_cons_of_mem _ hx)
    rw [List.length_cons] at hN
    have hget := getM_ok hm hi (hl j List.mem_cons_self)
    rw [AfterCoins]
    by_cases hp : linksOf m i j
    · rw [if_pos hp]
      have hc : cell m i j = true := hp
      rw [hc] at hget
      obtain ⟨N, rfl⟩ : ∃ N', N = N' + 1 := ⟨N - 1, by omega⟩
      rw [← ih hl' (acc := acc ++ [j]) (N := N) (by
          intro t h1 h2 N' hN'
          have := hK (j :: t) (h1.cons_cons j) (by
            intro x hx
            rcases List.mem_cons.1 hx with rfl | hx
            · exact hp
            · exact h2 x hx) N' hN'
          rw [List.append_assoc]; exact this) (by omega),
        ← ih hl' (acc := acc) (N := N) (fun t h1 h2 => hK t (h1.cons j) h2) (by omega)]
      refine probability_coin hL hb (fun a r => ?_)
      have hL' : (L : ℚ) ≠ 0 := by exact_mod_cast hL.ne'
      have hstep : selectStep (lottery L) m ((b : ℚ) / L) i (acc, (a :: r : List ℕ)) j =
          if a < b then .ok (acc ++ [j], r) else .ok (acc, r) := by
        have hg : (lottery L).genBool (a :: r : List ℕ) ((b : ℚ) / L) = (decide (a < b), r) := by
          show (decide ((a : ℚ) < (b : ℚ) / L * L), r) = _
          rw [div_mul_cancel₀ _ hL']
          simp only [Nat.cast_lt]
        rw [selectStep_true hget hg]
        by_cases h : a < b
        · rw [if_pos h, decide_eq_true h]; rfl
        · rw [if_neg h, decide_eq_false h]; rfl
      rw [foldE, hstep]
      by_cases h : a < b
      · rw [if_pos h, if_pos h]
      · rw [if_neg h, if_neg h]
    · rw [if_neg hp]
      have hc : cell m i j = false := Bool.eq_false_iff.2 hp
      rw [hc] at hget
      rw [← ih hl' (acc := acc) (N := N) (fun t h1 h2 => hK t (h1.cons j) h2) (by omega)]
      refine probability_congr (fun r _ _ => ?_)
      rw [foldE, selectStep, hget]

theorem mem_unlinked {n i : ℕ} {E : ℕ → ℕ → Prop} {w : ℕ} : w ∈ Unlinked n i E ↔ w < n ∧ w ≠ i ∧ ¬ E i w := by
  classical
  unfold Unlinked
  rw [Finset.mem_filter, Finset.mem_range]

theorem RwInv.unlinked {R : Rand} {n c i : ℕ} {st : Rewiring R} (h : RwInv n c st) (hi : i < n) :
    (row st.targets i).toFinset = Unlinked n i (linksOf st.matrix) := by
  ext w
  rw [List.mem_toFinset, h.targets i hi, mem_unlinked]
  unfold linksOf
  rw [Bool.not_eq_true]

theorem RwInv.setRng {R : Rand} {n c : ℕ} {st : Rewiring R} (h : RwInv n c st) (s : R.State) :
    RwInv n c { st with rng := s } :=
  ⟨h.square, h.symm, h.loop, h.count, h.length, h.targets, h.nodup⟩

/-- What `rewireOne` does with the matrix and the free end nodes if `w` was chosen. -/
def movedTo {R : Rand} (i : ℕ) (st : Rewiring R) (j w : NodeId) :
    Except Panic (List (List Bool) × List (List NodeId)) :=
  match setSym st.matrix i j false with
  | .error e => .error e
  | .ok m1 =>
    match setSym m1 i w true with
    | .error e => .error e
    | .ok m2 =>
      match modifyE st.targets i (· ++ [j]) with
      | .error e => .error e
      | .ok t1 =>
        match modifyE t1 j (· ++ [i]) with
        | .error e => .error e
        | .ok t2 =>
          match modifyE t2 i (fun l => l.filter (fun x => x ≠ w)) with
          | .error e => .error e
          | .ok t3 =>
            match modifyE t3 w (fun l => l.filter (fun x => x ≠ i)) with
            | .error e => .error e
            | .ok t4 => .ok (m2, t4)

theorem rewireOne_some {R : Rand} {i : ℕ} {st : Rewiring R} {j w : NodeId} {ti : List NodeId} {s s' : R.State}
    (ht : getE st.targets i = .ok ti) (hc : R.choose s ti = (some w, s')) :
    rewireOne R i { st with rng := s } j = (movedTo i st j w).map (fun p => ⟨p.1, p.2, s'⟩) := by
  unfold rewireOne movedTo
  dsimp only
  rw [ht]
  dsimp only
  rw [hc]
  dsimp only
  cases setSym st.matrix i j false with
  | error e => rfl
  | ok m1 =>
    dsimp only
    cases setSym m1 i w true with
    | error e => rfl
    | ok m2 =>
      dsimp only
      cases modifyE st.targets i (· ++ [j]) with
      | error e => rfl
      | ok t1 =>
        dsimp only
        cases modifyE t1 j (· ++ [i]) with
        | error e => rfl
        | ok t2 =>
          dsimp only
          cases modifyE t2 i (fun l => l.filter (fun x => x ≠ w)) with
          | error e => rfl
          | ok t3 =>
            dsimp only
            cases modifyE t3 w (fun l => l.filter (fun x => x ≠ i)) with
            | error e => rfl
            | ok t4 => rfl

theorem rewireOne_none {R : Rand} {i : ℕ} {st : Rewiring R} {j : NodeId} {ti : List NodeId} {s s' : R.State}
    (ht : getE st.targets i = .ok ti) (hc : R.choose s ti = (none, s')) :
    rewireOne R i { st with rng := s } j = .ok { st with rng := s' } := by
  unfold rewireOne
  dsimp only
  rw [ht]
  dsimp only
  rw [hc]

theorem afterMoves_spec {L n c i M : ℕ} (hL : 0 < L) (hd : ∀ d, 0 < d → d < n → d ∣ L) (hi : i < n)
    {P : Rewiring (lottery L) → Prop} {K : (ℕ → ℕ → Prop) → ℚ} {js : List ℕ} (hnd : js.Nodup) (hlt : ∀ j ∈ js, j < n)
    (hK : ∀ st : Rewiring (lottery L), RwInv n c st → ∀ N, M ≤ N →
      Probability L N (fun r => P { st with rng := r }) = K (linksOf st.matrix))
    {st : Rewiring (lottery L)} (h : RwInv n c st) (hjs : ∀ j ∈ js, cell st.matrix i j = true)
    {N : ℕ} (hN : js.length + M ≤ N) :
    Probability L N (fun r => ∃ st', foldE (rewireOne (lottery L) i) { st with rng := r } js = .ok st' ∧ P st') =
      AfterMoves n i K js (linksOf st.matrix) := by
  induction js generalizing st N with
  | nil =>
    rw [AfterMoves, ← hK st h N (by simpa using hN)]
    refine probability_congr (fun r _ _ => ⟨?_, fun h => ⟨_, rfl, h⟩⟩)
    rintro ⟨st', h1, h2⟩
    obtain rfl := Except.ok.inj h1
    exact h2
  | cons j js ih =>
    obtain ⟨hn1, hn2⟩ := List.nodup_cons.1 hnd
    rw [List.length_cons] at hN
    obtain ⟨N, rfl⟩ : ∃ N', N = N' + 1 := ⟨N - 1, by omega⟩
    have hlt' : ∀ j ∈ js, j < n := fun x hx => hlt x (List.mem_cons_of_mem _ hx)
    have hone := fun s : List ℕ => (h.setRng (R := lottery L) s).one hi (hlt j List.mem_cons_self)
      (hjs j List.mem_cons_self)
    have hti : getE st.targets i = .ok (row st.targets i) := by
      rw [getE_eq_ok]
      have : i < st.targets.length := by rw [h.length]; exact hi
      simp [row, this]
    have hnext : ∀ st1 : Rewiring (lottery L), RwInv n c st1 →
        (∀ y, y ≠ j → cell st.matrix i y = true → cell st1.matrix i y = true) →
        Probability L N (fun r => ∃ st', foldE (rewireOne (lottery L) i) { st1 with rng := r } js = .ok st' ∧ P st') =
          AfterMoves n i K js (linksOf st1.matrix) := by
      intro st1 h1 h2
      exact ih hn2 hlt' h1 (fun x hx => h2 x (by rintro rfl; exact hn1 hx) (hjs x (List.mem_cons_of_mem _ hx)))
        (by omega)
    have hu := h.unlinked hi
    have hcard : (row st.targets i).length = (Unlinked n i (linksOf st.matrix)).card := by
      rw [← hu, List.toFinset_card_of_nodup (h.nodup i hi)]
    have hsum : (row st.targets i).length = ((row st.targets i).map (fun _ => 1)).sum := by simp
    have hch : ∀ (a : ℕ) (r : List ℕ), (lottery L).choose (a :: r : List ℕ) (row st.targets i) =
        (candidateAt (fun _ => 1) (a % (row st.targets i).length) (row st.targets i), r) := by
      intro a r
      rw [hsum]
      rfl
    rw [AfterMoves, ← hcard]
    by_cases h0 : (row st.targets i).length = 0
    · rw [if_pos h0, ← hnext st h (fun y _ hy => hy)]
      refine probability_tail hL (fun a r => ?_)
      have hnil := List.length_eq_zero_iff.1 h0
      have hc := hch a r
      rw [show candidateAt (fun _ => 1) (a % (row st.targets i).length) (row st.targets i) = none by rw [hnil]; rfl] at hc
      rw [foldE, rewireOne_none hti hc]
    · rw [if_neg h0]
      have hmove : ∀ w ∈ row st.targets i, ∃ st1 : Rewiring (lottery L), RwInv n c st1 ∧
          (∀ y, y ≠ j → cell st.matrix i y = true → cell st1.matrix i y = true) ∧
          linksOf st1.matrix = MoveLink i j w (linksOf st.matrix) ∧
          movedTo i st j w = .ok (st1.matrix, st1.targets) := by
        intro w hw
        have hc : flipping.choose (coins [] [w]) (row st.targets i) = (some w, coins [] []) := by
          unfold flipping coins
          dsimp only
          rw [if_pos (by simpa using hw)]
          rfl
        have hR : RwInv n c (⟨st.matrix, st.targets, coins [] [w]⟩ : Rewiring flipping) :=
          ⟨h.square, h.symm, h.loop, h.count, h.length, h.targets, h.nodup⟩
        obtain ⟨st1, h1, h2, -, h3, -, -, h6⟩ := hR.one hi (hlt j List.mem_cons_self) (hjs j List.mem_cons_self)
        dsimp only at h6
        rw [hc] at h6
        refine ⟨⟨st1.matrix, st1.targets, []⟩, ⟨h2.square, h2.symm, h2.loop, h2.count, h2.length, h2.targets, h2.nodup⟩,
          h3, linksOf_move (h6 w rfl), ?_⟩
        have h7 := rewireOne_some (R := flipping) (st := ⟨st.matrix, st.targets, coins [] [w]⟩) (j := j) hti hc
        rw [h1] at h7
        have h8 : movedTo i (⟨st.matrix, st.targets, coins [] [w]⟩ : Rewiring flipping) j w = movedTo i st j w := rfl
        rw [h8] at h7
        cases hm : movedTo i st j w with
        | error e => rw [hm] at h7; cases h7
        | ok p =>
          rw [hm] at h7
          rw [Except.ok.inj h7]
      have : Nonempty (Rewiring (lottery L)) := ⟨st⟩
      choose! g hg1 hg2 hg3 hg4 using hmove
      rw [probability_choice hL (h.nodup i hi) hsum (Nat.pos_of_ne_zero h0) (hd _ (Nat.pos_of_ne_zero h0) ?_)
        (Q := fun w r => ∃ st', foldE (rewireOne (lottery L) i) (⟨(g w).matrix, (g w).targets, r⟩ : Rewiring (lottery L)) js = .ok st' ∧ P st')
        (fun a r => ?_)]
      · rw [hu, Finset.sum_div]
        refine Finset.sum_congr rfl (fun w hw => ?_)
        rw [← hu, List.mem_toFinset] at hw
        rw [hnext _ (hg1 w hw) (hg2 w hw), hg3 w hw, Nat.cast_one, one_div, mul_comm, div_eq_mul_inv]
      · rw [hcard]
        calc (Unlinked n i (linksOf st.matrix)).card ≤ ((Finset.range n).erase i).card := by
              refine Finset.card_le_card (fun w hw => ?_)
              obtain ⟨h1, h2, -⟩ := mem_unlinked.1 hw
              exact Finset.mem_erase.2 ⟨h2, Finset.mem_range.2 h1⟩
          _ < n := by rw [Finset.card_erase_of_mem (Finset.mem_range.2 hi), Finset.card_range]; omega
      · obtain ⟨w, hw⟩ := Option.ne_none_iff_exists'.1 (candidateAt_lt (w := fun _ => 1)
          (r := a % (row st.targets i).length) (l := row st.targets i)
          (by rw [← hsum]; exact Nat.mod_lt _ (Nat.pos_of_ne_zero h0)))
        have hc := hch a r
        rw [hw] at hc
        have hmem := (candidateAt_some hw).1
        rw [foldE, rewireOne_some hti hc, hg4 w hmem, hw]
        constructor
        · intro hx; exact ⟨w, rfl, hx⟩
        · rintro ⟨w', h1, h2⟩
          obtain rfl := Option.some.inj h1
          exact h2

theorem rewireNode_eq {R : Rand} {n k : ℕ} {beta : ℚ} {st : Rewiring R} {i : ℕ} {js : List NodeId} {s' : R.State}
    (h : foldE (selectStep R st.matrix beta i) ([], st.rng) (ringTargets n k i) = .ok (js, s')) :
    rewireNode R n k beta st i = foldE (rewireOne R i) { st with rng := s' } js := by
  unfold rewireNode
  rw [selectRewired_eq, h]

theorem smallWorldChance_spec {L b n k c : ℕ} (hL : 0 < L) (hb : b ≤ L) (hd : ∀ d, 0 < d → d < n → d ∣ L)
    (hk : k ≤ n) (A : (ℕ → ℕ → Prop) → Prop) (f : ℕ) :
    ∀ i, i + f = n → ∀ st : Rewiring (lottery L), RwInv n c st → ∀ N, f * (2 * (k / 2)) ≤ N →
      Probability L N (fun r => ∃ st', foldE (rewireNode (lottery L) n k ((b : ℚ) / L)) { st with rng := r }
        (rangeFT i n) = .ok st' ∧ A (linksOf st'.matrix)) =
      SmallWorldChance ((b : ℚ) / L) n (k / 2) A f i (linksOf st.matrix) := by
  induction f with
  | zero =>
    intro i hin st h N _
    obtain rfl : i = n := by omega
    rw [SmallWorldChance]
    split
    · rename_i hA
      exact probability_true hL (fun r _ _ => ⟨{ st with rng := r }, by rw [rangeFT_self]; rfl, hA⟩)
    · rename_i hA
      refine probability_false (fun r _ _ => ?_)
      rintro ⟨st', h1, h2⟩
      rw [rangeFT_self] at h1
      obtain rfl := Except.ok.inj h1
      exact hA h2
  | succ f ih =>
    intro i hin st h N hN
    have hi : i < n := by omega
    obtain ⟨r1, r2⟩ := ringTargets_spec hk hi
    have hlen : (ringTargets n k i).length = k / 2 := by rw [ringTargets_eq]; simp
    rw [SmallWorldChance, ← ringTargets_eq,
      ← afterCoins_spec (M := k / 2 + f * (2 * (k / 2))) hL hb h.square hi
        (P := fun js s' => ∃ st1, foldE (rewireOne (lottery L) i) { st with rng := s' } js = .ok st1 ∧
          ∃ st', foldE (rewireNode (lottery L) n k ((b : ℚ) / L)) st1 (rangeFT (i + 1) n) = .ok st' ∧
            A (linksOf st'.matrix)) r2 (acc := []) ?_ (N := N) ?_]
    · refine probability_congr (fun r _ _ => ?_)
      have hcons : rangeFT i n = i :: rangeFT (i + 1) n := by
        unfold rangeFT
        rw [show n - i = (n - (i + 1)) + 1 by omega, List.range'_succ]
      obtain ⟨js, s', g1, -⟩ := selectRewired_flipped (R := lottery L) (beta := (b : ℚ) / L) (Coin := fun _ => True)
        h.square (fun _ => trivial) hi r2 [] r
      have g1' : foldE (selectStep (lottery L) st.matrix ((b : ℚ) / L) i) ([], r) (ringTargets n k i) = .ok (js, s') := g1
      have hnode : rewireNode (lottery L) n k ((b : ℚ) / L) (⟨st.matrix, st.targets, r⟩ : Rewiring (lottery L)) i =
          foldE (rewireOne (lottery L) i) ⟨st.matrix, st.targets, s'⟩ js :=
        rewireNode_eq (R := lottery L) (st := ⟨st.matrix, st.targets, r⟩) g1'
      rw [hcons, foldE, hnode]
      constructor
      · rintro ⟨st', h1, h2⟩
        refine ⟨js, s', g1', ?_⟩
        cases hx : foldE (rewireOne (lottery L) i) { st with rng := s' } js with
        | error e => rw [hx] at h1; cases h1
        | ok st1 =>
          rw [hx] at h1
          exact ⟨st1, rfl, st', h1, h2⟩
      · rintro ⟨js', s1, h1, st1, h2, st', h3, h4⟩
        rw [g1'] at h1
        obtain ⟨rfl, rfl⟩ := Prod.mk.inj (Except.ok.inj h1)
        refine ⟨st', ?_, h4⟩
        rw [h2]
        exact h3
    · intro t h1 h2 N' hN'
      rw [List.nil_append]
      have hle := h1.length_le
      rw [hlen] at hle
      exact afterMoves_spec (M := f * (2 * (k / 2))) hL hd hi (r1.sublist h1) (fun j hj => r2 j (h1.subset hj))
        (P := fun st1 => ∃ st', foldE (rewireNode (lottery L) n k ((b : ℚ) / L)) st1 (rangeFT (i + 1) n) = .ok st' ∧
            A (linksOf st'.matrix))
        (fun st1 hst N1 hN1 => ih (i + 1) (by omega) st1 hst N1 hN1) h h2 (by omega)
    · rw [hlen]
      rw [Nat.succ_mul] at hN
      omega

theorem smallWorld_probability {L b n k : ℕ} (hL : 0 < L) (hb : b ≤ L) (hd : ∀ d, 0 < d → d < n → d ∣ L)
    (hk : k ≤ n) (he : k % 2 = 0) (A : (ℕ → ℕ → Prop) → Prop) {N : ℕ} (hN : n * k ≤ N) :
    Probability L N (fun r => ∃ g s', newRandomSmallWorld (lottery L) r n k ((b : ℚ) / L) = .ok (g, s') ∧ A (Link g)) =
      SmallWorldChance ((b : ℚ) / L) n (k / 2) A n 0 (RingLinks n (k / 2)) := by
  obtain ⟨m, t, h1, h2, h3⟩ := smallWorld_start (lottery L) hk he ((b : ℚ) / L)
  have h4 := smallWorldChance_spec hL hb hd hk A n 0 (Nat.zero_add n) ⟨m, t, []⟩ (h2 []) N (by
    rw [show 2 * (k / 2) = k by omega]; exact hN)
  rw [h1] at h4
  rw [← h4]
  refine probability_congr (fun r _ _ => ?_)
  obtain ⟨st, g1, g2⟩ := foldE_range (g := rewireNode (lottery L) n k ((b : ℚ) / L))
    (fun i st => RwInv n (cells n m) st) (lo := 0) (hi := n) (Nat.zero_le _) (b := ⟨m, t, r⟩) (h2 r) (by
      rintro i b - hi hb
      obtain ⟨st', e1, e2, -⟩ := hb.node hk hi _
      exact ⟨st', e1, e2⟩)
  obtain ⟨g, e1, e2⟩ := h3 r st g2 g1
  have e3 : Link g = linksOf st.matrix := by
    funext x y
    exact propext (e2 x y)
  rw [e1]
  constructor
  · rintro ⟨g', s', h5, h6⟩
    obtain ⟨rfl, rfl⟩ := Prod.mk.inj (Except.ok.inj h5)
    exact ⟨st, g1, by rw [← e3]; exact h6⟩
  · rintro ⟨st', h5, h6⟩
    have h5' : Except.ok st = Except.ok st' := g1.symm.trans h5
    obtain rfl := Except.ok.inj h5'
    exact ⟨g, _, rfl, by rw [e3]; exact h6⟩

/-! ### Bounds -/

theorem afterCoins_nonneg {beta : ℚ} (h0 : 0 ≤ beta) (h1 : beta ≤ 1) {p : ℕ → Prop} {K : List ℕ → ℚ}
    (hK : ∀ js, 0 ≤ K js) (acc l : List ℕ) : 0 ≤ AfterCoins beta p K acc l := by
  induction l generalizing acc with
  | nil => exact hK acc
  | cons j l ih =>
    rw [AfterCoins]
    split
    · exact add_nonneg (mul_nonneg h0 (ih _)) (mul_nonneg (by linarith) (ih _))
    · exact ih _

theorem afterMoves_nonneg {n i : ℕ} {K : (ℕ → ℕ → Prop) → ℚ} (hK : ∀ E, 0 ≤ K E) (js : List ℕ) (E : ℕ → ℕ → Prop) :
    0 ≤ AfterMoves n i K js E := by
  induction js generalizing E with
  | nil => exact hK E
  | cons j js ih =>
    rw [AfterMoves]
    split
    · exact ih _
    · exact div_nonneg (Finset.sum_nonneg (fun w _ => ih _)) (Nat.cast_nonneg _)

theorem smallWorldChance_nonneg {beta : ℚ} (h0 : 0 ≤ beta) (h1 : beta ≤ 1) {n h : ℕ} {A : (ℕ → ℕ → Prop) → Prop}
    (f i : ℕ) (E : ℕ → ℕ → Prop) : 0 ≤ SmallWorldChance beta n h A f i E := by
  induction f generalizing i E with
  | zero =>
    rw [SmallWorldChance]
    split
    · exact zero_le_one
    · exact le_refl _
  | succ f ih =>
    rw [SmallWorldChance]
    exact afterCoins_nonneg h0 h1 (fun js => afterMoves_nonneg (ih (i + 1)) js E) _ _

theorem afterCoins_tails {beta : ℚ} (h0 : 0 ≤ beta) (h1 : beta ≤ 1) {p : ℕ → Prop} {K : List ℕ → ℚ}
    (hK : ∀ js, 0 ≤ K js) (acc l : List ℕ) : (1 - beta) ^ l.length * K acc ≤ AfterCoins beta p K acc l := by
  induction l generalizing acc with
  | nil => rw [List.length_nil, pow_zero, one_mul]; exact le_refl _
  | cons j l ih =>
    have h2 : 0 ≤ 1 - beta := by linarith
    rw [AfterCoins, List.length_cons, pow_succ]
    split
    · have := mul_le_mul_of_nonneg_left (ih acc) h2
      have := mul_nonneg h0 (afterCoins_nonneg (p := p) h0 h1 hK (acc ++ [j]) l)
      linarith
    · have h3 : 0 ≤ (1 - beta) ^ l.length * K acc := mul_nonneg (pow_nonneg h2 _) (hK acc)
      have h4 : (1 - beta) * ((1 - beta) ^ l.length * K acc) ≤ 1 * ((1 - beta) ^ l.length * K acc) :=
        mul_le_mul_of_nonneg_right (by linarith) h3
      have := ih acc
      linarith

theorem smallWorldChance_tails {beta : ℚ} (h0 : 0 ≤ beta) (h1 : beta ≤ 1) {n h : ℕ} {A : (ℕ → ℕ → Prop) → Prop}
    {E : ℕ → ℕ → Prop} (hA : A E) (f i : ℕ) : (1 - beta) ^ (f * h) ≤ SmallWorldChance beta n h A f i E := by
  induction f generalizing i with
  | zero => rw [SmallWorldChance, if_pos hA, Nat.zero_mul, pow_zero]
  | succ f ih =>
    rw [SmallWorldChance, Nat.succ_mul, Nat.add_comm, pow_add]
    have h2 := afterCoins_tails (p := E i) h0 h1
      (fun js => afterMoves_nonneg (n := n) (i := i) (smallWorldChance_nonneg (n := n) (h := h) (A := A) h0 h1 f (i + 1)) js E)
      [] ((List.range h).map (fun d => (i + 1 + d) % n))
    rw [List.length_map, List.length_range] at h2
    refine le_trans ?_ h2
    rw [AfterMoves]
    exact mul_le_mul_of_nonneg_left (ih (i + 1)) (pow_nonneg (by linarith) _)

/-! ### Positive probabilities -/

theorem afterCoins_pos {beta : ℚ} (h0 : 0 < beta) (h1 : beta < 1) {p : ℕ → Prop} {K : List ℕ → ℚ}
    (hK : ∀ js, 0 ≤ K js) (acc l : List ℕ) :
    0 < AfterCoins beta p K acc l ↔ ∃ js, Flipped (fun _ => True) p l js ∧ 0 < K (acc ++ js) := by
  induction l generalizing acc with
  | nil =>
    constructor
    · intro h; exact ⟨[], .nil, by rw [List.append_nil]; exact h⟩
    · rintro ⟨js, h, hk⟩
      cases h
      rw [List.append_nil] at hk
      exact hk
  | cons j l ih =>
    rw [AfterCoins]
    split
    · rename_i hp
      have n1 := afterCoins_nonneg (p := p) h0.le h1.le hK (acc ++ [j]) l
      have n2 := afterCoins_nonneg (p := p) h0.le h1.le hK acc l
      have h2 : 0 < 1 - beta := by linarith
      constructor
      · intro h
        by_cases h3 : 0 < AfterCoins beta p K (acc ++ [j]) l
        · obtain ⟨js, h4, h5⟩ := (ih _).1 h3
          exact ⟨j :: js, .heads hp trivial h4, by rw [List.append_assoc] at h5; exact h5⟩
        · have h4 : AfterCoins beta p K (acc ++ [j]) l = 0 := le_antisymm (not_lt.1 h3) n1
          rw [h4, mul_zero, zero_add] at h
          obtain ⟨js, h4, h5⟩ := (ih _).1 (pos_of_mul_pos_right h h2.le)
          exact ⟨js, .tails hp trivial h4, h5⟩
      · rintro ⟨js, h3, h4⟩
        cases h3 with
        | skip hn _ => exact absurd hp hn
        | tails _ _ h5 =>
          exact add_pos_of_nonneg_of_pos (mul_nonneg h0.le n1) (mul_pos h2 ((ih _).2 ⟨js, h5, h4⟩))
        | @heads _ _ js _ _ h5 =>
          exact add_pos_of_pos_of_nonneg
            (mul_pos h0 ((ih _).2 ⟨js, h5, by rw [List.append_assoc]; exact h4⟩)) (mul_nonneg h2.le n2)
    · rename_i hp
      rw [ih]
      constructor
      · rintro ⟨js, h3, h4⟩
        exact ⟨js, .skip hp h3, h4⟩
      · rintro ⟨js, h3, h4⟩
        cases h3 with
        | skip _ h5 => exact ⟨js, h5, h4⟩
        | tails hn _ _ => exact absurd hn hp
        | heads hn _ _ => exact absurd hn hp

theorem afterMoves_pos {n i : ℕ} {K : (ℕ → ℕ → Prop) → ℚ} (hK : ∀ E, 0 ≤ K E) (js : List ℕ) (E : ℕ → ℕ → Prop) :
    0 < AfterMoves n i K js E ↔ ∃ E', MovesLinks n i E js E' ∧ 0 < K E' := by
  induction js generalizing E with
  | nil =>
    constructor
    · intro h; exact ⟨E, .nil, h⟩
    · rintro ⟨E', h, hk⟩
      cases h
      exact hk
  | cons j js ih =>
    rw [AfterMoves]
    split
    · rename_i h0
      have hall : ∀ w, w < n → w ≠ i → E i w := by
        intro w h1 h2
        by_contra h3
        rw [Finset.card_eq_zero] at h0
        exact Finset.notMem_empty w (h0 ▸ mem_unlinked.2 ⟨h1, h2, h3⟩)
      rw [ih]
      constructor
      · rintro ⟨E', h1, h2⟩
        exact ⟨E', .stuck hall h1, h2⟩
      · rintro ⟨E', h1, h2⟩
        cases h1 with
        | stuck _ h3 => exact ⟨E', h3, h2⟩
        | move w hw hwi hwE _ => exact absurd (hall w hw hwi) hwE
    · rename_i h0
      have h0' : (0 : ℚ) < (Unlinked n i E).card := by exact_mod_cast Nat.pos_of_ne_zero h0
      rw [div_pos_iff_of_pos_right h0', Finset.sum_pos_iff_of_nonneg (fun w _ => afterMoves_nonneg hK _ _)]
      constructor
      · rintro ⟨w, hw, h1⟩
        obtain ⟨E', h2, h3⟩ := (ih _).1 h1
        obtain ⟨a, b, d⟩ := mem_unlinked.1 hw
        exact ⟨E', .move w a b d h2, h3⟩
      · rintro ⟨E', h1, h2⟩
        cases h1 with
        | stuck hall _ =>
          exfalso
          apply h0
          rw [Finset.card_eq_zero, Finset.eq_empty_iff_forall_notMem]
          intro w hw
          obtain ⟨a, b, d⟩ := mem_unlinked.1 hw
          exact d (hall w a b)
        | move w a b d h3 => exact ⟨w, mem_unlinked.2 ⟨a, b, d⟩, (ih _).2 ⟨E', h3, h2⟩⟩

/-- The steps of the last nodes. -/
def LastSteps (n h : ℕ) : ℕ → ℕ → (ℕ → ℕ → Prop) → (ℕ → ℕ → Prop) → Prop
  | 0, _, E, E' => E = E'
  | f + 1, i, E, E' => ∃ js E1, Flipped (fun _ => True) (E i) ((List.range h).map (fun d => (i + 1 + d) % n)) js ∧
      MovesLinks n i E js E1 ∧ LastSteps n h f (i + 1) E1 E'

theorem smallWorldChance_pos {beta : ℚ} (h0 : 0 < beta) (h1 : beta < 1) {n h : ℕ} {A : (ℕ → ℕ → Prop) → Prop}
    (f i : ℕ) (E : ℕ → ℕ → Prop) :
    0 < SmallWorldChance beta n h A f i E ↔ ∃ E', LastSteps n h f i E E' ∧ A E' := by
  induction f generalizing i E with
  | zero =>
    rw [SmallWorldChance]
    split
    · rename_i hA
      exact ⟨fun _ => ⟨E, rfl, hA⟩, fun _ => zero_lt_one⟩
    · rename_i hA
      refine ⟨fun h => absurd h (lt_irrefl _), ?_⟩
      rintro ⟨E', rfl, h⟩
      exact absurd h hA
  | succ f ih =>
    have hn := fun E => smallWorldChance_nonneg (n := n) (h := h) (A := A) h0.le h1.le f (i + 1) E
    rw [SmallWorldChance, afterCoins_pos h0 h1 (fun js => afterMoves_nonneg hn js E)]
    constructor
    · rintro ⟨js, h2, h3⟩
      obtain ⟨E1, h4, h5⟩ := (afterMoves_pos hn _ _).1 h3
      obtain ⟨E', h6, h7⟩ := (ih _ _).1 h5
      exact ⟨E', ⟨js, E1, h2, h4, h6⟩, h7⟩
    · rintro ⟨E', ⟨js, E1, h2, h4, h6⟩, h7⟩
      exact ⟨js, h2, (afterMoves_pos hn _ _).2 ⟨E1, h4, (ih _ _).2 ⟨E', h6, h7⟩⟩⟩

theorem lastSteps_iff {n h : ℕ} {f : ℕ} {E' : ℕ → ℕ → Prop} :
    LastSteps n h f 0 (RingLinks n h) E' ↔ WattsStrogatz (fun _ => True) n h f E' := by
  constructor
  · have key : ∀ f i E, WattsStrogatz (fun _ => True) n h i E → LastSteps n h f i E E' →
        WattsStrogatz (fun _ => True) n h (i + f) E' := by
      intro f
      induction f with
      | zero =>
        rintro i E h1 rfl
        exact h1
      | succ f ih =>
        rintro i E h1 ⟨js, E1, h2, h3, h4⟩
        have := ih (i + 1) E1 (.node h1 h2 h3) h4
        rwa [show i + (f + 1) = i + 1 + f by omega]
    intro h1
    have := key f 0 _ .ring h1
    rwa [Nat.zero_add] at this
  · have key : ∀ i E, WattsStrogatz (fun _ => True) n h i E → ∀ f, LastSteps n h f i E E' →
        LastSteps n h (i + f) 0 (RingLinks n h) E' := by
      intro i E h1
      induction h1 with
      | ring =>
        intro f h2
        rwa [Nat.zero_add]
      | @node i E js E1 _ h3 h4 ih =>
        intro f h2
        have := ih (f + 1) ⟨js, E1, h3, h4, h2⟩
        rwa [show i + 1 + f = i + (f + 1) by omega]
    intro h1
    exact key f E' h1 0 rfl

end FA
