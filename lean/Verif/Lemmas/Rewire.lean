import Verif.Lemmas.SmallWorld
import Verif.Lemmas.GraphGenerator
import Verif.SpecRange

/-!
# Lemmas about the range of `new_random_small_world`
-/

namespace FA
open Spec Graph

/-- The links of a matrix. -/
def linksOf (m : List (List Bool)) : ℕ → ℕ → Prop := fun x y => cell m x y = true

theorem linksOf_move {m m' : List (List Bool)} {i j w : ℕ} (h : ∀ x y, cell m' x y =
      if (x = i ∧ y = w) ∨ (x = w ∧ y = i) then true
      else if (x = i ∧ y = j) ∨ (x = j ∧ y = i) then false else cell m x y) :
    linksOf m' = MoveLink i j w (linksOf m) := by
  funext x y
  apply propext
  unfold linksOf MoveLink
  rw [h]
  by_cases h1 : (x = i ∧ y = w) ∨ (x = w ∧ y = i)
  · rw [if_pos h1]
    exact ⟨fun _ => h1.elim .inl (fun h => .inr (.inl h)), fun _ => rfl⟩
  · rw [if_neg h1]
    by_cases h2 : (x = i ∧ y = j) ∨ (x = j ∧ y = i)
    · rw [if_pos h2]
      constructor
      · intro h; cases h
      · rintro (h | h | ⟨-, h⟩)
        · exact absurd (.inl h) h1
        · exact absurd (.inr h) h1
        · exact absurd h2 h
    · rw [if_neg h2]
      constructor
      · intro h; exact .inr (.inr ⟨h, h2⟩)
      · rintro (h | h | ⟨h, -⟩)
        · exact absurd (.inl h) h1
        · exact absurd (.inr h) h1
        · exact h

theorem ringTargets_eq (n k i : ℕ) :
    ringTargets n k i = (List.range (k / 2)).map (fun d => (i + 1 + d) % n) := by
  unfold ringTargets rangeFT
  rw [show i + k / 2 + 1 - (i + 1) = k / 2 by omega, List.range'_eq_map_range, List.map_map]
  rfl

/-! ### All results are possible networks -/

theorem selectRewired_flipped {R : Rand} {n : ℕ} {m : List (List Bool)} (hm : Square n m) {beta : ℚ}
    {Coin : Bool → Prop} (hR : ∀ s, Coin (R.genBool s beta).1)
    {i : ℕ} (hi : i < n) {l : List ℕ} (hl : ∀ j ∈ l, j < n) (acc : List ℕ) (s : R.State) :
    ∃ js s', foldE (fun (st : List NodeId × R.State) j =>
      match getM m i j with
      | .error e => .error e
      | .ok false => .ok st
      | .ok true =>
        match R.genBool st.2 beta with
        | (true, s') => .ok (st.1 ++ [j], s')
        | (false, s') => .ok (st.1, s')) (acc, s) l = .ok (acc ++ js, s') ∧
      Flipped Coin (linksOf m i) l js := by
  induction l generalizing acc s with
  | nil => exact ⟨[], s, by rw [List.append_nil]; rfl, .nil⟩
  | cons j l ih =>
    have hl' : ∀ x ∈ l, x < n := fun x hx => hl x (List.mem_cons_of_mem _ hx)
    rw [foldE, getM_ok hm hi (hl j List.mem_cons_self)]
    cases hc : cell m i j with
    | false =>
      obtain ⟨js, s', h1, h2⟩ := ih hl' acc s
      exact ⟨js, s', h1, .skip (by unfold linksOf; rw [hc]; exact Bool.false_ne_true) h2⟩
    | true =>
      dsimp only
      have hf := hR s
      cases hg : R.genBool s beta with
      | mk b s1 =>
        rw [hg] at hf
        cases b with
        | false =>
          obtain ⟨js, s', h1, h2⟩ := ih hl' acc s1
          exact ⟨js, s', h1, .tails hc hf h2⟩
        | true =>
          obtain ⟨js, s', h1, h2⟩ := ih hl' (acc ++ [j]) s1
          refine ⟨j :: js, s', ?_, .heads hc hf h2⟩
          dsimp only
          rw [h1, List.append_assoc]; rfl

theorem Spec.Flipped.mem {Coin : Bool → Prop} {p : ℕ → Prop} {l js : List ℕ} (h : Flipped Coin p l js) :
    js.Sublist l ∧ ∀ j ∈ js, p j := by
  induction h with
  | nil => exact ⟨List.Sublist.refl _, by simp⟩
  | skip _ _ ih => exact ⟨ih.1.cons _, ih.2⟩
  | tails _ _ _ ih => exact ⟨ih.1.cons _, ih.2⟩
  | heads hp _ _ ih =>
    refine ⟨ih.1.cons_cons _, fun x hx => ?_⟩
    rcases List.mem_cons.1 hx with rfl | hx
    · exact hp
    · exact ih.2 x hx

theorem RwInv.moves {R : Rand} {n c i : ℕ} (hi : i < n) {js : List ℕ} (hnd : js.Nodup)
    (hlt : ∀ j ∈ js, j < n) {st : Rewiring R} (h : RwInv n c st) (hjs : ∀ j ∈ js, cell st.matrix i j = true) :
    ∃ st', foldE (rewireOne R i) st js = .ok st' ∧ RwInv n c st' ∧
      MovesLinks n i (linksOf st.matrix) js (linksOf st'.matrix) := by
  induction js generalizing st with
  | nil => exact ⟨st, rfl, h, .nil⟩
  | cons j js ih =>
    obtain ⟨hn1, hn2⟩ := List.nodup_cons.1 hnd
    obtain ⟨st1, h1, h2, -, h3, -, h5, h6⟩ :=
      h.one hi (hlt j List.mem_cons_self) (hjs j List.mem_cons_self)
    obtain ⟨st', g1, g2, g3⟩ := ih hn2 (fun x hx => hlt x (List.mem_cons_of_mem _ hx)) h2
      (fun x hx => h3 x (by rintro rfl; exact hn1 hx) (hjs x (List.mem_cons_of_mem _ hx)))
    refine ⟨st', by rw [foldE, h1]; exact g1, g2, ?_⟩
    cases hc : (R.choose st.rng (row st.targets i)).1 with
    | none =>
      have hnil := R.choose_none _ _ hc
      rw [h5 hc] at g3
      refine .stuck (fun w hw hwi => ?_) g3
      by_contra hw'
      have := (h.targets i hi w).2 ⟨hw, hwi, Bool.eq_false_iff.2 hw'⟩
      rw [hnil] at this
      cases this
    | some w0 =>
      obtain ⟨w, rfl⟩ : ∃ w : ℕ, w = w0 := ⟨w0, rfl⟩
      obtain ⟨hwn, hwi, hwc⟩ := (h.targets i hi w).1 (R.choose_some _ _ _ hc)
      rw [linksOf_move (h6 w hc)] at g3
      exact .move w hwn hwi (by unfold linksOf; rw [hwc]; exact Bool.false_ne_true) g3

theorem rewireNode_moves {R : Rand} {n k c i : ℕ} (hk : k ≤ n) (hi : i < n) {beta : ℚ} {Coin : Bool → Prop}
    (hR : ∀ s, Coin (R.genBool s beta).1) {st : Rewiring R} (h : RwInv n c st) :
    ∃ st' js, rewireNode R n k beta st i = .ok st' ∧ RwInv n c st' ∧
      Flipped Coin (linksOf st.matrix i) (ringTargets n k i) js ∧
      MovesLinks n i (linksOf st.matrix) js (linksOf st'.matrix) := by
  obtain ⟨h1, h2⟩ := ringTargets_spec hk hi
  obtain ⟨js, s', g1, g2⟩ := selectRewired_flipped (R := R) (beta := beta) h.square hR hi h2 [] st.rng
  obtain ⟨g3, g4⟩ := g2.mem
  obtain ⟨st', e1, e2, e3⟩ := RwInv.moves (R := R) (c := c) hi (h1.sublist g3)
    (fun j hj => h2 j (g3.subset hj)) (st := { st with rng := s' })
    ⟨h.square, h.symm, h.loop, h.count, h.length, h.targets, h.nodup⟩ g4
  refine ⟨st', js, ?_, e2, g2, e3⟩
  have hsel : selectRewired R st.matrix beta i (ringTargets n k i) st.rng = .ok (js, s') := g1
  unfold rewireNode
  rw [hsel]
  exact e1

theorem linksOf_ring {n k : ℕ} {m : List (List Bool)}
    (h : ∀ x y, cell m x y = true ↔ Ring n k n n x y) : linksOf m = RingLinks n (k / 2) := by
  funext x y
  apply propext
  unfold linksOf RingLinks
  rw [h]
  constructor
  · rintro ⟨a, b, h, h'⟩
    have hn : 0 < n := by omega
    have hbn : b % n < n := Nat.mod_lt _ hn
    refine ⟨by omega, by omega, b - a, by omega, by omega, ?_⟩
    have hb : a + (b - a) = b := by omega
    rcases h' with ⟨rfl, rfl⟩ | ⟨rfl, rfl⟩
    · left; rw [hb]
    · right; rw [hb]
  · rintro ⟨hx, hy, d, hd1, hd2, h⟩
    rcases h with h | h
    · exact ⟨x, x + d, .inl ⟨hx, by omega, by omega⟩, .inl ⟨rfl, h.symm⟩⟩
    · exact ⟨y, y + d, .inl ⟨hy, by omega, by omega⟩, .inr ⟨rfl, h.symm⟩⟩

/-- The function, split at the loop. -/
theorem smallWorld_start (R : Rand) {n k : ℕ} (hk : k ≤ n) (he : k % 2 = 0) (beta : ℚ) :
    ∃ m t, linksOf m = RingLinks n (k / 2) ∧
      (∀ s : R.State, RwInv (R := R) n (cells n m) ⟨m, t, s⟩) ∧
      ∀ (s : R.State) (st : Rewiring R), RwInv n (cells n m) st →
        foldE (rewireNode R n k beta) ⟨m, t, s⟩ (rangeFT 0 n) = .ok st →
        ∃ g, newRandomSmallWorld R s n k beta = .ok (g, st.rng) ∧ ∀ x y, Link g x y ↔ linksOf st.matrix x y := by
  obtain ⟨m0, h1, h2, h3, h4⟩ := ringLattice_spec n k
  have hsym : ∀ x y, cell m0 x y = cell m0 y x := by
    have : ∀ x y, cell m0 x y = true → cell m0 y x = true := by
      intro x y h
      rw [h4] at h ⊢
      obtain ⟨a, b, h, h'⟩ := h
      exact ⟨a, b, h, h'.symm⟩
    intro x y
    rw [Bool.eq_iff_iff]
    exact ⟨this x y, this y x⟩
  have hloop : ∀ x, cell m0 x x = false := by
    intro x
    by_contra hc
    rw [Bool.not_eq_false, h4] at hc
    obtain ⟨a, b, h, h'⟩ := hc
    have hb2 : b < 2 * n := by omega
    rcases mod_cases hb2 with ⟨h5, h6⟩ | ⟨h5, h6⟩ <;> rw [h6] at h' <;> omega
  obtain ⟨t, f1, f2, f3, f4⟩ := freeTargets_spec h2 hsym
  refine ⟨m0, t, linksOf_ring h4, fun s => ⟨h2, hsym, hloop, rfl, f2, f3, f4⟩, fun s st g2 g1 => ?_⟩
  refine ⟨⟨(rangeFT 0 n).map (fun i => (rangeFT 0 n).filter (fun j => cell st.matrix i j))⟩, ?_, ?_⟩
  · unfold newRandomSmallWorld
    rw [if_pos he, h1]
    dsimp only
    rw [if_neg (by omega), f1]
    dsimp only
    rw [g1]
    dsimp only
    rw [matrixToOutlinks_spec g2.square]
    dsimp only
    rw [assertUndirected_ok]
    · intro i j hij
      rw [smallWorld_link] at hij
      simpa using hij.2.1
    · intro i j hij
      rw [smallWorld_link] at hij ⊢
      exact ⟨hij.2.1, hij.1, by rw [g2.symm]; exact hij.2.2⟩
  · intro x y
    rw [smallWorld_link]
    exact ⟨fun h => h.2.2, fun h => ⟨g2.square.lt ((g2.symm _ _).symm.trans h), g2.square.lt h, h⟩⟩

theorem smallWorld_wattsStrogatz (R : Rand) (s : R.State) {n k : ℕ} (hk : k ≤ n) (he : k % 2 = 0) {beta : ℚ}
    {Coin : Bool → Prop} (hR : ∀ s, Coin (R.genBool s beta).1) :
    ∃ g s' E, newRandomSmallWorld R s n k beta = .ok (g, s') ∧ (∀ x y, Link g x y ↔ E x y) ∧
      WattsStrogatz Coin n (k / 2) n E := by
  obtain ⟨m, t, h1, h2, h3⟩ := smallWorld_start R hk he beta
  obtain ⟨st, g1, g2, g3⟩ := foldE_range (g := rewireNode R n k beta)
    (fun i st => RwInv n (cells n m) st ∧ WattsStrogatz Coin n (k / 2) i (linksOf st.matrix)) (lo := 0) (hi := n)
    (Nat.zero_le _) (b := ⟨m, t, s⟩) ⟨h2 s, by
      show WattsStrogatz Coin n (k / 2) 0 (linksOf m)
      rw [h1]; exact .ring⟩ (by
      rintro i b - hi ⟨hb, hb'⟩
      obtain ⟨st', js, e1, e2, e3, e4⟩ := rewireNode_moves hk hi hR hb
      rw [ringTargets_eq] at e3
      exact ⟨st', e1, e2, .node hb' e3 e4⟩)
  obtain ⟨g, e1, e2⟩ := h3 s st g2 g1
  exact ⟨g, st.rng, _, e1, e2, g3⟩

/-! ### All possible networks are results -/

/-- A generator for which all coin flips and the chosen nodes are fixed in advance. -/
def flipping : Rand where
  State := List Bool × List NodeId
  shuffle s l := (l, s)
  shuffle_perm _ _ := List.Perm.refl _
  chooseWeighted s w l := (l.find? (fun y => decide (0 < w y)), s)
  chooseWeighted_some s w l x h := by
    have := List.find?_some h
    rw [decide_eq_true_eq] at this
    exact ⟨List.mem_of_find?_eq_some h, this⟩
  chooseWeighted_none s w l h x hx := by
    have := List.find?_eq_none.1 h x hx
    rw [decide_eq_true_eq] at this
    omega
  choose s l := if s.2.head?.any (fun y => decide (y ∈ l)) then (s.2.head?, (s.1, s.2.tail)) else (l.head?, s)
  choose_some s l x h := by
    split at h
    · rename_i hs
      dsimp only at h
      rw [h] at hs
      simpa using hs
    · exact List.mem_of_mem_head? h
  choose_none s l h := by
    split at h
    · rename_i hs
      dsimp only at h
      rw [h] at hs
      simp at hs
    · exact List.head?_eq_none_iff.1 h
  genBool s p := if p = 0 then (false, s) else (s.1.headD false, (s.1.tail, s.2))
  genBool_zero s := by rw [if_pos rfl]

/-- The body of the loop of `selectRewired`. -/
def selectStep (R : Rand) (m : List (List Bool)) (beta : ℚ) (i : ℕ) (st : List NodeId × R.State) (j : NodeId) :
    Except Panic (List NodeId × R.State) :=
  match getM m i j with
  | .error e => .error e
  | .ok false => .ok st
  | .ok true =>
    match R.genBool st.2 beta with
    | (true, s') => .ok (st.1 ++ [j], s')
    | (false, s') => .ok (st.1, s')

theorem selectRewired_eq (R : Rand) (m : List (List Bool)) (beta : ℚ) (i : ℕ) (js : List NodeId) (s : R.State) :
    selectRewired R m beta i js s = foldE (selectStep R m beta i) ([], s) js := rfl

/-- A state of `flipping`. -/
def coins (F : List Bool) (P : List NodeId) : flipping.State := (F, P)

theorem flipping_select {n : ℕ} {beta : ℚ} (hb : beta ≠ 0) {Coin : Bool → Prop} {i : ℕ} (hi : i < n)
    {p : ℕ → Prop} {l js : List ℕ} (hl : ∀ j ∈ l, j < n) (h : Flipped Coin p l js) :
    ∃ F : List Bool, ∀ (m : List (List Bool)), Square n m → linksOf m i = p →
      ∀ (acc : List ℕ) (F' : List Bool) (P : List NodeId),
      foldE (selectStep flipping m beta i) (acc, coins (F ++ F') P) l = .ok (acc ++ js, coins F' P) := by
  have hg : ∀ b F P, flipping.genBool (coins (b :: F) P) beta = (b, coins F P) := by
    intro b F P
    unfold flipping coins
    dsimp only
    rw [if_neg hb]
    rfl
  induction h with
  | nil => exact ⟨[], fun m hm hmp acc F' P => by rw [List.append_nil]; rfl⟩
  | @skip j l js hp _ ih =>
    obtain ⟨F, hF⟩ := ih (fun x hx => hl x (List.mem_cons_of_mem _ hx))
    refine ⟨F, fun m hm hmp acc F' P => ?_⟩
    rw [foldE, selectStep, getM_ok hm hi (hl j List.mem_cons_self), show cell m i j = false from Bool.eq_false_iff.2 (by rw [← hmp] at hp; exact hp)]
    exact hF m hm hmp acc F' P
  | @tails j l js hp _ _ ih =>
    obtain ⟨F, hF⟩ := ih (fun x hx => hl x (List.mem_cons_of_mem _ hx))
    refine ⟨false :: F, fun m hm hmp acc F' P => ?_⟩
    rw [foldE, selectStep, getM_ok hm hi (hl j List.mem_cons_self), show cell m i j = true by rw [← hmp] at hp; exact hp]
    dsimp only
    rw [List.cons_append, hg]
    exact hF m hm hmp acc F' P
  | @heads j l js hp _ _ ih =>
    obtain ⟨F, hF⟩ := ih (fun x hx => hl x (List.mem_cons_of_mem _ hx))
    refine ⟨true :: F, fun m hm hmp acc F' P => ?_⟩
    rw [foldE, selectStep, getM_ok hm hi (hl j List.mem_cons_self), show cell m i j = true by rw [← hmp] at hp; exact hp]
    dsimp only
    rw [List.cons_append, hg]
    dsimp only
    rw [hF m hm hmp (acc ++ [j]) F' P, List.append_assoc]; rfl

theorem flipping_moves {n c i : ℕ} (hi : i < n) {E E' : ℕ → ℕ → Prop} {js : List ℕ} (hm : MovesLinks n i E js E')
    (hnd : js.Nodup) (hlt : ∀ j ∈ js, j < n) :
    ∃ P : List NodeId, ∀ (st : Rewiring flipping) (F : List Bool) (P' : List NodeId), RwInv n c st →
      linksOf st.matrix = E → st.rng = coins F (P ++ P') → (∀ j ∈ js, cell st.matrix i j = true) →
      ∃ st', foldE (rewireOne flipping i) st js = .ok st' ∧ RwInv n c st' ∧ linksOf st'.matrix = E' ∧
        st'.rng = coins F P' := by
  induction hm with
  | nil => exact ⟨[], fun st F P' h hE hr _ => ⟨st, rfl, h, hE, hr⟩⟩
  | @stuck E j js E' hw _ ih =>
    obtain ⟨hn1, hn2⟩ := List.nodup_cons.1 hnd
    obtain ⟨P, hP⟩ := ih hn2 (fun x hx => hlt x (List.mem_cons_of_mem _ hx))
    refine ⟨P, fun st F P' h hE hr hjs => ?_⟩
    obtain ⟨st1, h1, h2, -, h3, h4, h5, h6⟩ :=
      h.one hi (hlt j List.mem_cons_self) (hjs j List.mem_cons_self)
    have hnil : row st.targets i = [] := by
      rw [List.eq_nil_iff_forall_not_mem]
      intro (y : ℕ) hy
      obtain ⟨a, b, d⟩ := (h.targets i hi y).1 hy
      have := hw y a b
      rw [← hE] at this
      rw [show cell st.matrix i y = true from this] at d
      cases d
    have hc : flipping.choose st.rng (row st.targets i) = (none, st.rng) := by
      rw [hnil, hr]
      unfold flipping coins
      dsimp only
      rw [if_neg (by cases P ++ P' <;> simp)]
      rfl
    rw [hc] at h4 h5
    obtain ⟨st', g1, g2⟩ := hP st1 F P' h2 (by rw [h5 rfl]; exact hE) (h4.trans hr)
      (fun x hx => h3 x (by rintro rfl; exact hn1 hx) (hjs x (List.mem_cons_of_mem _ hx)))
    exact ⟨st', by rw [foldE, h1]; exact g1, g2⟩
  | @move E j js E' w hwn hwi hwE _ ih =>
    obtain ⟨hn1, hn2⟩ := List.nodup_cons.1 hnd
    obtain ⟨P, hP⟩ := ih hn2 (fun x hx => hlt x (List.mem_cons_of_mem _ hx))
    refine ⟨w :: P, fun st F P' h hE hr hjs => ?_⟩
    obtain ⟨st1, h1, h2, -, h3, h4, h5, h6⟩ :=
      h.one hi (hlt j List.mem_cons_self) (hjs j List.mem_cons_self)
    have hmem : w ∈ row st.targets i := by
      rw [h.targets i hi w]
      refine ⟨hwn, hwi, Bool.eq_false_iff.2 fun hc => hwE ?_⟩
      rw [← hE]; exact hc
    have hc : flipping.choose st.rng (row st.targets i) = (some w, coins F (P ++ P')) := by
      rw [hr]
      unfold flipping coins
      dsimp only
      rw [if_pos (by simpa using hmem)]
      rfl
    rw [hc] at h4 h5 h6
    obtain ⟨st', g1, g2⟩ := hP st1 F P' h2 (by rw [linksOf_move (h6 w rfl), hE]) h4
      (fun x hx => h3 x (by rintro rfl; exact hn1 hx) (hjs x (List.mem_cons_of_mem _ hx)))
    exact ⟨st', by rw [foldE, h1]; exact g1, g2⟩

theorem flipping_loop {Coin : Bool → Prop} {n k c : ℕ} (hk : k ≤ n) {beta : ℚ} (hb : beta ≠ 0)
    {m : List (List Bool)} {t : List (List NodeId)} (hm : linksOf m = RingLinks n (k / 2))
    (h0 : ∀ s : flipping.State, RwInv (R := flipping) n c ⟨m, t, s⟩) {i : ℕ} {E : ℕ → ℕ → Prop}
    (h : WattsStrogatz Coin n (k / 2) i E) (hi : i ≤ n) :
    ∃ (F : List Bool) (P : List NodeId), ∀ (F' : List Bool) (P' : List NodeId), ∃ st,
      foldE (rewireNode flipping n k beta) ⟨m, t, coins (F ++ F') (P ++ P')⟩ (rangeFT 0 i) = .ok st ∧ RwInv n c st ∧
        linksOf st.matrix = E ∧ st.rng = coins F' P' := by
  induction h with
  | ring => exact ⟨[], [], fun F' P' => ⟨_, by rw [rangeFT_self]; rfl, h0 _, hm, rfl⟩⟩
  | @node i E js E' _ hf hv ih =>
    obtain ⟨F, P, hFP⟩ := ih (Nat.le_of_succ_le hi)
    have hi' : i < n := hi
    obtain ⟨r1, r2⟩ := ringTargets_spec hk hi'
    rw [← ringTargets_eq] at hf
    obtain ⟨f1, f2⟩ := hf.mem
    obtain ⟨P1, hP1⟩ := flipping_moves (c := c) hi' hv (r1.sublist f1) (fun j hj => r2 j (f1.subset hj))
    obtain ⟨F1, hF1⟩ := flipping_select hb hi' r2 hf
    refine ⟨F ++ F1, P ++ P1, fun F' P' => ?_⟩
    obtain ⟨st, e1, e2, e3, e4⟩ := hFP (F1 ++ F') (P1 ++ P')
    have hsel : selectRewired flipping st.matrix beta i (ringTargets n k i) (coins (F1 ++ F') (P1 ++ P')) =
        .ok (js, coins F' (P1 ++ P')) := by
      have := hF1 st.matrix e2.square (by rw [e3]) [] F' (P1 ++ P')
      rw [List.nil_append] at this
      rw [selectRewired_eq]
      exact this
    obtain ⟨st', g1, g2, g3, g4⟩ := hP1 { st with rng := coins F' (P1 ++ P') } F' P'
      ⟨e2.square, e2.symm, e2.loop, e2.count, e2.length, e2.targets, e2.nodup⟩ e3 rfl
      (fun j hj => by
        have := f2 j hj
        rw [← e3] at this
        exact this)
    refine ⟨st', ?_, g2, g3, g4⟩
    rw [List.append_assoc, List.append_assoc, rangeFT_succ (Nat.zero_le i), foldE_concat_ok e1]
    unfold rewireNode
    rw [e4, hsel]
    exact g1

theorem flipping_smallWorld {Coin : Bool → Prop} {n k : ℕ} (hk : k ≤ n) (he : k % 2 = 0) {beta : ℚ}
    (hb : beta ≠ 0) {E : ℕ → ℕ → Prop} (h : WattsStrogatz Coin n (k / 2) n E) :
    ∃ (s s' : flipping.State) (g : Graph), newRandomSmallWorld flipping s n k beta = .ok (g, s') ∧
      ∀ x y, Link g x y ↔ E x y := by
  obtain ⟨m, t, h1, h2, h3⟩ := smallWorld_start flipping hk he beta
  obtain ⟨F, P, hFP⟩ := flipping_loop hk hb h1 h2 h (Nat.le_refl n)
  obtain ⟨st, e1, e2, e3, -⟩ := hFP [] []
  obtain ⟨g, g1, g2⟩ := h3 _ st e2 e1
  exact ⟨_, _, g, g1, fun x y => by rw [g2, e3]⟩

end FA
