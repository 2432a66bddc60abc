import Verif.Lemmas.ScaleFree
import Verif.Lemmas.RandomRange
import Verif.SpecRange

/-!
# Weights of random choices
-/

namespace FA
open Spec Simulator Props

variable {R : Rand} {Ok : List (NodeId × ℕ) → NodeId → Prop}

theorem chosenBy_cons {c : List ℕ} {w w' : ℕ → ℕ} {j : ℕ} {vs : List ℕ}
    (hj : Ok (c.map (fun y => (y, w y))) j) (hw : ∀ y ∈ c, y ≠ j → w' y = w y)
    (h : ChosenBy Ok (c.filter (fun x => decide (x ≠ j))) w' vs) : ChosenBy Ok c w (j :: vs) := by
  intro k v hk
  cases k with
  | zero =>
    obtain rfl : j = v := by simpa using hk
    have : c.filter (fun y => decide (y ∉ (j :: vs).take 0)) = c := by
      rw [List.filter_eq_self]; intro y _; simp
    rw [this]
    exact hj
  | succ k =>
    have h1 := h k v (by simpa using hk)
    rw [List.filter_filter] at h1
    have : (c.filter (fun y => decide (y ∉ (j :: vs).take (k + 1)))).map (fun y => (y, w y)) =
        (c.filter (fun y => decide (y ∉ vs.take k) && decide (y ≠ j))).map (fun y => (y, w' y)) := by
      have e : c.filter (fun y => decide (y ∉ (j :: vs).take (k + 1))) =
          c.filter (fun y => decide (y ∉ vs.take k) && decide (y ≠ j)) := by
        refine List.filter_congr (fun y _ => ?_)
        rw [Bool.eq_iff_iff]
        simp only [List.take_succ_cons, List.mem_cons, not_or, decide_eq_true_eq, Bool.and_eq_true]
        exact and_comm
      rw [e]
      refine List.map_congr_left (fun y hy => ?_)
      obtain ⟨h2, h3⟩ := List.mem_filter.1 hy
      have h4 : y ≠ j := by
        simp only [decide_eq_true_eq, Bool.and_eq_true] at h3
        exact h3.2
      rw [hw y h2 h4]
    rw [this]
    exact h1

/-- The links of one node in `new_random_scale_free`. -/
theorem scaleFreeLinks_weights (hR : Follows R Ok) {i k : ℕ} {o o' : List (List ℕ)} {targets : List ℕ}
    {s s' : R.State} (hi : i < o.length) (ht : ∀ x ∈ targets, x < i) (hnd : targets.Nodup)
    (h : Graph.scaleFreeLinks R i k (o, targets, s) = .ok (o', s')) :
    ∃ js, (∀ j ∈ js, j ∈ targets) ∧ js.Nodup ∧ row o' i = row o i ++ js ∧
      (∀ x, x ≠ i → row o' x = row o x ++ (if x ∈ js then [i] else [])) ∧
      ChosenBy Ok targets (fun x => (row o x).length) js := by
  induction k generalizing o targets s with
  | zero =>
    rw [Graph.scaleFreeLinks] at h
    obtain ⟨rfl, rfl⟩ := Prod.mk.inj (Except.ok.inj h)
    exact ⟨[], by simp, List.nodup_nil, by simp, by simp, fun k v hk => by simp at hk⟩
  | succ k ih =>
    rw [Graph.scaleFreeLinks] at h
    cases hc : R.chooseWeighted s (fun x => (o.getD x []).length) targets with
    | mk r s1 =>
      rw [hc] at h
      cases r with
      | none => cases h
      | some j =>
        dsimp only at h
        have hj : j ∈ targets := (R.chooseWeighted_some _ _ _ _ (by rw [hc])).1
        have hji : j < i := ht j hj
        obtain ⟨o1, e1, e2, -, e4⟩ := connect_spec (o := o) (a := i) (b := j) (Nat.ne_of_gt hji) hi (Nat.lt_trans hji hi)
        rw [e1] at h
        dsimp only at h
        obtain ⟨js, h1, h2, h3, h4, h5⟩ := ih (by omega) (fun x hx => ht x (List.mem_filter.1 hx).1)
          (hnd.filter _) h
        have hjs : j ∉ js := fun hm => by
          have := (List.mem_filter.1 (h1 j hm)).2
          simp at this
        refine ⟨j :: js, ?_, List.nodup_cons.2 ⟨hjs, h2⟩, ?_, fun x hx => ?_, ?_⟩
        · intro x hx
          rcases List.mem_cons.1 hx with rfl | hx
          · exact hj
          · exact (List.mem_filter.1 (h1 x hx)).1
        · rw [h3, e4, if_pos rfl, List.append_assoc]; rfl
        · rw [h4 x hx, e4, if_neg hx]
          by_cases hxj : x = j
          · rw [if_pos hxj, if_neg (by rw [hxj]; exact hjs), List.append_nil, if_pos (by rw [hxj]; simp)]
          · rw [if_neg hxj]
            congr 1
            by_cases hm : x ∈ js
            · rw [if_pos hm, if_pos (List.mem_cons_of_mem _ hm)]
            · rw [if_neg hm, if_neg (by rw [List.mem_cons]; exact fun h => h.elim hxj hm)]
        · refine chosenBy_cons (w' := fun x => (row o1 x).length) (hR _ _ _ _ _ hc) (fun y hy hyj => ?_) h5
          have : y < i := ht y hy
          show (row o1 y).length = (row o y).length
          rw [e4, if_neg (by omega), if_neg hyj]

/-- The choices so far. -/
def Weighed (Ok : List (NodeId × ℕ) → NodeId → Prop) (m0 i : ℕ) (o : List (List ℕ)) : Prop :=
  ∀ x, m0 ≤ x → x < i → ChosenBy Ok (List.range x) (fun y => ((row o y).filter (fun z => decide (z < x))).length)
    ((row o x).filter (fun z => decide (z < x)))

theorem Weighed.node (hR : Follows R Ok) {n m0 m i : ℕ} {o o' : List (List ℕ)} {s s' : R.State}
    (hi : i < n) (h : SfInv n m0 m i o) (hw : Weighed Ok m0 i o)
    (he : Graph.scaleFreeLinks R i m (o, rangeFT 0 i, s) = .ok (o', s')) : Weighed Ok m0 (i + 1) o' := by
  obtain ⟨js, h1, h2, h3, h4, h5⟩ := scaleFreeLinks_weights hR (by rw [h.length]; exact hi)
    (fun x hx => (mem_rangeFT.1 hx).2) (nodup_rangeFT _ _) he
  rw [h.above i (Nat.le_refl _), List.nil_append] at h3
  have hlow : ∀ x ≤ i, ∀ y, y ≠ i → (row o' y).filter (fun z => decide (z < x)) =
      (row o y).filter (fun z => decide (z < x)) := by
    intro x hx y hy
    rw [h4 y hy, List.filter_append]
    split
    · rw [List.filter_cons_of_neg (by simpa using hx)]; simp
    · simp
  intro x hx0 hx1
  rcases Nat.lt_or_ge x i with hlt | hge
  · have h6 := hw x hx0 hlt
    rw [hlow x (by omega) x (by omega)]
    intro k v hk
    have h7 := h6 k v hk
    have : ∀ l : List ℕ, (∀ y ∈ l, y < x) → l.map (fun y => (y, ((row o' y).filter (fun z => decide (z < x))).length)) =
        l.map (fun y => (y, ((row o y).filter (fun z => decide (z < x))).length)) := by
      intro l hl
      refine List.map_congr_left (fun y hy => ?_)
      have := hl y hy
      rw [hlow x (by omega) y (by omega)]
    rw [this _ (fun y hy => List.mem_range.1 (List.mem_filter.1 hy).1)]
    exact h7
  · obtain rfl : x = i := by omega
    have e1 : (row o' x).filter (fun z => decide (z < x)) = js := by
      rw [h3, List.filter_eq_self]
      intro y hy
      have := (mem_rangeFT.1 (h1 y hy)).2
      simpa using this
    rw [e1]
    rw [rangeFT_zero] at h5
    intro k v hk
    have h7 := h5 k v hk
    have : ∀ l : List ℕ, (∀ y ∈ l, y < x) → l.map (fun y => (y, ((row o' y).filter (fun z => decide (z < x))).length)) =
        l.map (fun y => (y, (row o y).length)) := by
      intro l hl
      refine List.map_congr_left (fun y hy => ?_)
      have := hl y hy
      rw [hlow x (Nat.le_refl _) y (by omega), List.filter_eq_self.2]
      intro z hz
      have := h.range y z hz
      simpa using this
    rw [this _ (fun y hy => List.mem_range.1 (List.mem_filter.1 hy).1)]
    exact h7

theorem scaleFree_weighed (hR : Follows R Ok) (s : R.State) {n m0 m : ℕ} (h2 : 2 ≤ m0) (h : m0 ≤ n)
    (hm : 1 ≤ m) (hmm : m ≤ m0) {g : Graph} {s' : R.State}
    (hg : Graph.newRandomScaleFree R s n m0 m = .ok (g, s')) : Weighed Ok m0 n g.outlinks := by
  obtain ⟨o, h1, h3⟩ := SfInv.init (m := m) h2 h
  obtain ⟨⟨o', s''⟩, g1, -, g3⟩ := foldE_range
    (g := fun (st : List (List ℕ) × R.State) i =>
      Graph.scaleFreeLinks R i m (st.1, rangeFT 0 i, st.2))
    (fun i st => SfInv n m0 m i st.1 ∧ Weighed Ok m0 i st.1) h (b := (o, s))
    ⟨h3, fun x hx hx' => absurd hx (by omega)⟩ (by
      rintro i ⟨b, s0⟩ hi1 hi2 ⟨hb, hw⟩
      obtain ⟨b', s1, e1, e2⟩ := SfInv.node (R := R) (s := s0) hi1 hi2 hm hmm hb
      exact ⟨(b', s1), e1, e2, hw.node hR hi2 hb e1⟩)
  unfold Graph.newRandomScaleFree at hg
  rw [if_pos ⟨hm, hmm, hmm.trans h⟩, h1] at hg
  dsimp only at hg
  rw [g1] at hg
  dsimp only at hg
  cases ha : Graph.assertUndirected ⟨o'⟩ with
  | error e => rw [ha] at hg; cases hg
  | ok g' =>
    rw [ha] at hg
    obtain ⟨rfl, rfl⟩ := Prod.mk.inj (Except.ok.inj hg)
    have : g' = ⟨o'⟩ := by
      unfold Graph.assertUndirected at ha
      split at ha
      · cases ha
      · exact (Except.ok.inj ha).symm
      · cases ha
    rw [this]
    exact g3

/-- The loop in which validators are chosen. -/
theorem randomLoop_weights (hR : Follows R Ok) {w : List ℕ} {k : ℕ} {available vs vs' : List ℕ}
    {s s' : R.State} (hnd : available.Nodup)
    (h : Qsc.randomLoop R w k available vs s = .ok (vs', s')) :
    ∃ js, vs' = vs ++ js ∧ ChosenBy Ok available (fun y => w.getD y 1) js := by
  induction k generalizing available vs s with
  | zero =>
    rw [Qsc.randomLoop] at h
    obtain ⟨rfl, rfl⟩ := Prod.mk.inj (Except.ok.inj h)
    exact ⟨[], by simp, fun k v hk => by simp at hk⟩
  | succ k ih =>
    rw [Qsc.randomLoop] at h
    cases hc : R.chooseWeighted s (fun x => w.getD x 1) available with
    | mk r s1 =>
      rw [hc] at h
      cases r with
      | none => cases h
      | some j =>
        dsimp only at h
        obtain ⟨js, rfl, h2⟩ := ih (hnd.erase _) h
        refine ⟨j :: js, by rw [List.append_assoc]; rfl,
          chosenBy_cons (w' := fun y => w.getD y 1) (hR _ _ _ _ _ hc) (fun _ _ _ => rfl) ?_⟩
        have : available.erase j = available.filter (fun x => decide (x ≠ j)) := by
          rw [hnd.erase_eq_filter]
          refine List.filter_congr (fun y _ => ?_)
          rw [Bool.eq_iff_iff]; simp
        rw [← this]
        exact h2

theorem chosenInTurn_append {lo n x : ℕ} {w : ℕ → ℕ} {vs js : List ℕ} (hne : vs ≠ [])
    (h : ChosenInTurn Ok lo w x vs)
    (hj : ChosenBy Ok ((List.range n).filter (fun y => decide (y ∉ vs))) w js)
    (hn : ∀ k, vs.length ≤ k → k < vs.length + js.length → max (x + 1) (max lo (k + 1)) = n) :
    ChosenInTurn Ok lo w x (vs ++ js) := by
  have hpos : 0 < vs.length := List.length_pos_iff.2 hne
  refine ⟨by rw [List.getElem?_append_left hpos]; exact h.1, fun k v hk hv => ?_⟩
  rcases Nat.lt_or_ge k vs.length with hlt | hge
  · rw [List.getElem?_append_left hlt] at hv
    rw [List.take_append_of_le_length (Nat.le_of_lt hlt)]
    exact h.2 k v hk hv
  · rw [List.getElem?_append_right hge] at hv
    have h1 := hj _ v hv
    have hlt : k - vs.length < js.length := (List.getElem?_eq_some_iff.1 hv).1
    rw [hn k hge (by omega), List.take_append, List.take_of_length_le hge]
    rw [List.filter_filter] at h1
    have e : (List.range n).filter (fun y => decide (y ∉ vs ++ js.take (k - vs.length))) =
        (List.range n).filter (fun y => decide (y ∉ js.take (k - vs.length)) && decide (y ∉ vs)) := by
      refine List.filter_congr (fun y _ => ?_)
      rw [Bool.eq_iff_iff]
      simp only [List.mem_append, not_or, decide_eq_true_eq, Bool.and_eq_true]
      exact and_comm
    rw [e]
    exact h1

theorem chosenInTurn_single {lo x : ℕ} {w : ℕ → ℕ} : ChosenInTurn Ok lo w x [x] :=
  ⟨rfl, fun k v hk hv => by
    rw [List.getElem?_eq_none (by simpa using hk)] at hv
    cases hv⟩

theorem gradual_weights (hR : Follows R Ok) {size : ℕ} {t : Option ℕ} {w : List ℕ} {lo N : ℕ}
    (hw : EnoughWeight size (max lo (min size N)) w) (hsize : 2 ≤ size) :
    Gradual (Qsc.random R size t w) N (fun n x q => (lo ≤ n ∧ NearTarget size t w lo n x q) ∧
        ChosenInTurn Ok lo (fun y => w.getD y 1) x q.validators)
      (Recent (fun n x q => (lo ≤ n ∧ NearTarget size t w lo n x q) ∧
        ChosenInTurn Ok lo (fun y => w.getD y 1) x q.validators) lo) lo (fun _ _ => True) where
  empty _ _ h := .inl ⟨rfl, h⟩
  weaken n _ _ h := .inr ⟨n, Nat.le_refl _, Nat.le_succ _, h⟩
  grow n _ _ h := .inr ⟨n, Nat.le_succ _, Nat.le_refl _, h⟩
  shuffle _ _ _ _ := trivial
  growState _ _ _ := trivial
  step f s x hx hN _ hB := by
    obtain ⟨c, f', s', q', h1, h2, -, h4, h5⟩ := (gradual_random R (t := t) hw hsize).step f s x hx hN trivial
      (fun y q hq => by
        rcases hB y q hq with h | ⟨m, hm, hm', h1⟩
        · exact .inl h
        · exact .inr ⟨m, hm, hm', h1.1⟩)
    refine ⟨c, f', s', q', h1, h2, trivial, ⟨h4, ?_⟩, h5⟩
    obtain ⟨q, -, hq⟩ := existing_ok hx
    rw [getQuorumSet_iff] at hq
    have hq' : HasQSet f' x q' := by rw [← getQuorumSet_iff, h5, if_pos rfl]
    by_cases hlt : (startFrom q x).length < size
    · obtain ⟨vs, th, e1, e2⟩ := random_ok_loop hq hlt h1
      have hq2 : q' = ⟨th, vs, q.inner⟩ := by
        rw [← getQuorumSet_iff] at hq' e2
        rw [hq'] at e2
        exact Option.some.inj e2
      rw [hq2]
      rw [rangeFT_zero] at e1
      obtain ⟨js, e3, e4⟩ := randomLoop_weights hR (List.nodup_range.filter _) e1
      have hlen : vs.length = min size f.nodes.length := by
        obtain ⟨⟨vs', e, -, -, -, h⟩, -⟩ := h4.2.1
        rw [hq2] at e
        injection e with _ e
        rw [e]; exact h
      have hlen' : (startFrom q x).length + js.length = min size f.nodes.length := by
        rw [← hlen, e3, List.length_append]
      show ChosenInTurn Ok lo _ x vs
      rw [e3]
      rcases hB x q hq with ⟨rfl, h6⟩ | ⟨m, hm1, hm2, ⟨h6, h7⟩, h8⟩
      · refine chosenInTurn_append (n := f.nodes.length) (by simp [startFrom, QuorumSet.empty]) ?_ e4
          (fun k hk1 hk2 => ?_)
        · exact chosenInTurn_single
        · have key : ∀ a b c d e : ℕ, a < c → b ≤ c → c ≤ max b (a + 1) → d < e → e = min size c →
            max (a + 1) (max b (d + 1)) = c := by omega
          exact key x lo f.nodes.length k _ hx hN.1 h6 hk2 hlen'
      · have hql : q.validators.length = min size m := by
          obtain ⟨⟨vs', e, -, -, -, h⟩, -⟩ := h7.1
          rw [e]; exact h
        have hne : q.validators ≠ [] := by
          intro hnil
          rw [hnil] at h8
          cases h8.1
        have hs : startFrom q x = q.validators := by unfold startFrom; rw [if_neg hne]
        rw [hs] at e4 hlen' ⊢
        refine chosenInTurn_append (n := f.nodes.length) hne h8 e4 (fun k hk1 hk2 => ?_)
        have key : ∀ a b c d e m : ℕ, a < c → b ≤ c → m ≤ c → c ≤ m + 1 → e ≤ d → d < min size c → e = min size m →
          max (a + 1) (max b (d + 1)) = c := by omega
        exact key x lo f.nodes.length k _ m hx hN.1 hm1 hm2 hk1 (hlen' ▸ hk2) hql
    · have hge : size ≤ (startFrom q x).length := Nat.le_of_not_lt hlt
      have hne : q.validators ≠ [] := by
        intro hnil
        unfold startFrom at hge
        rw [if_pos hnil, List.length_singleton] at hge
        omega
      have hs : startFrom q x = q.validators := by unfold startFrom; rw [if_neg hne]
      rw [hs] at hge
      rw [random_full hq hne hge] at h1
      obtain ⟨-, h9⟩ := Prod.mk.inj (Except.ok.inj h1)
      obtain ⟨rfl, -⟩ := Prod.mk.inj h9
      have h10 := h5 x
      rw [if_pos rfl, getQuorumSet_iff.2 hq] at h10
      obtain rfl := Option.some.inj h10
      rcases hB x q hq with ⟨rfl, -⟩ | ⟨m, -, -, -, h8⟩
      · exact absurd rfl hne
      · exact h8

end FA
