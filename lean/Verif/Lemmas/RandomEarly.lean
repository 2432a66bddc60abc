import Verif.Lemmas.RandomNetwork

/-!
# Networks with fewer nodes than wanted in random quorum sets: everybody trusts everybody
-/

namespace FA
open Spec Simulator Props

attribute [local irreducible] Probability

/-! ### Steps with only one kind of result -/

/-- With at most `D` draws, `A` leads to a result as described by `Q`. -/
def Sure {α : Type} (L D : ℕ) (A : List ℕ → α → List ℕ → Prop) (Q : α → Prop) : Prop :=
  ∀ (p : ℚ) (D2 : ℕ) (K : α → List ℕ → Prop), (∀ a, Q a → ∀ N, D2 ≤ N → Probability L N (K a) = p) →
    ∀ N, D + D2 ≤ N → Probability L N (fun r => ∃ a s, A r a s ∧ K a s) = p

section
variable {α β : Type} {L D D' : ℕ} {A A' : List ℕ → α → List ℕ → Prop} {Q Q' : α → Prop}

theorem Sure.mono (h : Sure L D A Q) (hD : D ≤ D') (hQ : ∀ a, Q a → Q' a) : Sure L D' A Q' :=
  fun p D2 K hK N hN => h p D2 K (fun a ha => hK a (hQ a ha)) N (by omega)

theorem Sure.congr (h : Sure L D A Q) (he : ∀ r a s, A' r a s ↔ A r a s) : Sure L D A' Q := by
  intro p D2 K hK N hN
  rw [← h p D2 K hK N hN]
  exact probability_congr (fun r _ _ => exists_congr (fun a => exists_congr (fun s => and_congr_left' (he r a s))))

theorem Sure.bind {B : α → List ℕ → β → List ℕ → Prop} {Q2 : β → Prop} (h : Sure L D A Q)
    (hB : ∀ a, Q a → Sure L D' (B a) Q2) :
    Sure L (D + D') (fun r b s => ∃ a s1, A r a s1 ∧ B a s1 b s) Q2 := by
  intro p D2 K hK N hN
  rw [← h p (D' + D2) (fun a r => ∃ b s, B a r b s ∧ K b s) (fun a ha N' hN' => hB a ha p D2 K hK N' hN') N (by omega)]
  refine probability_congr (fun r _ _ => ?_)
  constructor
  · rintro ⟨b, s, ⟨a, s1, h1, h2⟩, h3⟩; exact ⟨a, s1, h1, b, s, h2, h3⟩
  · rintro ⟨a, s1, h1, b, s, h2, h3⟩; exact ⟨b, s, ⟨a, s1, h1, h2⟩, h3⟩

theorem Sure.pure {a : α} (ha : Q a) : Sure L 0 (fun r b s => b = a ∧ s = r) Q := by
  intro p D2 K hK N hN
  rw [← hK a ha N (by omega)]
  refine probability_congr (fun r _ _ => ?_)
  constructor
  · rintro ⟨b, s, ⟨rfl, rfl⟩, h⟩; exact h
  · intro h; exact ⟨a, r, ⟨rfl, rfl⟩, h⟩

end

theorem sure_choice {L : ℕ} (hL : 0 < L) {w : ℕ → ℕ} {l : List ℕ} (hl : l.Nodup) (h0 : 0 < (l.map w).sum)
    (hd : (l.map w).sum ∣ L) :
    Sure L 1 (fun r x s => (lottery L).chooseWeighted r w l = (some x, s)) (fun x => x ∈ l) := by
  intro p D2 K hK N hN
  obtain ⟨M, rfl⟩ : ∃ M, N = M + 1 := ⟨N - 1, by omega⟩
  rw [probability_choice hL hl rfl h0 hd (Q := K) (fun a r => ?_)]
  · rw [Finset.sum_congr rfl (fun y hy => by rw [hK y (List.mem_toFinset.1 hy) M (by omega)]), ← Finset.sum_mul,
      ← Finset.sum_div, ← Nat.cast_sum, List.sum_toFinset w hl, div_self, one_mul]
    exact_mod_cast h0.ne'
  · constructor
    · rintro ⟨x, s, h1, h2⟩
      obtain ⟨h3, rfl⟩ := Prod.mk.inj (show (candidateAt w (a % (l.map w).sum) l, r) = (some x, s) from h1)
      exact ⟨x, h3, h2⟩
    · rintro ⟨x, h1, h2⟩
      exact ⟨x, r, congrArg (fun c => (c, r)) h1, h2⟩

theorem sure_shuffle {L : ℕ} (hL : 0 < L) (l : List ℕ) :
    Sure L l.length (fun r σ s => (lottery L).shuffle r l = (σ, s)) (fun σ => σ.Perm l) := by
  intro p D2 K hK N hN
  obtain ⟨M, rfl⟩ : ∃ M, N = l.length + M := ⟨N - l.length, by omega⟩
  rw [← shuffle_probability hL (k := l.length) (l := l) rfl (P := K) (M := M) (p := p)
    (fun σ hσ => hK σ hσ M (by omega))]
  refine probability_congr (fun r _ _ => ?_)
  constructor
  · rintro ⟨σ, s, h1, h2⟩
    obtain ⟨rfl, rfl⟩ := Prod.mk.inj (show ((orderBy l.length r l).1, (orderBy l.length r l).2) = (σ, s) from h1)
    exact h2
  · intro h; exact ⟨_, _, rfl, h⟩

/-! ### Trusting everybody -/

theorem sure_randomLoop {L : ℕ} (hL : 0 < L) {w : List ℕ} {k : ℕ} {l vs : List ℕ} (hk : l.length = k) (hl : l.Nodup)
    (hw : ∀ y ∈ l, 0 < w.getD y 1) (hd : ∀ d, 0 < d → d ≤ (l.map (fun y => w.getD y 1)).sum → d ∣ L) :
    Sure L k (fun r vs' s => Qsc.randomLoop (lottery L) w k l vs r = .ok (vs', s))
      (fun vs' => ∃ js, vs' = vs ++ js ∧ js.Perm l) := by
  induction k generalizing l vs with
  | zero =>
    obtain rfl := List.length_eq_zero_iff.1 hk
    refine (Sure.pure (a := vs) ⟨[], (List.append_nil _).symm, List.Perm.refl _⟩).congr (fun r a s => ?_)
    rw [Qsc.randomLoop]
    constructor
    · intro h
      obtain ⟨rfl, rfl⟩ := Prod.mk.inj (Except.ok.inj h)
      exact ⟨rfl, rfl⟩
    · rintro ⟨rfl, rfl⟩; rfl
  | succ k ih =>
    have hpos : 0 < (l.map (fun x => w.getD x 1)).sum := by
      obtain ⟨y, hy⟩ := List.exists_mem_of_length_pos (l := l) (by omega)
      exact Nat.lt_of_lt_of_le (hw y hy)
        (List.single_le_sum (fun _ _ => Nat.zero_le _) _ (List.mem_map_of_mem (f := fun x => w.getD x 1) hy))
    have h1 := sure_choice hL (w := fun x => w.getD x 1) hl hpos (hd _ hpos (Nat.le_refl _))
    refine ((h1.bind (D' := k) (Q2 := fun vs' => ∃ js, vs' = vs ++ js ∧ js.Perm l)
      (B := fun y r vs' s => Qsc.randomLoop (lottery L) w k (l.erase y) (vs ++ [y]) r = .ok (vs', s))
      (fun y hy => ?_)).mono (D' := k + 1) (by omega) (fun _ h => h)).congr (fun r a s => randomLoop_succ)
    have hle : (l.erase y).length = k := by rw [List.length_erase_of_mem hy, hk, Nat.add_sub_cancel]
    have hsum : ((l.erase y).map (fun x => w.getD x 1)).sum ≤ (l.map (fun x => w.getD x 1)).sum := by
      rw [((List.perm_cons_erase hy).map (fun x => w.getD x 1)).sum_eq, List.map_cons, List.sum_cons]
      exact Nat.le_add_left _ _
    refine (ih hle (hl.erase y) (fun z hz => hw z (List.mem_of_mem_erase hz))
      (fun d h2 h3 => hd d h2 (h3.trans hsum))).mono (Nat.le_refl _) (fun vs' h => ?_)
    obtain ⟨js, rfl, h4⟩ := h
    exact ⟨y :: js, by rw [List.append_assoc]; rfl, (h4.cons y).trans (List.perm_cons_erase hy).symm⟩

/-- Node `y` trusts nobody yet, or itself and other nodes below `n`. -/
def Part (f : Fbas) (n : ℕ) (y : NodeId) : Prop :=
  ∃ q, HasQSet f y q ∧ q.validators.Nodup ∧ (q.validators = [] ∨ ∃ js, q.validators = y :: js) ∧
    ∀ v ∈ q.validators, v < n

/-- Node `x` trusts everybody. -/
def TrustsAll (f : Fbas) (n : ℕ) (x : NodeId) : Prop :=
  ∃ q js, HasQSet f x q ∧ q.validators = x :: js ∧ q.validators.Perm (List.range n)

/-- Everybody trusts everybody. -/
def Everybody (f : Fbas) (n : ℕ) : Prop :=
  ∀ x < n, TrustsAll f n x

theorem TrustsAll.chose {f : Fbas} {n : ℕ} {x : NodeId} (h : TrustsAll f n x) : Chose f x (Finset.range n) := by
  obtain ⟨q, js, h1, -, h2⟩ := h
  refine ⟨q, h1, h2.nodup_iff.2 List.nodup_range, ?_⟩
  ext v
  rw [List.mem_toFinset, h2.mem_iff, List.mem_range, Finset.mem_range]

theorem TrustsAll.part {f : Fbas} {n m : ℕ} {x : NodeId} (h : TrustsAll f n x) (hm : n ≤ m) : Part f m x := by
  obtain ⟨q, js, h1, h2, h3⟩ := h
  exact ⟨q, h1, h3.nodup_iff.2 List.nodup_range, .inr ⟨js, h2⟩,
    fun v hv => Nat.lt_of_lt_of_le (List.mem_range.1 (h3.mem_iff.1 hv)) hm⟩

theorem TrustsAll.keep {f f' : Fbas} {n : ℕ} {x : NodeId} (h : TrustsAll f n x)
    (he : f'.getQuorumSet x = f.getQuorumSet x) : TrustsAll f' n x := by
  obtain ⟨q, js, h1, h2⟩ := h
  exact ⟨q, js, getQuorumSet_iff.1 (he.trans (getQuorumSet_iff.2 h1)), h2⟩

theorem Part.keep {f f' : Fbas} {n : ℕ} {x : NodeId} (h : Part f n x)
    (he : f'.getQuorumSet x = f.getQuorumSet x) : Part f' n x := by
  obtain ⟨q, h1, h2⟩ := h
  exact ⟨q, getQuorumSet_iff.1 (he.trans (getQuorumSet_iff.2 h1)), h2⟩

theorem sum_getD_le {w : List ℕ} {l : List ℕ} {n : ℕ} (hl : l.Nodup) (h : ∀ y ∈ l, y < n) :
    (l.map (fun y => w.getD y 1)).sum ≤ ((List.range n).map (fun y => w.getD y 1)).sum := by
  rw [← List.sum_toFinset _ hl, ← List.sum_toFinset _ List.nodup_range]
  exact Finset.sum_le_sum_of_subset (fun y hy =>
    List.mem_toFinset.2 (List.mem_range.2 (h y (List.mem_toFinset.1 hy))))

theorem sure_visit {L : ℕ} (hL : 0 < L) {size n : ℕ} {t : Option ℕ} {w : List ℕ} {f : Fbas} {x : NodeId} (hsize : 2 ≤ size)
    (hfn : f.nodes.length = n) (hn : n ≤ size) (hw : ∀ y < n, 0 < w.getD y 1)
    (hd : ∀ d, 0 < d → d ≤ ((List.range n).map (fun y => w.getD y 1)).sum → d ∣ L) (hx : Part f n x) :
    Sure L n (fun r (a : ChangeEffect × Fbas) s => Qsc.random (lottery L) size t w x (f, r) = .ok (a.1, a.2, s))
      (fun a => SameNames f a.2 ∧ TrustsAll a.2 n x ∧
        ∀ y, y ≠ x → a.2.getQuorumSet y = f.getQuorumSet y) := by
  obtain ⟨q, h1, h2, h3, h4⟩ := hx
  obtain ⟨hxn, hex⟩ := existing_eq h1
  have hxn' : (x : ℕ) < n := by rw [← hfn]; exact hxn
  by_cases hfull : q.validators ≠ [] ∧ size ≤ q.validators.length
  · obtain ⟨js, hjs⟩ := h3.resolve_left hfull.1
    have he : q.validators.toFinset = (List.range n).toFinset := by
      refine Finset.eq_of_subset_of_card_le
        (fun v hv => List.mem_toFinset.2 (List.mem_range.2 (h4 v (List.mem_toFinset.1 hv)))) ?_
      rw [List.toFinset_card_of_nodup List.nodup_range, List.length_range, List.toFinset_card_of_nodup h2]
      omega
    have hpe : q.validators.Perm (List.range n) := (List.perm_ext_iff_of_nodup h2 List.nodup_range).2 (fun v => by
      rw [← List.mem_toFinset, he, List.mem_toFinset])
    refine ((Sure.pure (L := L) (a := (ChangeEffect.noChange, f)) (Q := fun a : ChangeEffect × Fbas =>
      SameNames f a.2 ∧ TrustsAll a.2 n x ∧ ∀ y, y ≠ x → a.2.getQuorumSet y = f.getQuorumSet y)
      ⟨⟨rfl, rfl⟩, ⟨q, js, h1, hjs, hpe⟩, fun _ _ => rfl⟩).mono (D' := n) (Nat.zero_le _) (fun _ h => h)).congr
      (fun r a s => ?_)
    rw [random_full (R := lottery L) h1 hfull.1 hfull.2]
    constructor
    · intro h
      obtain ⟨e1, e2⟩ := Prod.mk.inj (Except.ok.inj h)
      obtain ⟨e3, e4⟩ := Prod.mk.inj e2
      exact ⟨Prod.ext e1.symm e3.symm, e4.symm⟩
    · rintro ⟨rfl, rfl⟩; rfl
  · set vs := if q.validators = [] then [x] else q.validators with hvs
    have hvn : vs.Nodup := by
      rw [hvs]; split
      · exact List.nodup_singleton _
      · exact h2
    obtain ⟨js0, hxv⟩ : ∃ js, vs = x :: js := by
      rw [hvs]; split
      · exact ⟨[], rfl⟩
      · rename_i h; exact h3.resolve_left h
    have hvlt : ∀ v ∈ vs, (v : ℕ) < n := by
      intro v hv
      rw [hvs] at hv; split at hv
      · rw [List.mem_singleton.1 hv]; exact hxn'
      · exact h4 v hv
    have hlt : vs.length < size := by
      rw [hvs]; split
      · simp; omega
      · rename_i h
        by_contra hge
        exact hfull ⟨h, by omega⟩
    set av := (rangeFT 0 f.nodes.length).filter (fun y => decide (y ∉ vs)) with hav
    have havn : av.Nodup := (nodup_rangeFT _ _).filter _
    have hmem : ∀ y : ℕ, y ∈ av ↔ y < n ∧ y ∉ vs := by
      intro y
      rw [hav, List.mem_filter, mem_rangeFT, decide_eq_true_eq, hfn]
      simp
    have hperm : (vs ++ av).Perm (List.range n) := by
      refine (List.perm_ext_iff_of_nodup (List.nodup_append.2 ⟨hvn, havn, ?_⟩) List.nodup_range).2 (fun y => ?_)
      · intro a ha b hb hab
        rw [← hab] at hb
        exact ((hmem a).1 hb).2 ha
      · rw [List.mem_append, hmem, List.mem_range]
        constructor
        · rintro (h | h)
          · exact hvlt y h
          · exact h.1
        · intro h
          by_cases hy : y ∈ vs
          · exact .inl hy
          · exact .inr ⟨h, hy⟩
    have hlen : vs.length + av.length = n := by
      have := hperm.length_eq
      rw [List.length_append, List.length_range] at this
      exact this
    have hmin : min size f.nodes.length - vs.length = av.length := by omega
    have hiff : ∀ (r : List ℕ) (a : ChangeEffect × Fbas) s,
        Qsc.random (lottery L) size t w x (f, r) = .ok (a.1, a.2, s) ↔
        ∃ vs' s1, Qsc.randomLoop (lottery L) w av.length av vs r = .ok (vs', s1) ∧
          ((a.1 = .change ∧ Qsc.setQuorumSet f x { q with
            threshold := t.getD (Qsc.calculate67pThreshold (min size f.nodes.length)), validators := vs' } = .ok a.2) ∧
            s = s1) := by
      intro r a s
      unfold Qsc.random
      dsimp only
      rw [hex]
      dsimp only
      rw [← hvs, if_pos hlt, hmin, ← hav]
      cases hr : Qsc.randomLoop (lottery L) w av.length av vs r with
      | error e =>
        dsimp only
        constructor
        · intro h; cases h
        · rintro ⟨_, _, h, -⟩; cases h
      | ok pr =>
        obtain ⟨vs', s1⟩ := pr
        dsimp only
        constructor
        · intro h
          split at h
          · cases h
          · rename_i f' hf'
            obtain ⟨e1, e2⟩ := Prod.mk.inj (Except.ok.inj h)
            obtain ⟨e3, e4⟩ := Prod.mk.inj e2
            exact ⟨vs', s1, rfl, ⟨e1.symm, by rw [← e3]; exact hf'⟩, e4.symm⟩
        · rintro ⟨vs2, s2, h5, ⟨h6, h7⟩, rfl⟩
          obtain ⟨rfl, rfl⟩ := Prod.mk.inj (Except.ok.inj h5)
          rw [h7, h6]
    refine (((sure_randomLoop hL (k := av.length) (l := av) (vs := vs) rfl havn
      (fun y hy => hw y ((hmem y).1 hy).1)
      (fun d h5 h6 => hd d h5 (h6.trans (sum_getD_le havn (fun y hy => ((hmem y).1 hy).1))))).bind (D' := 0)
      (B := fun vs' r (a : ChangeEffect × Fbas) s => (a.1 = .change ∧ Qsc.setQuorumSet f x { q with
            threshold := t.getD (Qsc.calculate67pThreshold (min size f.nodes.length)), validators := vs' } = .ok a.2) ∧
            s = r) (fun vs' hvs' => ?_)).mono (by omega) (fun _ h => h)).congr hiff
    obtain ⟨f1, g1, g2, g3⟩ := swap_spec hxn { q with
      threshold := t.getD (Qsc.calculate67pThreshold (min size f.nodes.length)), validators := vs' }
    obtain ⟨js, rfl, hjs⟩ := hvs'
    have hvp := (hjs.append_left vs).trans hperm
    refine (Sure.pure (a := (ChangeEffect.change, f1)) ⟨g2, ⟨_, js0 ++ js,
      getQuorumSet_iff.1 ((g3 x).trans (if_pos rfl)), by rw [hxv]; rfl, hvp⟩,
      fun y hy => by rw [g3, if_neg hy]⟩).congr (fun r a s => ?_)
    rw [g1]
    constructor
    · rintro ⟨⟨e1, e2⟩, rfl⟩
      exact ⟨Prod.ext e1 (Except.ok.inj e2).symm, rfl⟩
    · rintro ⟨rfl, rfl⟩; exact ⟨⟨rfl, rfl⟩, rfl⟩

/-! ### Rounds -/

theorem sure_round {L : ℕ} (hL : 0 < L) {size n : ℕ} {t : Option ℕ} {w : List ℕ} (hsize : 2 ≤ size) (hn : n ≤ size)
    (hw : ∀ y < n, 0 < w.getD y 1)
    (hd : ∀ d, 0 < d → d ≤ ((List.range n).map (fun y => w.getD y 1)).sum → d ∣ L) {order : List ℕ} (ho : order.Nodup) {f : Fbas} (hfn : f.nodes.length = n)
    (hp : ∀ x ∈ order, Part f n x) {c : ChangeEffect} {ev : List Event} :
    Sure L (order.length * n) (fun r (a : ChangeEffect × Fbas × List Event) s =>
      roundLoop (Qsc.random (lottery L) size t w) order (c, ⟨f, ev, r⟩) = .ok (a.1, ⟨a.2.1, a.2.2, s⟩))
      (fun a => SameNames f a.2.1 ∧ (∀ x ∈ order, TrustsAll a.2.1 n x) ∧
        ∀ y, y ∉ order → a.2.1.getQuorumSet y = f.getQuorumSet y) := by
  induction order generalizing f c ev with
  | nil =>
    refine ((Sure.pure (L := L) (a := (c, f, ev)) (Q := fun a : ChangeEffect × Fbas × List Event =>
      SameNames f a.2.1 ∧ (∀ x ∈ ([] : List ℕ), TrustsAll a.2.1 n x) ∧
        ∀ y, y ∉ ([] : List ℕ) → a.2.1.getQuorumSet y = f.getQuorumSet y)
      ⟨⟨rfl, rfl⟩, fun x hx => (by cases hx), fun _ _ => rfl⟩).mono (Nat.zero_le _) (fun _ h => h)).congr
      (fun r a s => ?_)
    rw [roundLoop]
    constructor
    · intro h
      obtain ⟨e1, e2⟩ := Prod.mk.inj (Except.ok.inj h)
      obtain ⟨e3, e4, e5⟩ := Simulator.mk.inj e2
      exact ⟨Prod.ext e1.symm (Prod.ext e3.symm e4.symm), e5.symm⟩
    · rintro ⟨rfl, rfl⟩; rfl
  | cons x order ih =>
    obtain ⟨hx, ho'⟩ := List.nodup_cons.1 ho
    have h1 := sure_visit hL (t := t) hsize hfn hn hw hd (hp x List.mem_cons_self)
    refine ((h1.bind (D' := order.length * n)
      (B := fun d r (a : ChangeEffect × Fbas × List Event) s => roundLoop (Qsc.random (lottery L) size t w) order
        (c.update d.1, ⟨d.2, ev ++ [.quorumSetChange x d.1], r⟩) = .ok (a.1, ⟨a.2.1, a.2.2, s⟩))
      (Q2 := fun a => SameNames f a.2.1 ∧ (∀ y ∈ x :: order, TrustsAll a.2.1 n y) ∧
        ∀ y, y ∉ x :: order → a.2.1.getQuorumSet y = f.getQuorumSet y) (fun d hd' => ?_)).mono
      (by rw [List.length_cons, Nat.succ_mul, Nat.add_comm]) (fun _ h => h)).congr (fun r a s => ?_)
    · obtain ⟨g1, g2, g3⟩ := hd'
      refine (ih ho' (f := d.2) (by rw [g1.length, hfn]) (fun y hy => ?_)).mono (Nat.le_refl _) (fun a ha => ?_)
      · exact (hp y (List.mem_cons_of_mem _ hy)).keep (g3 y (fun h => hx (by rw [← h]; exact hy)))
      · obtain ⟨k1, k2, k3⟩ := ha
        refine ⟨g1.trans k1, fun y hy => ?_, fun y hy => ?_⟩
        · rcases List.mem_cons.1 hy with rfl | hy
          · exact g2.keep (k3 y hx)
          · exact k2 y hy
        · rw [k3 y (fun h => hy (List.mem_cons_of_mem _ h)), g3 y (fun h => hy (by rw [h]; exact List.mem_cons_self))]
    · rw [roundLoop_cons]
      constructor
      · rintro ⟨d, f1, s1, h2, h3⟩; exact ⟨(d, f1), s1, h2, h3⟩
      · rintro ⟨d, s1, h2, h3⟩; exact ⟨d.1, d.2, s1, h2, h3⟩

/-- One round with a new order. -/
theorem sure_shuffled {L : ℕ} (hL : 0 < L) {size n : ℕ} {t : Option ℕ} {w : List ℕ} (hsize : 2 ≤ size) (hn : n ≤ size)
    (hw : ∀ y < n, 0 < w.getD y 1)
    (hd : ∀ d, 0 < d → d ≤ ((List.range n).map (fun y => w.getD y 1)).sum → d ∣ L) {order : List ℕ} (ho : order.Perm (List.range n)) {f : Fbas}
    (hfn : f.nodes.length = n) (hp : ∀ x < n, Part f n x) {ev : List Event} :
    Sure L (n + n * n) (fun r (a : List ℕ × ChangeEffect × Fbas × List Event) s =>
      a.1 = ((lottery L).shuffle r order).1 ∧
      roundLoop (Qsc.random (lottery L) size t w) ((lottery L).shuffle r order).1 (.noChange, ⟨f, ev,
        ((lottery L).shuffle r order).2⟩) = .ok (a.2.1, ⟨a.2.2.1, a.2.2.2, s⟩))
      (fun a => a.1.Perm (List.range n) ∧ SameNames f a.2.2.1 ∧ Everybody a.2.2.1 n) := by
  have hol : order.length = n := by rw [ho.length_eq, List.length_range]
  have h1 := sure_shuffle hL order
  rw [hol] at h1
  refine (h1.bind (D' := n * n) (B := fun σ r (a : List ℕ × ChangeEffect × Fbas × List Event) s =>
      a.1 = σ ∧ roundLoop (Qsc.random (lottery L) size t w) σ (.noChange, ⟨f, ev, r⟩) =
        .ok (a.2.1, ⟨a.2.2.1, a.2.2.2, s⟩))
      (Q2 := fun a => a.1.Perm (List.range n) ∧ SameNames f a.2.2.1 ∧ Everybody a.2.2.1 n)
      (fun σ hσ => ?_)).congr (fun r a s => ?_)
  · have hσ' := hσ.trans ho
    have hσl : σ.length = n := by rw [hσ'.length_eq, List.length_range]
    have h2 := sure_round hL (t := t) hsize hn hw hd (order := σ) (hσ'.nodup_iff.2 List.nodup_range) hfn
      (fun x hx => hp x (List.mem_range.1 (hσ'.mem_iff.1 hx))) (c := .noChange) (ev := ev)
    rw [hσl] at h2
    refine ((h2.bind (D' := 0) (B := fun b r (a : List ℕ × ChangeEffect × Fbas × List Event) s => a = (σ, b) ∧ s = r)
      (Q2 := fun a => a.1.Perm (List.range n) ∧ SameNames f a.2.2.1 ∧ Everybody a.2.2.1 n)
      (fun b hb => Sure.pure ⟨hσ', hb.1, fun x hx => hb.2.1 x (hσ'.mem_iff.2 (List.mem_range.2 hx))⟩)).mono
      (Nat.le_refl _) (fun _ h => h)).congr (fun r a s => ?_)
    constructor
    · rintro ⟨rfl, h⟩; exact ⟨a.2, s, h, rfl, rfl⟩
    · rintro ⟨b, s1, h, rfl, rfl⟩; exact ⟨rfl, h⟩
  · constructor
    · rintro ⟨h3, h4⟩; exact ⟨_, _, rfl, h3, h4⟩
    · rintro ⟨σ, s1, h3, h4, h5⟩
      obtain ⟨rfl, rfl⟩ := Prod.mk.inj
        (show (((lottery L).shuffle r order).1, ((lottery L).shuffle r order).2) = (σ, s1) from h3)
      exact ⟨h4, h5⟩

theorem reevaluationLoop_stable {R : Rand} {qsc : Qsc R} {n next : ℕ} {order : List ℕ} {sim : Simulator R} :
    reevaluationLoop qsc n true next order sim = .ok (next, sim) := by
  cases n with
  | zero => rw [reevaluationLoop]
  | succ n => rw [reevaluationLoop, if_pos rfl]

theorem sure_stop {L D n next : ℕ} {f : Fbas} {ev : List Event} (he : Everybody f n) :
    Sure L D (fun r (a : ℕ × Fbas × List Event) s =>
      (Except.ok (next, ⟨f, ev, r⟩) : Except Panic (ℕ × Simulator (lottery L))) = .ok (a.1, ⟨a.2.1, a.2.2, s⟩))
      (fun a => SameNames f a.2.1 ∧ Everybody a.2.1 n) := by
  refine ((Sure.pure (L := L) (a := (next, f, ev)) (Q := fun a : ℕ × Fbas × List Event =>
    SameNames f a.2.1 ∧ Everybody a.2.1 n) ⟨⟨rfl, rfl⟩, he⟩).mono (Nat.zero_le _) (fun _ h => h)).congr
    (fun r a s => ?_)
  constructor
  · intro h
    obtain ⟨e1, e2⟩ := Prod.mk.inj (Except.ok.inj h)
    obtain ⟨e3, e4, e5⟩ := Simulator.mk.inj e2
    exact ⟨Prod.ext e1.symm (Prod.ext e3.symm e4.symm), e5.symm⟩
  · rintro ⟨rfl, rfl⟩; rfl

theorem sure_reevaluationLoop {L : ℕ} (hL : 0 < L) {size n : ℕ} {t : Option ℕ} {w : List ℕ} (hsize : 2 ≤ size) (hn : n ≤ size)
    (hw : ∀ y < n, 0 < w.getD y 1)
    (hd : ∀ d, 0 < d → d ≤ ((List.range n).map (fun y => w.getD y 1)).sum → d ∣ L) {rem : ℕ} {stable : Bool} {next : ℕ} {order : List ℕ}
    (ho : order.Perm (List.range n)) {f : Fbas} (hfn : f.nodes.length = n) (hp : ∀ x < n, Part f n x)
    (he : Everybody f n ∨ rem ≠ 0 ∧ stable = false) {ev : List Event} :
    Sure L (rem * (n + n * n)) (fun r (a : ℕ × Fbas × List Event) s =>
      reevaluationLoop (Qsc.random (lottery L) size t w) rem stable next order ⟨f, ev, r⟩ =
        .ok (a.1, ⟨a.2.1, a.2.2, s⟩))
      (fun a => SameNames f a.2.1 ∧ Everybody a.2.1 n) := by
  induction rem generalizing stable next order f ev with
  | zero =>
    refine (sure_stop (D := 0 * (n + n * n)) (next := next) (ev := ev) (he.resolve_right (fun h => h.1 rfl))).congr (fun r a s => ?_)
    rw [reevaluationLoop]
  | succ rem ih =>
    cases stable with
    | true =>
      refine (sure_stop (next := next) (ev := ev) (he.resolve_right (fun h => by cases h.2))).congr (fun r a s => ?_)
      rw [reevaluationLoop_stable]
    | false =>
      have h1 := sure_shuffled hL (t := t) hsize hn hw hd ho hfn hp (ev := ev ++ [.startGlobalReevaluationRound])
      refine ((h1.bind (D' := rem * (n + n * n))
        (B := fun b r (a : ℕ × Fbas × List Event) s => reevaluationLoop (Qsc.random (lottery L) size t w) rem
          (!b.2.1.hadChange) (next + 1) b.1 ⟨b.2.2.1, b.2.2.2, r⟩ = .ok (a.1, ⟨a.2.1, a.2.2, s⟩))
        (Q2 := fun a => SameNames f a.2.1 ∧ Everybody a.2.1 n) (fun b hb => ?_)).mono
        (by rw [Nat.succ_mul, Nat.add_comm]) (fun _ h => h)).congr (fun r a s => ?_)
      · obtain ⟨k1, k2, k3⟩ := hb
        have hl : b.2.2.1.nodes.length = n := by rw [k2.length, hfn]
        refine (ih k1 hl (fun x hx => (k3 x hx).part (Nat.le_refl _)) (.inl k3)).mono (Nat.le_refl _)
          (fun a ha => ⟨k2.trans ha.1, ha.2⟩)
      · rw [reevaluationLoop_succ]
        constructor
        · rintro ⟨c1, sim1, h3, h4⟩
          exact ⟨(_, c1, sim1.fbas, sim1.events), sim1.rng, ⟨rfl, h3⟩, h4⟩
        · rintro ⟨⟨σ, c1, f1, ev1⟩, s1, ⟨rfl, h3⟩, h4⟩
          exact ⟨c1, _, h3, h4⟩

theorem sure_reevaluation {L : ℕ} (hL : 0 < L) {size n : ℕ} {t : Option ℕ} {w : List ℕ} (hsize : 2 ≤ size) (hn : n ≤ size)
    (hw : ∀ y < n, 0 < w.getD y 1)
    (hd : ∀ d, 0 < d → d ≤ ((List.range n).map (fun y => w.getD y 1)).sum → d ∣ L) {f : Fbas} (hfn : f.nodes.length = n) (hp : ∀ x < n, Part f n x)
    {ev : List Event} :
    Sure L (n * (n + n * n)) (fun r (a : ℕ × Fbas × List Event) s =>
      simulateGlobalReevaluation (Qsc.random (lottery L) size t w) n ⟨f, ev, r⟩ = .ok (a.1, ⟨a.2.1, a.2.2, s⟩))
      (fun a => SameNames f a.2.1 ∧ Everybody a.2.1 n) := by
  have h1 := sure_reevaluationLoop hL (t := t) hsize hn hw hd (rem := n) (stable := false) (next := 0)
    (order := rangeFT 0 f.nodes.length) (by rw [hfn, rangeFT_zero]) hfn hp
    (by
      rcases Nat.eq_zero_or_pos n with h | h
      · exact .inl (fun x hx => by omega)
      · exact .inr ⟨by omega, rfl⟩) (ev := ev ++ [.startGlobalReevaluation])
  refine ((h1.bind (D' := 0) (B := fun b r (a : ℕ × Fbas × List Event) s =>
      a = (b.1, b.2.1, b.2.2 ++ [.finishGlobalReevaluation b.1]) ∧ s = r)
    (Q2 := fun a => SameNames f a.2.1 ∧ Everybody a.2.1 n) (fun b hb => Sure.pure (Q := fun a : ℕ × Fbas × List Event =>
      SameNames f a.2.1 ∧ Everybody a.2.1 n) (a := (b.1, b.2.1, b.2.2 ++ [.finishGlobalReevaluation b.1])) hb)).mono (Nat.le_refl _)
    (fun _ h => h)).congr (fun r a s => ?_)
  rw [reevaluation_iff]
  constructor
  · rintro ⟨sim1, h2, h3⟩
    obtain ⟨e1, e2, e3⟩ := Simulator.mk.inj h3
    exact ⟨(a.1, sim1.fbas, sim1.events), sim1.rng, h2, Prod.ext rfl (Prod.ext e1 e2), e3⟩
  · rintro ⟨b, s1, h2, rfl, rfl⟩
    exact ⟨_, h2, rfl⟩

/-! ### Growth -/

/-- A bound for the number of draws. -/
def earlyDraws : ℕ → ℕ → ℕ → ℕ
  | _, 0, D => D
  | m, k + 1, D => (m + 1) + ((m + 1) * ((m + 1) + (m + 1) * (m + 1))) + earlyDraws (m + 1) k D

theorem early_growth {L : ℕ} (hL : 0 < L) {size : ℕ} {t : Option ℕ} {w : List ℕ} (hsize : 2 ≤ size) {k : ℕ} {p : ℚ} {D2 k1 m : ℕ}
    {G : Fbas → Prop} (hm : m + k1 ≤ size) (hw : ∀ y < m + k1, 0 < w.getD y 1)
    (hd : ∀ d, 0 < d → d ≤ ((List.range (m + k1)).map (fun y => w.getD y 1)).sum → d ∣ L)
    (hK : ∀ f ev, RegistryOk f → f.nodes.map Node.publicKey = (List.range (m + k1)).map (fun i => "n" ++ toString i) →
      Everybody f (m + k1) → ∀ N, D2 ≤ N → Probability L N (fun r => ∃ sim',
        simulateGrowth (Qsc.random (lottery L) size t w) k ⟨f, ev, r⟩ = .ok sim' ∧ G sim'.fbas) = p) :
    ∀ f ev, RegistryOk f → f.nodes.map Node.publicKey = (List.range m).map (fun i => "n" ++ toString i) →
      Everybody f m → ∀ N, earlyDraws m k1 D2 ≤ N → Probability L N (fun r => ∃ sim',
        simulateGrowth (Qsc.random (lottery L) size t w) (k1 + k) ⟨f, ev, r⟩ = .ok sim' ∧ G sim'.fbas) = p := by
  induction k1 generalizing m with
  | zero => exact fun f ev h1 h2 h3 N hN => by rw [Nat.zero_add]; exact hK f ev h1 h2 h3 N hN
  | succ k1 ih =>
    have e1 : m + 1 + k1 = m + (k1 + 1) := by omega
    have hD := ih (m := m + 1) (by omega) (by rw [e1]; exact hw) (by rw [e1]; exact hd) (by rw [e1]; exact hK)
    have hw1 : ∀ y < m + 1, 0 < w.getD y 1 := fun y hy => hw y (by omega)
    have hd1 : ∀ d, 0 < d → d ≤ ((List.range (m + 1)).map (fun y => w.getD y 1)).sum → d ∣ L := fun d h1 h2 =>
      hd d h1 (h2.trans (sum_getD_le List.nodup_range (fun y hy => Nat.lt_of_lt_of_le (List.mem_range.1 hy) (by omega))))
    intro f ev hreg hn hev N hN
    rw [earlyDraws] at hN
    have hl : f.nodes.length = m := by
      have := congrArg List.length hn; simpa using this
    obtain ⟨h1, h2⟩ := C40_add_generic_node f hreg QuorumSet.empty
    cases hr : f.addGenericNode QuorumSet.empty with
    | error e =>
      obtain ⟨n', hn', hp⟩ := h1.1 ⟨e, hr⟩
      have : n'.publicKey ∈ f.nodes.map Node.publicKey := List.mem_map_of_mem hn'
      rw [hn] at this
      obtain ⟨i, hi, hi'⟩ := List.mem_map.1 this
      have := genericNodeName_inj (i := i) (j := f.nodes.length) (hi'.trans hp)
      rw [List.mem_range] at hi
      omega
    | ok pr =>
      obtain ⟨x, f1⟩ := pr
      obtain ⟨h3, h4, h5⟩ := h2 x f1 hr
      have h3' : m = x := by rw [h3, hl]
      subst h3'
      have hfl : f1.nodes.length = m + 1 := by rw [h4]; simp [hl]
      have hnew : HasQSet f1 m QuorumSet.empty := by
        refine ⟨⟨"n" ++ toString f.nodes.length, QuorumSet.empty⟩, ?_, rfl⟩
        rw [h4, List.getElem?_append_right (by rw [hl]), hl, Nat.sub_self]; rfl
      have hn1 : f1.nodes.map Node.publicKey = (List.range (m + 1)).map (fun i => "n" ++ toString i) := by
        rw [h4, List.map_append, hn, hl, List.range_succ, List.map_append]; rfl
      have hparts : ∀ x < m + 1, Part f1 (m + 1) x := by
        intro x hx
        by_cases hxm : x = m
        · rw [hxm]
          exact ⟨_, hnew, List.nodup_nil, .inl rfl, fun v hv => by cases hv⟩
        · obtain ⟨q, g1, g2⟩ := (hev x (by omega)).part (m := m + 1) (by omega)
          exact ⟨q, addGenericNode_keeps f _ f1 hr g1, g2⟩
      have hv := sure_visit hL (t := t) hsize hfl (by omega) hw1 hd1 (hparts m (by omega))
      have hs := hv.bind (D' := (m + 1) * ((m + 1) + (m + 1) * (m + 1)))
        (B := fun b r (a : ℕ × Fbas × List Event) s => simulateGlobalReevaluation (Qsc.random (lottery L) size t w)
          b.2.nodes.length ⟨b.2, ev ++ [.addNode m], r⟩ = .ok (a.1, ⟨a.2.1, a.2.2, s⟩))
        (Q2 := fun a => SameNames f1 a.2.1 ∧ Everybody a.2.1 (m + 1))
        (fun b hb => by
          obtain ⟨k1, k2, k3⟩ := hb
          have hbl : b.2.nodes.length = m + 1 := by rw [k1.length, hfl]
          rw [hbl]
          refine (sure_reevaluation hL (t := t) hsize (by omega) hw1 hd1 hbl
            (fun x hx => ?_) (ev := ev ++ [.addNode m])).mono (Q' := fun a : ℕ × Fbas × List Event =>
              SameNames f1 a.2.1 ∧ Everybody a.2.1 (m + 1)) (Nat.le_refl _) (fun a ha => ⟨k1.trans ha.1, ha.2⟩)
          by_cases hxm : x = m
          · rw [hxm]; exact k2.part (by omega)
          · exact (hparts x hx).keep (k3 x hxm))
      have hfin := hs p (earlyDraws (m + 1) k1 D2) (fun a r => ∃ sim', simulateGrowth (Qsc.random (lottery L) size t w) (k1 + k)
          ⟨a.2.1, a.2.2, r⟩ = .ok sim' ∧ G sim'.fbas)
        (fun a ha N' hN' => by
          obtain ⟨ha1, ha2⟩ : SameNames f1 a.2.1 ∧ Everybody a.2.1 (m + 1) := ha
          exact hD a.2.1 a.2.2 (ha1.registry h5) (by rw [ha1.1, hn1]) ha2 N' hN') N hN
      rw [← hfin]
      refine probability_congr (fun r _ _ => ?_)
      have e2 : k1 + 1 + k = k1 + k + 1 := by omega
      rw [e2]
      constructor
      · rintro ⟨sim', g1, g2⟩
        obtain ⟨x, f3, c, f2, s2, k', sim2, e1, e2, e3, e4⟩ := growth_succ.1 g1
        have e1' : f.addGenericNode QuorumSet.empty = .ok (x, f3) := e1
        rw [hr] at e1'
        obtain ⟨rfl, rfl⟩ := Prod.mk.inj (Except.ok.inj e1')
        exact ⟨(k', sim2.fbas, sim2.events), sim2.rng, ⟨(c, f2), s2, e2, e3⟩, sim', e4, g2⟩
      · rintro ⟨a, s, ⟨b, s1, e2, e3⟩, sim', e4, g2⟩
        exact ⟨sim', growth_succ.2 ⟨m, f1, b.1, b.2, s1, a.1, _, hr, e2, e3, e4⟩, g2⟩

/-- The probability of a network, also if there are fewer initial nodes than wanted in quorum sets. -/
theorem simulate_probability_all {L : ℕ} (hL : 0 < L) {i g size : ℕ} {t : Option ℕ} (hsize : 2 ≤ size)
    (hd : ∀ d, 0 < d → d ≤ i + g → d ∣ L) :
    ∃ N0, ∀ N, N0 ≤ N → ∀ V : NodeId → Finset ℕ, (∀ x < i + g, CanTrust size i (i + g) x (V x)) →
    Probability L N (fun r => ∃ f, QscSimulator.simulate (Qsc.random (lottery L) size t []) i g r = .ok f ∧
      ∀ x < i + g, Chose f x (V x)) =
      (1 / ((max i (min size (i + g)) - 1).choose (min size (i + g) - 1) : ℕ) : ℚ) ^ max i (min size (i + g)) *
        ∏ j ∈ Finset.range (i + g - max i (min size (i + g))),
          1 / (((max i (min size (i + g)) + j).choose (min size (i + g) - 1) : ℕ) : ℚ) := by
  by_cases hi : size ≤ i
  · have e1 : min size (i + g) = size := by omega
    have e2 : max i size = i := by omega
    rw [e1, e2, Nat.add_sub_cancel_left]
    exact ⟨_, fun N hN V hV => simulate_probability hL hsize hi hd hN hV⟩
  · obtain ⟨n, hn⟩ : ∃ n, n = i + g := ⟨_, rfl⟩
    obtain ⟨m, hm⟩ : ∃ m, m = min size n := ⟨_, rfl⟩
    have e2 : max i m = m := by omega
    rw [← hn, ← hm, e2, Nat.choose_self, Nat.cast_one, div_one, one_pow, one_mul]
    obtain ⟨f0, h1, h2, h3⟩ := C40_new_generic_unconfigured i
    have hl : f0.nodes.length = i := by rw [h2]; simp
    have hn0 : f0.nodes.map Node.publicKey = (List.range i).map (fun i => "n" ++ toString i) := by
      rw [h2, List.map_map]; rfl
    refine ⟨i * (i + i * i) + earlyDraws i (m - i) (growthDraws size m (n - m)), fun N hN V hV => ?_⟩
    have hm1 : i + (m - i) = m := by omega
    have hm2 : (m - i) + (n - m) = g := by omega
    have hearlyV : ∀ x < m, V x = Finset.range m := by
      intro x hx
      have hc := hV x (by omega)
      refine Finset.eq_of_subset_of_card_le (fun v hv => Finset.mem_range.2 ?_) ?_
      · have h4 : (v : ℕ) < max (x + 1) (max i (min size n)) := hc.near v hv
        have key : ∀ x v i size n m : ℕ, x < m → m = min size n → max i m = m →
          v < max (x + 1) (max i (min size n)) → v < m := by omega
        exact key x v i size n m hx hm e2 h4
      · rw [Finset.card_range, hc.card, ← hm]
    have hlast : ∀ f ev, RegistryOk f → f.nodes.map Node.publicKey =
        (List.range (i + (m - i))).map (fun i => "n" ++ toString i) →
        Everybody f (i + (m - i)) → ∀ N, growthDraws size m (n - m) ≤ N → Probability L N (fun r => ∃ sim',
          simulateGrowth (Qsc.random (lottery L) size t []) (n - m) ⟨f, ev, r⟩ = .ok sim' ∧
            ∀ x < n, Chose sim'.fbas x (V x)) =
        ∏ j ∈ Finset.range (n - m), 1 / (((m + j).choose (m - 1) : ℕ) : ℚ) := by
      intro f ev hreg hnm hev N hN
      rw [hm1] at hnm hev
      have hch : ∀ x < m, Chose f x (V x) := fun x hx => by rw [hearlyV x hx]; exact (hev x hx).chose
      by_cases hs : size ≤ n
      · have hms : m = size := by omega
        subst hms
        obtain ⟨M, rfl⟩ : ∃ M, N = growthDraws m m (n - m) + M := ⟨N - growthDraws m m (n - m), by omega⟩
        have e3 : m + (n - m) = n := by omega
        have h5 := growth_probability hL (t := t) (M := M) hsize (S := V) (k := n - m) (Nat.le_refl m) hreg hnm
          (fun d h6 h7 => hd d h6 (by omega))
          (fun x hx => by
            rw [(hV x (by omega)).card, ← hm]) hch
          (fun x _ hx => (hV x (by omega)).self)
          (fun x hx1 hx y hy => by
            have h4 : (y : ℕ) < max (x + 1) (max i (min m n)) := (hV x (by omega)).near y hy
            have key : ∀ x y i m n : ℕ, m ≤ x → m = min m n → max i m = m →
              y < max (x + 1) (max i (min m n)) → y ≤ x := by omega
            exact key x y i m n hx1 hm e2 h4) (ev := ev)
        rw [e3] at h5
        exact h5
      · have hmn : m = n := by omega
        rw [hmn, Nat.sub_self, Finset.range_zero, Finset.prod_empty]
        rw [hmn] at hch
        exact probability_true hL (fun r _ _ => ⟨⟨f, ev, r⟩, rfl, hch⟩)
    have hw : ∀ y : ℕ, 0 < ([] : List ℕ).getD y 1 := fun y => by simp
    have hone : ∀ k : ℕ, ((List.range k).map (fun y => ([] : List ℕ).getD y 1)).sum = k := by
      intro k
      have : (fun x => ([] : List ℕ).getD x 1) = fun _ => 1 := by funext x; simp
      rw [this]; simp
    have hgrow := early_growth hL (t := t) hsize (k := n - m) (k1 := m - i) (m := i)
      (G := fun f => ∀ x < n, Chose f x (V x)) (by omega) (fun y _ => hw y)
      (fun d h6 h7 => hd d h6 (by rw [hone] at h7; omega)) hlast
    have hfirst := sure_reevaluation hL (t := t) hsize (n := i) (by omega) (fun y _ => hw y)
      (fun d h6 h7 => hd d h6 (by rw [hone] at h7; omega)) hl
      (fun x hx => ⟨QuorumSet.empty, ⟨⟨"n" ++ toString x, QuorumSet.empty⟩, by
        rw [h2, List.getElem?_map, List.getElem?_range hx]; rfl, rfl⟩, List.nodup_nil, .inl rfl,
        fun v hv => by cases hv⟩) (ev := [])
    have hfin := hfirst (∏ j ∈ Finset.range (n - m), 1 / (((m + j).choose (m - 1) : ℕ) : ℚ))
      (earlyDraws i (m - i) (growthDraws size m (n - m)))
      (fun a r => ∃ sim', simulateGrowth (Qsc.random (lottery L) size t []) ((m - i) + (n - m))
          ⟨a.2.1, a.2.2, r⟩ = .ok sim' ∧ ∀ x < n, Chose sim'.fbas x (V x))
      (fun a ha N' hN' => by
        obtain ⟨ha1, ha2⟩ : SameNames f0 a.2.1 ∧ Everybody a.2.1 i := ha
        exact hgrow a.2.1 a.2.2 (ha1.registry h3) (by rw [ha1.1, hn0]) ha2 N' hN') N hN
    rw [← hfin, hm2]
    refine probability_congr (fun r _ _ => ?_)
    constructor
    · rintro ⟨f, e1, e2⟩
      obtain ⟨k, sim1, e3, sim2, e4, rfl⟩ := (simulate_iff h1).1 e1
      exact ⟨(k, sim1.fbas, sim1.events), sim1.rng, e3, sim2, e4, e2⟩
    · rintro ⟨a, s, e3, sim2, e4, e2⟩
      exact ⟨_, (simulate_iff h1).2 ⟨a.1, _, e3, sim2, e4, rfl⟩, e2⟩

end FA
