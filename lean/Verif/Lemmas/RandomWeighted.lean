import Verif.Lemmas.RandomEarly

/-!
# Probabilities of networks with weighted random quorum sets
-/

namespace FA
open Spec Simulator Props

attribute [local irreducible] Probability

/-- With at most `D` draws, `A` leads to a result as described by `Q` with probability `c`, or otherwise to one as
described by `B`. -/
def Leads {α : Type} (L D : ℕ) (A : List ℕ → α → List ℕ → Prop) (c : ℚ) (Q B : α → Prop) : Prop :=
  ∀ (p : ℚ) (D2 : ℕ) (K : α → List ℕ → Prop), (∀ a, Q a → ∀ N, D2 ≤ N → Probability L N (K a) = p) →
    (∀ a, B a → ∀ s, ¬ K a s) → ∀ N, D + D2 ≤ N → Probability L N (fun r => ∃ a s, A r a s ∧ K a s) = c * p

section
variable {α β : Type} {L D D' : ℕ} {A A' : List ℕ → α → List ℕ → Prop} {Q Q' B B' : α → Prop} {c c' : ℚ}

theorem Sure.leads (h : Sure L D A Q) : Leads L D A 1 Q B := fun p D2 K hK _ N hN => by
  rw [one_mul]; exact h p D2 K hK N hN

theorem Leads.mono (h : Leads L D A c Q B) (hD : D ≤ D') (hc : c = c') (hQ : ∀ a, Q a → Q' a) (hB : ∀ a, B a → B' a) :
    Leads L D' A c' Q' B' :=
  fun p D2 K hK hK' N hN => hc ▸ h p D2 K (fun a ha => hK a (hQ a ha)) (fun a ha => hK' a (hB a ha)) N (by omega)

theorem Leads.congr (h : Leads L D A c Q B) (he : ∀ r a s, A' r a s ↔ A r a s) : Leads L D A' c Q B := by
  intro p D2 K hK hK' N hN
  rw [← h p D2 K hK hK' N hN]
  exact probability_congr (fun r _ _ => exists_congr (fun a => exists_congr (fun s => and_congr_left' (he r a s))))

theorem Leads.bind {F : α → List ℕ → β → List ℕ → Prop} {Q2 B2 : β → Prop} (h : Leads L D A c Q B)
    (hF : ∀ a, Q a → Leads L D' (F a) c' Q2 B2) (hB : ∀ a, B a → ∀ r b s, F a r b s → B2 b) :
    Leads L (D + D') (fun r b s => ∃ a s1, A r a s1 ∧ F a s1 b s) (c * c') Q2 B2 := by
  intro p D2 K hK hK' N hN
  rw [mul_assoc, ← h (c' * p) (D' + D2) (fun a r => ∃ b s, F a r b s ∧ K b s)
    (fun a ha N' hN' => hF a ha p D2 K hK hK' N' hN')
    (fun a ha r hk => by
      obtain ⟨b, s, h1, h2⟩ := hk
      exact hK' b (hB a ha r b s h1) s h2) N (by omega)]
  refine probability_congr (fun r _ _ => ?_)
  constructor
  · rintro ⟨b, s, ⟨a, s1, h1, h2⟩, h3⟩; exact ⟨a, s1, h1, b, s, h2, h3⟩
  · rintro ⟨a, s1, h1, b, s, h2, h3⟩; exact ⟨b, s, ⟨a, s1, h1, h2⟩, h3⟩

end

theorem leads_choice {L : ℕ} (hL : 0 < L) {w : ℕ → ℕ} {l : List ℕ} (hl : l.Nodup)
    (hd : ∀ d, 0 < d → d ≤ (l.map w).sum → d ∣ L) {j : ℕ} (hj : j ∈ l) :
    Leads L 1 (fun r x s => (lottery L).chooseWeighted r w l = (some x, s)) ((w j : ℚ) / ((l.map w).sum : ℕ))
      (fun x => x = j) (fun x => x ≠ j) := by
  intro p D2 K hK hK' N hN
  obtain ⟨M, rfl⟩ : ∃ M, N = M + 1 := ⟨N - 1, by omega⟩
  rcases Nat.eq_zero_or_pos (l.map w).sum with h0 | h0
  · rw [h0, Nat.cast_zero, div_zero, zero_mul]
    refine probability_false (fun r _ _ h => ?_)
    obtain ⟨x, s, h1, -⟩ := h
    obtain ⟨h2, h3⟩ := (lottery L).chooseWeighted_some r w l x (by rw [h1])
    have := le_sum_of_mem (w := w) h2
    omega
  · rw [probability_choice hL hl rfl h0 (hd _ h0 (Nat.le_refl _)) (Q := K) (fun a r => ?_)]
    · rw [Finset.sum_eq_single j]
      · rw [hK j rfl M (by omega)]
      · intro y _ hy
        rw [probability_false (fun r _ _ => hK' y hy r), mul_zero]
      · intro h; exact absurd (List.mem_toFinset.2 hj) h
    · constructor
      · rintro ⟨x, s, h1, h2⟩
        obtain ⟨h3, rfl⟩ := Prod.mk.inj (show (candidateAt w (a % (l.map w).sum) l, r) = (some x, s) from h1)
        exact ⟨x, h3, h2⟩
      · rintro ⟨x, h1, h2⟩
        exact ⟨x, r, congrArg (fun c => (c, r)) h1, h2⟩

theorem leads_randomLoop {L : ℕ} (hL : 0 < L) {w : List ℕ} {js l vs : List ℕ} (hl : l.Nodup)
    (hd : ∀ d, 0 < d → d ≤ (l.map (fun x => w.getD x 1)).sum → d ∣ L) (hj : js.Nodup) (hjl : ∀ j ∈ js, j ∈ l) :
    Leads L js.length (fun r vs' s => Qsc.randomLoop (lottery L) w js.length l vs r = .ok (vs', s))
      (InTurn (fun x => w.getD x 1) l js) (fun vs' => vs' = vs ++ js)
      (fun vs' => vs' ≠ vs ++ js ∧ vs'.length = vs.length + js.length) := by
  induction js generalizing l vs with
  | nil =>
    refine (Sure.leads (Sure.pure (a := vs) (by rw [List.append_nil]))).congr (fun r a s => ?_)
    rw [List.length_nil, Qsc.randomLoop]
    constructor
    · intro h
      obtain ⟨rfl, rfl⟩ := Prod.mk.inj (Except.ok.inj h)
      exact ⟨rfl, rfl⟩
    · rintro ⟨rfl, rfl⟩; rfl
  | cons j js ih =>
    obtain ⟨hj1, hj2⟩ := List.nodup_cons.1 hj
    have h1 := leads_choice hL hl hd (hjl j List.mem_cons_self)
    refine ((h1.bind (D' := js.length) (c' := InTurn (fun x => w.getD x 1) (l.erase j) js)
      (F := fun y r vs' s => Qsc.randomLoop (lottery L) w js.length (l.erase y) (vs ++ [y]) r = .ok (vs', s))
      (Q2 := fun vs' => vs' = vs ++ j :: js)
      (B2 := fun vs' => vs' ≠ vs ++ j :: js ∧ vs'.length = vs.length + (j :: js).length)
      (fun y hy => ?_) (fun y hy r vs' s h => ?_)).mono (by rw [List.length_cons]; omega) rfl
        (fun _ h => h) (fun _ h => h)).congr (fun r a s => randomLoop_succ)
    · subst hy
      refine (ih (l := l.erase y) (vs := vs ++ [y]) (hl.erase y)
        (fun t h1 h2 => hd t h1 (h2.trans sum_erase_le)) hj2
        (fun x hx => (List.mem_erase_of_ne (fun h => hj1 (by rw [← h]; exact hx))).2
          (hjl x (List.mem_cons_of_mem _ hx)))).mono (Nat.le_refl _) rfl (fun vs' h => ?_) (fun vs' h => ?_)
      · rw [h, List.append_assoc]; rfl
      · rw [List.append_assoc] at h
        refine ⟨h.1, h.2.trans ?_⟩
        rw [List.length_append, List.length_singleton, List.length_cons]; omega
    · obtain ⟨new, rfl, -, h3, -⟩ := randomLoop_ok (hl.erase y) h
      rw [List.append_assoc]
      refine ⟨fun he => hy ?_, ?_⟩
      · exact (List.cons.inj (List.append_cancel_left he)).1
      · rw [List.length_append, List.length_append, List.length_singleton, h3, List.length_cons]; omega

/-- Node `x` trusts itself and the listed nodes, chosen in this order. -/
def Listed (f : Fbas) (x : NodeId) (js : List ℕ) : Prop :=
  ∃ q, HasQSet f x q ∧ q.validators = x :: js

/-- Node `x` has made its choice, and it is another one. -/
def Otherwise (size : ℕ) (f : Fbas) (x : NodeId) (js : List ℕ) : Prop :=
  ∃ q, HasQSet f x q ∧ q.validators.length = size ∧ q.validators ≠ x :: js

theorem Listed.keep {f f' : Fbas} {x : NodeId} {js : List ℕ} (h : Listed f x js)
    (he : f'.getQuorumSet x = f.getQuorumSet x) : Listed f' x js := by
  obtain ⟨q, h1, h2⟩ := h
  exact ⟨q, getQuorumSet_iff.1 (he.trans (getQuorumSet_iff.2 h1)), h2⟩

theorem Otherwise.not_listed {size : ℕ} {f : Fbas} {x : NodeId} {js : List ℕ} (h : Otherwise size f x js) :
    ¬ Listed f x js := by
  obtain ⟨q, h1, -, h3⟩ := h
  rintro ⟨q', h4, h5⟩
  have : q = q' := Option.some.inj ((getQuorumSet_iff.2 h1).symm.trans (getQuorumSet_iff.2 h4))
  rw [this] at h3
  exact h3 h5

theorem leads_visit {L : ℕ} (hL : 0 < L) {size : ℕ} {t : Option ℕ} {w : List ℕ} {f : Fbas} {x : NodeId}
    (hsize : 2 ≤ size) (hn : size ≤ f.nodes.length) (hx : HasQSet f x QuorumSet.empty)
    (hd : ∀ d, 0 < d → d ≤ (((List.range f.nodes.length).erase x).map (fun y => w.getD y 1)).sum → d ∣ L)
    {js : List ℕ} (hj : js.Nodup) (hjs : ∀ j ∈ js, j < f.nodes.length ∧ j ≠ x) (hlen : js.length = size - 1) :
    Leads L (size - 1) (fun r (a : ChangeEffect × Fbas) s =>
        Qsc.random (lottery L) size t w x (f, r) = .ok (a.1, a.2, s))
      (InTurn (fun y => w.getD y 1) ((List.range f.nodes.length).erase x) js)
      (fun a => SameNames f a.2 ∧ Listed a.2 x js ∧ ∀ y, y ≠ x → a.2.getQuorumSet y = f.getQuorumSet y)
      (fun a => Otherwise size a.2 x js) := by
  obtain ⟨hxn, -⟩ := existing_eq hx
  have hav : (rangeFT 0 f.nodes.length).filter (fun y => decide (y ∉ [x])) = (List.range f.nodes.length).erase x := by
    rw [rangeFT_zero, List.nodup_range.erase_eq_filter]
    apply List.filter_congr
    intro y _
    by_cases h : y = x
    · simp [h]
    · simp [h]
  have h1 := leads_randomLoop hL (w := w) (vs := [x]) (List.nodup_range.erase x) hd hj
    (fun j h => (List.nodup_range.mem_erase_iff).2 ⟨(hjs j h).2, List.mem_range.2 (hjs j h).1⟩)
  rw [hlen] at h1
  refine ((h1.bind (D' := 0) (c' := 1)
    (F := fun vs r (a : ChangeEffect × Fbas) s => (a.1 = .change ∧ Qsc.setQuorumSet f x { QuorumSet.empty with
        threshold := t.getD (Qsc.calculate67pThreshold (min size f.nodes.length)), validators := vs } = .ok a.2) ∧
        s = r)
    (Q2 := fun a => SameNames f a.2 ∧ Listed a.2 x js ∧ ∀ y, y ≠ x → a.2.getQuorumSet y = f.getQuorumSet y)
    (B2 := fun a => Otherwise size a.2 x js) (fun vs hvs => ?_) (fun vs hvs r a s ha => ?_)).mono (Nat.le_refl _)
      (mul_one _) (fun _ h => h) (fun _ h => h)).congr (fun r a s => ?_)
  · obtain ⟨f1, g1, g2, g3⟩ := swap_spec hxn { QuorumSet.empty with
      threshold := t.getD (Qsc.calculate67pThreshold (min size f.nodes.length)), validators := vs }
    refine (Sure.leads (Sure.pure (a := (ChangeEffect.change, f1)) ⟨g2, ⟨_, getQuorumSet_iff.1 ((g3 x).trans (if_pos rfl)),
      hvs⟩, fun y hy => by rw [g3, if_neg hy]⟩)).congr (fun r a s => ?_)
    rw [g1]
    constructor
    · rintro ⟨⟨e1, e2⟩, rfl⟩
      exact ⟨Prod.ext e1 (Except.ok.inj e2).symm, rfl⟩
    · rintro ⟨rfl, rfl⟩; exact ⟨⟨rfl, rfl⟩, rfl⟩
  · obtain ⟨f1, g1, g2, g3⟩ := swap_spec hxn { QuorumSet.empty with
      threshold := t.getD (Qsc.calculate67pThreshold (min size f.nodes.length)), validators := vs }
    obtain ⟨⟨-, e2⟩, -⟩ := ha
    rw [g1] at e2
    rw [← Except.ok.inj e2]
    refine ⟨_, getQuorumSet_iff.1 ((g3 x).trans (if_pos rfl)), ?_, hvs.1⟩
    show vs.length = size
    rw [hvs.2, List.length_singleton]; omega
  · rw [random_iff hsize hn hx rfl, hav]
    constructor
    · rintro ⟨vs, e1, e2, e3⟩; exact ⟨vs, s, e1, ⟨e2, e3⟩, rfl⟩
    · rintro ⟨vs, s1, e1, ⟨e2, e3⟩, rfl⟩; exact ⟨vs, e1, e2, e3⟩

/-! ### Rounds -/

theorem Otherwise.random {R : Rand} {size : ℕ} {t : Option ℕ} {w : List ℕ} (hsize : 2 ≤ size) {x : NodeId} {js : List ℕ}
    (y : NodeId) (f : Fbas) (s : R.State) (c : ChangeEffect) (f' : Fbas) (s' : R.State)
    (h : Qsc.random R size t w y (f, s) = .ok (c, f', s')) (ho : Otherwise size f x js) : Otherwise size f' x js := by
  obtain ⟨q, h1, h2, h3⟩ := ho
  exact ⟨q, random_keeps (fun h => by rw [h] at h2; simp at h2; omega) (Nat.le_of_eq h2.symm) y f s c f' s' h h1, h2, h3⟩

theorem leads_round {L : ℕ} (hL : 0 < L) {size n : ℕ} {t : Option ℕ} {w : List ℕ} (hsize : 2 ≤ size) (hn : size ≤ n)
    (hd : ∀ d, 0 < d → d ≤ ((List.range n).map (fun y => w.getD y 1)).sum → d ∣ L) {J : NodeId → List ℕ}
    (hJ : ∀ x < n, (J x).Nodup ∧ (J x).length = size - 1 ∧ ∀ j ∈ J x, j < n ∧ j ≠ x)
    {order : List ℕ} (ho : order.Nodup) (hlt : ∀ x ∈ order, x < n) {f : Fbas} (hfn : f.nodes.length = n)
    (he : ∀ x ∈ order, HasQSet f x QuorumSet.empty) {c : ChangeEffect} {ev : List Event} :
    Leads L (order.length * (size - 1)) (fun r (a : ChangeEffect × Fbas × List Event) s =>
      roundLoop (Qsc.random (lottery L) size t w) order (c, ⟨f, ev, r⟩) = .ok (a.1, ⟨a.2.1, a.2.2, s⟩))
      ((order.map (fun x => InTurn (fun y => w.getD y 1) ((List.range n).erase x) (J x))).prod)
      (fun a => SameNames f a.2.1 ∧ (∀ x ∈ order, Listed a.2.1 x (J x)) ∧
        ∀ y, y ∉ order → a.2.1.getQuorumSet y = f.getQuorumSet y)
      (fun a => ∃ x ∈ order, Otherwise size a.2.1 x (J x)) := by
  induction order generalizing f c ev with
  | nil =>
    refine ((Sure.leads (Sure.pure (L := L) (a := (c, f, ev)) (Q := fun a : ChangeEffect × Fbas × List Event =>
      SameNames f a.2.1 ∧ (∀ x ∈ ([] : List ℕ), Listed a.2.1 x (J x)) ∧
        ∀ y, y ∉ ([] : List ℕ) → a.2.1.getQuorumSet y = f.getQuorumSet y)
      ⟨⟨rfl, rfl⟩, fun x hx => (by cases hx), fun _ _ => rfl⟩)).mono (Nat.zero_le _) rfl (fun _ h => h)
        (fun _ h => h)).congr (fun r a s => ?_)
    rw [roundLoop]
    constructor
    · intro h
      obtain ⟨e1, e2⟩ := Prod.mk.inj (Except.ok.inj h)
      obtain ⟨e3, e4, e5⟩ := Simulator.mk.inj e2
      exact ⟨Prod.ext e1.symm (Prod.ext e3.symm e4.symm), e5.symm⟩
    · rintro ⟨rfl, rfl⟩; rfl
  | cons x order ih =>
    obtain ⟨hx, ho'⟩ := List.nodup_cons.1 ho
    obtain ⟨j1, j2, j3⟩ := hJ x (hlt x List.mem_cons_self)
    have h1 := leads_visit hL (t := t) (w := w) hsize (by rw [hfn]; exact hn) (he x List.mem_cons_self)
      (fun d h2 h3 => hd d h2 (by rw [hfn] at h3; exact h3.trans sum_erase_le)) j1 (by rw [hfn]; exact j3) j2
    rw [hfn] at h1
    refine ((h1.bind (D' := order.length * (size - 1))
      (c' := (order.map (fun x => InTurn (fun y => w.getD y 1) ((List.range n).erase x) (J x))).prod)
      (F := fun d r (a : ChangeEffect × Fbas × List Event) s => roundLoop (Qsc.random (lottery L) size t w) order
        (c.update d.1, ⟨d.2, ev ++ [.quorumSetChange x d.1], r⟩) = .ok (a.1, ⟨a.2.1, a.2.2, s⟩))
      (Q2 := fun a => SameNames f a.2.1 ∧ (∀ y ∈ x :: order, Listed a.2.1 y (J y)) ∧
        ∀ y, y ∉ x :: order → a.2.1.getQuorumSet y = f.getQuorumSet y)
      (B2 := fun a => ∃ y ∈ x :: order, Otherwise size a.2.1 y (J y)) (fun d hd' => ?_) (fun d hd' r a s ha => ?_)).mono
      (by rw [List.length_cons, Nat.succ_mul, Nat.add_comm]) (by rw [List.map_cons, List.prod_cons]) (fun _ h => h)
      (fun _ h => h)).congr (fun r a s => ?_)
    · obtain ⟨g1, g2, g3⟩ := hd'
      refine (ih ho' (fun y hy => hlt y (List.mem_cons_of_mem _ hy)) (f := d.2) (by rw [g1.length, hfn])
        (fun y hy => ?_)).mono (Nat.le_refl _) rfl (fun a ha => ?_)
          (fun a ha => by
            obtain ⟨y, hy, h⟩ := ha
            exact ⟨y, List.mem_cons_of_mem _ hy, h⟩)
      · rw [← getQuorumSet_iff, g3 y (fun h => hx (by rw [← h]; exact hy)), getQuorumSet_iff]
        exact he y (List.mem_cons_of_mem _ hy)
      · obtain ⟨k1, k2, k3⟩ := ha
        refine ⟨g1.trans k1, fun y hy => ?_, fun y hy => ?_⟩
        · rcases List.mem_cons.1 hy with rfl | hy
          · exact g2.keep (k3 y hx)
          · exact k2 y hy
        · rw [k3 y (fun h => hy (List.mem_cons_of_mem _ h)), g3 y (fun h => hy (by rw [h]; exact List.mem_cons_self))]
    · exact ⟨x, List.mem_cons_self, roundLoop_keeps (P := fun f => Otherwise size f x (J x))
        (fun y f s c f' s' => Otherwise.random hsize y f s c f' s') ha hd'⟩
    · rw [roundLoop_cons]
      constructor
      · rintro ⟨d, f1, s1, h2, h3⟩; exact ⟨(d, f1), s1, h2, h3⟩
      · rintro ⟨d, s1, h2, h3⟩; exact ⟨d.1, d.2, s1, h2, h3⟩

theorem Listed.sized {f : Fbas} {x : NodeId} {js : List ℕ} (h : Listed f x js) {size : ℕ}
    (hl : js.length = size - 1) : ∃ q, HasQSet f x q ∧ q.validators ≠ [] ∧ size ≤ q.validators.length := by
  obtain ⟨q, h1, h2⟩ := h
  refine ⟨q, h1, by rw [h2]; simp, ?_⟩
  rw [h2, List.length_cons, hl]; omega

theorem sure_sizedLoop {L : ℕ} (hL : 0 < L) {size : ℕ} {t : Option ℕ} {w : List ℕ} {f : Fbas} (hf : Sized size f)
    {order : List ℕ} (ho : ∀ x ∈ order, x < f.nodes.length) {ev : List Event} {rem : ℕ} {stable : Bool} {next : ℕ} :
    Sure L order.length (fun r (a : ℕ × Fbas × List Event) s =>
      reevaluationLoop (Qsc.random (lottery L) size t w) rem stable next order ⟨f, ev, r⟩ =
        .ok (a.1, ⟨a.2.1, a.2.2, s⟩)) (fun a => a.2.1 = f) := by
  have hstop : Sure L order.length (fun r (a : ℕ × Fbas × List Event) s =>
      (Except.ok (next, ⟨f, ev, r⟩) : Except Panic (ℕ × Simulator (lottery L))) = .ok (a.1, ⟨a.2.1, a.2.2, s⟩))
      (fun a => a.2.1 = f) := by
    refine ((Sure.pure (L := L) (a := (next, f, ev)) (Q := fun a : ℕ × Fbas × List Event => a.2.1 = f) rfl).mono
      (Nat.zero_le _) (fun _ h => h)).congr (fun r a s => ?_)
    constructor
    · intro h
      obtain ⟨e1, e2⟩ := Prod.mk.inj (Except.ok.inj h)
      obtain ⟨e3, e4, e5⟩ := Simulator.mk.inj e2
      exact ⟨Prod.ext e1.symm (Prod.ext e3.symm e4.symm), e5.symm⟩
    · rintro ⟨rfl, rfl⟩; rfl
  cases stable with
  | true => exact hstop.congr (fun r a s => by rw [reevaluationLoop_stable])
  | false =>
    cases rem with
    | zero => exact hstop.congr (fun r a s => by rw [reevaluationLoop])
    | succ m =>
      obtain ⟨ev', h⟩ := reevaluationLoop_sized (R := lottery L) (t := t) (w := w) hf order ho ev m next
      refine (((sure_shuffle hL order).bind (D' := 0)
        (B := fun σ r (a : ℕ × Fbas × List Event) s => a = (next + 1, f, ev' σ) ∧ s = r)
        (Q2 := fun a => a.2.1 = f) (fun σ _ => Sure.pure (Q := fun a : ℕ × Fbas × List Event => a.2.1 = f) rfl)).mono
          (Nat.le_refl _) (fun _ h => h)).congr (fun r a s => ?_)
      rw [h]
      constructor
      · intro e
        obtain ⟨e1, e2⟩ := Prod.mk.inj (Except.ok.inj e)
        obtain ⟨e3, e4, e5⟩ := Simulator.mk.inj e2
        exact ⟨_, _, rfl, Prod.ext e1.symm (Prod.ext e3.symm e4.symm), e5.symm⟩
      · rintro ⟨σ, s1, e1, rfl, rfl⟩
        obtain ⟨rfl, rfl⟩ := Prod.mk.inj
          (show (((lottery L).shuffle r order).1, ((lottery L).shuffle r order).2) = (σ, s) from e1)
        rfl

/-- What the nodes may choose. -/
def Lists (size n : ℕ) (J : NodeId → List ℕ) (x : NodeId) : Prop :=
  (J x).Nodup ∧ (J x).length = size - 1 ∧ ∀ j ∈ J x, j < n ∧ j ≠ x

/-- A reevaluation if all nodes have enough validators. -/
theorem sure_sizedReevaluation {L : ℕ} (hL : 0 < L) {size n : ℕ} {t : Option ℕ} {w : List ℕ} {f : Fbas}
    (hf : Sized size f) {ev : List Event} :
    Sure L f.nodes.length (fun r (a : ℕ × Fbas × List Event) s =>
      simulateGlobalReevaluation (Qsc.random (lottery L) size t w) n ⟨f, ev, r⟩ = .ok (a.1, ⟨a.2.1, a.2.2, s⟩))
      (fun a => a.2.1 = f) := by
  have h1 := sure_sizedLoop hL (t := t) (w := w) hf (order := rangeFT 0 f.nodes.length)
    (fun x hx => (mem_rangeFT.1 hx).2) (ev := ev ++ [.startGlobalReevaluation]) (rem := n) (stable := false) (next := 0)
  rw [length_rangeFT_zero] at h1
  refine ((h1.bind (D' := 0) (B := fun b r (a : ℕ × Fbas × List Event) s =>
      a = (b.1, b.2.1, b.2.2 ++ [.finishGlobalReevaluation b.1]) ∧ s = r)
    (Q2 := fun a => a.2.1 = f) (fun b hb => Sure.pure (Q := fun a : ℕ × Fbas × List Event => a.2.1 = f)
      (a := (b.1, b.2.1, b.2.2 ++ [.finishGlobalReevaluation b.1])) hb)).mono (Nat.le_refl _)
    (fun _ h => h)).congr (fun r a s => ?_)
  rw [reevaluation_iff]
  constructor
  · rintro ⟨sim1, h2, h3⟩
    obtain ⟨e1, e2, e3⟩ := Simulator.mk.inj h3
    exact ⟨(a.1, sim1.fbas, sim1.events), sim1.rng, h2, Prod.ext rfl (Prod.ext e1 e2), e3⟩
  · rintro ⟨b, s1, h2, rfl, rfl⟩
    exact ⟨_, h2, rfl⟩

/-- The first reevaluation. -/
theorem leads_first {L : ℕ} (hL : 0 < L) {size n m : ℕ} {t : Option ℕ} {w : List ℕ} (hsize : 2 ≤ size) (hn : size ≤ n)
    (hd : ∀ d, 0 < d → d ≤ ((List.range n).map (fun y => w.getD y 1)).sum → d ∣ L) {J : NodeId → List ℕ}
    (hJ : ∀ x < n, Lists size n J x) {f : Fbas} (hfn : f.nodes.length = n)
    (he : ∀ x < n, HasQSet f x QuorumSet.empty) {ev : List Event} :
    Leads L (n + (n * (size - 1) + n)) (fun r (a : ℕ × Fbas × List Event) s =>
      simulateGlobalReevaluation (Qsc.random (lottery L) size t w) (m + 1) ⟨f, ev, r⟩ = .ok (a.1, ⟨a.2.1, a.2.2, s⟩))
      (∏ x ∈ Finset.range n, InTurn (fun y => w.getD y 1) ((List.range n).erase x) (J x))
      (fun a => SameNames f a.2.1 ∧ ∀ x < n, Listed a.2.1 x (J x))
      (fun a => ∃ x < n, Otherwise size a.2.1 x (J x)) := by
  have h1 := (sure_shuffle hL (rangeFT 0 f.nodes.length)).leads (B := fun _ => False)
  rw [length_rangeFT_zero, hfn] at h1
  refine ((h1.bind (D' := n * (size - 1) + n)
    (c' := ∏ x ∈ Finset.range n, InTurn (fun y => w.getD y 1) ((List.range n).erase x) (J x))
    (F := fun σ r (a : ℕ × Fbas × List Event) s => ∃ (b : ChangeEffect × Fbas × List Event) (s1 : List ℕ), roundLoop (Qsc.random (lottery L) size t w) σ
      (.noChange, ⟨f, ev ++ [.startGlobalReevaluation] ++ [.startGlobalReevaluationRound], r⟩) =
        .ok (b.1, ⟨b.2.1, b.2.2, s1⟩) ∧ ∃ (d : ℕ × Fbas × List Event) (s2 : List ℕ),
      reevaluationLoop (Qsc.random (lottery L) size t w) m (!b.1.hadChange) 1 σ ⟨b.2.1, b.2.2, s1⟩ =
        .ok (d.1, ⟨d.2.1, d.2.2, s2⟩) ∧ (a = (d.1, d.2.1, d.2.2 ++ [.finishGlobalReevaluation d.1]) ∧ s = s2))
    (Q2 := fun a => SameNames f a.2.1 ∧ ∀ x < n, Listed a.2.1 x (J x))
    (B2 := fun a => ∃ x < n, Otherwise size a.2.1 x (J x)) (fun σ hσ => ?_) (fun _ h => h.elim)).mono
      (Nat.le_refl _) (one_mul _) (fun _ h => h) (fun _ h => h)).congr (fun r a s => ?_)
  · have hσ' : σ.Perm (List.range n) := by rw [← rangeFT_zero]; exact hσ
    have hmem : ∀ x : ℕ, x ∈ σ ↔ x < n := fun x => by rw [hσ'.mem_iff, List.mem_range]
    have hlen : σ.length = n := by rw [hσ'.length_eq, List.length_range]
    have h2 := leads_round hL (t := t) hsize hn hd hJ (order := σ) (hσ'.nodup_iff.2 List.nodup_range)
      (fun x hx => (hmem x).1 hx) hfn (fun x hx => he x ((hmem x).1 hx)) (c := .noChange)
      (ev := ev ++ [.startGlobalReevaluation] ++ [.startGlobalReevaluationRound])
    rw [hlen] at h2
    have hprod : (σ.map (fun x => InTurn (fun y => w.getD y 1) ((List.range n).erase x) (J x))).prod =
        ∏ x ∈ Finset.range n, InTurn (fun y => w.getD y 1) ((List.range n).erase x) (J x) := by
      rw [(hσ'.map _).prod_eq, Finset.prod_eq_multiset_prod, Finset.range_val, ← Multiset.coe_range, Multiset.map_coe,
        Multiset.prod_coe]
    rw [hprod] at h2
    refine (h2.bind (D' := n) (c' := 1)
      (F := fun b r (a : ℕ × Fbas × List Event) s => ∃ (d : ℕ × Fbas × List Event) (s2 : List ℕ),
        reevaluationLoop (Qsc.random (lottery L) size t w) m (!b.1.hadChange) 1 σ ⟨b.2.1, b.2.2, r⟩ =
          .ok (d.1, ⟨d.2.1, d.2.2, s2⟩) ∧ (a = (d.1, d.2.1, d.2.2 ++ [.finishGlobalReevaluation d.1]) ∧ s = s2))
      (Q2 := fun a => SameNames f a.2.1 ∧ ∀ x < n, Listed a.2.1 x (J x))
      (B2 := fun a => ∃ x < n, Otherwise size a.2.1 x (J x)) (fun b hb => ?_) (fun b hb r a s ha => ?_)).mono
      (Nat.le_refl _) (mul_one _) (fun _ h => h) (fun _ h => h)
    · obtain ⟨k1, k2, -⟩ := hb
      have hbl : b.2.1.nodes.length = n := by rw [k1.length, hfn]
      have h3 := sure_sizedLoop hL (t := t) (w := w) (f := b.2.1) (size := size)
        (fun x hx => (k2 x ((hmem x).2 (by rw [← hbl]; exact hx))).sized (hJ x (by rw [← hbl]; exact hx)).2.1)
        (order := σ) (fun x hx => by rw [hbl]; exact (hmem x).1 hx) (ev := b.2.2) (rem := m)
        (stable := !b.1.hadChange) (next := 1)
      rw [hlen] at h3
      refine Sure.leads (((h3.bind (D' := 0) (B := fun d r (a : ℕ × Fbas × List Event) s =>
          a = (d.1, d.2.1, d.2.2 ++ [.finishGlobalReevaluation d.1]) ∧ s = r)
        (Q2 := fun a => SameNames f a.2.1 ∧ ∀ x < n, Listed a.2.1 x (J x))
        (fun d hd' => Sure.pure (Q := fun a : ℕ × Fbas × List Event =>
          SameNames f a.2.1 ∧ ∀ x < n, Listed a.2.1 x (J x))
          (a := (d.1, d.2.1, d.2.2 ++ [.finishGlobalReevaluation d.1])) ?_)).mono (Nat.le_refl _) (fun _ h => h)))
      have hd2 : d.2.1 = b.2.1 := hd'
      refine ⟨?_, fun x hx => ?_⟩
      · show SameNames f d.2.1
        rw [hd2]; exact k1
      · show Listed d.2.1 x (J x)
        rw [hd2]; exact k2 x ((hmem x).2 hx)
    · obtain ⟨x, hx, hb⟩ := hb
      obtain ⟨d, s2, e1, rfl, rfl⟩ := ha
      exact ⟨x, (hmem x).1 hx, reevaluationLoop_keeps (P := fun f => Otherwise size f x (J x))
        (fun y f s c f' s' => Otherwise.random hsize y f s c f' s') e1 hb⟩
  · rw [reevaluation_iff]
    constructor
    · rintro ⟨sim1, e1, e2⟩
      obtain ⟨c1, sim2, e3, e4⟩ := reevaluationLoop_succ.1 e1
      obtain ⟨k1, k2, k3⟩ := Simulator.mk.inj e2
      subst hfn
      exact ⟨_, _, rfl, (c1, sim2.fbas, sim2.events), sim2.rng, e3, (a.1, sim1.fbas, sim1.events), sim1.rng, e4,
        Prod.ext rfl (Prod.ext k1 k2), k3⟩
    · subst hfn
      rintro ⟨σ, s1, e1, b, s2, e2, d, s3, e3, rfl, rfl⟩
      obtain ⟨rfl, rfl⟩ := Prod.mk.inj
        (show (((lottery L).shuffle r (rangeFT 0 f.nodes.length)).1,
          ((lottery L).shuffle r (rangeFT 0 f.nodes.length)).2) = (σ, s1) from e1)
      exact ⟨_, reevaluationLoop_succ.2 ⟨b.1, _, e2, e3⟩, rfl⟩

/-! ### Growth -/

theorem Otherwise.growth {R : Rand} {size : ℕ} {t : Option ℕ} {w : List ℕ} (hsize : 2 ≤ size) {x : NodeId} {js : List ℕ}
    {k : ℕ} {sim sim' : Simulator R} (h : simulateGrowth (Qsc.random R size t w) k sim = .ok sim')
    (ho : Otherwise size sim.fbas x js) : Otherwise size sim'.fbas x js :=
  growth_keeps (P := fun f => Otherwise size f x js) (fun y f s c f' s' => Otherwise.random hsize y f s c f' s')
    (fun f y f' h1 h2 => by
      obtain ⟨q, g1, g2⟩ := h2
      exact ⟨q, addGenericNode_keeps f y f' h1 g1, g2⟩) h ho

theorem Listed.growth {R : Rand} {size : ℕ} {t : Option ℕ} {w : List ℕ} (hsize : 2 ≤ size) {x : NodeId} {js : List ℕ}
    (hl : js.length = size - 1) {k : ℕ} {sim sim' : Simulator R} (ho : Listed sim.fbas x js)
    (h : simulateGrowth (Qsc.random R size t w) k sim = .ok sim') : Listed sim'.fbas x js :=
  growth_keeps (P := fun f => Listed f x js)
    (fun y f s c f' s' h0 h1 => by
      obtain ⟨q, g1, g2⟩ := h1
      exact ⟨q, random_keeps (by rw [g2]; simp) (by rw [g2, List.length_cons, hl]; omega) y f s c f' s' h0 g1, g2⟩)
    (fun f y f' h1 h2 => by
      obtain ⟨q, g1, g2⟩ := h2
      exact ⟨q, addGenericNode_keeps f y f' h1 g1, g2⟩) h ho

theorem erase_range_succ (m : ℕ) : (List.range (m + 1)).erase m = List.range m := by
  rw [List.range_succ, List.erase_append_right _ (fun h => Nat.lt_irrefl m (List.mem_range.1 h))]
  simp

theorem sum_range_le {w : ℕ → ℕ} {m n : ℕ} (h : m ≤ n) :
    ((List.range m).map w).sum ≤ ((List.range n).map w).sum := by
  induction n with
  | zero =>
    obtain rfl : m = 0 := by omega
    exact Nat.le_refl _
  | succ n ih =>
    rcases Nat.lt_or_ge n m with h1 | h1
    · obtain rfl : m = n + 1 := by omega
      exact Nat.le_refl _
    · rw [List.range_succ, List.map_append, List.sum_append]
      exact Nat.le_trans (ih h1) (Nat.le_add_right _ _)

theorem weighted_growth {L : ℕ} (hL : 0 < L) {size : ℕ} {t : Option ℕ} {w : List ℕ} (hsize : 2 ≤ size)
    {J : NodeId → List ℕ} {k m : ℕ} (hm : size ≤ m) {f : Fbas} (hreg : RegistryOk f)
    (hn : f.nodes.map Node.publicKey = (List.range m).map (fun i => "n" ++ toString i))
    (hd : ∀ d, 0 < d → d ≤ ((List.range (m + k)).map (fun y => w.getD y 1)).sum → d ∣ L)
    (hJ : ∀ x, m ≤ x → x < m + k → Lists size x J x) (hlen : ∀ x < m, (J x).length = size - 1)
    (hch : ∀ x < m, Listed f x (J x)) {ev : List Event} {N : ℕ} (hN : growthDraws size m k ≤ N) :
    Probability L N (fun r => ∃ sim', simulateGrowth (Qsc.random (lottery L) size t w) k
      ⟨f, ev, r⟩ = .ok sim' ∧ ∀ x < m + k, Listed sim'.fbas x (J x)) =
      ∏ j ∈ Finset.range k, InTurn (fun y => w.getD y 1) (List.range (m + j)) (J (m + j)) := by
  induction k generalizing m f ev N with
  | zero =>
    rw [Finset.range_zero, Finset.prod_empty]
    exact probability_true hL (fun r _ _ => ⟨⟨f, ev, r⟩, rfl, hch⟩)
  | succ k ih =>
    rw [growthDraws] at hN
    have hl : f.nodes.length = m := by
      have := congrArg List.length hn; simpa using this
    obtain ⟨h1, h2⟩ := C40_add_generic_node f hreg QuorumSet.empty
    cases hr : f.addGenericNode QuorumSet.empty with
    | error e =>
      obtain ⟨n', hn', hp⟩ := h1.1 ⟨e, hr⟩
      have : n'.publicKey ∈ f.nodes.map Node.publicKey := List.mem_map_of_mem hn'
      rw [hn] at this
      obtain ⟨i, hi, hi'⟩ := List.mem_map.1 this
      have := genericNodeName_inj (i := i) (j := f.nodes.length) (hi'.trans hp)
      rw [List.mem_range] at hi
      omega
    | ok pr =>
      obtain ⟨x, f1⟩ := pr
      obtain ⟨h3, h4, h5⟩ := h2 x f1 hr
      have h3' : m = x := by rw [h3, hl]
      subst h3'
      have hfl : f1.nodes.length = m + 1 := by rw [h4]; simp [hl]
      have hnew : HasQSet f1 m QuorumSet.empty := by
        refine ⟨⟨"n" ++ toString f.nodes.length, QuorumSet.empty⟩, ?_, rfl⟩
        rw [h4, List.getElem?_append_right (by rw [hl]), hl, Nat.sub_self]; rfl
      have hn1 : f1.nodes.map Node.publicKey = (List.range (m + 1)).map (fun i => "n" ++ toString i) := by
        rw [h4, List.map_append, hn, hl, List.range_succ, List.map_append]; rfl
      obtain ⟨j1, j2, j3⟩ := hJ m (Nat.le_refl _) (by omega)
      have hv := leads_visit hL (t := t) (w := w) (f := f1) (x := m) hsize (by omega) hnew
        (fun d h6 h7 => hd d h6 (by
          rw [hfl, erase_range_succ] at h7
          exact h7.trans (sum_range_le (by omega)))) j1
        (fun j hj => ⟨by rw [hfl]; exact Nat.lt_succ_of_lt (j3 j hj).1, (j3 j hj).2⟩) j2
      rw [hfl, erase_range_succ] at hv
      have hs := hv.bind (D' := m + 1) (c' := 1)
        (F := fun b r (a : ℕ × Fbas × List Event) s => simulateGlobalReevaluation (Qsc.random (lottery L) size t w)
          b.2.nodes.length ⟨b.2, ev ++ [.addNode m], r⟩ = .ok (a.1, ⟨a.2.1, a.2.2, s⟩))
        (Q2 := fun a => SameNames f1 a.2.1 ∧ ∀ x < m + 1, Listed a.2.1 x (J x))
        (B2 := fun a => Otherwise size a.2.1 m (J m))
        (fun b hb => by
          obtain ⟨k1, k2, k3⟩ := hb
          have hbl : b.2.nodes.length = m + 1 := by rw [k1.length, hfl]
          have hall : ∀ x < m + 1, Listed b.2 x (J x) := by
            intro x hx
            by_cases hxm : x = m
            · rw [hxm]; exact k2
            · obtain ⟨q, g1, g2⟩ := hch x (by omega)
              exact Listed.keep ⟨q, addGenericNode_keeps f _ f1 hr g1, g2⟩ (k3 x hxm)
          have hsz : Sized size b.2 := fun x hx => by
            rw [hbl] at hx
            refine (hall x hx).sized ?_
            by_cases hxm : x = m
            · rw [hxm]; exact j2
            · exact hlen x (by omega)
          have h6 := sure_sizedReevaluation hL (n := b.2.nodes.length) (t := t) (w := w) hsz (ev := ev ++ [.addNode m])
          refine (h6.mono (D' := m + 1) (Q' := fun a : ℕ × Fbas × List Event =>
            SameNames f1 a.2.1 ∧ ∀ x < m + 1, Listed a.2.1 x (J x)) (Nat.le_of_eq hbl) (fun a ha => ?_)).leads
          have ha' : a.2.1 = b.2 := ha
          rw [ha']
          exact ⟨k1, hall⟩)
        (fun b hb r a s ha => reevaluation_keeps (P := fun f => Otherwise size f m (J m))
          (fun y f s c f' s' => Otherwise.random hsize y f s c f' s') ha hb)
      have e1 : m + 1 + k = m + (k + 1) := by omega
      have hfin := hs (∏ j ∈ Finset.range k, InTurn (fun y => w.getD y 1) (List.range (m + 1 + j)) (J (m + 1 + j)))
        (growthDraws size (m + 1) k) (fun a r => ∃ sim', simulateGrowth (Qsc.random (lottery L) size t w) k
          ⟨a.2.1, a.2.2, r⟩ = .ok sim' ∧ ∀ x < m + (k + 1), Listed sim'.fbas x (J x))
        (fun a ha N' hN' => by
          obtain ⟨ha1, ha2⟩ : SameNames f1 a.2.1 ∧ ∀ x < m + 1, Listed a.2.1 x (J x) := ha
          have h6 := ih (m := m + 1) (by omega) (ha1.registry h5) (by rw [ha1.1, hn1])
            (by rw [e1]; exact hd) (fun x hx1 hx2 => hJ x (by omega) (by omega))
            (fun x hx => by
              by_cases hxm : x = m
              · rw [hxm]; exact j2
              · exact hlen x (by omega)) ha2 (ev := a.2.2) hN'
          rw [e1] at h6
          exact h6)
        (fun a ha s hk => by
          obtain ⟨sim', g1, g2⟩ := hk
          exact (Otherwise.growth hsize g1 ha).not_listed (g2 m (by omega))) N (by omega)
      rw [Finset.prod_range_succ', mul_comm]
      rw [mul_one] at hfin
      have e3 : ∏ j ∈ Finset.range k, InTurn (fun y => w.getD y 1) (List.range (m + (j + 1))) (J (m + (j + 1))) =
          ∏ j ∈ Finset.range k, InTurn (fun y => w.getD y 1) (List.range (m + 1 + j)) (J (m + 1 + j)) :=
        Finset.prod_congr rfl (fun j _ => by rw [Nat.add_assoc, Nat.add_comm 1 j])
      rw [e3]
      refine Eq.trans ?_ hfin
      refine probability_congr (fun r _ _ => ?_)
      constructor
      · rintro ⟨sim', g1, g2⟩
        obtain ⟨x, f3, c, f2, s2, k', sim2, e1, e2, e3, e4⟩ := growth_succ.1 g1
        have e1' : f.addGenericNode QuorumSet.empty = .ok (x, f3) := e1
        rw [hr] at e1'
        obtain ⟨rfl, rfl⟩ := Prod.mk.inj (Except.ok.inj e1')
        exact ⟨(k', sim2.fbas, sim2.events), sim2.rng, ⟨(c, f2), s2, e2, e3⟩, sim', e4, g2⟩
      · rintro ⟨a, s, ⟨b, s1, e2, e3⟩, sim', e4, g2⟩
        exact ⟨sim', growth_succ.2 ⟨m, f1, b.1, b.2, s1, a.1, _, hr, e2, e3, e4⟩, g2⟩

/-- The probability of a network of weighted choices. -/
theorem simulate_weighted {L : ℕ} (hL : 0 < L) {i g size : ℕ} {t : Option ℕ} {w : List ℕ} (hsize : 2 ≤ size)
    (hi : size ≤ i) (hd : ∀ d, 0 < d → d ≤ ((List.range (i + g)).map (fun y => w.getD y 1)).sum → d ∣ L)
    {J : NodeId → List ℕ} (hJ : ∀ x < i + g, Lists size (max i x) J x) {N : ℕ}
    (hN : (i + g) * (i + g + size) ≤ N) :
    Probability L N (fun r => ∃ f, QscSimulator.simulate (Qsc.random (lottery L) size t w) i g r = .ok f ∧
      ∀ x < i + g, Listed f x (J x)) =
      (∏ x ∈ Finset.range i, InTurn (fun y => w.getD y 1) ((List.range i).erase x) (J x)) *
        ∏ j ∈ Finset.range g, InTurn (fun y => w.getD y 1) (List.range (i + j)) (J (i + j)) := by
  obtain ⟨f0, h1, h2, h3⟩ := C40_new_generic_unconfigured i
  have hl : f0.nodes.length = i := by rw [h2]; simp
  have hn0 : f0.nodes.map Node.publicKey = (List.range i).map (fun i => "n" ++ toString i) := by
    rw [h2, List.map_map]; rfl
  have hJi : ∀ x < i, Lists size i J x := fun x hx => by
    have h4 := hJ x (Nat.lt_of_lt_of_le hx (Nat.le_add_right _ _))
    rwa [Nat.max_eq_left (Nat.le_of_lt hx)] at h4
  have hJg : ∀ x, i ≤ x → x < i + g → Lists size x J x := fun x hx hx2 => by
    have h4 := hJ x hx2
    rwa [Nat.max_eq_right hx] at h4
  have hN' : i + (i * (size - 1) + i) + growthDraws size i g ≤ N := by
    have h4 := growthDraws_le size i g
    have h5 : i * (size - 1) + i = i * size := by
      rw [← Nat.mul_succ]; congr 1; omega
    have h6 : (i + g) * (i + g + size) = i * size + i * (i + g) + g * (i + g + size) := by ring
    have h7 : i ≤ i * (i + g) := Nat.le_mul_of_pos_right _ (by omega)
    omega
  obtain ⟨m, rfl⟩ : ∃ m, i = m + 1 := ⟨i - 1, by omega⟩
  have hfirst := leads_first hL (t := t) (w := w) (m := m) hsize hi
    (fun d h6 h7 => hd d h6 (h7.trans (sum_range_le (by omega)))) hJi hl
    (fun x hx => ⟨⟨"n" ++ toString x, QuorumSet.empty⟩, by
        rw [h2, List.getElem?_map, List.getElem?_range hx]; rfl, rfl⟩) (ev := [])
  have hfin := hfirst (∏ j ∈ Finset.range g, InTurn (fun y => w.getD y 1) (List.range (m + 1 + j)) (J (m + 1 + j)))
    (growthDraws size (m + 1) g)
    (fun a r => ∃ sim', simulateGrowth (Qsc.random (lottery L) size t w) g
        ⟨a.2.1, a.2.2, r⟩ = .ok sim' ∧ ∀ x < m + 1 + g, Listed sim'.fbas x (J x))
    (fun a ha N' hN' => by
      obtain ⟨ha1, ha2⟩ : SameNames f0 a.2.1 ∧ ∀ x < m + 1, Listed a.2.1 x (J x) := ha
      exact weighted_growth hL hsize hi (ha1.registry h3) (by rw [ha1.1, hn0]) hd hJg
        (fun x hx => (hJi x hx).2.1) ha2 hN')
    (fun a ha s hk => by
      obtain ⟨x, hx, ho⟩ := ha
      obtain ⟨sim', g1, g2⟩ := hk
      exact (Otherwise.growth hsize g1 ho).not_listed (g2 x (Nat.lt_of_lt_of_le hx (Nat.le_add_right _ _)))) N hN'
  rw [← hfin]
  refine probability_congr (fun r _ _ => ?_)
  constructor
  · rintro ⟨f, e1, e2⟩
    obtain ⟨k, sim1, e3, sim2, e4, rfl⟩ := (simulate_iff h1).1 e1
    exact ⟨(k, sim1.fbas, sim1.events), sim1.rng, e3, sim2, e4, e2⟩
  · rintro ⟨a, s, e3, sim2, e4, e2⟩
    exact ⟨_, (simulate_iff h1).2 ⟨a.1, _, e3, sim2, e4, rfl⟩, e2⟩

/-- The probability of a network of weighted choices if there are fewer initial nodes than wanted in quorum sets. -/
theorem simulate_weighted_few {L : ℕ} (hL : 0 < L) {i g size : ℕ} {t : Option ℕ} {w : List ℕ} (hsize : 2 ≤ size)
    (hi : i ≤ size) (hw : ∀ y < min size (i + g), 0 < w.getD y 1)
    (hd : ∀ d, 0 < d → d ≤ ((List.range (i + g)).map (fun y => w.getD y 1)).sum → d ∣ L)
    {J : NodeId → List ℕ} (hJ : ∀ x, size ≤ x → x < i + g → Lists size x J x) :
    ∃ N0, ∀ N, N0 ≤ N →
    Probability L N (fun r => ∃ f, QscSimulator.simulate (Qsc.random (lottery L) size t w) i g r = .ok f ∧
      (∀ x < min size (i + g), TrustsAll f (min size (i + g)) x) ∧ ∀ x, size ≤ x → x < i + g → Listed f x (J x)) =
      ∏ j ∈ Finset.range (i + g - size), InTurn (fun y => w.getD y 1) (List.range (size + j)) (J (size + j)) := by
  obtain ⟨n, hn⟩ : ∃ n, n = i + g := ⟨_, rfl⟩
  obtain ⟨m, hm⟩ : ∃ m, m = min size n := ⟨_, rfl⟩
  rw [← hn] at hw hd hJ ⊢
  rw [← hm] at hw ⊢
  obtain ⟨f0, h1, h2, h3⟩ := C40_new_generic_unconfigured i
  have hl : f0.nodes.length = i := by rw [h2]; simp
  have hn0 : f0.nodes.map Node.publicKey = (List.range i).map (fun i => "n" ++ toString i) := by
    rw [h2, List.map_map]; rfl
  refine ⟨i * (i + i * i) + earlyDraws i (m - i) (growthDraws size m (n - m)), fun N hN => ?_⟩
  have hm1 : i + (m - i) = m := by omega
  have hm2 : (m - i) + (n - m) = g := by omega
  have hdm : ∀ k ≤ n, ∀ d, 0 < d → d ≤ ((List.range k).map (fun y => w.getD y 1)).sum → d ∣ L := fun k hk d h6 h7 =>
    hd d h6 (h7.trans (sum_range_le hk))
  have hlast : ∀ f ev, RegistryOk f → f.nodes.map Node.publicKey =
      (List.range (i + (m - i))).map (fun i => "n" ++ toString i) →
      Everybody f (i + (m - i)) → ∀ N, growthDraws size m (n - m) ≤ N → Probability L N (fun r => ∃ sim',
        simulateGrowth (Qsc.random (lottery L) size t w) (n - m) ⟨f, ev, r⟩ = .ok sim' ∧
          ((∀ x < m, TrustsAll sim'.fbas m x) ∧ ∀ x, size ≤ x → x < n → Listed sim'.fbas x (J x))) =
      ∏ j ∈ Finset.range (n - size), InTurn (fun y => w.getD y 1) (List.range (size + j)) (J (size + j)) := by
    intro f ev hreg hnm hev N hN
    rw [hm1] at hnm hev
    by_cases hs : size ≤ n
    · have hms : m = size := by omega
      subst hms
      have e3 : m + (n - m) = n := by omega
      have hex : ∀ x : ℕ, ∃ js : List ℕ, x < m → Listed f x js ∧ (x :: js).Perm (List.range m) := by
        intro x
        by_cases hx : x < m
        · obtain ⟨q, js, g1, g2, g3⟩ := hev x hx
          exact ⟨js, fun _ => ⟨⟨q, g1, g2⟩, by rw [← g2]; exact g3⟩⟩
        · exact ⟨[], fun h => absurd h hx⟩
      choose J0 hJ0 using hex
      have hJ1 : ∀ x : ℕ, x < m → (fun x : ℕ => if x < m then J0 x else J x) x = J0 x := fun x hx => if_pos hx
      have hJ2 : ∀ x : ℕ, m ≤ x → (fun x : ℕ => if x < m then J0 x else J x) x = J x := fun x hx =>
        if_neg (Nat.not_lt.2 hx)
      generalize (fun x : ℕ => if x < m then J0 x else J x) = J' at hJ1 hJ2
      have h5 := weighted_growth hL (t := t) (w := w) hsize (J := J') (k := n - m) (Nat.le_refl m) hreg hnm
        (by rw [e3]; exact hd)
        (fun x hx1 hx2 => by
          unfold Lists
          rw [hJ2 x hx1]
          exact hJ x hx1 (by rw [← e3]; exact hx2))
        (fun x hx => by
          rw [hJ1 x hx]
          have := (hJ0 x hx).2.length_eq
          rw [List.length_cons, List.length_range] at this
          omega)
        (fun x hx => by rw [hJ1 x hx]; exact (hJ0 x hx).1) (ev := ev) hN
      rw [e3] at h5
      have h6 : ∏ j ∈ Finset.range (n - m), InTurn (fun y => w.getD y 1) (List.range (m + j)) (J (m + j)) =
          ∏ j ∈ Finset.range (n - m), InTurn (fun y => w.getD y 1) (List.range (m + j)) (J' (m + j)) :=
        Finset.prod_congr rfl (fun j _ => by rw [hJ2 _ (Nat.le_add_right _ _)])
      rw [h6, ← h5]
      refine probability_congr (fun r _ _ => ?_)
      constructor
      · rintro ⟨sim', g1, g2, g3⟩
        refine ⟨sim', g1, fun x hx => ?_⟩
        by_cases hxm : x < m
        · rw [hJ1 x hxm]
          refine Listed.growth hsize ?_ (hJ0 x hxm).1 g1
          have := (hJ0 x hxm).2.length_eq
          rw [List.length_cons, List.length_range] at this
          omega
        · rw [hJ2 x (Nat.not_lt.1 hxm)]; exact g3 x (Nat.not_lt.1 hxm) hx
      · rintro ⟨sim', g1, g2⟩
        refine ⟨sim', g1, fun x hx => ?_, fun x hx1 hx2 => ?_⟩
        · obtain ⟨q, k1, k2⟩ := g2 x (by omega)
          rw [hJ1 x hx] at k2
          exact ⟨q, J0 x, k1, k2, by rw [k2]; exact (hJ0 x hx).2⟩
        · have := g2 x hx2
          rwa [hJ2 x hx1] at this
    · have hmn : m = n := by omega
      have e4 : n - size = 0 := by omega
      rw [hmn, Nat.sub_self, e4, Finset.range_zero, Finset.prod_empty]
      rw [hmn] at hev
      exact probability_true hL (fun r _ _ => ⟨⟨f, ev, r⟩, rfl, hev, fun x h6 h7 => by omega⟩)
  have hgrow := early_growth hL (t := t) (w := w) hsize (k := n - m) (k1 := m - i) (m := i)
    (G := fun f => (∀ x < m, TrustsAll f m x) ∧ ∀ x, size ≤ x → x < n → Listed f x (J x)) (by omega)
    (by rw [hm1]; exact hw) (by rw [hm1]; exact hdm m (by omega)) hlast
  have hfirst := sure_reevaluation hL (t := t) (w := w) hsize (n := i) (by omega) (fun y hy => hw y (by omega))
    (hdm i (by omega)) hl
    (fun x hx => ⟨QuorumSet.empty, ⟨⟨"n" ++ toString x, QuorumSet.empty⟩, by
      rw [h2, List.getElem?_map, List.getElem?_range hx]; rfl, rfl⟩, List.nodup_nil, .inl rfl,
      fun v hv => by cases hv⟩) (ev := [])
  have hfin := hfirst (∏ j ∈ Finset.range (n - size), InTurn (fun y => w.getD y 1) (List.range (size + j)) (J (size + j)))
    (earlyDraws i (m - i) (growthDraws size m (n - m)))
    (fun a r => ∃ sim', simulateGrowth (Qsc.random (lottery L) size t w) ((m - i) + (n - m))
        ⟨a.2.1, a.2.2, r⟩ = .ok sim' ∧ ((∀ x < m, TrustsAll sim'.fbas m x) ∧
          ∀ x, size ≤ x → x < n → Listed sim'.fbas x (J x)))
    (fun a ha N' hN' => by
      obtain ⟨ha1, ha2⟩ : SameNames f0 a.2.1 ∧ Everybody a.2.1 i := ha
      exact hgrow a.2.1 a.2.2 (ha1.registry h3) (by rw [ha1.1, hn0]) ha2 N' hN') N hN
  rw [← hfin, hm2]
  refine probability_congr (fun r _ _ => ?_)
  constructor
  · rintro ⟨f, e1, e2⟩
    obtain ⟨k, sim1, e3, sim2, e4, rfl⟩ := (simulate_iff h1).1 e1
    exact ⟨(k, sim1.fbas, sim1.events), sim1.rng, e3, sim2, e4, e2⟩
  · rintro ⟨a, s, e3, sim2, e4, e2⟩
    exact ⟨_, (simulate_iff h1).2 ⟨a.1, _, e3, sim2, e4, rfl⟩, e2⟩

end FA
