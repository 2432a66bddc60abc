import Verif.Model.FbasOrder
import Verif.Lemmas.QsetOrder
import Verif.Lemmas.Extension
import Verif.SpecOrder
import Verif.Props.InputOrder

/-!
# C79: equal FBASs, and the order of FBASs
-/

namespace FA
open Spec QuorumSet

theorem tr_cmpKeys (a b c : PublicKey) : Tr (cmpKeys a b) (cmpKeys b c) (cmpKeys a c) := by
  unfold Tr cmpKeys
  rcases lt_trichotomy a b with h1 | h1 | h1 <;> rcases lt_trichotomy b c with h2 | h2 | h2
  · simp [h1, h2, h1.trans h2]
  · subst h2; simp [h1]
  · simp [h1, h2.not_gt, h2.ne']
  · subst h1; simp [h2]
  · subst h1; subst h2; simp
  · subst h1; simp [h2.not_gt, h2.ne']
  · simp [h1.not_gt, h1.ne']
  · simp [h1.not_gt, h1.ne']
  · simp [h1.not_gt, h1.ne']

theorem cmpKeys_swap (a b : PublicKey) : (cmpKeys a b).swap = cmpKeys b a := by
  unfold cmpKeys
  rcases lt_trichotomy a b with h | h | h
  · simp [h, h.not_gt, h.ne']
  · simp [h]
  · simp [h, h.not_gt, h.ne']

theorem cmpKeys_eq (a b : PublicKey) : cmpKeys a b = .eq ↔ a = b := by
  unfold cmpKeys
  rcases lt_trichotomy a b with h | h | h
  · simp [h, h.ne]
  · simp [h]
  · simp [h.not_gt, h.ne']

theorem tr_cmpNodes (a b c : List Node) : Tr (cmpNodes a b) (cmpNodes b c) (cmpNodes a c) := by
  induction a generalizing b c with
  | nil => cases b <;> cases c <;> simp [cmpNodes, Tr]
  | cons x a ih =>
    cases b with
    | nil => cases c <;> simp [cmpNodes, Tr]
    | cons y b =>
      cases c with
      | nil => simp [cmpNodes, Tr]
      | cons z c =>
        simp only [cmpNodes]
        exact ((tr_cmpKeys _ _ _).then (tr_cmp _ _ _)).then (ih b c)

theorem cmpNodes_swap (a b : List Node) : (cmpNodes a b).swap = cmpNodes b a := by
  induction a generalizing b with
  | nil => cases b <;> rfl
  | cons x a ih =>
    cases b with
    | nil => rfl
    | cons y b => simp only [cmpNodes, Node.cmp, then_swap, cmpKeys_swap, cmp_swap, ih]

theorem cmpNodes_eq (a b : List Node) : cmpNodes a b = .eq ↔ a = b := by
  induction a generalizing b with
  | nil => cases b <;> simp [cmpNodes]
  | cons x a ih =>
    cases b with
    | nil => simp [cmpNodes]
    | cons y b =>
      obtain ⟨k, q⟩ := x
      obtain ⟨k', q'⟩ := y
      simp only [cmpNodes, Node.cmp, then_eq, cmpKeys_eq, cmp_eq, ih, List.cons.injEq, Node.mk.injEq]

theorem then_lt (a b : Ordering) : a.then b = .lt ↔ a = .lt ∨ (a = .eq ∧ b = .lt) := by
  cases a <;> simp [Ordering.then]

theorem lex_cons {α : Type} {r : α → α → Prop} (a b : α) (l m : List α) :
    List.Lex r (a :: l) (b :: m) ↔ r a b ∨ (a = b ∧ List.Lex r l m) := by
  constructor
  · intro h
    cases h with
    | rel h => exact .inl h
    | cons h => exact .inr ⟨rfl, h⟩
  · rintro (h | ⟨rfl, h⟩)
    · exact .rel h
    · exact .cons h

theorem cmpIds_lt (l m : List ℕ) : cmpIds l m = .lt ↔ List.Lex (fun x y : ℕ => x < y) l m := by
  induction l generalizing m with
  | nil =>
    cases m with
    | nil => exact ⟨fun h => (by cases h), fun h => (by cases h)⟩
    | cons y m => exact ⟨fun _ => .nil, fun _ => rfl⟩
  | cons x l ih =>
    cases m with
    | nil => exact ⟨fun h => (by cases h), fun h => (by cases h)⟩
    | cons y m => rw [cmpIds, then_lt, lex_cons, Nat.compare_eq_lt, Nat.compare_eq_eq, ih]

theorem cmp_lt (a b : QuorumSet) : a.cmp b = .lt ↔ QSetBefore a b := by
  induction a using QuorumSet.induct generalizing b with
  | h t vs qs ih =>
    obtain ⟨t', vs', qs'⟩ := b
    have hqs : ∀ (l m : List QuorumSet), (∀ q ∈ l, ∀ b, q.cmp b = .lt ↔ QSetBefore q b) →
        (cmpList l m = .lt ↔ List.Lex QSetBefore l m) := by
      intro l
      induction l with
      | nil =>
        intro m _
        cases m with
        | nil => exact ⟨fun h => (by cases h), fun h => (by cases h)⟩
        | cons y m => exact ⟨fun _ => .nil, fun _ => rfl⟩
      | cons x l ih' =>
        intro m hl
        cases m with
        | nil => exact ⟨fun h => (by cases h), fun h => (by cases h)⟩
        | cons y m =>
          rw [cmpList, then_lt, lex_cons, cmp_eq, hl x List.mem_cons_self,
            ih' m (fun q hq => hl q (List.mem_cons_of_mem _ hq))]
    rw [QuorumSet.cmp, then_lt, then_lt, Nat.compare_eq_lt, Nat.compare_eq_eq, cmpIds_lt, cmpIds_eq, hqs qs qs' ih]
    constructor
    · rintro (h | ⟨h1, h | ⟨h2, h⟩⟩)
      · exact .threshold h
      · exact .validators h1 h
      · exact .inner h1 h2 h
    · intro h
      cases h with
      | threshold h => exact .inl h
      | validators h1 h => exact .inr ⟨h1, .inl h⟩
      | inner h1 h2 h => exact .inr ⟨h1, .inr ⟨h2, h⟩⟩

theorem cmpNodes_lt (a b : List Node) : cmpNodes a b = .lt ↔ List.Lex NodeBefore a b := by
  induction a generalizing b with
  | nil =>
    cases b with
    | nil => exact ⟨fun h => (by cases h), fun h => (by cases h)⟩
    | cons y b => exact ⟨fun _ => .nil, fun _ => rfl⟩
  | cons x a ih =>
    cases b with
    | nil => exact ⟨fun h => (by cases h), fun h => (by cases h)⟩
    | cons y b =>
      have hk : cmpKeys x.publicKey y.publicKey = .lt ↔ x.publicKey < y.publicKey := by
        unfold cmpKeys
        by_cases h : x.publicKey < y.publicKey
        · rw [if_pos h]; exact ⟨fun _ => h, fun _ => rfl⟩
        · rw [if_neg h]
          refine ⟨fun hc => ?_, fun hc => absurd hc h⟩
          split at hc <;> cases hc
      obtain ⟨k, q⟩ := x
      obtain ⟨k', q'⟩ := y
      rw [cmpNodes, then_lt, lex_cons, ih]
      unfold Node.cmp NodeBefore
      rw [then_lt, then_eq, hk, cmpKeys_eq, cmp_lt, cmp_eq, Node.mk.injEq]

end FA

namespace FA.Props
open FA Spec Analysis

/-- C79: comparing FBASs is a total order that is consistent with equality: exactly the FBASs with the
same nodes compare as equal, swapping the arguments swaps the result, and "less or equal" is transitive,
with a strict result if one of the comparisons is strict. -/
theorem C79_order (f g h : Fbas) :
    (f.cmp g = .eq ↔ f.eq g = true) ∧ (f.eq g = true ↔ f.nodes = g.nodes) ∧
    g.cmp f = (f.cmp g).swap ∧
    (f.cmp g ≠ .gt → g.cmp h ≠ .gt → f.cmp h ≠ .gt ∧
      (f.cmp g = .lt ∨ g.cmp h = .lt → f.cmp h = .lt)) := by
  refine ⟨?_, decide_eq_true_iff, (cmpNodes_swap _ _).symm, fun h1 h2 => ?_⟩
  · rw [Fbas.eq, decide_eq_true_iff]
    exact cmpNodes_eq _ _
  · have := tr_cmpNodes f.nodes g.nodes h.nodes
    exact ⟨this.1 h1 h2, fun h3 => this.2 h3 h1 h2⟩

/-- C79: the order is lexicographic, for FBASs as well as for quorum sets (by which quorum sets are sorted when they are
brought into standard form). -/
theorem C79_lexicographic :
    (∀ f g : Fbas, f.cmp g = .lt ↔ FbasBefore f g) ∧ (∀ a b : QuorumSet, a.cmp b = .lt ↔ QSetBefore a b) ∧
    ∀ a b : QuorumSet, a.le b ↔ ¬ QSetBefore b a := by
  refine ⟨fun f g => cmpNodes_lt _ _, cmp_lt, fun a b => ?_⟩
  rw [← cmp_lt, ← QuorumSet.cmp_swap a b]
  change a.cmp b ≠ .gt ↔ _
  cases a.cmp b <;> simp

/-- C79: equal FBASs have equal hashes and the same answers of all methods, after any calls. (The maps from
public keys to IDs, which are not compared, do not matter.) -/
theorem C79_equal {H : Type} (hashNodes : List Node → H) (env : Env) (f g : Fbas)
    (he : f.eq g = true) (history : List Call) (c : Call) :
    f.hash hashNodes = g.hash hashNodes ∧
      answerAfter env f history c = answerAfter env g history c := by
  have hn : f.nodes = g.nodes := of_decide_eq_true he
  exact ⟨by rw [Fbas.hash, Fbas.hash, hn], answerAfter_nodes hn env history c⟩

/-- Concrete case: the order of FBASs is lexicographic, first by public keys, then by quorum sets, and an FBAS
comes after its prefixes. -/
example :
    Fbas.cmp ⟨[⟨"a", ⟨2, [0], []⟩⟩], []⟩ ⟨[⟨"b", ⟨1, [], []⟩⟩], []⟩ = .lt ∧
    Fbas.cmp ⟨[⟨"a", ⟨2, [0], []⟩⟩], []⟩ ⟨[⟨"a", ⟨1, [0, 1], []⟩⟩], []⟩ = .gt ∧
    Fbas.cmp ⟨[⟨"a", ⟨2, [0], []⟩⟩], []⟩ ⟨[⟨"a", ⟨2, [0], []⟩⟩, ⟨"", ⟨0, [], []⟩⟩], []⟩ = .lt := by
  decide +kernel

/-- Concrete case: a shrunken FBAS keeps the public keys of its nodes but has a map with generic ones
(C32), and is equal to the FBAS that results from loading its nodes. -/
example : Fbas.eq ⟨[⟨"a", ⟨1, [0], []⟩⟩], [("n0", 0)]⟩ ⟨[⟨"a", ⟨1, [0], []⟩⟩], [("a", 0)]⟩ = true ∧
    answerAfter (Ref.refEnv 1) ⟨[⟨"a", ⟨1, [0], []⟩⟩], [("n0", 0)]⟩ [] .minimalQuorums =
      .ok (.sets [{0}]) :=
  ⟨by decide +kernel, Ref.ok_of (by decide +kernel)⟩

#print axioms C79_order
#print axioms C79_lexicographic
#print axioms C79_equal

end FA.Props
