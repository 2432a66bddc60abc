import Verif.Model.Preprocessing
import Mathlib.Data.Finset.Card
import Mathlib.Data.List.Nodup

/-!
# A concrete environment

A computable implementation of the assumptions collected in `Env` (for graphs with less than `N`
nodes; other graphs are handled by an uncomputable fallback). It shows that the assumptions can be
met and is used to run the model on concrete examples.
-/

namespace FA.Ref
open FA Relation

/-- One breadth-first expansion. -/
def expand (succ : ℕ → List ℕ) (l : List ℕ) : List ℕ := (l ++ l.flatMap succ).dedup

/-- The nodes reachable from `x` (for graphs with at most `N` nodes). -/
def reach (N : ℕ) (succ : ℕ → List ℕ) (x : ℕ) : List ℕ := (expand succ)^[N] [x]

/-- Reference strongly connected components. -/
def sccN (N : ℕ) (starts : List ℕ) (succ : ℕ → List ℕ) : List (List ℕ) :=
  let nodes := (List.range N).filter (fun x => starts.any (fun s => (reach N succ s).contains x))
  let mutual' := fun x y => (reach N succ x).contains y && (reach N succ y).contains x
  (nodes.filter (fun x => nodes.all (fun y => !(decide (y < x) && mutual' x y)))).map
    (fun x => nodes.filter (fun y => mutual' x y))

section
variable {N : ℕ} {succ : ℕ → List ℕ} (hsucc : ∀ x < N, ∀ y ∈ succ x, y < N)

theorem mem_expand {l : List ℕ} {y : ℕ} :
    y ∈ expand succ l ↔ y ∈ l ∨ ∃ x ∈ l, y ∈ succ x := by
  simp [expand]

theorem iterate_sound {x : ℕ} (k : ℕ) {y : ℕ} (h : y ∈ (expand succ)^[k] [x]) :
    ReflTransGen (fun a b => b ∈ succ a) x y := by
  induction k generalizing y with
  | zero =>
    simp at h; subst h; exact .refl
  | succ k ih =>
    rw [Function.iterate_succ_apply', mem_expand] at h
    rcases h with h | ⟨z, hz, hy⟩
    · exact ih h
    · exact (ih hz).tail hy

include hsucc in
theorem iterate_lt {x : ℕ} (hx : x < N) (k : ℕ) : ∀ y ∈ (expand succ)^[k] [x], y < N := by
  induction k with
  | zero => simp [hx]
  | succ k ih =>
    intro y hy
    rw [Function.iterate_succ_apply', mem_expand] at hy
    rcases hy with h | ⟨z, hz, hy⟩
    · exact ih y h
    · exact hsucc z (ih z hz) y hy

theorem iterate_closed_or_grow {x : ℕ} (k : ℕ) :
    (∀ a ∈ (expand succ)^[k] [x], ∀ b ∈ succ a, b ∈ (expand succ)^[k] [x]) ∨
      k + 1 ≤ ((expand succ)^[k] [x]).toFinset.card := by
  induction k with
  | zero => right; simp
  | succ k ih =>
    rw [Function.iterate_succ_apply']
    generalize (expand succ)^[k] [x] = l at ih
    by_cases hc : ∀ a ∈ l, ∀ b ∈ succ a, b ∈ l
    · left
      have heq : ∀ y, y ∈ expand succ l ↔ y ∈ l := by
        intro y
        rw [mem_expand]
        exact ⟨fun h => h.elim id (fun ⟨a, ha, hb⟩ => hc a ha y hb), .inl⟩
      intro a ha b hb
      rw [heq] at *
      exact hc a ha b hb
    · right
      have h1 := ih.resolve_left hc
      push Not at hc
      obtain ⟨a, ha, b, hb, hbl⟩ := hc
      have : l.toFinset ⊂ (expand succ l).toFinset := by
        rw [Finset.ssubset_iff_of_subset]
        · exact ⟨b, by rw [List.mem_toFinset, mem_expand]; exact .inr ⟨a, ha, hb⟩, by simpa using hbl⟩
        · intro y hy
          rw [List.mem_toFinset] at *
          exact mem_expand.2 (.inl hy)
      have := Finset.card_lt_card this
      omega

include hsucc in
theorem mem_reach {x : ℕ} (hx : x < N) {y : ℕ} :
    y ∈ reach N succ x ↔ ReflTransGen (fun a b => b ∈ succ a) x y := by
  constructor
  · exact iterate_sound N
  · have hclosed : ∀ a ∈ reach N succ x, ∀ b ∈ succ a, b ∈ reach N succ x := by
      refine (iterate_closed_or_grow N).resolve_right ?_
      intro h
      have : ((expand succ)^[N] [x]).toFinset ⊆ Finset.range N := by
        intro y hy
        rw [List.mem_toFinset] at hy
        exact Finset.mem_range.2 (iterate_lt hsucc hx N y hy)
      have := Finset.card_le_card this
      rw [Finset.card_range] at this
      omega
    have hself : x ∈ reach N succ x := by
      have : ∀ k, x ∈ (expand succ)^[k] [x] := by
        intro k
        induction k with
        | zero => simp
        | succ k ih => rw [Function.iterate_succ_apply', mem_expand]; exact .inl ih
      exact this N
    intro h
    induction h with
    | refl => exact hself
    | tail _ hab ih => exact hclosed _ ih _ hab

include hsucc in
theorem reaches_lt {x y : ℕ} (hx : x < N) (h : ReflTransGen (fun a b => b ∈ succ a) x y) :
    y < N := by
  induction h with
  | refl => exact hx
  | tail _ hab ih => exact hsucc _ ih _ hab

include hsucc in
theorem sccN_spec {starts : List ℕ} (hs : ∀ s ∈ starts, s < N) :
    SccSpec starts succ (sccN N starts succ) := by
  have hnodes : ∀ x, x ∈ (List.range N).filter
      (fun x => starts.any (fun s => (reach N succ s).contains x)) ↔
      ∃ s ∈ starts, ReflTransGen (fun a b => b ∈ succ a) s x := by
    intro x
    simp only [List.mem_filter, List.mem_range, List.any_eq_true, List.contains_iff_mem]
    constructor
    · rintro ⟨_, s, hs', h⟩
      exact ⟨s, hs', (mem_reach hsucc (hs s hs')).1 h⟩
    · rintro ⟨s, hs', h⟩
      exact ⟨reaches_lt hsucc (hs s hs') h, s, hs', (mem_reach hsucc (hs s hs')).2 h⟩
  have hlt : ∀ x, (∃ s ∈ starts, ReflTransGen (fun a b => b ∈ succ a) s x) → x < N :=
    fun x ⟨s, hs', h⟩ => reaches_lt hsucc (hs s hs') h
  have hnd : ((List.range N).filter
      (fun x => starts.any (fun s => (reach N succ s).contains x))).Nodup :=
    List.nodup_range.filter _
  unfold sccN
  dsimp only
  generalize (List.range N).filter
      (fun x => starts.any (fun s => (reach N succ s).contains x)) = nodes at hnodes hnd
  have hmut : ∀ x ∈ nodes, ∀ y ∈ nodes,
      ((reach N succ x).contains y && (reach N succ y).contains x) = true ↔
      ReflTransGen (fun a b => b ∈ succ a) x y ∧ ReflTransGen (fun a b => b ∈ succ a) y x := by
    intro x hx y hy
    rw [Bool.and_eq_true, List.contains_iff_mem, List.contains_iff_mem,
      mem_reach hsucc (hlt x ((hnodes x).1 hx)), mem_reach hsucc (hlt y ((hnodes y).1 hy))]
  have hmemc : ∀ x ∈ nodes, ∀ y,
      y ∈ nodes.filter (fun y => (reach N succ x).contains y && (reach N succ y).contains x) ↔
      ReflTransGen (fun a b => b ∈ succ a) x y ∧ ReflTransGen (fun a b => b ∈ succ a) y x := by
    intro x hx y
    rw [List.mem_filter]
    constructor
    · rintro ⟨hy, h⟩; exact (hmut x hx y hy).1 h
    · rintro ⟨h1, h2⟩
      have hy : y ∈ nodes := by
        obtain ⟨s, hs', h⟩ := (hnodes x).1 hx
        exact (hnodes y).2 ⟨s, hs', h.trans h1⟩
      exact ⟨hy, (hmut x hx y hy).2 ⟨h1, h2⟩⟩
  refine ⟨?_, ?_, ?_⟩
  · rw [List.nodup_flatten]
    refine ⟨?_, ?_⟩
    · intro c hc
      obtain ⟨x, _, rfl⟩ := List.mem_map.1 hc
      exact hnd.filter _
    · rw [List.pairwise_map]
      refine List.Pairwise.imp_of_mem ?_ (hnd.filter _)
      intro x y hx hy hne z hzx hzy
      obtain ⟨hx1, hx2⟩ := List.mem_filter.1 hx
      obtain ⟨hy1, hy2⟩ := List.mem_filter.1 hy
      have h1 := (hmemc x hx1 z).1 hzx
      have h2 := (hmemc y hy1 z).1 hzy
      have hxy := (hmut x hx1 y hy1).2 ⟨h1.1.trans h2.2, h2.1.trans h1.2⟩
      have hyx := (hmut y hy1 x hx1).2 ⟨h2.1.trans h1.2, h1.1.trans h2.2⟩
      simp only [List.all_eq_true] at hx2 hy2
      have hx3 := hx2 y hy1
      have hy3 := hy2 x hx1
      rw [hxy] at hx3
      rw [hyx] at hy3
      simp at hx3 hy3
      omega
  · intro z
    rw [← hnodes, List.mem_flatten]
    constructor
    · rintro ⟨c, hc, hz⟩
      obtain ⟨x, _, rfl⟩ := List.mem_map.1 hc
      exact (List.mem_filter.1 hz).1
    · intro hz
      -- the least member of the class of `z`
      have hex : ∃ x, x ∈ nodes ∧ ReflTransGen (fun a b => b ∈ succ a) x z ∧
          ReflTransGen (fun a b => b ∈ succ a) z x := ⟨z, hz, .refl, .refl⟩
      classical
      have hleast := Nat.find_spec hex
      refine ⟨_, List.mem_map.2 ⟨Nat.find hex, List.mem_filter.2 ⟨hleast.1, ?_⟩, rfl⟩,
        (hmemc _ hleast.1 z).2 hleast.2⟩
      rw [List.all_eq_true]
      intro y hy
      rw [Bool.not_eq_true', Bool.and_eq_false_iff, decide_eq_false_iff_not]
      by_contra hcon
      rw [not_or, not_not, Bool.not_eq_false] at hcon
      have h3 := (hmut _ hleast.1 y hy).1 hcon.2
      exact Nat.find_min hex hcon.1 ⟨hy, h3.2.trans hleast.2.1, hleast.2.2.trans h3.1⟩
  · intro c hc x hx y
    obtain ⟨r, hr, rfl⟩ := List.mem_map.1 hc
    have hr1 := (List.mem_filter.1 hr).1
    have h1 := (hmemc r hr1 x).1 hx
    rw [hmemc r hr1 y]
    constructor
    · rintro ⟨h2, h3⟩; exact ⟨h1.2.trans h2, h3.trans h1.1⟩
    · rintro ⟨h2, h3⟩; exact ⟨h1.1.trans h2, h3.trans h1.2⟩

end

open Classical in
/-- The reference environment: `sccN N` on graphs with at most `N` nodes, some correct answer on
other finite graphs; nodes are ranked by `rank` (e.g. the identity). -/
noncomputable def refEnvWith (N : ℕ) (rank : Fbas → List ℕ → List ℕ)
    (hrank : ∀ f l, (rank f l).Perm l) : Env where
  scc starts succ :=
    if (starts.all (fun s => decide (s < N)) &&
        (List.range N).all (fun x => (succ x).all (fun y => decide (y < N)))) = true
    then sccN N starts succ
    else if h : ∃ n, (∀ s ∈ starts, s < n) ∧ (∀ x < n, ∀ y ∈ succ x, y < n)
    then sccN h.choose starts succ
    else []
  scc_spec starts succ n h1 h2 := by
    split
    next h =>
      simp only [Bool.and_eq_true, List.all_eq_true, decide_eq_true_eq, List.mem_range] at h
      exact sccN_spec h.2 h.1
    next h =>
      have hex : ∃ n, (∀ s ∈ starts, s < n) ∧ (∀ x < n, ∀ y ∈ succ x, y < n) := ⟨n, h1, h2⟩
      rw [dif_pos hex]
      exact sccN_spec hex.choose_spec.2 hex.choose_spec.1
  rank := rank
  rank_perm := hrank

/-- Reference environment with the trivial ranking. -/
noncomputable def refEnv (N : ℕ) : Env := refEnvWith N (fun _ l => l) (fun _ _ => .refl _)

/-- Reference environment that reverses the node order. -/
noncomputable def refEnvRev (N : ℕ) : Env :=
  refEnvWith N (fun _ l => l.reverse) (fun _ l => List.reverse_perm l)

end FA.Ref

namespace FA.Ref

/-- Comparing a result with an expected value (evaluates well in the kernel). -/
def okEq {α : Type} [DecidableEq α] (r : Except Panic α) (a : α) : Bool :=
  match r with
  | .ok b => decide (b = a)
  | .error _ => false

theorem ok_of {α : Type} [DecidableEq α] {r : Except Panic α} {a : α} (h : okEq r a = true) :
    r = .ok a := by
  unfold okEq at h
  split at h
  · simpa using h
  · simp at h

/-- Whether the result is a panic of the given kind. -/
def errEq {α : Type} (r : Except Panic α) (e : Panic) : Bool :=
  match r with
  | .ok _ => false
  | .error e' => decide (e' = e)

theorem error_of {α : Type} {r : Except Panic α} {e : Panic} (h : errEq r e = true) :
    r = .error e := by
  unfold errEq at h
  split at h
  · simp at h
  · simpa using h

/-- An FBAS with the given quorum sets (and generic public keys). -/
def mkFbas (qs : List QuorumSet) : Fbas :=
  ⟨qs.zipIdx.map (fun p => ⟨Fbas.genericNodeName p.2, p.1⟩),
   qs.zipIdx.map (fun p => (Fbas.genericNodeName p.2, p.2))⟩

/-- Decidable version of well-formedness. -/
def wfB (f : Fbas) : Bool :=
  (List.range f.nodes.length).all (fun x =>
    (f.qset x).containedNodesWithDuplicates.all (fun y => decide (y < f.nodes.length)))

end FA.Ref
