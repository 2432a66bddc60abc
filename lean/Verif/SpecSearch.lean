import Verif.Model.Blocking
import Verif.Model.Splitting
import Verif.Spec

/-!
# Specification: executions of the recursive searches

The recursive search functions as big-step semantics without fuel: `…Run … st st' calls depth` says that a
call with the `&mut` arguments `st` returns and leaves `st'` behind; that `calls` calls of the function are
made in total, and that at most `depth` of them are active at the same time. Tests in the code are replaced
by their meaning.
-/

namespace FA.Spec
open FA

/-- All nodes in `selection` have a slice in `available`. -/
def Supported (f : Fbas) (selection available : NodeSet) : Prop :=
  ∀ x ∈ selection, Slice available (f.qset x)

/-- No quorum is contained in `S`. -/
def NoQuorumIn (f : Fbas) (S : NodeSet) : Prop := ∀ Q, IsQuorum f Q → ¬ Q ⊆ S

/-- `minimal_quorums_finder_step` (src/analysis/quorums.rs:59-95). -/
inductive MqRun (f : Fbas) : Bool → MqState → MqState → ℕ → ℕ → Prop
  | found {st : MqState} (h : IsMinQuorum f st.selection) :
      MqRun f true st { st with found := st.found ++ [st.selection] } 1 1
  | notMinimal {st : MqState} (h : IsQuorum f st.selection) (hm : ¬ IsMinQuorum f st.selection) :
      MqRun f true st st 1 1
  | done {ch : Bool} {st : MqState} (h : ¬ (ch = true ∧ IsQuorum f st.selection))
      (hu : st.unprocessed = []) : MqRun f ch st st 1 1
  | cut {ch : Bool} {st st₁ : MqState} {x : NodeId} {rest : List NodeId} {c d : ℕ}
      (h : ¬ (ch = true ∧ IsQuorum f st.selection)) (hu : st.unprocessed = x :: rest)
      (h₁ : MqRun f true ⟨rest, insert x st.selection, st.available, st.found⟩ st₁ c d)
      (hs : ¬ Supported f (st₁.selection.erase x) (st₁.available.erase x)) :
      MqRun f ch st ⟨x :: st₁.unprocessed, st₁.selection.erase x, insert x (st₁.available.erase x),
        st₁.found⟩ (c + 1) (d + 1)
  | both {ch : Bool} {st st₁ st₂ : MqState} {x : NodeId} {rest : List NodeId} {c d c' d' : ℕ}
      (h : ¬ (ch = true ∧ IsQuorum f st.selection)) (hu : st.unprocessed = x :: rest)
      (h₁ : MqRun f true ⟨rest, insert x st.selection, st.available, st.found⟩ st₁ c d)
      (hs : Supported f (st₁.selection.erase x) (st₁.available.erase x))
      (h₂ : MqRun f false ⟨st₁.unprocessed, st₁.selection.erase x, st₁.available.erase x, st₁.found⟩
        st₂ c' d') :
      MqRun f ch st ⟨x :: st₂.unprocessed, st₂.selection, insert x st₂.available, st₂.found⟩
        (c + c' + 1) (max d d' + 1)

/-- `minimal_blocking_sets_finder_step` (src/analysis/blocking_sets.rs:66-114). -/
inductive MbRun (f : Fbas) : Bool → MbState → MbState → ℕ → ℕ → Prop
  | found {st : MbState} (h : NoQuorumIn f st.remaining)
      (hm : isMinimalForBlockingSetPre f st.selection st.remaining = true) :
      MbRun f true st { st with found := st.found ++ [st.selection] } 1 1
  | notMinimal {st : MbState} (h : NoQuorumIn f st.remaining)
      (hm : ¬ isMinimalForBlockingSetPre f st.selection st.remaining = true) : MbRun f true st st 1 1
  | done {ch : Bool} {st : MbState} (h : ¬ (ch = true ∧ NoQuorumIn f st.remaining))
      (hu : st.unprocessed = []) : MbRun f ch st st 1 1
  | cut {ch : Bool} {st st₁ : MbState} {x : NodeId} {rest : List NodeId} {c d : ℕ}
      (h : ¬ (ch = true ∧ NoQuorumIn f st.remaining)) (hu : st.unprocessed = x :: rest)
      (h₁ : MbRun f true
        ⟨rest, insert x st.selection, st.remaining.erase x, st.maxRemaining, st.found⟩ st₁ c d)
      (hs : ¬ NoQuorumIn f (insert x st₁.maxRemaining)) :
      MbRun f ch st ⟨x :: st₁.unprocessed, st₁.selection.erase x, insert x st₁.remaining,
        (insert x st₁.maxRemaining).erase x, st₁.found⟩ (c + 1) (d + 1)
  | both {ch : Bool} {st st₁ st₂ : MbState} {x : NodeId} {rest : List NodeId} {c d c' d' : ℕ}
      (h : ¬ (ch = true ∧ NoQuorumIn f st.remaining)) (hu : st.unprocessed = x :: rest)
      (h₁ : MbRun f true
        ⟨rest, insert x st.selection, st.remaining.erase x, st.maxRemaining, st.found⟩ st₁ c d)
      (hs : NoQuorumIn f (insert x st₁.maxRemaining))
      (h₂ : MbRun f false ⟨st₁.unprocessed, st₁.selection.erase x, insert x st₁.remaining,
        insert x st₁.maxRemaining, st₁.found⟩ st₂ c' d') :
      MbRun f ch st ⟨x :: st₂.unprocessed, st₂.selection, st₂.remaining, st₂.maxRemaining.erase x,
        st₂.found⟩ (c + c' + 1) (max d d' + 1)

/-- `splitting_sets_finder_step` (src/analysis/splitting_sets.rs:65-126). -/
inductive MsRun (f : Fbas) : List NodeSet → Bool → MsState → MsState → ℕ → ℕ → Prop
  | few {parts : List NodeSet} {ch : Bool} {st : MsState} (h : parts.length < 2) :
      MsRun f parts ch st st 1 1
  | found {parts : List NodeSet} {st : MsState} (hp : 2 ≤ parts.length)
      (h : isQuorumIntersection f st.selection parts = true) :
      MsRun f parts true st { st with found := st.found ++ [st.selection] } 1 1
  | done {parts : List NodeSet} {ch : Bool} {st : MsState} (hp : 2 ≤ parts.length)
      (h : ¬ (ch = true ∧ isQuorumIntersection f st.selection parts = true))
      (hu : st.unprocessed = []) : MsRun f parts ch st st 1 1
  | cut {parts : List NodeSet} {ch : Bool} {st st₁ : MsState} {x : NodeId} {rest : List NodeId} {c d : ℕ}
      (hp : 2 ≤ parts.length) (h : ¬ (ch = true ∧ isQuorumIntersection f st.selection parts = true))
      (hu : st.unprocessed = x :: rest)
      (h₁ : MsRun f ((parts.filter (fun q => decide (x ∈ q))).map (fun q => q.erase x)) true
        ⟨rest, insert x st.selection, st.available, st.found⟩ st₁ c d)
      (hs : ¬ hasPotential f (st₁.selection.erase x) (st₁.available.erase x) = true) :
      MsRun f parts ch st ⟨x :: st₁.unprocessed, st₁.selection.erase x,
        insert x (st₁.available.erase x), st₁.found⟩ (c + 1) (d + 1)
  | both {parts : List NodeSet} {ch : Bool} {st st₁ st₂ : MsState} {x : NodeId} {rest : List NodeId}
      {c d c' d' : ℕ} (hp : 2 ≤ parts.length)
      (h : ¬ (ch = true ∧ isQuorumIntersection f st.selection parts = true))
      (hu : st.unprocessed = x :: rest)
      (h₁ : MsRun f ((parts.filter (fun q => decide (x ∈ q))).map (fun q => q.erase x)) true
        ⟨rest, insert x st.selection, st.available, st.found⟩ st₁ c d)
      (hs : hasPotential f (st₁.selection.erase x) (st₁.available.erase x) = true)
      (h₂ : MsRun f (parts.filter (fun (q : NodeSet) => !decide (Disjoint q (st₁.available.erase x)))) false
        ⟨st₁.unprocessed, st₁.selection.erase x, st₁.available.erase x, st₁.found⟩ st₂ c' d') :
      MsRun f parts ch st ⟨x :: st₂.unprocessed, st₂.selection, insert x st₂.available, st₂.found⟩
        (c + c' + 1) (max d d' + 1)

/-- `nonintersecting_quorums_finder_step` (src/analysis/quorums.rs:149-208), with the returned value. -/
inductive NqRun (f : Fbas) :
    ℕ → Bool → NqState → Option (NodeSet × NodeSet) → NqState → ℕ → ℕ → Prop
  | found {picks : ℕ} {st : NqState} (h : IsQuorum f st.selection)
      (hs : (f.findSatisfiableNodes st.antiselection).1.Nonempty) :
      NqRun f picks true st (some (st.selection, (f.findSatisfiableNodes st.antiselection).1)) st 1 1
  | intersects {picks : ℕ} {st : NqState} (h : IsQuorum f st.selection)
      (hs : NoQuorumIn f st.antiselection) : NqRun f picks true st none st 1 1
  | stop {ch : Bool} {st : NqState} (h : ¬ (ch = true ∧ IsQuorum f st.selection)) :
      NqRun f 0 ch st none st 1 1
  | done {picks : ℕ} {ch : Bool} {st : NqState} (h : ¬ (ch = true ∧ IsQuorum f st.selection))
      (hu : st.unprocessed = []) : NqRun f picks ch st none st 1 1
  | early {picks : ℕ} {ch : Bool} {st st₁ : NqState} {x : NodeId} {rest : List NodeId} {c d : ℕ}
      {r : NodeSet × NodeSet} (h : ¬ (ch = true ∧ IsQuorum f st.selection))
      (hu : st.unprocessed = x :: rest)
      (h₁ : NqRun f picks true
        ⟨rest, insert x st.selection, st.available, st.antiselection.erase x⟩ (some r) st₁ c d) :
      NqRun f (picks + 1) ch st (some r) st₁ (c + 1) (d + 1)
  | cut {picks : ℕ} {ch : Bool} {st st₁ : NqState} {x : NodeId} {rest : List NodeId} {c d : ℕ}
      (h : ¬ (ch = true ∧ IsQuorum f st.selection)) (hu : st.unprocessed = x :: rest)
      (h₁ : NqRun f picks true
        ⟨rest, insert x st.selection, st.available, st.antiselection.erase x⟩ none st₁ c d)
      (hs : ¬ Supported f (st₁.selection.erase x) (st₁.available.erase x)) :
      NqRun f (picks + 1) ch st none ⟨x :: st₁.unprocessed, st₁.selection.erase x,
        insert x (st₁.available.erase x), insert x st₁.antiselection⟩ (c + 1) (d + 1)
  | late {picks : ℕ} {ch : Bool} {st st₁ st₂ : NqState} {x : NodeId} {rest : List NodeId}
      {c d c' d' : ℕ} {r : NodeSet × NodeSet} (h : ¬ (ch = true ∧ IsQuorum f st.selection))
      (hu : st.unprocessed = x :: rest)
      (h₁ : NqRun f picks true
        ⟨rest, insert x st.selection, st.available, st.antiselection.erase x⟩ none st₁ c d)
      (hs : Supported f (st₁.selection.erase x) (st₁.available.erase x))
      (h₂ : NqRun f (picks + 1) false ⟨st₁.unprocessed, st₁.selection.erase x, st₁.available.erase x,
        insert x st₁.antiselection⟩ (some r) st₂ c' d') :
      NqRun f (picks + 1) ch st (some r) st₂ (c + c' + 1) (max d d' + 1)
  | both {picks : ℕ} {ch : Bool} {st st₁ st₂ : NqState} {x : NodeId} {rest : List NodeId}
      {c d c' d' : ℕ} (h : ¬ (ch = true ∧ IsQuorum f st.selection)) (hu : st.unprocessed = x :: rest)
      (h₁ : NqRun f picks true
        ⟨rest, insert x st.selection, st.available, st.antiselection.erase x⟩ none st₁ c d)
      (hs : Supported f (st₁.selection.erase x) (st₁.available.erase x))
      (h₂ : NqRun f (picks + 1) false ⟨st₁.unprocessed, st₁.selection.erase x, st₁.available.erase x,
        insert x st₁.antiselection⟩ none st₂ c' d') :
      NqRun f (picks + 1) ch st none
        ⟨x :: st₂.unprocessed, st₂.selection, insert x st₂.available, st₂.antiselection⟩
        (c + c' + 1) (max d d' + 1)

/-- Loops that remove nodes without a slice among the remaining ones: `Removal f S S' n` says that such a
loop can end with `S'` after `n` iterations, whichever node without a slice is removed first. -/
inductive Removal (f : Fbas) : NodeSet → NodeSet → ℕ → Prop
  | done {S : NodeSet} (h : Supported f S S) : Removal f S S 0
  | next {S S' : NodeSet} {x : NodeId} {n : ℕ} (hx : x ∈ S) (hs : ¬ Slice S (f.qset x))
      (h : Removal f (S.erase x) S' n) : Removal f S S' (n + 1)

end FA.Spec
