import Verif.Props.Groupings
import Verif.Ref.Decide

/-!
# C33, C64: numbers of groups, names of nodes
-/

namespace FA.Props
open FA Spec

/-- C33: `number_of_groupings` is the number of groups that were given, including empty ones. -/
theorem C33_number_of_groupings (gs : List Grouping) (f : Fbas) (g : Groupings) (hg : Groupings.new gs f = .ok g) :
    g.numberOfGroupings = gs.length := by
  unfold Groupings.new at hg
  split at hg
  · cases hg
  · rw [← Except.ok.inj hg]; rfl

/-- C64: without groups, the nodes of a set are printed with their public keys, in the order of their IDs; this panics
if and only if one of them does not exist. -/
theorem C64_public_keys (r : SetResult) (f : Fbas) :
    (∀ keys : List PublicKey, r.intoPrettyVec f none = .ok keys ↔
      keys.map some = (elems r.nodeSet).map (fun x => f.nodes[x]?.map Node.publicKey)) ∧
    (r.intoPrettyVec f none = .error .outOfBounds ↔ ∃ x ∈ r.nodeSet, f.nodes.length ≤ x) := by
  have key : ∀ (l : List NodeId) (keys : List PublicKey), toPublicKeys l f = .ok keys ↔
      keys.map some = l.map (fun x => f.nodes[x]?.map Node.publicKey) := by
    intro l
    unfold toPublicKeys
    induction l with
    | nil =>
      intro keys
      cases keys with
      | nil => simp [mapE]
      | cons a b => simp [mapE]
    | cons x l ih =>
      intro keys
      rw [mapE_eq_ok]
      cases keys with
      | nil => simp
      | cons k ks =>
        rw [List.forall₂_cons, ← mapE_eq_ok, ih, List.map_cons, List.map_cons, List.cons.injEq]
        refine and_congr ?_ Iff.rfl
        cases f.nodes[x]? with
        | none => simp
        | some v => simp [eq_comm]
  refine ⟨fun keys => key _ keys, ?_⟩
  show toPublicKeys (elems r.nodeSet) f = _ ↔ _
  constructor
  · intro h
    by_contra hne
    push Not at hne
    have hok : toPublicKeys (elems r.nodeSet) f =
        .ok ((elems r.nodeSet).map (fun x => (f.nodes[x]?.map Node.publicKey).getD "")) := by
      refine (key _ _).2 ?_
      rw [List.map_map]
      refine List.map_congr_left (fun x hx => ?_)
      have hx : x < f.nodes.length := hne x (mem_elems.1 hx)
      simp [List.getElem?_eq_getElem hx]
    rw [h] at hok; cases hok
  · rintro ⟨x, hx, hl⟩
    refine mapE_error (fun y _ => ?_) (mem_elems.2 hx) (by rw [List.getElem?_eq_none hl])
    cases f.nodes[y]? with
    | none => exact .inr rfl
    | some v => exact .inl ⟨_, rfl⟩

/-- Two groups, one of them empty; two nodes of three are printed; node 5 does not exist. -/
example : (∃ g, Groupings.new [⟨"a", [0, 1]⟩, ⟨"b", []⟩] (Ref.mkFbas (List.replicate 3 ⟨1, [0], []⟩)) = .ok g ∧
      g.numberOfGroupings = 2) ∧
    (SetResult.mk {2, 0}).intoPrettyVec (Ref.mkFbas (List.replicate 3 ⟨1, [0], []⟩)) none = .ok ["n0", "n2"] ∧
    (SetResult.mk {2, 5}).intoPrettyVec (Ref.mkFbas (List.replicate 3 ⟨1, [0], []⟩)) none = .error .outOfBounds :=
  ⟨⟨⟨[⟨"a", [0, 1]⟩, ⟨"b", []⟩], [0, 0, 2], [(1, 0), (0, 0)]⟩, Ref.ok_of (by decide +kernel), rfl⟩,
    Ref.ok_of (by decide +kernel), Ref.error_of (by decide +kernel)⟩

#print axioms C33_number_of_groupings
#print axioms C64_public_keys

end FA.Props
