import Verif.Ref.Env
import Verif.Model.Tool

/-!
# Comparing JSON values (for concrete examples only)
-/

namespace FA.Ref
open FA

mutual

/-- Equality of JSON values. -/
def same : Json → Json → Bool
  | .null, .null => true
  | .bool a, .bool b => a == b
  | .nat a, .nat b => a == b
  | .rat a, .rat b => decide (a = b)
  | .str a, .str b => a == b
  | .arr a, .arr b => sameList a b
  | .obj a, .obj b => sameFields a b
  | _, _ => false

def sameList : List Json → List Json → Bool
  | [], [] => true
  | a :: l, b :: m => same a b && sameList l m
  | _, _ => false

def sameFields : List (String × Json) → List (String × Json) → Bool
  | [], [] => true
  | (k, a) :: l, (k', b) :: m => k == k' && same a b && sameFields l m
  | _, _ => false

end

mutual

theorem same_eq : ∀ a b, same a b = true → a = b
  | .null, b, h => by cases b <;> simp_all [same]
  | .bool a, b, h => by cases b <;> simp_all [same]
  | .nat a, b, h => by cases b <;> simp_all [same]
  | .rat a, b, h => by cases b <;> simp_all [same]
  | .str a, b, h => by cases b <;> simp_all [same]
  | .arr a, b, h => by
    cases b with
    | arr b => rw [sameList_eq a b (by simpa only [same] using h)]
    | _ => simp [same] at h
  | .obj a, b, h => by
    cases b with
    | obj b => rw [sameFields_eq a b (by simpa only [same] using h)]
    | _ => simp [same] at h

theorem sameList_eq : ∀ a b, sameList a b = true → a = b
  | [], b, h => by cases b <;> simp_all [sameList]
  | a :: l, b, h => by
    cases b with
    | nil => simp [sameList] at h
    | cons b m =>
      rw [sameList, Bool.and_eq_true] at h
      rw [same_eq a b h.1, sameList_eq l m h.2]

theorem sameFields_eq : ∀ a b, sameFields a b = true → a = b
  | [], b, h => by cases b <;> simp_all [sameFields]
  | (k, a) :: l, b, h => by
    cases b with
    | nil => simp [sameFields] at h
    | cons b m =>
      obtain ⟨k', b⟩ := b
      rw [sameFields, Bool.and_eq_true, Bool.and_eq_true, beq_iff_eq] at h
      rw [h.1.1, same_eq a b h.1.2, sameFields_eq l m h.2]

end

/-- The lines are as given (for `decide`). -/
def sameLines : List Tool.Line → List Tool.Line → Bool
  | [], [] => true
  | .result n j :: l, .result n' j' :: l' => n == n' && same j j' && sameLines l l'
  | .duration n :: l, .duration n' :: l' => n == n' && sameLines l l'
  | .comment c :: l, .comment c' :: l' => decide (c = c') && sameLines l l'
  | _, _ => false

theorem sameLines_eq : ∀ l l', sameLines l l' = true → l = l'
  | [], l', h => by cases l' <;> simp_all [sameLines]
  | .result n j :: l, l', h => by
    match l' with
    | .result n' j' :: l' =>
      rw [sameLines, Bool.and_eq_true, Bool.and_eq_true, beq_iff_eq] at h
      rw [h.1.1, same_eq j j' h.1.2, sameLines_eq l l' h.2]
    | [] | .duration _ :: _ | .comment _ :: _ => simp [sameLines] at h
  | .duration n :: l, l', h => by
    match l' with
    | .duration n' :: l' =>
      rw [sameLines, Bool.and_eq_true, beq_iff_eq] at h
      rw [h.1, sameLines_eq l l' h.2]
    | [] | .result _ _ :: _ | .comment _ :: _ => simp [sameLines] at h
  | .comment n :: l, l', h => by
    match l' with
    | .comment n' :: l' =>
      rw [sameLines, Bool.and_eq_true, decide_eq_true_iff] at h
      rw [h.1, sameLines_eq l l' h.2]
    | [] | .result _ _ :: _ | .duration _ :: _ => simp [sameLines] at h

/-- The output is as given. -/
def prints (r : Except Panic (List Tool.Line)) (l : List Tool.Line) : Bool :=
  match r with
  | .ok l' => sameLines l' l
  | .error _ => false

theorem prints_of {r : Except Panic (List Tool.Line)} {l : List Tool.Line} (h : prints r l = true) :
    r = .ok l := by
  unfold prints at h
  split at h
  · rw [sameLines_eq _ _ h]
  · cases h

/-- The printed results are as given. -/
def shows (r : Except Panic (List Tool.Line)) (l : List (String × Json)) : Bool :=
  match r with
  | .ok l' => sameFields (Tool.results l') l
  | .error _ => false

theorem results_of {r : Except Panic (List Tool.Line)} {l : List (String × Json)}
    (h : shows r l = true) : r.map Tool.results = .ok l := by
  unfold shows at h
  split at h
  · rw [Except.map, sameFields_eq _ _ h]
  · cases h

/-- The result is the given document. -/
def isDoc (r : Except Panic Json) (d : Json) : Bool :=
  match r with
  | .ok d' => same d' d
  | .error _ => false

theorem doc_of {r : Except Panic Json} {d : Json} (h : isDoc r d = true) : r = .ok d := by
  unfold isDoc at h
  split at h
  · rw [same_eq _ _ h]
  · cases h

end FA.Ref
