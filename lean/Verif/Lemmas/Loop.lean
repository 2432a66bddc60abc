import Verif.Model.Graph
import Verif.Lemmas.Base

/-!
# Lemmas about loops and index accesses
-/

namespace FA

@[simp] theorem rangeFT_zero (n : ℕ) : rangeFT 0 n = List.range n := by
  rw [rangeFT, Nat.sub_zero, List.range_eq_range']

@[simp] theorem mem_rangeFT {a b x : ℕ} : x ∈ rangeFT a b ↔ a ≤ x ∧ x < b := by
  rw [rangeFT, List.mem_range'_1]; omega

theorem nodup_rangeFT (a b : ℕ) : (rangeFT a b).Nodup := List.nodup_range'

theorem sorted_rangeFT (a b : ℕ) : (rangeFT a b).Pairwise (· < ·) := List.pairwise_lt_range'

theorem length_rangeFT (a b : ℕ) : (rangeFT a b).length = b - a := List.length_range'

theorem rangeFT_self (a : ℕ) : rangeFT a a = [] := by simp [rangeFT]

theorem rangeFT_succ {a b : ℕ} (h : a ≤ b) : rangeFT a (b + 1) = rangeFT a b ++ [b] := by
  rw [rangeFT, rangeFT, Nat.succ_sub h, ← Nat.add_one, List.range'_1_concat]
  congr 2; omega

theorem rangeFT_append {a b c : ℕ} (h : a ≤ b) (h' : b ≤ c) :
    rangeFT a b ++ rangeFT b c = rangeFT a c := by
  rw [rangeFT, rangeFT, rangeFT]
  have := @List.range'_append a (b - a) (c - b) 1
  rw [show a + 1 * (b - a) = b by omega] at this
  rw [this]; congr 1; omega

/-- Invariant of a loop; the invariant may speak about the elements processed so far. -/
theorem foldE_inv' {α β : Type} {g : β → α → Except Panic β} (P : List α → β → Prop)
    (l done : List α) (b : β) (h0 : P done b)
    (hstep : ∀ pre a suf b, done ++ l = pre ++ a :: suf → P pre b →
      ∃ b', g b a = .ok b' ∧ P (pre ++ [a]) b') :
    ∃ b', foldE g b l = .ok b' ∧ P (done ++ l) b' := by
  induction l generalizing done b with
  | nil => exact ⟨b, rfl, by rw [List.append_nil]; exact h0⟩
  | cons a l ih =>
    obtain ⟨b', hb', hP⟩ := hstep done a l b rfl h0
    obtain ⟨b'', h1, h2⟩ := ih (done ++ [a]) b' hP (fun pre a' suf b hs => by
      apply hstep pre a' suf b; rw [← hs]; simp)
    refine ⟨b'', ?_, by simpa using h2⟩
    rw [foldE, hb']; exact h1

theorem foldE_inv {α β : Type} {g : β → α → Except Panic β} (P : List α → β → Prop)
    {l : List α} {b : β} (h0 : P [] b)
    (hstep : ∀ pre a suf b, l = pre ++ a :: suf → P pre b →
      ∃ b', g b a = .ok b' ∧ P (pre ++ [a]) b') :
    ∃ b', foldE g b l = .ok b' ∧ P l b' :=
  foldE_inv' P l [] b h0 hstep

/-- Loop over a range; the invariant may speak about the next index. -/
theorem foldE_range {β : Type} {g : β → ℕ → Except Panic β} (P : ℕ → β → Prop)
    {lo hi : ℕ} (hle : lo ≤ hi) {b : β} (h0 : P lo b)
    (hstep : ∀ i b, lo ≤ i → i < hi → P i b → ∃ b', g b i = .ok b' ∧ P (i + 1) b') :
    ∃ b', foldE g b (rangeFT lo hi) = .ok b' ∧ P hi b' := by
  obtain ⟨b', h1, h2⟩ := foldE_inv (g := g) (fun pre b => P (lo + pre.length) b)
    (l := rangeFT lo hi) (b := b) (by simpa using h0) (by
      intro pre a suf b hl hP
      have hlen : pre.length < (rangeFT lo hi).length := by rw [hl]; simp
      have ha : a = lo + pre.length := by
        have : (rangeFT lo hi)[pre.length]? = some a := by rw [hl]; simp
        rw [rangeFT, List.getElem?_range' (by rwa [length_rangeFT] at hlen)] at this
        simpa using (Option.some.inj this).symm
      rw [length_rangeFT] at hlen
      obtain ⟨b', h1, h2⟩ := hstep a b (by omega) (by omega) (by rw [ha]; exact hP)
      refine ⟨b', h1, ?_⟩
      rw [List.length_append, List.length_singleton, ← Nat.add_assoc, ← ha]; exact h2)
  refine ⟨b', h1, ?_⟩
  rw [length_rangeFT] at h2
  rwa [show lo + (hi - lo) = hi by omega] at h2

theorem getE_ok {α : Type} {v : List α} {i : ℕ} (h : i < v.length) : getE v i = .ok v[i] := by
  unfold getE; rw [List.getElem?_eq_getElem h]

theorem getE_eq_ok {α : Type} {v : List α} {i : ℕ} {x : α} :
    getE v i = .ok x ↔ v[i]? = some x := by
  unfold getE
  cases h : v[i]? <;> simp

theorem modifyE_ok {α : Type} {v : List α} {i : ℕ} {g : α → α} (h : i < v.length) :
    modifyE v i g = .ok (v.set i (g v[i])) := by
  unfold modifyE; rw [List.getElem?_eq_getElem h]

theorem modifyE_eq_ok {α : Type} {v v' : List α} {i : ℕ} {g : α → α} :
    modifyE v i g = .ok v' ↔ ∃ x, v[i]? = some x ∧ v' = v.set i (g x) := by
  unfold modifyE
  cases h : v[i]? <;> simp [eq_comm]

/-- `v[i] = g(v[i])` in terms of optional look-ups. -/
theorem modifyE_spec {α : Type} {v : List α} {i : ℕ} {g : α → α} (h : i < v.length) :
    ∃ v', modifyE v i g = .ok v' ∧ v'.length = v.length ∧
      ∀ j, v'[j]? = if j = i then (v[j]?).map g else v[j]? := by
  refine ⟨_, modifyE_ok h, by simp, fun j => ?_⟩
  by_cases hj : j = i
  · subst hj; simp [h]
  · rw [List.getElem?_set_ne (fun h => hj h.symm)]; simp [hj]

end FA
