import Mathlib.Data.List.Sort

/-!
# Python's `sort(key=...)`

Python's sort is stable, and so is insertion sort. Only the three facts below are used: the result is a permutation of
the input, sorted by key, and keeps the order of elements with equal keys. Together they determine it.
-/
namespace Coral
open scoped List

section
variable {α κ : Type} [LinearOrder κ]

/-- `l.sort(key=key)` -/
def sortBy (key : α → κ) (l : List α) : List α := l.insertionSort (fun a b => key a ≤ key b)

theorem sortBy_perm (key : α → κ) (l : List α) : sortBy key l ~ l := List.perm_insertionSort _ _

theorem sortBy_sorted (key : α → κ) (l : List α) : (sortBy key l).Pairwise (fun a b => key a ≤ key b) := by
  haveI : Std.Total (fun a b : α => key a ≤ key b) := ⟨fun a b => le_total _ _⟩
  haveI : IsTrans α (fun a b : α => key a ≤ key b) := ⟨fun a b c => le_trans⟩
  exact List.pairwise_insertionSort _ _

theorem sortBy_filter_insert (key : α → κ) (v : κ) (a : α) (l : List α) :
    (l.orderedInsert (fun a b => key a ≤ key b) a).filter (fun p => decide (key p = v)) =
      (a :: l).filter (fun p => decide (key p = v)) := by
  induction l with
  | nil => rfl
  | cons b l ih =>
    rw [List.orderedInsert_cons]
    split
    · rfl
    · rename_i h
      rw [List.filter_cons, ih, List.filter_cons, List.filter_cons, List.filter_cons]
      by_cases h1 : key a = v <;> by_cases h2 : key b = v
      · exact absurd (by rw [h1, h2]) h
      all_goals simp [h1, h2]

/-- Stability: elements with the same key stay in order. -/
theorem sortBy_stable (key : α → κ) (v : κ) (l : List α) :
    (sortBy key l).filter (fun p => decide (key p = v)) = l.filter (fun p => decide (key p = v)) := by
  induction l with
  | nil => rfl
  | cons a l ih =>
    show ((sortBy key l).orderedInsert _ a).filter _ = _
    rw [sortBy_filter_insert]
    simp only [List.filter_cons, ih]

end
end Coral
