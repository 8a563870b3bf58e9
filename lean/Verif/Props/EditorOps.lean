import Verif.Model.EditorOps
import Verif.Props.Shapefile

/-!
# Addresses in an editor (C141, C142)
-/
namespace Coral
namespace Shapefile

set_option linter.unusedSectionVars false

section
variable {D R : Type} [Double D]

/-! ### C141 -/

theorem delItem_sub {α : Type} {l l' : List α} {i : Int} (h : delItem l i = .ok l') : l'.Sublist l ∧ l'.length + 1 = l.length := by
  simp only [delItem] at h
  generalize (if i < 0 then i + (l.length : Int) else i) = j at h
  by_cases hc : 0 ≤ j ∧ j < l.length
  · rw [if_pos hc] at h
    cases h
    refine ⟨List.eraseIdx_sublist _ _, ?_⟩
    rw [List.length_eraseIdx_of_lt (by omega)]
    omega
  · rw [if_neg hc] at h
    cases h

theorem pyIndex_there {α : Type} {l : List α} {i : Int} (h1 : -l.length ≤ i) (h2 : i < l.length) : ∃ a, pyIndex l i = .ok a := by
  simp only [pyIndex]
  generalize hj : (if i < 0 then i + (l.length : Int) else i) = j
  have hj' : 0 ≤ j ∧ j < l.length := by
    split at hj <;> omega
  have hlt : j.toNat < l.length := by omega
  exact ⟨l[j.toNat], by rw [if_pos hj'.1, List.getElem?_eq_getElem hlt]⟩

theorem deletePoint_sub {p : Int} {fuel k : Nat} {l l' : List (Shape D)} (h : deletePoint p fuel k l = .ok l') : l'.Sublist l := by
  induction fuel generalizing k l with
  | zero => cases h; exact List.Sublist.refl _
  | succ fuel ih =>
    simp only [deletePoint] at h
    split at h
    · cases h; exact List.Sublist.refl _
    · split at h
      · obtain ⟨l1, h1, h2⟩ := Py.bind_ok.mp h
        exact (ih h2).trans (delItem_sub h1).1
      · split at h
        · cases h
        · cases h
        · exact ih h

/-- C141, what holds: whatever is deleted, the shapes that are left are shapes that were there, unchanged and in the order they had, and nothing
else changes. In particular no single part and no single point is ever deleted. Missing: that it does what it says, see below. -/
theorem C141_whole_shapes_partial {e e' : Editor D R} {shape part point : Option Int} (h : e.deleteAt shape part point = .ok e') :
    ∃ l, l.Sublist e.writer.shapes ∧ e' = { e with writer := { e.writer with shapes := l } } := by
  obtain ⟨l, h1, h⟩ := Py.bind_ok.mp h
  cases h
  refine ⟨l, ?_, rfl⟩
  simp only [deleteFrom] at h1
  split at h1
  · simp only [indexShape, Py.bind_ok] at h1
    obtain ⟨_, _, h1⟩ := h1
    cases h1
  · exact (delItem_sub h1).1
  · cases h1; exact List.Sublist.refl _
  · exact deletePoint_sub h1
  · simp only [deletePart] at h1
    split at h1
    · cases h1; exact List.nil_sublist _
    · cases h1
  · cases h1; exact List.Sublist.refl _

/-- C141 fails: deleting a part, or a point of a part, raises `TypeError` for every shape that is there, and for all shapes together. -/
theorem C141_part_violated {e : Editor D R} {part : Int} (hp : part ≠ 0) (point : Option Int) :
    (∀ shape : Int, shape ≠ 0 → -e.writer.shapes.length ≤ shape → shape < e.writer.shapes.length →
      e.deleteAt (some shape) (some part) point = .error .typeError) ∧
    (e.writer.shapes ≠ [] → e.deleteAt none (some part) point = .error .typeError) := by
  have g1 : given (some part) = true := by simp [given, truthy, hp]
  have g0 : given none = false := by decide
  constructor
  · intro shape h0 h1 h2
    have g2 : given (some shape) = true := by simp [given, truthy, h0]
    obtain ⟨s, hs⟩ := pyIndex_there h1 h2
    simp only [Editor.deleteAt, deleteFrom, g1, g2, indexShape, Option.getD_some, hs]
    rfl
  · intro hne
    match hw : e.writer.shapes, hne with
    | s :: ss, _ =>
      simp only [Editor.deleteAt, deleteFrom, g1, g0, deletePart, hw]
      rfl

theorem deletePoint_round {s1 s2 : Shape D} {l : List (Shape D)} (h1 : ∀ s ∈ s1 :: s2 :: l, s.shapeType = some 1) (fuel k : Nat)
    (hk : k < l.length + 2) : deletePoint 1 (fuel + 1) k (s1 :: s2 :: l) = deletePoint 1 fuel (k + 1) (s1 :: l) := by
  have hlt : k < (s1 :: s2 :: l).length := by simpa using hk
  have hd : delItem (s1 :: s2 :: l) 1 = .ok (s1 :: l) := by
    have hj : (if (1 : Int) < 0 then 1 + ((s1 :: s2 :: l).length : Int) else 1) = 1 := if_neg (by omega)
    simp only [delItem, hj]
    rw [if_pos (by simp only [List.length_cons]; omega)]
    rfl
  simp only [deletePoint, List.getElem?_eq_getElem hlt, h1 _ (List.getElem_mem hlt), if_true, hd]
  rfl

theorem deletePoint_half {s : Shape D} {l : List (Shape D)} (h1 : ∀ t ∈ s :: l, t.shapeType = some 1) (fuel k : Nat) (hk : 0 < k ∨ l ≠ [])
    (hf : l.length + 1 ≤ fuel + k) : deletePoint 1 fuel k (s :: l) = .ok (s :: l.drop ((l.length + 2 - k) / 2)) := by
  induction fuel generalizing k l with
  | zero =>
    have : (l.length + 2 - k) / 2 = 0 := by omega
    rw [this]
    rfl
  | succ fuel ih =>
    by_cases hlt : k < l.length + 1
    · match l, hk, hlt with
      | [], hk, hlt => simp at hk hlt; omega
      | s2 :: l, hk, hlt =>
        simp only [List.length_cons] at hlt hf
        rw [deletePoint_round h1 fuel k (by omega), ih (fun t ht => h1 t (by
          rcases List.mem_cons.mp ht with rfl | ht
          · exact List.mem_cons_self
          · exact List.mem_cons_of_mem _ (List.mem_cons_of_mem _ ht))) (k + 1) (by omega) (by omega)]
        have : (l.length + 1 + 2 - k) / 2 = (l.length + 2 - (k + 1)) / 2 + 1 := by omega
        rw [List.length_cons, this, List.drop_succ_cons]
    · have hn : (s :: l)[k]? = none := List.getElem?_eq_none (by simp only [List.length_cons]; omega)
      have : (l.length + 2 - k) / 2 = 0 := by omega
      simp only [deletePoint, hn, this, List.drop_zero]

/-- C141 fails: `delete(point=1)` for an editor with two or more points deletes half of them (rounded up), from the second on. -/
theorem C141_point_violated {e : Editor D R} {s : Shape D} {l : List (Shape D)} (hs : e.writer.shapes = s :: l) (hl : l ≠ [])
    (h1 : ∀ t ∈ e.writer.shapes, t.shapeType = some 1) :
    e.deleteAt none none (some 1) = .ok { e with writer := { e.writer with shapes := s :: l.drop ((l.length + 2) / 2) } } := by
  have g1 : given (some 1) = true := by decide
  have g0 : given none = false := by decide
  simp only [Editor.deleteAt, deleteFrom, g1, g0, hs, Option.getD_some]
  rw [deletePoint_half (by rw [← hs]; exact h1) _ 0 (Or.inr hl) (by simp)]
  rfl

/-- Three points: the second and the third are deleted. -/
example : let s (x : Toy) : Shape Toy := { shapeType := some 1, points := [[x, 0, 0, 0]] }
    (({ writer := { shapeType := some 1, shapes := [s (toy 1), s (toy 2), s (toy 3)] }, names := [], records := ([] : List Nat) } :
      Editor Toy Nat).deleteAt none none (some 1)).map (fun e => e.writer.shapes.map (·.points)) = .ok [[[toy 1, 0, 0, 0]]] := by
  decide +kernel

/-- A shape alone is deleted as in C94, and something remains. -/
example : let s (x : Toy) : Shape Toy := { shapeType := some 1, points := [[x, 0, 0, 0]] }
    (({ writer := { shapeType := some 1, shapes := [s (toy 1), s (toy 2), s (toy 3)] }, names := [], records := ([] : List Nat) } :
      Editor Toy Nat).deleteAt (some 1) none none).map (fun e => e.writer.shapes.map (·.points)) = .ok [[[toy 1, 0, 0, 0]], [[toy 3, 0, 0, 0]]] := by
  decide +kernel

/-! ### C142 -/

/-- C142 fails: for a shape that is there, with a part, `TypeError` is raised, and so it is with `addr`. -/
theorem C142_part_violated {e : Editor D R} {shape part : Int} (h0 : shape ≠ 0) (hp : part ≠ 0) (h1 : -e.writer.shapes.length ≤ shape)
    (h2 : shape < e.writer.shapes.length) (x y z m : D) :
    e.pointAt x y z m (some shape) (some part) = .error .typeError ∧ e.pointAddr shape = .error .typeError := by
  have g1 : given (some part) = true := by simp [given, truthy, hp]
  have g2 : given (some shape) = true := by simp [given, truthy, h0]
  obtain ⟨s, hs⟩ := pyIndex_there h1 h2
  constructor
  · simp only [Editor.pointAt, locate, g1, g2, indexShape, Option.getD_some, hs]
    rfl
  · simp only [Editor.pointAddr, indexShape, hs]
    rfl

/-- C142, what holds: whatever address of a shape that is there is given, no shape that was there is changed: if it returns, a new point is added as without the address
(see C95 for null shapes that may follow). Missing: the update. -/
theorem C142_new_point_partial {e e' : Editor D R} {x y z m : D} {shape part : Option Int}
    (_there : ∀ i, shape = some i → -e.writer.shapes.length ≤ i ∧ i < e.writer.shapes.length) (h : e.pointAt x y z m shape part = .ok e') :
    (given shape = false ∨ given part = false) ∧ ∃ extra : List (Shape D),
      e'.writer.shapes = e.writer.shapes ++ { shapeType := e.writer.shapeType, points := [[x, y, z, m]] } :: extra ∧
        ∀ s ∈ extra, s.shapeType = some 0 ∧ s.points = [] := by
  obtain ⟨u, h1, h⟩ := Py.bind_ok.mp h
  refine ⟨?_, point_adds h⟩
  simp only [locate] at h1
  split at h1
  · simp only [indexShape, Py.bind_ok] at h1
    obtain ⟨_, _, h1⟩ := h1
    cases h1
  · rename_i hc
    cases h1' : given shape <;> simp_all

/-- An address of the second of two points: the point is added as the third. -/
example : let s (x : Toy) : Shape Toy := { shapeType := some 1, points := [[x, 0, 0, 0]] }
    (({ writer := { shapeType := some 1, shapes := [s (toy 1), s (toy 2)] }, names := [['a']], records := ([] : List Nat) } :
      Editor Toy Nat).pointAt (toy 5) 0 0 0 (some 1) none).map (fun e => e.writer.shapes.map (·.points)) =
    .ok [[[toy 1, 0, 0, 0]], [[toy 2, 0, 0, 0]], [[toy 5, 0, 0, 0]]] := by
  decide +kernel

end

end Shapefile
end Coral
