import Verif.Model.PartTypes
import Verif.Props.Shapefile

/-!
# The part types of multipatches (C126)
-/
namespace Coral
namespace Shapefile

set_option linter.unusedSectionVars false

section
variable {D : Type} [Double D]

/-- The list of parts after closing has as many parts. -/
theorem closed_length {parts rings : List (List (List D))} (h : parts.mapM closePart = .ok rings) : rings.length = parts.length := by
  rw [Py.mapM_ok] at h
  exact h.length_eq.symm

theorem polyLoop_length (parts : List (List (List D))) : (polyLoop [] [] parts).1.length = parts.length := by
  have : ∀ (parts : List (List (List D))) a b, (polyLoop a b parts).1.length = a.length + parts.length := by
    intro parts
    induction parts with
    | nil => intro a b; simp [polyLoop]
    | cons p ps ih => intro a b; simp only [polyLoop, ih, List.length_append, List.length_cons, List.length_nil]; omega
  simpa using this parts [] []

/-- What `poly(parts, MULTIPATCH)` does. -/
theorem patch_ok {p q : Patches D} {parts : List (List (List D))} {types : Option (List Int)} (h : p.poly parts 31 types = .ok q) :
    ∃ s : Shape D, s.shapeType = some 31 ∧ s.parts.map List.length = some parts.length ∧
      ((types = none ∧ q.shapes = p.shapes ++ [(s, true)] ∧ q.dflt = if p.dflt = [] then List.replicate parts.length 31 else p.dflt) ∨
       (∃ l, types = some l ∧ q.shapes = p.shapes ++ [(s, false)] ∧ q.dflt = p.dflt ∧
          s.partTypes = some (if l = [] then List.replicate parts.length 31 else l))) := by
  simp only [Patches.poly, show (31 : Int) ∈ ([5, 15, 25, 31] : List Int) by decide, if_true, Py.bind_ok] at h
  obtain ⟨rings, hr, h⟩ := h
  have hl := closed_length hr
  have hm : rings.map (fun _ => (31 : Int)) = List.replicate parts.length 31 := by rw [List.map_const', hl]
  have hp : (polyLoop ([] : List Int) [] rings).1.length = parts.length := by rw [polyLoop_length, hl]
  cases types with
  | none =>
    cases h
    exact ⟨_, rfl, by simp [hp], Or.inl ⟨rfl, rfl, by simp [hm]⟩⟩
  | some l =>
    cases h
    exact ⟨_, rfl, by simp [hp], Or.inr ⟨l, rfl, rfl, rfl, by simp [hm]⟩⟩

/-- C126, what holds: with part types given, or with an empty list as `line` does, or the very first time, a multipatch has the part types given, or
else its type once for each part. Missing: later calls without part types, see below. -/
theorem C126_part_types_partial {p q : Patches D} {parts : List (List (List D))} {types : Option (List Int)} (h : p.poly parts 31 types = .ok q)
    (hfirst : types = none → p.dflt = []) :
    ∃ s, q.current.getLast? = some s ∧ s.parts.map List.length = some parts.length ∧
      s.partTypes = some (if types.getD [] = [] then List.replicate parts.length 31 else types.getD []) := by
  obtain ⟨s, -, hp, ⟨rfl, hs, hd⟩ | ⟨l, rfl, hs, hd, ht⟩⟩ := patch_ok h
  · refine ⟨{ s with partTypes := some q.dflt }, by simp [Patches.current, hs], hp, ?_⟩
    simp [hd, hfirst rfl]
  · exact ⟨s, by simp [Patches.current, hs], hp, by simpa using ht⟩

/-- C126: `line` gives a multipatch its own part types whatever was called before, and leaves those of the other shapes alone. -/
theorem C126_line {p q : Patches D} {parts : List (List (List D))} (h : p.line parts 31 = .ok q) :
    ∃ s, q.current = p.current ++ [s] ∧ s.parts.map List.length = some parts.length ∧ s.partTypes = some (List.replicate parts.length 31) := by
  obtain ⟨s, -, hp, ⟨h, -⟩ | ⟨l, hl, hs, hd, ht⟩⟩ := patch_ok h
  · cases h
  · cases hl
    exact ⟨s, by simp [Patches.current, hs, hd], hp, by simpa using ht⟩

/-- C126 fails once the default was used: every later multipatch without part types has those of the first one, however many parts it has. -/
theorem C126_violated {p q : Patches D} {parts : List (List (List D))} (h : p.poly parts 31 none = .ok q) (hused : p.dflt ≠ [])
    (hn : parts.length ≠ p.dflt.length) :
    ∃ s ts, q.current.getLast? = some s ∧ s.parts.map List.length = some parts.length ∧ s.partTypes = some ts ∧ ts = p.dflt ∧
      ts ≠ List.replicate parts.length 31 := by
  obtain ⟨s, -, hp, ⟨-, hs, hd⟩ | ⟨l, h, -⟩⟩ := patch_ok h
  · rw [if_neg hused] at hd
    refine ⟨{ s with partTypes := some q.dflt }, q.dflt, by simp [Patches.current, hs], hp, rfl, hd, ?_⟩
    intro he
    apply hn
    rw [← hd, he, List.length_replicate]
  · cases h

/-- C126 fails the other way round as well: a multipatch without parts made first gets the part types of the next one. -/
theorem C126_violated_empty {p q r : Patches D} (hp : p.dflt = []) (h : p.poly [] 31 none = .ok q) {parts : List (List (List D))}
    (hne : parts ≠ []) (h' : q.poly parts 31 none = .ok r) :
    ∃ s, r.current[p.shapes.length]? = some s ∧ s.parts = some [] ∧ s.partTypes = some (List.replicate parts.length 31) := by
  obtain ⟨s, -, hps, ⟨-, hs, hd⟩ | ⟨l, h, -⟩⟩ := patch_ok h
  · obtain ⟨s', -, -, ⟨-, hs', hd'⟩ | ⟨l, h, -⟩⟩ := patch_ok h'
    · have hd : q.dflt = [] := by simpa [hp] using hd
      rw [hd, if_pos rfl] at hd'
      refine ⟨{ s with partTypes := some r.dflt }, ?_, ?_, by rw [hd']⟩
      · simp [Patches.current, hs', hs]
      · show s.parts = some []
        cases hsp : s.parts with
        | none => rw [hsp] at hps; cases hps
        | some l =>
          rw [hsp] at hps
          have : l.length = 0 := by simpa using hps
          rw [List.length_eq_zero_iff.mp this]
    · cases h
  · cases h

/-- A multipatch of one part, then one of two parts. -/
example : (do
    let p ← Patches.poly ({} : Patches Toy) [[[0, 0], [toy 1, 0], [0, toy 1]]] 31 none
    let q ← p.poly [[[0, 0], [toy 1, 0], [0, toy 1]], [[toy 5, 0], [toy 6, 0], [toy 5, toy 1]]] 31 none
    return q.current.map (fun s => (s.parts, s.partTypes))) =
      (.ok [(some [0], some [31]), (some [0, 4], some [31])] : Py (List (Option (List Int) × Option (List Int)))) := by decide +kernel

end

end Shapefile
end Coral
