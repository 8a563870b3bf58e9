import Verif.Proofs.Geo
import Mathlib.Algebra.Order.Field.Basic
import Mathlib.Data.Rat.Cast.Order

/-!
# Properties of `signed_area` and `__geo_interface__` (C92, C93)
-/
namespace Coral
namespace Geo

set_option linter.unusedSectionVars false

open Shapefile (Shape cut)

section
variable {K : Type} [Field K] [LinearOrder K]

/-! ### C93 -/

/-- C93: for a closed ring `signed_area` is the area by the shoelace formula. -/
theorem C93_shoelace {ring : List (K × K)} (hlen : 2 ≤ ring.length) (hc : ring.head? = ring.getLast?) :
    signedArea (ring.map flat) = .ok (lace ring / 2) := by
  match ring, hlen with
  | a :: b :: l, _ =>
    rw [signedArea_flat, threes_eq a b l a b (by rw [← hc]; rfl)]
    congr 2
    ring

/-- C93: reversing a closed ring changes the sign. -/
theorem C93_reversed {ring : List (K × K)} (hlen : 2 ≤ ring.length) (hc : ring.head? = ring.getLast?) :
    ∃ a, signedArea (ring.map flat) = .ok a ∧ signedArea (ring.reverse.map flat) = .ok (-a) := by
  refine ⟨_, C93_shoelace hlen hc, ?_⟩
  rw [C93_shoelace (by simpa using hlen) (by simpa using hc.symm), lace_reverse]
  congr 1
  ring

/-- C93: moving a closed ring does not change its area. -/
theorem C93_translated {ring : List (K × K)} (hlen : 2 ≤ ring.length) (hc : ring.head? = ring.getLast?) (dx dy : K) :
    ∃ a, signedArea (ring.map flat) = .ok a ∧ signedArea (ring.map (fun p => [p.1 + dx, p.2 + dy])) = .ok a := by
  refine ⟨_, C93_shoelace hlen hc, ?_⟩
  have e : ring.map (fun p => [p.1 + dx, p.2 + dy]) = (ring.map (fun p => (p.1 + dx, p.2 + dy))).map flat := by simp [flat]
  obtain ⟨a, l, rfl⟩ : ∃ a l, ring = a :: l := by
    cases ring with
    | nil => simp at hlen
    | cons a l => exact ⟨a, l, rfl⟩
  rw [e, C93_shoelace (by simpa using hlen) (by rw [List.head?_map, List.getLast?_map, hc]), lace_shift dx dy _ a a rfl hc.symm]
  congr 2
  ring

/-- C93: it does not matter at which vertex a closed ring starts. -/
theorem C93_rotated (u v : List (K × K)) (hne : u ++ v ≠ []) :
    ∃ a, signedArea ((close (u ++ v)).map flat) = .ok a ∧ signedArea ((close (v ++ u)).map flat) = .ok a := by
  have key : ∀ l : List (K × K), l ≠ [] → 2 ≤ (close l).length ∧ (close l).head? = (close l).getLast? := by
    intro l hl
    cases l with
    | nil => exact absurd rfl hl
    | cons a l => exact ⟨by simp [close], by simp [close, List.getLast?_cons]⟩
  obtain ⟨h1, h2⟩ := key _ hne
  obtain ⟨h3, h4⟩ := key (v ++ u) (by simpa [and_comm] using hne)
  exact ⟨_, C93_shoelace h1 h2, by rw [C93_shoelace h3 h4, lace_close_rotate]⟩

/-- A triangle. -/
example : signedArea ([(0, 0), (4, 0), (0, 2), (0, 0)].map (flat (K := ℚ))) = .ok 4 ∧
    signedArea ([(0, 0), (0, 2), (4, 0), (0, 0)].map (flat (K := ℚ))) = .ok (-4) := by
  constructor <;> decide +kernel

/-! ### C92 -/

/-- What the loop over the parts gives, for parts as they should be. -/
theorem coordinatesOf_eq {points : List (List K)} {parts : List Int} (h : Starts points.length parts) :
    coordinatesOf points parts = .ok (cut parts points) ∧ (cut parts points).flatten = points := by
  obtain ⟨h1, h2, -⟩ := h
  match parts, h1 with
  | p :: parts, h1 =>
    simp at h1
    subst h1
    have h0 : ∀ q ∈ (0 : Int) :: parts, 0 ≤ q := by
      intro q hq
      rcases List.mem_cons.mp hq with rfl | hq
      · omega
      · exact (List.pairwise_cons.mp h2).1 q hq
    exact ⟨by rw [coordinatesOf, partsLoop_cut _ _ _ h0], by rw [cut_flatten _ _ _ h2 (by omega)]; rfl⟩

/-- C92: the interface of a line is there, its lines are the parts, and flattened they are the points in order. -/
theorem C92_lines {s : Shape K} (ht : s.shapeType = some 3 ∨ s.shapeType = some 13 ∨ s.shapeType = some 23) {parts : List Int}
    (hp : s.parts = some parts) (hs : Starts s.points.length parts) :
    ∃ g, geo s = .ok g ∧ (g = .lineString s.points ∧ parts.length = 1 ∨ ∃ ls, g = .multiLineString ls ∧ parts.length ≠ 1) ∧
      (rings g).flatten = s.points ∧ rings g = cut parts s.points ∧ (rings g).length = parts.length := by
  obtain ⟨h1, h2⟩ := coordinatesOf_eq hs
  have hg : geo s = (do
    let parts ← Shapefile.attr s.parts
    if parts.length = 1 then return .lineString s.points else return .multiLineString (← coordinatesOf s.points parts)) := by
    simp only [geo]
    rcases ht with ht | ht | ht <;> simp [ht]
  rw [hg, hp]
  simp only [Shapefile.attr, Shapefile.ok_bind]
  by_cases h : parts.length = 1
  · rw [if_pos h]
    obtain ⟨p, rfl⟩ := List.length_eq_one_iff.mp h
    have : p = 0 := by simpa using hs.1
    subst this
    exact ⟨_, rfl, Or.inl ⟨rfl, rfl⟩, by simp [rings], by simp [rings, cut], rfl⟩
  · rw [if_neg h, h1]
    exact ⟨_, rfl, Or.inr ⟨_, rfl, h⟩, h2, rfl, cut_length _ _⟩

/-- C92: the same for a polygon whose interface exists; and of several polygons, all but the first start with a clockwise ring, and all their
other rings are counter-clockwise. Missing: shapes made by `Writer.poly` with several parts, see `C92_violated_writer`. -/
theorem C92_polygons_partial {s : Shape K} (ht : s.shapeType = some 5 ∨ s.shapeType = some 15 ∨ s.shapeType = some 25) {parts : List Int}
    (hp : s.parts = some parts) (hs : Starts s.points.length parts) {g : Interface K} (h : geo s = .ok g) :
    (rings g).flatten = s.points ∧ rings g = cut parts s.points ∧ (rings g).length = parts.length ∧
    ((∃ poly, g = .polygon poly) ∨ ∃ first more, g = .multiPolygon (first :: more) ∧ more ≠ [] ∧
      (∃ c cs, first = c :: cs ∧ ∀ d ∈ cs, ∃ a, signedArea d = .ok a ∧ 0 ≤ a) ∧
      ∀ poly ∈ more, ∃ c cs, poly = c :: cs ∧ (∃ a, signedArea c = .ok a ∧ a < 0) ∧ ∀ d ∈ cs, ∃ a, signedArea d = .ok a ∧ 0 ≤ a) := by
  obtain ⟨h1, h2⟩ := coordinatesOf_eq hs
  have hg : geo s = (do
    let parts ← Shapefile.attr s.parts
    if parts.length = 1 then return .polygon [s.points] else polygons (← coordinatesOf s.points parts)) := by
    simp only [geo]
    rcases ht with ht | ht | ht <;> simp [ht]
  rw [hg, hp] at h
  simp only [Shapefile.attr, Shapefile.ok_bind, h1] at h
  by_cases hl : parts.length = 1
  · rw [if_pos hl] at h
    cases h
    obtain ⟨p, rfl⟩ := List.length_eq_one_iff.mp hl
    have : p = 0 := by simpa using hs.1
    subst this
    exact ⟨by simp [rings], by simp [rings, cut], rfl, Or.inl ⟨_, rfl⟩⟩
  · rw [if_neg hl] at h
    simp only [polygons] at h
    split at h
    · cases h
    · rename_i c cs hc
      obtain ⟨polys, hpolys, h⟩ := Py.bind_ok.mp h
      obtain ⟨cs', more, rfl, k1, k2, k3⟩ := polysLoop_ok hpolys (by simp)
      have hr : rings g = c :: cs ∧ ((∃ poly, g = .polygon poly) ∨ more ≠ [] ∧ g = .multiPolygon ((c :: cs') :: more)) := by
        cases more with
        | nil =>
          cases h
          exact ⟨by simpa [rings] using k3, Or.inl ⟨_, rfl⟩⟩
        | cons m more =>
          cases h
          exact ⟨by simpa [rings] using k3, Or.inr ⟨by simp, by simp⟩⟩
      obtain ⟨hr, hr'⟩ := hr
      rw [hr, ← hc]
      refine ⟨h2, rfl, cut_length _ _, ?_⟩
      rcases hr' with hr' | ⟨hm, rfl⟩
      · exact Or.inl hr'
      · exact Or.inr ⟨_, _, rfl, hm, ⟨c, cs', rfl, k1⟩, k2⟩

/-- C92: the interface of a polygon exists if it has one part, or its rings have at least two points, with two coordinates each. -/
theorem C92_polygons_work {s : Shape K} (ht : s.shapeType = some 5 ∨ s.shapeType = some 15 ∨ s.shapeType = some 25) {parts : List Int}
    (hp : s.parts = some parts) (hs : Starts s.points.length parts)
    (hr : parts.length = 1 ∨ ∀ ring ∈ cut parts s.points, 2 ≤ ring.length ∧ ∀ p ∈ ring, p.length = 2) : ∃ g, geo s = .ok g := by
  obtain ⟨h1, h2⟩ := coordinatesOf_eq hs
  have hg : geo s = (do
    let parts ← Shapefile.attr s.parts
    if parts.length = 1 then return .polygon [s.points] else polygons (← coordinatesOf s.points parts)) := by
    simp only [geo]
    rcases ht with ht | ht | ht <;> simp [ht]
  rw [hg, hp]
  simp only [Shapefile.attr, Shapefile.ok_bind, h1]
  by_cases hl : parts.length = 1
  · rw [if_pos hl]; exact ⟨_, rfl⟩
  · rw [if_neg hl]
    have hr := hr.resolve_left hl
    have area : ∀ ring : List (List K), 2 ≤ ring.length → (∀ p ∈ ring, p.length = 2) → ∃ a, signedArea ring = .ok a := by
      intro ring h2 hp
      obtain ⟨l, rfl⟩ : ∃ l : List (K × K), ring = l.map flat := by
        clear h2
        induction ring with
        | nil => exact ⟨[], rfl⟩
        | cons p ring ih =>
          obtain ⟨l, rfl⟩ := ih (fun q hq => hp q (by simp [hq]))
          have := hp p (by simp)
          match p, this with
          | [x, y], _ => exact ⟨(x, y) :: l, rfl⟩
      match l, h2 with
      | a :: b :: l, _ => exact ⟨_, signedArea_flat a b l⟩
    match hc : cut parts s.points with
    | [] =>
      have := cut_length s.points parts
      rw [hc] at this
      match parts, hs.1 with
      | p :: ps, _ => simp at this
    | c :: cs =>
      obtain ⟨out, ho⟩ := polysLoop_of (coords := cs) (fun d hd => by
        have := hr d (by rw [hc]; simp [hd])
        exact area d this.1 this.2) [] [c]
      simp only [polygons, ho, Shapefile.ok_bind]
      split
      · exact ⟨_, rfl⟩
      · exact ⟨_, rfl⟩

/-- The polygons that `Writer.poly` makes have points with four coordinates: with more than one part there is no interface, `ValueError`. -/
theorem C92_violated_writer {s : Shape K} (ht : s.shapeType = some 5 ∨ s.shapeType = some 15 ∨ s.shapeType = some 25) {parts : List Int}
    (hp : s.parts = some parts) (hs : Starts s.points.length parts) (hl : parts.length ≠ 1) (h4 : ∀ p ∈ s.points, p.length = 4) :
    geo s = .error .valueError := by
  obtain ⟨h1, h2⟩ := coordinatesOf_eq hs
  have hg : geo s = (do
    let parts ← Shapefile.attr s.parts
    if parts.length = 1 then return .polygon [s.points] else polygons (← coordinatesOf s.points parts)) := by
    simp only [geo]
    rcases ht with ht | ht | ht <;> simp [ht]
  rw [hg, hp]
  simp only [Shapefile.attr, Shapefile.ok_bind, h1]
  rw [if_neg hl]
  have hlen := cut_length s.points parts
  match hc : cut parts s.points with
  | [] =>
    rw [hc] at hlen
    match parts, hs.1 with
    | p :: ps, _ => simp at hlen
  | [c] => rw [hc] at hlen; exact absurd hlen.symm hl
  | c :: d :: cs =>
    have hd : ∀ p ∈ d, p.length = 4 := by
      intro p hpd
      refine h4 p ?_
      rw [← h2, hc]
      exact List.mem_flatten.mpr ⟨d, by simp, hpd⟩
    have : signedArea d = .error .valueError := by
      have : xsys d = .error .valueError := by
        simp only [xsys]
        split
        · rw [if_neg]
          simp only [List.any_eq_true, decide_eq_true_eq, not_exists, not_and]
          intro p hp
          have := hd p hp
          omega
        · rfl
      simp only [signedArea, this]
      rfl
    simp only [polygons, polysLoop, this]
    rfl

/-- A square with a hole, and another square. -/
def exampleShape : Shape ℚ :=
  { shapeType := some 5, parts := some [0, 5, 9]
    points := [[0, 0], [0, 9], [9, 9], [9, 0], [0, 0], [1, 1], [2, 1], [2, 2], [1, 1], [20, 0], [20, 1], [21, 0], [20, 0]] }

example : Starts exampleShape.points.length [0, 5, 9] ∧ geo exampleShape = .ok (.multiPolygon
    [[[[0, 0], [0, 9], [9, 9], [9, 0], [0, 0]], [[1, 1], [2, 1], [2, 2], [1, 1]]], [[[20, 0], [20, 1], [21, 0], [20, 0]]]]) := by
  refine ⟨⟨by decide, by decide, by decide⟩, by decide +kernel⟩

end

end Geo
end Coral
