import Verif.Proofs.AALine
import Verif.Proofs.Line
import Verif.Proofs.Fill

/-!
# Anti-aliased lines: C109-C112
-/
set_option linter.unusedSectionVars false
namespace Coral

section
variable {K : Type} [Field K] [LinearOrder K] [FloorRing K] [IsStrictOrderedRing K]

/-! ## C109 -/

/-- C109, what holds: the line from `p` to `q` (with `flip`, in the exchanged coordinates), where it goes to the right and not steeper than the diagonal, and does
not leave the quadrant of the nonnegative coordinates in the columns of its ends. In every column between those of the ends, the two pixels
next to the line share the weight 1 by their distance from it. So they do in the columns of the ends, with other weights.
Missing: the weight in the column of the right end is not the share of that column the line covers, see `C109_share_partial` and `C109_violated`. -/
theorem C109_weights_partial (flip : Bool) (p q : K × K) (h : p.1 < q.1) (hp : 0 ≤ p.1 ∧ 0 ≤ p.2) (hq : 0 ≤ q.2)
    (hs : |q.2 - p.2| ≤ q.1 - p.1) (hf : flip = true → |q.2 - p.2| < q.1 - p.1)
    (e1 : 0 ≤ heightAt p q (columnOf p.1)) (e2 : 0 ≤ heightAt p q (columnOf q.1)) :
    aaline (pixelAt flip p.1 p.2) (pixelAt flip q.1 q.2) = .ok (
      twoPixels flip (columnOf p.1) (heightAt p q (columnOf p.1)) ((columnOf p.1 : K) + 1 / 2 - p.1) ++
      twoPixels flip (columnOf q.1) (heightAt p q (columnOf q.1)) ((columnOf q.1 : K) + 1 / 2 - q.1) ++
      (columnsBetween (columnOf p.1) (columnOf q.1)).flatMap fun x => twoPixels flip x (heightAt p q x) 1) := by
  have n1 : nearest p.1 = columnOf p.1 := nearest_nonneg hp.1
  have n2 : nearest q.1 = columnOf q.1 := nearest_nonneg (hp.1.trans h.le)
  rw [← n1] at e1
  rw [← n2] at e2
  rw [← n1, ← n2]
  cases flip with
  | false => exact (aaline_flat h hs).trans (aaDraw_eq false h hp hq e1 e2)
  | true => exact (aaline_steep h (hf rfl)).trans (aaDraw_eq true h hp hq e1 e2)

/-- C109: the weights of `C109_weights_partial`. In the column of the left end the weight is the share of the column that the line covers, also between the ends,
where it is 1. In the column of the right end it is the share which the line leaves uncovered. -/
theorem C109_share_partial (p q : K × K) (hc : columnOf p.1 < columnOf q.1) :
    (columnOf p.1 : K) + 1 / 2 - p.1 = coveredShare p.1 q.1 (columnOf p.1) ∧
    (∀ x ∈ columnsBetween (columnOf p.1) (columnOf q.1), (1 : K) = coveredShare p.1 q.1 x) ∧
    (columnOf q.1 : K) + 1 / 2 - q.1 = 1 - coveredShare p.1 q.1 (columnOf q.1) := by
  have a1 : (columnOf p.1 : K) ≤ p.1 + 1 / 2 := Int.floor_le _
  have a2 : p.1 + 1 / 2 < columnOf p.1 + 1 := Int.lt_floor_add_one _
  have b1 : (columnOf q.1 : K) ≤ q.1 + 1 / 2 := Int.floor_le _
  have b2 : q.1 + 1 / 2 < columnOf q.1 + 1 := Int.lt_floor_add_one _
  have c1 : (columnOf p.1 : K) + 1 ≤ columnOf q.1 := by exact_mod_cast hc
  refine ⟨?_, ?_, ?_⟩
  · rw [coveredShare, min_eq_right (by linarith), max_eq_left (a := p.1) (by linarith), max_eq_right (by linarith)]
  · intro x hx
    obtain ⟨h1, h2⟩ := mem_intRange.mp hx
    have h1' : (columnOf p.1 : K) + 1 ≤ x := by exact_mod_cast h1
    have h2' : (x : K) + 1 ≤ columnOf q.1 := by exact_mod_cast h2
    rw [coveredShare, min_eq_right (by linarith), max_eq_right (a := p.1) (by linarith), max_eq_right (by linarith)]
    ring
  · rw [coveredShare, min_eq_left (by linarith), max_eq_right (a := p.1) (by linarith), max_eq_right (by linarith)]
    ring

/-- C109: in the situation of `C109_weights_partial`, each alpha is between 0 and 1. -/
theorem C109_alpha_partial (flip : Bool) (p q : K × K) (h : p.1 < q.1) (hp : 0 ≤ p.1 ∧ 0 ≤ p.2) (hq : 0 ≤ q.2)
    (hs : |q.2 - p.2| ≤ q.1 - p.1) (hf : flip = true → |q.2 - p.2| < q.1 - p.1)
    (e1 : 0 ≤ heightAt p q (columnOf p.1)) (e2 : 0 ≤ heightAt p q (columnOf q.1)) :
    ∃ ws, aaline (pixelAt flip p.1 p.2) (pixelAt flip q.1 q.2) = .ok ws ∧ ∀ w ∈ ws, 0 ≤ w.2 ∧ w.2 ≤ 1 := by
  refine ⟨_, C109_weights_partial flip p q h hp hq hs hf e1 e2, ?_⟩
  have key : ∀ (c : Int) (y w : K), 0 ≤ w → w ≤ 1 → ∀ z ∈ twoPixels flip c y w, 0 ≤ z.2 ∧ z.2 ≤ 1 := by
    intro c y w h0 h1 z hz
    have b := (Int.lt_floor_add_one y).le
    obtain ⟨_, _, _, _, h, _⟩ := twoPixels_mem (lo := ⌊y⌋) (hi := ⌊y⌋ + 1) ⟨Int.floor_le y, by push_cast; exact b⟩ ⟨h0, h1⟩ hz
    exact h
  have cb : ∀ x : K, 0 ≤ (columnOf x : K) + 1 / 2 - x ∧ (columnOf x : K) + 1 / 2 - x ≤ 1 := by
    intro x
    have a1 : (columnOf x : K) ≤ x + 1 / 2 := Int.floor_le _
    have a2 : x + 1 / 2 < columnOf x + 1 := Int.lt_floor_add_one _
    constructor <;> linarith
  intro w hw
  simp only [List.mem_append, List.mem_flatMap] at hw
  rcases hw with (hw | hw) | ⟨c, _, hw⟩
  · exact key _ _ _ (cb _).1 (cb _).2 _ hw
  · exact key _ _ _ (cb _).1 (cb _).2 _ hw
  · exact key _ _ _ zero_le_one le_rfl _ hw

/-- C109 is false: the line from (0, 0) to (2.75, 0) covers a quarter of column 3, but this gets the weight 3/4. -/
theorem C109_violated :
    aaline ((0 : ℚ), (0 : ℚ)) (11 / 4, 0) = .ok [((0, 0), 1 / 2), ((0, 1), 0), ((3, 0), 3 / 4), ((3, 1), 0), ((1, 0), 1), ((1, 1), 0), ((2, 0), 1), ((2, 1), 0)] ∧
    coveredShare (0 : ℚ) (11 / 4) 3 = 1 / 4 := by
  decide +kernel

/-- A case of `C109_weights_partial`. -/
example : aaline ((1 : ℚ), (1 : ℚ)) (5, 3) = .ok [((1, 1), 1 / 2), ((1, 2), 0), ((5, 3), 1 / 2), ((5, 4), 0), ((2, 1), 1 / 2), ((2, 2), 1 / 2), ((3, 2), 1), ((3, 3), 0),
    ((4, 2), 1 / 2), ((4, 3), 1 / 2)] := by decide +kernel

example : ((1 : ℚ), (1 : ℚ)).1 < ((5 : ℚ), (3 : ℚ)).1 ∧ |(3 : ℚ) - 1| ≤ 5 - 1 ∧ 0 ≤ heightAt ((1 : ℚ), (1 : ℚ)) (5, 3) (columnOf (1 : ℚ)) ∧
    0 ≤ heightAt ((1 : ℚ), (1 : ℚ)) (5, 3) (columnOf (5 : ℚ)) ∧ columnOf (1 : ℚ) < columnOf (5 : ℚ) := by decide +kernel

/-! ## C110 -/

/-- C110: the order of the ends does not matter: the same assignments are made, in the same order. -/
theorem C110_symmetric (a b : K × K) : aaline a b = aaline b a := aaline_comm a b

/-- C110: `aaline` itself raises just if the ends coincide, and then it is a ZeroDivisionError. -/
theorem C110_raises (a b : K × K) : (∃ e, aaline a b = .error e) ↔ a = b := aaline_raises

theorem C110_error (a : K × K) : aaline a a = .error .zeroDivisionError := by
  simp only [aaline]
  rw [if_neg (lt_irrefl _), aaDraw, if_pos (sub_self _)]

/-! ## C111 -/

/-- C111, gray canvas, what holds: a line between two different pixels of which none is in the last row, or, for lines higher than wide, none is the last pixel of all. Each pixel of the
canvas is mixed with the colour (given as a tuple) once, by its weight in the line. Missing: all other lines, see `C111_gray_violated`. -/
theorem C111_gray_partial (c : Gray) (hc : c.WF) (a b : Int × Int) (hne : a ≠ b) (hab : LineFits c.width c.height a b)
    (fg : K) (hfg : 0 ≤ fg ∧ fg ≤ 255) :
    ∃ c', c.aaline (ptOf a : K × K) (ptOf b) (.tuple fg) = .ok c' ∧
      ∀ x y, OnCanvas c.width c.height x y → ∃ v, c.get x y = .ok v ∧ c'.get x y = .ok (Mix (v : K) fg (lineWeight a b x y)).toNat := by
  obtain ⟨c', h1, _, _, _, h5⟩ := gray_aaline hc hne hab hfg
  refine ⟨c', h1, fun x y hxy => ?_⟩
  obtain ⟨i, j, rfl, rfl, hx, hy⟩ := onCanvas_nat hxy
  exact ⟨_, gray_get hc hx hy, h5 _ _ _ hxy (gray_get hc hx hy)⟩

/-- C111, colour canvas. -/
theorem C111_colour_partial (c : Colour) (hc : c.WF) (a b : Int × Int) (hne : a ≠ b) (hab : LineFits c.width c.height a b)
    (r g bl : K) (hr : 0 ≤ r ∧ r ≤ 255) (hg : 0 ≤ g ∧ g ≤ 255) (hbl : 0 ≤ bl ∧ bl ≤ 255) :
    ∃ c', c.aaline (ptOf a : K × K) (ptOf b) (r, g, bl) = .ok c' ∧
      ∀ x y, OnCanvas c.width c.height x y → ∃ v, c.get x y = .ok v ∧ c'.get x y = .ok ((Mix (v.1 : K) r (lineWeight a b x y)).toNat,
        (Mix (v.2.1 : K) g (lineWeight a b x y)).toNat, (Mix (v.2.2 : K) bl (lineWeight a b x y)).toNat) := by
  obtain ⟨c', h1, _, _, _, h5⟩ := colour_aaline hc hne hab hr hg hbl
  refine ⟨c', h1, fun x y hxy => ?_⟩
  obtain ⟨i, j, rfl, rfl, hx, hy⟩ := onCanvas_nat hxy
  exact ⟨_, colour_get hc hx hy, h5 _ _ _ hxy (colour_get hc hx hy)⟩

/-- C111 is false for every line that does not fit: it raises, on every gray canvas and in every colour. -/
theorem C111_gray_violated (c : Gray) (hc : c.WF) (a b : Int × Int) (hne : a ≠ b) (ha : OnCanvas c.width c.height a.1 a.2) (hb : OnCanvas c.width c.height b.1 b.2)
    (hab : ¬ LineFits c.width c.height a b) (ink : GrayInk K) : ∃ e, c.aaline (ptOf a : K × K) (ptOf b) ink = .error e :=
  gray_aaline_raises hc.len hne ha hb hab ink

/-- C111 is false for every line that does not fit, on colour canvases. -/
theorem C111_colour_violated (c : Colour) (hc : c.WF) (a b : Int × Int) (hne : a ≠ b) (ha : OnCanvas c.width c.height a.1 a.2) (hb : OnCanvas c.width c.height b.1 b.2)
    (hab : ¬ LineFits c.width c.height a b) (color : K × K × K) : ∃ e, c.aaline (ptOf a : K × K) (ptOf b) color = .error e :=
  colour_aaline_raises hc.len hne ha hb hab color

/-- C111 is false for the last row: a line from (0, 1) to (2, 1) on a canvas of 3 × 2 pixels raises. -/
theorem C111_violated :
    (Gray.mk 3 2 (List.replicate 6 0)).aaline ((0 : ℚ), (1 : ℚ)) (2, 1) (.tuple 200) = .error .indexError ∧
    (Colour.mk 3 2 (List.replicate 18 0)).aaline ((0 : ℚ), (1 : ℚ)) (2, 1) (200, 100, 0) = .error .valueError := by
  decide +kernel

/-- A case of `C111_gray_partial`. -/
example : (Gray.mk 5 3 (List.replicate 15 0)).aaline ((0 : ℚ), (0 : ℚ)) (3, 1) (.tuple 240) = .ok ⟨5, 3, [120, 160, 80, 0, 0, 0, 80, 160, 120, 0, 0, 0, 0, 0, 0]⟩ ∧
    LineFits 5 3 (0, 0) (3, 1) := by
  decide +kernel

/-- A line in the last column, and one on the whole diagonal of a square. -/
example : (Gray.mk 2 3 (List.replicate 6 0)).aaline ((1 : ℚ), (0 : ℚ)) (1, 1) (.tuple 240) = .ok ⟨2, 3, [0, 120, 0, 120, 0, 0]⟩ ∧ LineFits 2 3 (1, 0) (1, 1) ∧
    ¬ LineFits 3 3 (0, 0) (2, 2) := by
  decide +kernel

/-! ## C112 -/

theorem closedEdges_map {α β : Type} (f : α → β) (l : List α) : closedEdges (l.map f) = (closedEdges l).map (Prod.map f f) := by
  rw [closedEdges, closedEdges, ← List.map_drop, ← List.map_take, ← List.map_append, List.zip_map]

/-- C112, gray canvas, what holds: the outline of a polygon of which no vertex is repeated at once (or at the end), and all sides fit (C111), in a colour given as a
tuple. Each pixel is mixed with the colour once for every side, by its weight in this side. Missing: see `C112_number_violated`, `C112_closed_violated`, `C112_fits_violated`. -/
theorem C112_gray_partial (c : Gray) (hc : c.WF) (points : List (Int × Int)) (hne : ∀ a b, IsSide points a b → a ≠ b ∧ LineFits c.width c.height a b) (fg : K) (hfg : 0 ≤ fg ∧ fg ≤ 255) :
    ∃ c', c.strokeAA (points.map (ptOf (K := K))) (.tuple fg) = .ok c' ∧
      ∀ x y, OnCanvas c.width c.height x y → ∃ v, c.get x y = .ok v ∧
        c'.get x y = .ok ((sidesOf points).foldl (fun (v : Nat) s => (Mix (v : K) fg (lineWeight s.1 s.2 x y)).toNat) v) := by
  obtain ⟨c', h1, _, _, h4⟩ := gray_aalines (K := K) hc (closedEdges points) (by
    rintro ⟨a, b⟩ he
    have hab := mem_closedEdges.mp he
    exact hne a b hab) hfg
  rw [← closedEdges_eq]
  refine ⟨c', ?_, fun x y hxy => ?_⟩
  · rw [Gray.strokeAA, closedEdges_map, List.foldlM_map]
    exact h1
  · obtain ⟨i, j, rfl, rfl, hx, hy⟩ := onCanvas_nat hxy
    exact ⟨_, gray_get hc hx hy, h4 _ _ _ hxy (gray_get hc hx hy)⟩

/-- C112, colour canvas. -/
theorem C112_colour_partial (c : Colour) (hc : c.WF) (points : List (Int × Int)) (hne : ∀ a b, IsSide points a b → a ≠ b ∧ LineFits c.width c.height a b) (r g bl : K) (hr : 0 ≤ r ∧ r ≤ 255) (hg : 0 ≤ g ∧ g ≤ 255) (hbl : 0 ≤ bl ∧ bl ≤ 255) :
    ∃ c', c.strokeAA (points.map (ptOf (K := K))) (r, g, bl) = .ok c' ∧
      ∀ x y, OnCanvas c.width c.height x y → ∃ v, c.get x y = .ok v ∧
        c'.get x y = .ok ((sidesOf points).foldl (fun (v : Nat × Nat × Nat) s => ((Mix (v.1 : K) r (lineWeight s.1 s.2 x y)).toNat,
          (Mix (v.2.1 : K) g (lineWeight s.1 s.2 x y)).toNat, (Mix (v.2.2 : K) bl (lineWeight s.1 s.2 x y)).toNat)) v) := by
  obtain ⟨c', h1, _, _, h4⟩ := colour_aalines (K := K) hc (closedEdges points) (by
    rintro ⟨a, b⟩ he
    have hab := mem_closedEdges.mp he
    exact hne a b hab) hr hg hbl
  rw [← closedEdges_eq]
  refine ⟨c', ?_, fun x y hxy => ?_⟩
  · rw [Colour.strokeAA, closedEdges_map, List.foldlM_map]
    exact h1
  · obtain ⟨i, j, rfl, rfl, hx, hy⟩ := onCanvas_nat hxy
    exact ⟨_, colour_get hc hx hy, h4 _ _ _ hxy (colour_get hc hx hy)⟩

/-- C112 is false for a colour given as a number, as `bgcolor` and the fill colour of a gray canvas are: any polygon raises. -/
theorem C112_number_violated (c : Gray) (points : List (K × K)) (hp : points ≠ []) (v : Int) : ∃ e, c.strokeAA points (.num v) = .error e := by
  cases points with
  | nil => exact absurd rfl hp
  | cons p ps =>
    have hz : ∃ q es, closedEdges (p :: ps) = (p, q) :: es := by
      cases ps with
      | nil => exact ⟨p, [], rfl⟩
      | cons q ps => exact ⟨q, _, rfl⟩
    obtain ⟨q, es, he⟩ := hz
    rw [Gray.strokeAA, he, List.foldlM_cons, Gray.aaline]
    cases Coral.aaline p q with
    | error e => exact ⟨e, rfl⟩
    | ok ws => exact ⟨_, rfl⟩

/-- If a step always raises, so does the loop. -/
theorem foldlM_raises {α σ : Type} (f : σ → α → Py σ) (l : List α) (a : α) (ha : a ∈ l) (h : ∀ s, ∃ e, f s a = .error e) (s : σ) : ∃ e, l.foldlM f s = .error e := by
  induction l generalizing s with
  | nil => exact absurd ha List.not_mem_nil
  | cons b l ih =>
    rw [List.foldlM_cons]
    rcases List.mem_cons.mp ha with rfl | ha
    · obtain ⟨e, he⟩ := h s
      exact ⟨e, by rw [he]; rfl⟩
    · cases hb : f s b with
      | error e => exact ⟨e, rfl⟩
      | ok s' => exact ih ha s'

/-- C112 is false for a polygon with a vertex repeated at once, such as one of which the last vertex is again the first, as in a shapefile ring: it raises, for every canvas and
colour. -/
theorem C112_closed_violated (points : List (K × K)) (a : K × K)
    (ha : (∃ i, points[i]? = some a ∧ points[i + 1]? = some a) ∨ (points.getLast? = some a ∧ points.head? = some a)) :
    (∀ (c : Gray) ink, ∃ e, c.strokeAA points ink = .error e) ∧ ∀ (c : Colour) color, ∃ e, c.strokeAA points color = .error e := by
  have hm : (a, a) ∈ closedEdges points := mem_closedEdges.mpr ha
  constructor
  · intro c ink
    refine foldlM_raises _ _ _ hm (fun s => ⟨.zeroDivisionError, ?_⟩) c
    simp only [Gray.aaline, C110_error]
    rfl
  · intro c color
    refine foldlM_raises _ _ _ hm (fun s => ⟨.zeroDivisionError, ?_⟩) c
    simp only [Colour.aaline, C110_error]
    rfl

/-- C112 is false for a polygon with a side on the canvas that does not fit: it raises, in every colour. -/
theorem C112_fits_violated (points : List (Int × Int)) (a b : Int × Int) (hs : IsSide points a b) (hne : a ≠ b) :
    (∀ c : Gray, c.WF → OnCanvas c.width c.height a.1 a.2 → OnCanvas c.width c.height b.1 b.2 → ¬ LineFits c.width c.height a b →
      ∀ ink : GrayInk K, ∃ e, c.strokeAA (points.map (ptOf (K := K))) ink = .error e) ∧
    (∀ c : Colour, c.WF → OnCanvas c.width c.height a.1 a.2 → OnCanvas c.width c.height b.1 b.2 → ¬ LineFits c.width c.height a b →
      ∀ color : K × K × K, ∃ e, c.strokeAA (points.map (ptOf (K := K))) color = .error e) := by
  have hm := mem_closedEdges.mpr hs
  constructor
  · intro c hc ha hb hab ink
    rw [Gray.strokeAA, closedEdges_map, List.foldlM_map]
    refine foldlM_raises_inv _ (fun s : Gray => s.width = c.width ∧ s.height = c.height ∧ s.data.length = c.data.length) _ _ hm ?_ ?_ c ⟨rfl, rfl, rfl⟩
    · intro s e s' hs _ h
      have := gray_aaline_length h
      exact ⟨this.1.trans hs.1, this.2.1.trans hs.2.1, this.2.2.trans hs.2.2⟩
    · intro s hs
      exact gray_aaline_raises (by rw [hs.1, hs.2.1, hs.2.2, hc.len]) hne (by rw [hs.1, hs.2.1]; exact ha) (by rw [hs.1, hs.2.1]; exact hb) (by rw [hs.1, hs.2.1]; exact hab) ink
  · intro c hc ha hb hab color
    rw [Colour.strokeAA, closedEdges_map, List.foldlM_map]
    refine foldlM_raises_inv _ (fun s : Colour => s.width = c.width ∧ s.height = c.height ∧ s.data.length = c.data.length) _ _ hm ?_ ?_ c ⟨rfl, rfl, rfl⟩
    · intro s e s' hs _ h
      have := colour_aaline_length h
      exact ⟨this.1.trans hs.1, this.2.1.trans hs.2.1, this.2.2.trans hs.2.2⟩
    · intro s hs
      exact colour_aaline_raises (by rw [hs.1, hs.2.1, hs.2.2, hc.len]) hne (by rw [hs.1, hs.2.1]; exact ha) (by rw [hs.1, hs.2.1]; exact hb) (by rw [hs.1, hs.2.1]; exact hab) color

/-- A case of `C112_gray_partial`. -/
example : (Gray.mk 4 4 (List.replicate 16 0)).strokeAA [((0 : ℚ), (0 : ℚ)), (2, 0), (2, 2)] (.tuple 200) =
    .ok ⟨4, 4, [150, 200, 150, 0, 0, 200, 200, 0, 0, 0, 150, 0, 0, 0, 0, 0]⟩ := by decide +kernel

end
end Coral
