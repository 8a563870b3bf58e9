import Verif.Proofs.Raster
import Verif.Proofs.Line
import Verif.Proofs.Fill

/-!
# Raster: C45-C52
-/
set_option linter.unusedSectionVars false
namespace Coral
open scoped List

/-! ## C45 -/

/-- C45: after any history of in-range assignments to a new canvas (of any size and with any background byte), every
pixel reads as `int(bool(v))` for the last value `v` assigned to it, or as at the start if there was none. -/
theorem C45_bw_history (w h : Nat) (bg : Int) (c : BW) (hc : BW.init w h bg = .ok c) (ws : List ((Int × Int) × Bool))
    (hws : ∀ a ∈ ws, OnCanvas w h a.1.1 a.1.2) :
    ∃ c', c.writes ws = .ok c' ∧ ∀ x y, OnCanvas w h x y →
      ∃ v0, c.get x y = .ok v0 ∧
        c'.get x y = .ok (lastWritten v0 (ws.map (fun a => (a.1, if a.2 then 1 else 0))) (x, y)) := by
  obtain ⟨hwf, rfl, rfl, _⟩ := bw_init hc
  obtain ⟨c', h1, _, _, _, hr⟩ := bw_writes hwf ws hws
  refine ⟨c', h1, fun x y hxy => ?_⟩
  obtain ⟨a, b, rfl, rfl, hx, hy⟩ := onCanvas_nat hxy
  refine ⟨_, bw_get hwf hx hy, ?_⟩
  rw [hr _ _ _ hxy (bw_get hwf hx hy), lastWritten_eq]
  congr 1
  exact cellAfter_map _ _ (fun b : Bool => if b then 1 else 0) (by intro _ b; cases b <;> rfl) _ _ _

/-- C45: one assignment, on a canvas reached by any history, changes that pixel only. -/
theorem C45_bw_write (w h : Nat) (bg : Int) (c c1 : BW) (hc : BW.init w h bg = .ok c) (ws : List ((Int × Int) × Bool))
    (hws : ∀ a ∈ ws, OnCanvas w h a.1.1 a.1.2) (h1 : c.writes ws = .ok c1) (x y : Int) (hxy : OnCanvas w h x y) (v : Bool) :
    ∃ c2, c1.set x y v = .ok c2 ∧ c2.get x y = .ok (if v then 1 else 0) ∧
      ∀ x' y', OnCanvas w h x' y' → (x', y') ≠ (x, y) → c2.get x' y' = c1.get x' y' := by
  obtain ⟨hwf, rfl, rfl, _⟩ := bw_init hc
  obtain ⟨c', h1', hwf', e1, e2, _⟩ := bw_writes hwf ws hws
  rw [h1] at h1'
  injection h1' with h1'
  subst h1'
  rw [← e1, ← e2] at hxy ⊢
  obtain ⟨c2, h2, _, _, _, h3, h4⟩ := bw_set_spec hwf' hxy v
  refine ⟨c2, h2, ?_, h4⟩
  rw [h3]
  cases v <;> rfl

/-- Not vacuous: eleven columns, two rows, five assignments (one of them overwritten) in two shared bytes. -/
example :
    (do
      let c ← BW.init 11 2 0
      let c ← c.writes [((0, 0), true), ((7, 0), true), ((8, 0), true), ((7, 0), false), ((10, 1), true)]
      return (c.data, ← c.get 0 0, ← c.get 7 0, ← c.get 8 0, ← c.get 10 1, ← c.get 9 1) : Py _) =
    .ok ([0x80, 0x80, 0, 0x20], 1, 0, 1, 1, 0) := by decide +kernel

/-! ## C46 -/

section
variable {K : Type} [Field K] [LinearOrder K] [IsStrictOrderedRing K] [FloorRing K]

/-- C46, gray: after any history of in-range writes, opaque or with alpha, every pixel is what its own writes, in order,
make of the background; the amount of data never changes. -/
theorem C46_gray_history (w h : Nat) (bg : Int) (c : Gray) (hc : Gray.init w h bg = .ok c)
    (ws : List ((Int × Int) × GrayVal K)) (hws : ∀ a ∈ ws, OnCanvas w h a.1.1 a.1.2 ∧ a.2.Valid) :
    ∃ c', c.writes ws = .ok c' ∧ c'.data.length = w * h ∧ ∀ x y, OnCanvas w h x y →
      ∃ v0 : Nat, v0 = bg ∧ c.get x y = .ok v0 ∧ c'.get x y = .ok (cellAfter GrayVal.over v0 ws (x, y)) := by
  obtain ⟨hwf, rfl, rfl, _⟩ := gray_init hc
  obtain ⟨c', h1, hwf', e1, e2, hr⟩ := gray_writes hwf ws hws
  refine ⟨c', h1, ?_, fun x y hxy => ?_⟩
  · rw [hwf'.len, e1, e2]
  · obtain ⟨a, b, rfl, rfl, hx, hy⟩ := onCanvas_nat hxy
    obtain ⟨v, hv, he⟩ := gray_init_get hc hx hy
    exact ⟨v, he, hv, hr _ _ _ hxy hv⟩

/-- C46, gray, opaque writes only: every pixel reads as the last value written to it. -/
theorem C46_gray_opaque (w h : Nat) (bg : Int) (c : Gray) (hc : Gray.init w h bg = .ok c)
    (ws : List ((Int × Int) × Nat)) (hws : ∀ a ∈ ws, OnCanvas w h a.1.1 a.1.2 ∧ a.2 ≤ 255) :
    ∃ c', c.writes (ws.map (fun a => (a.1, GrayVal.v (K := K) a.2))) = .ok c' ∧ ∀ x y, OnCanvas w h x y →
      ∃ v0 : Nat, v0 = bg ∧ c'.get x y = .ok (lastWritten v0 ws (x, y)) := by
  obtain ⟨c', h1, _, h2⟩ := C46_gray_history w h bg c hc (ws.map (fun a => (a.1, GrayVal.v (K := K) a.2))) (by
    intro a ha
    simp only [List.mem_map] at ha
    obtain ⟨b, hb, rfl⟩ := ha
    have := hws b hb
    exact ⟨this.1, by simp only [GrayVal.Valid]; omega⟩)
  refine ⟨c', h1, fun x y hxy => ?_⟩
  obtain ⟨v0, e, _, hg⟩ := h2 x y hxy
  refine ⟨v0, e, ?_⟩
  rw [hg, lastWritten_eq]
  congr 1
  symm
  exact cellAfter_map _ _ (fun n : Nat => GrayVal.v (K := K) n) (by intro _ n; simp [GrayVal.over]) _ _ _

/-- C46, colour: as `C46_gray_history`. -/
theorem C46_colour_history (w h : Nat) (r g b : Int) (hr : 0 ≤ r ∧ r ≤ 255) (hg : 0 ≤ g ∧ g ≤ 255) (hb : 0 ≤ b ∧ b ≤ 255)
    (ws : List ((Int × Int) × ColourVal K)) (hws : ∀ a ∈ ws, OnCanvas w h a.1.1 a.1.2 ∧ a.2.Valid) :
    ∃ c c', Colour.init w h [r, g, b] = .ok c ∧ c.writes ws = .ok c' ∧ c'.data.length = 3 * (w * h) ∧
      ∀ x y, OnCanvas w h x y →
        c'.get x y = .ok (cellAfter ColourVal.over (r.toNat, g.toNat, b.toNat) ws (x, y)) := by
  have hr' : 0 ≤ r ∧ r < 256 := by omega
  have hg' : 0 ≤ g ∧ g < 256 := by omega
  have hb' : 0 ≤ b ∧ b < 256 := by omega
  obtain ⟨c', h1, hwf', e1, e2, hrd⟩ := colour_writes (colour_init3_wf (w := w) (h := h) hr' hg' hb') ws hws
  refine ⟨_, c', colour_init3 hr' hg' hb', h1, ?_, fun x y hxy => ?_⟩
  · rw [hwf'.len, e1, e2]
  · refine hrd _ _ _ hxy ?_
    obtain ⟨a, b, rfl, rfl, hx, hy⟩ := onCanvas_nat hxy
    exact colour_init3_get hr' hg' hb' hx hy

/-- C46, colour, opaque writes only. -/
theorem C46_colour_opaque (w h : Nat) (r g b : Int) (hr : 0 ≤ r ∧ r ≤ 255) (hg : 0 ≤ g ∧ g ≤ 255) (hb : 0 ≤ b ∧ b ≤ 255)
    (ws : List ((Int × Int) × (Nat × Nat × Nat)))
    (hws : ∀ a ∈ ws, OnCanvas w h a.1.1 a.1.2 ∧ a.2.1 ≤ 255 ∧ a.2.2.1 ≤ 255 ∧ a.2.2.2 ≤ 255) :
    ∃ c c', Colour.init w h [r, g, b] = .ok c ∧
      c.writes (ws.map (fun a => (a.1, ColourVal.plain (K := K) [(a.2.1 : Int), a.2.2.1, a.2.2.2]))) = .ok c' ∧
      ∀ x y, OnCanvas w h x y → c'.get x y = .ok (lastWritten (r.toNat, g.toNat, b.toNat) ws (x, y)) := by
  obtain ⟨c, c', h0, h1, _, h2⟩ := C46_colour_history w h r g b hr hg hb
    (ws.map (fun a => (a.1, ColourVal.plain (K := K) [(a.2.1 : Int), a.2.2.1, a.2.2.2]))) (by
    intro a ha
    simp only [List.mem_map] at ha
    obtain ⟨b, hb, rfl⟩ := ha
    have := hws b hb
    refine ⟨this.1, rfl, ?_⟩
    intro v hv
    simp only [List.mem_cons, List.not_mem_nil, or_false] at hv
    omega)
  refine ⟨c, c', h0, h1, fun x y hxy => ?_⟩
  rw [h2 x y hxy, lastWritten_eq]
  congr 1
  symm
  exact cellAfter_map _ _ (fun n : Nat × Nat × Nat => ColourVal.plain (K := K) [(n.1 : Int), n.2.1, n.2.2])
    (by intro _ n; simp [ColourVal.over]) _ _ _

/-! ## C47 -/

/-- C47: blending two bytes with alpha from 0 to 1 gives an integer between them, at most half away from the exact mix. -/
theorem C47_blend_between (bg fg : Nat) (a : K) (ha : 0 ≤ a) (ha1 : a ≤ 1) :
    (min bg fg : Int) ≤ blend (bg : K) fg a ∧ blend (bg : K) fg a ≤ (max bg fg : Int) ∧
      |(blend (bg : K) fg a : K) - ((1 - a) * bg + a * fg)| ≤ 1 / 2 := by
  rw [blend_eq_mix (by positivity) (by positivity) ha ha1]
  have hm : ((min bg fg : Int) : K) = min (bg : K) fg := by push_cast; rfl
  have hM : ((max bg fg : Int) : K) = max (bg : K) fg := by push_cast; rfl
  obtain ⟨h1, h2⟩ := mix_bounds (bg := (bg : K)) (fg := (fg : K)) ha ha1 (lo := (min bg fg : Int)) (hi := (max bg fg : Int))
    (by rw [hm]; exact min_le_left _ _) (by rw [hM]; exact le_max_left _ _) (by rw [hm]; exact min_le_right _ _)
    (by rw [hM]; exact le_max_right _ _)
  refine ⟨h1, h2, ?_⟩
  unfold Mix
  have f1 := Int.floor_le ((bg : K) + ((fg : K) - bg) * a + 1 / 2)
  have f2 := Int.lt_floor_add_one ((bg : K) + ((fg : K) - bg) * a + 1 / 2)
  rw [abs_le]
  constructor <;> linarith

/-- C47: no alpha keeps the background, full alpha gives the foreground. -/
theorem C47_blend_ends (bg fg : Nat) : blend (bg : K) fg 0 = bg ∧ blend (bg : K) fg 1 = fg := by
  have key : ∀ n : Nat, ⌊(n : K) + 1 / 2⌋ = n := by
    intro n
    rw [Int.floor_eq_iff]
    push_cast
    constructor <;> linarith
  constructor
  · rw [blend_eq_mix (by positivity) (by positivity) le_rfl zero_le_one]
    simp only [Mix, mul_zero, add_zero, key]
  · rw [blend_eq_mix (by positivity) (by positivity) zero_le_one le_rfl]
    have : (bg : K) + ((fg : K) - bg) * 1 + 1 / 2 = fg + 1 / 2 := by ring
    simp only [Mix, this, key]

/-- C47: more alpha moves the result towards the foreground, never away. -/
theorem C47_blend_monotone (bg fg : Nat) (a a' : K) (ha : 0 ≤ a) (haa : a ≤ a') (ha1 : a' ≤ 1) :
    (bg ≤ fg → blend (bg : K) fg a ≤ blend (bg : K) fg a') ∧ (fg ≤ bg → blend (bg : K) fg a' ≤ blend (bg : K) fg a) := by
  rw [blend_eq_mix (by positivity) (by positivity) ha (le_trans haa ha1),
    blend_eq_mix (by positivity) (by positivity) (le_trans ha haa) ha1]
  unfold Mix
  constructor
  · intro h
    have h' : (bg : K) ≤ fg := by exact_mod_cast h
    apply Int.floor_le_floor
    have := mul_le_mul_of_nonneg_left haa (sub_nonneg.mpr h')
    linarith
  · intro h
    have h' : (fg : K) ≤ bg := by exact_mod_cast h
    apply Int.floor_le_floor
    have := mul_le_mul_of_nonneg_left haa (sub_nonneg.mpr h')
    linarith

end

/-- Not vacuous: overlapping opaque and translucent writes. -/
example :
    (do
      let c ← Gray.init 3 2 255
      let c ← c.writes (K := ℚ) [((2, 1), .v 10), ((0, 0), .va 0 (1/4)), ((2, 1), .va 20 (1/2))]
      return c.data : Py _) = .ok [191, 255, 255, 255, 255, 15] := by decide +kernel

example :
    (do
      let c ← Colour.init 2 2 [1, 2, 3]
      let c ← c.writes (K := ℚ) [((1, 0), .plain [9, 8, 7]), ((0, 1), .rgba 255 0 3 (1/2)), ((1, 0), .plain [4, 5, 6])]
      return c.data : Py _) = .ok [1, 2, 3, 4, 5, 6, 128, 1, 3, 1, 2, 3] := by decide +kernel

/-! ## C48 -/

/-- C48: for all end points, `line` terminates with one possible sequence of pixels. It starts at `start`, ends at `stop`,
goes from neighbour to neighbour never moving away from the end, has exactly `max(|dx|, |dy|) + 1` pixels, all different,
and all within half a pixel of the ideal segment. -/
theorem C48_line (start stop : Int × Int) :
    ∃ pixels, (∀ ps, LineDraws start stop ps ↔ ps = pixels) ∧
      pixels.head? = some start ∧ pixels.getLast? = some stop ∧ WalksTo stop pixels ∧
      (pixels.length : Int) = max |stop.1 - start.1| |stop.2 - start.2| + 1 ∧ pixels.Nodup ∧
      ∀ p ∈ pixels, NearSegment start stop p := by
  obtain ⟨pixels, h, rest⟩ := line_spec start stop
  exact ⟨pixels, fun ps => ⟨fun h' => lineDraws_det h' h, fun e => e ▸ h⟩, rest⟩

/-- A concrete run. -/
example : LineDraws (2, 5) (-2, 4) [(2, 5), (1, 5), (0, 5), (-1, 4), (-2, 4)] := by
  refine Loop.step (o := [(2, 5)]) (s' := (1, 5, 2)) (by decide) ?_
  refine Loop.step (o := [(1, 5)]) (s' := (0, 5, 1)) (by decide) ?_
  refine Loop.step (o := [(0, 5)]) (s' := (-1, 4, 4)) (by decide) ?_
  exact Loop.brk (by decide)

/-! ## C49 -/

/-- The pixel `(x, y)` is on the outline: on the line of some side. -/
def OnOutline (points : List (Int × Int)) (x y : Int) : Prop :=
  ∃ a b ps, IsSide points a b ∧ LineDraws a b ps ∧ (x, y) ∈ ps

/-- Vertices on the canvas put the whole outline on it. -/
theorem stroke_onCanvas {w h : Nat} {points : List (Int × Int)} (hp : ∀ p ∈ points, OnCanvas w h p.1 p.2)
    {ps : List (Int × Int)} (hs : StrokeDraws (closedEdges points) ps) : ∀ p ∈ ps, OnCanvas w h p.1 p.2 := by
  intro p hpp
  rw [stroke_mem hs] at hpp
  obtain ⟨⟨a, b⟩, he, qs, hl, hq⟩ := hpp
  obtain ⟨qs', hl', _, _, _, _, _, hn⟩ := line_spec a b
  rw [lineDraws_det hl hl'] at hq
  obtain ⟨n1, n2, n3, n4, _⟩ := hn p hq
  have ha := hp a (List.of_mem_zip he).1
  have hb := hp b (by
    have := (List.of_mem_zip he).2
    simp only [List.mem_append] at this
    rcases this with h | h
    · exact List.mem_of_mem_drop h
    · exact List.mem_of_mem_take h)
  obtain ⟨a1, a2, a3, a4⟩ := ha
  obtain ⟨b1, b2, b3, b4⟩ := hb
  refine ⟨le_trans (le_min a1 b1) n1, lt_of_le_of_lt n2 (max_lt a2 b2), le_trans (le_min a3 b3) n3, lt_of_le_of_lt n4 (max_lt a4 b4)⟩

theorem stroke_outline {points ps : List (Int × Int)} (hs : StrokeDraws (closedEdges points) ps) (x y : Int) :
    (x, y) ∈ ps ↔ OnOutline points x y := by
  rw [stroke_mem hs]
  constructor
  · rintro ⟨⟨a, b⟩, he, qs, hl, hq⟩
    exact ⟨a, b, qs, mem_closedEdges.mp he, hl, hq⟩
  · rintro ⟨a, b, qs, hside, hl, hq⟩
    exact ⟨(a, b), mem_closedEdges.mpr hside, qs, hl, hq⟩

open Classical in
/-- C49, black and white: stroking a polygon with its vertices on the canvas gives the colour to the pixels of the lines
joining each vertex to the next and the last to the first, and to no other. The canvas is any whose data has the right
size; by `C49_reachable` these include all canvases made by the constructors and any in-range writes. -/
theorem C49_stroke_bw (c : BW) (hc : c.WF) (points : List (Int × Int))
    (hp : ∀ p ∈ points, OnCanvas c.width c.height p.1 p.2) (v : Bool) :
    ∃ pixels c', StrokeDraws (closedEdges points) pixels ∧ c.writes (pixels.map (fun p => (p, v))) = .ok c' ∧
      ∀ x y, OnCanvas c.width c.height x y → ∃ v0, c.get x y = .ok v0 ∧
        c'.get x y = .ok (if OnOutline points x y then (if v then 1 else 0) else v0) := by
  obtain ⟨ps, hs⟩ := stroke_exists (closedEdges points)
  obtain ⟨c', h1, _, _, _, hr⟩ := bw_writes hc (ps.map (fun p => (p, v))) (by
    intro a ha
    simp only [List.mem_map] at ha
    obtain ⟨p, hp', rfl⟩ := ha
    exact stroke_onCanvas hp hs p hp')
  refine ⟨ps, c', hs, h1, fun x y hxy => ?_⟩
  obtain ⟨a, b, rfl, rfl, hx, hy⟩ := onCanvas_nat hxy
  refine ⟨_, bw_get hc hx hy, ?_⟩
  rw [hr _ _ _ hxy (bw_get hc hx hy), cellAfter_const _ _ (if v then 1 else 0) (by intro _; cases v <;> rfl)]
  simp only [stroke_outline hs]

open Classical in
/-- C49, gray canvas. -/
theorem C49_stroke_gray (c : Gray) (hc : c.WF) (points : List (Int × Int))
    (hp : ∀ p ∈ points, OnCanvas c.width c.height p.1 p.2) (v : Nat) (hv : v ≤ 255) :
    ∃ pixels c', StrokeDraws (closedEdges points) pixels ∧
      c.writes (pixels.map (fun p => (p, GrayVal.v (K := ℚ) v))) = .ok c' ∧
      ∀ x y, OnCanvas c.width c.height x y → ∃ v0, c.get x y = .ok v0 ∧
        c'.get x y = .ok (if OnOutline points x y then v else v0) := by
  obtain ⟨ps, hs⟩ := stroke_exists (closedEdges points)
  obtain ⟨c', h1, _, _, _, hr⟩ := gray_writes hc (ps.map (fun p => (p, GrayVal.v (K := ℚ) v))) (by
    intro a ha
    simp only [List.mem_map] at ha
    obtain ⟨p, hp', rfl⟩ := ha
    exact ⟨stroke_onCanvas hp hs p hp', by simp only [GrayVal.Valid]; omega⟩)
  refine ⟨ps, c', hs, h1, fun x y hxy => ?_⟩
  obtain ⟨a, b, rfl, rfl, hx, hy⟩ := onCanvas_nat hxy
  refine ⟨_, gray_get hc hx hy, ?_⟩
  rw [hr _ _ _ hxy (gray_get hc hx hy), cellAfter_const _ _ v (by intro _; simp [GrayVal.over])]
  simp only [stroke_outline hs]

open Classical in
/-- C49, colour canvas. -/
theorem C49_stroke_colour (c : Colour) (hc : c.WF)
    (points : List (Int × Int)) (hp : ∀ p ∈ points, OnCanvas c.width c.height p.1 p.2) (r g b : Nat)
    (hv : r ≤ 255 ∧ g ≤ 255 ∧ b ≤ 255) :
    ∃ pixels c', StrokeDraws (closedEdges points) pixels ∧
      c.writes (pixels.map (fun p => (p, ColourVal.plain (K := ℚ) [(r : Int), g, b]))) = .ok c' ∧
      ∀ x y, OnCanvas c.width c.height x y → ∃ v0, c.get x y = .ok v0 ∧
        c'.get x y = .ok (if OnOutline points x y then (r, g, b) else v0) := by
  obtain ⟨ps, hs⟩ := stroke_exists (closedEdges points)
  obtain ⟨c', h1, _, _, _, hr⟩ := colour_writes hc (ps.map (fun p => (p, ColourVal.plain (K := ℚ) [(r : Int), g, b]))) (by
    intro a ha
    simp only [List.mem_map] at ha
    obtain ⟨p, hp', rfl⟩ := ha
    refine ⟨stroke_onCanvas hp hs p hp', rfl, ?_⟩
    intro u hu
    simp only [List.mem_cons, List.not_mem_nil, or_false] at hu
    omega)
  refine ⟨ps, c', hs, h1, fun x y hxy => ?_⟩
  obtain ⟨i, j, rfl, rfl, hx, hy⟩ := onCanvas_nat hxy
  refine ⟨_, colour_get hc hx hy, ?_⟩
  rw [hr _ _ _ hxy (colour_get hc hx hy), cellAfter_const _ _ (r, g, b) (by intro _; simp [ColourVal.over])]
  simp only [stroke_outline hs]

/-- The canvases of C49 include those made by the constructors, and in-range writes lead to more of them. -/
theorem C49_reachable (w h : Nat) (bg : Int) :
    (∀ c, BW.init w h bg = .ok c → c.WF ∧ ∀ ws, (∀ a ∈ ws, OnCanvas w h a.1.1 a.1.2) → ∃ c', c.writes ws = .ok c' ∧ c'.WF) ∧
    (∀ c, Gray.init w h bg = .ok c → c.WF ∧ ∀ ws : List ((Int × Int) × GrayVal ℚ),
      (∀ a ∈ ws, OnCanvas w h a.1.1 a.1.2 ∧ a.2.Valid) → ∃ c', c.writes ws = .ok c' ∧ c'.WF) := by
  constructor
  · intro c hc
    obtain ⟨hwf, rfl, rfl, _⟩ := bw_init hc
    refine ⟨hwf, fun ws hws => ?_⟩
    obtain ⟨c', h1, h2, _⟩ := bw_writes hwf ws hws
    exact ⟨c', h1, h2⟩
  · intro c hc
    obtain ⟨hwf, rfl, rfl, _⟩ := gray_init hc
    refine ⟨hwf, fun ws hws => ?_⟩
    obtain ⟨c', h1, h2, _⟩ := gray_writes hwf ws hws
    exact ⟨c', h1, h2⟩

/-- The sides of a triangle include the closing one. -/
example : IsSide [(0, 0), (3, 0), (1, 2)] (1, 2) (0, 0) ∧ IsSide [(0, 0), (3, 0), (1, 2)] (3, 0) (1, 2) :=
  ⟨.inr ⟨rfl, rfl⟩, .inl ⟨1, rfl, rfl⟩⟩

/-! ## C50 -/

/-- The pixels that scanning these polygons, in order, and filling the marks sets on a `width × height` canvas. -/
def fillPolygons (width height : Nat) (polygons : List (List (Int × Int))) : Py (List (Int × Int)) := do
  let scans ← polygons.foldlM scanPolygon (emptyScans height)
  fillRows width 0 scans

/-- C50 is false: the orientation matters. Of this square given clockwise (on the screen) the inside is filled, given the
other way round the pixels at its left are filled instead, and none inside. Also, nothing is filled when a polygon
reaches the right border of the canvas (the vertices at column 6 are not pixels, but the square from column 2 to 6 has
pixels), and two polygons sharing a vertical side, scanned together, leave the second one empty. -/
theorem C50_fill_violated :
    fillPolygons 6 3 [[(2, 1), (4, 1), (4, 2), (2, 2)]] = .ok [(2, 1), (3, 1)] ∧
    fillPolygons 6 3 [[(2, 2), (4, 2), (4, 1), (2, 1)]] = .ok [(0, 1), (1, 1)] ∧
    fillPolygons 6 3 [[(2, 1), (6, 1), (6, 2), (2, 2)]] = .ok [] ∧
    fillPolygons 6 3 [[(1, 1), (2, 1), (2, 2), (1, 2)], [(2, 1), (4, 1), (4, 2), (2, 2)]] = .ok [(1, 1)] := by
  decide +kernel

/-- C50, what holds: any number of polygons, scanned together. If on every row the sides met alternate up and down from
left to right, starting with one going up and ending before the right border, then exactly the pixels inside the polygons
by the even-odd rule are set. Missing: polygons of the other orientation, and those reaching the right border, for which
the property fails (`C50_fill_violated`). -/
theorem C50_fill_partial (width height : Nat) (polygons : List (List (Int × Int)))
    (hy : ∀ ps ∈ polygons, ∀ p ∈ ps, 0 ≤ p.2 ∧ p.2 ≤ height)
    (halt : ∀ y : Int, 0 ≤ y → y < height → ∃ marks, marks ~ crossings y (polygons.flatMap sidesOf) ∧
      Alternating (-1) marks ∧ ∀ m ∈ marks, m.1 < width) :
    ∃ pixels, fillPolygons width height polygons = .ok pixels ∧
      ∀ x y, (x, y) ∈ pixels ↔ OnCanvas width height x y ∧ EvenOddInside (polygons.flatMap sidesOf) x y := by
  have hscan : polygons.foldlM scanPolygon (emptyScans height) =
      (polygons.flatMap sidesOf).foldlM scanEdge (emptyScans height) := by
    rw [← foldlM_flatMap]
    congr 1
    funext s ps
    rw [scanPolygon, closedEdges_eq]
  obtain ⟨scans, h1, h2, h3⟩ := scanEdges_spec (h := height) (polygons.flatMap sidesOf) (by
    intro e he
    rw [List.mem_flatMap] at he
    obtain ⟨ps, hps, he⟩ := he
    obtain ⟨m1, m2⟩ := List.of_mem_zip (show (e.1, e.2) ∈ _ from he)
    exact ⟨hy ps hps _ m1, hy ps hps _ (List.mem_rotate.mp m2)⟩) (emptyScans height) (by simp [emptyScans])
  have hrow : ∀ (j : Nat) (r : List Mark), scans[j]? = some r → j < height ∧
      r ~ crossings j (polygons.flatMap sidesOf) ∧ Alternating (-1) r ∧ ∀ m ∈ r, m.1 < width := by
    intro j r hr
    have hj : j < height := by have := (List.getElem?_eq_some_iff.mp hr).1; omega
    rw [h3 j] at hr
    simp only [emptyScans, List.getElem?_replicate, hj, if_true, Option.map_some, Option.some.injEq] at hr
    have hperm := pushMarks_perm (j : Int) (polygons.flatMap sidesOf) []
    have hsort := pushMarks_sorted (j : Int) (polygons.flatMap sidesOf) [] .nil
    rw [hr] at hperm hsort
    rw [List.append_nil] at hperm
    obtain ⟨marks, p1, p2, p3⟩ := halt j (by omega) (by omega)
    have : r = marks := List.Perm.eq_of_pairwise' hsort (alternating_sorted p2) (hperm.trans p1.symm)
    subst this
    exact ⟨hj, hperm, p2, p3⟩
  obtain ⟨pixels, h4, h5⟩ := fillRows_spec width scans 0 (fun j r hr => (hrow j r hr).2.2)
  refine ⟨pixels, ?_, ?_⟩
  · simp only [fillPolygons, hscan, h1, bind, Except.bind, h4]
  · intro x y
    rw [h5]
    constructor
    · rintro ⟨j, r, e, hr, ho⟩
      obtain ⟨hj, hp, ha, hw⟩ := hrow j r hr
      have ey : y = j := by omega
      subst ey
      have ho' : Odd ((crossings j (polygons.flatMap sidesOf)).countP (fun c => decide (c.1 ≤ x))) := by
        rw [← hp.countP_eq]; exact ho
      refine ⟨⟨?_, ?_, by omega, by omega⟩, ho'⟩
      · by_contra hneg
        have : r.countP (fun c => decide (c.1 ≤ x)) = 0 := by
          rw [List.countP_eq_zero]
          intro c hc
          have := alternating_lo ha c hc
          simp; omega
        rw [this] at ho
        simp at ho
      · by_contra hneg
        have hlen : ∀ {lo : Int} {l : List (Int × Bool)}, Alternating lo l → Even l.length := by
          intro lo l h
          induction h with
          | nil => simp
          | pair _ _ _ ih => simp only [List.length_cons]; rw [Nat.even_add_one, Nat.even_add_one]; simpa using ih
        have : r.countP (fun c => decide (c.1 ≤ x)) = r.length := by
          rw [List.countP_eq_length]
          intro c hc
          have := hw c hc
          simp; omega
        rw [this] at ho
        exact Nat.not_even_iff_odd.mpr ho (hlen ha)
    · rintro ⟨⟨_, _, hy1, hy2⟩, ho⟩
      obtain ⟨j, rfl⟩ : ∃ j : Nat, y = j := ⟨y.toNat, by omega⟩
      have hj : j < scans.length := by omega
      refine ⟨j, scans[j], by omega, List.getElem?_eq_getElem hj, ?_⟩
      obtain ⟨_, hp, _⟩ := hrow j _ (List.getElem?_eq_getElem hj)
      rw [hp.countP_eq]
      exact ho

/-- Not vacuous: a triangle with slanted sides and a rectangle, side by side, meet the hypotheses on every row. -/
example : fillPolygons 12 4 [[(1, 0), (5, 4), (1, 4)], [(7, 1), (10, 1), (10, 3), (7, 3)]] =
      .ok [(1, 1), (7, 1), (8, 1), (9, 1), (1, 2), (2, 2), (7, 2), (8, 2), (9, 2), (1, 3), (2, 3), (3, 3)] := by
  decide +kernel

example : ∀ y : Fin 4, ∃ marks, marks ~ crossings (y : Nat) ([[(1, 0), (5, 4), (1, 4)], [(7, 1), (10, 1), (10, 3), (7, 3)]].flatMap sidesOf) ∧
      Alternating (-1) marks ∧ ∀ m ∈ marks, m.1 < 12 := by
  intro y
  match y with
  | 0 => exact ⟨[(1, false), (1, true)], by decide +kernel, .pair (by decide) (by decide) .nil, by decide⟩
  | 1 => exact ⟨[(1, false), (2, true), (7, false), (10, true)], by decide +kernel, .pair (by decide) (by decide) (.pair (by decide) (by decide) .nil), by decide⟩
  | 2 => exact ⟨[(1, false), (3, true), (7, false), (10, true)], by decide +kernel, .pair (by decide) (by decide) (.pair (by decide) (by decide) .nil), by decide⟩
  | 3 => exact ⟨[(1, false), (4, true)], by decide +kernel, .pair (by decide) (by decide) .nil, by decide⟩

/-- C50 for every rectangle on the canvas, given clockwise from its upper left corner: exactly its pixels are set (the
right column and the bottom row belong to the next). -/
theorem C50_fill_rectangle_partial (width height : Nat) (l t r b : Int) (hl : 0 ≤ l) (hlr : l ≤ r) (hr : r < width)
    (ht : 0 ≤ t) (htb : t ≤ b) (hb : b ≤ height) :
    ∃ pixels, fillPolygons width height [[(l, t), (r, t), (r, b), (l, b)]] = .ok pixels ∧
      ∀ x y, (x, y) ∈ pixels ↔ (l ≤ x ∧ x < r) ∧ (t ≤ y ∧ y < b) := by
  have hround : ∀ n : Int, pyRound (n : ℚ) = n := by intro n; simp [pyRound]
  have hc : ∀ y, crossings y ([[(l, t), (r, t), (r, b), (l, b)]].flatMap sidesOf) =
      if t ≤ y ∧ y < b then [(r, true), (l, false)] else [] := by
    intro y
    have hs : [[(l, t), (r, t), (r, b), (l, b)]].flatMap sidesOf =
        [((l, t), (r, t)), ((r, t), (r, b)), ((r, b), (l, b)), ((l, b), (l, t))] := by rfl
    rw [hs]
    simp only [crossings, List.filterMap_cons, List.filterMap_nil, MeetsRow, min_self, max_self, min_eq_left htb,
      max_eq_right htb, min_eq_right htb, max_eq_left htb, crossingAt, sub_self, zero_div, mul_zero, add_zero, hround]
    have n1 : ¬ (t ≤ y ∧ y < t) := by omega
    have n2 : ¬ (b ≤ y ∧ y < b) := by omega
    by_cases h : t ≤ y ∧ y < b
    · simp only [if_pos h, if_neg n1, if_neg n2]
      rw [decide_eq_true (by omega : t < b), decide_eq_false (by omega : ¬ b < t)]
    · simp only [if_neg h, if_neg n1, if_neg n2]
  obtain ⟨pixels, h1, h2⟩ := C50_fill_partial width height [[(l, t), (r, t), (r, b), (l, b)]] (by
    intro ps hps p hp
    simp only [List.mem_singleton] at hps
    subst hps
    simp only [List.mem_cons, List.not_mem_nil, or_false] at hp
    rcases hp with rfl | rfl | rfl | rfl <;> (constructor <;> dsimp only <;> omega)) (by
    intro y _ _
    rw [hc y]
    by_cases h : t ≤ y ∧ y < b
    · rw [if_pos h]
      refine ⟨[(l, false), (r, true)], List.Perm.swap _ _ _, .pair (by omega) hlr .nil, ?_⟩
      intro m hm
      simp only [List.mem_cons, List.not_mem_nil, or_false] at hm
      rcases hm with rfl | rfl <;> dsimp only <;> omega
    · rw [if_neg h]
      exact ⟨[], .nil, .nil, by simp⟩)
  refine ⟨pixels, h1, fun x y => ?_⟩
  rw [h2, EvenOddInside, hc y]
  by_cases h : t ≤ y ∧ y < b
  · rw [if_pos h]
    simp only [List.countP_cons, List.countP_nil, decide_eq_true_eq, OnCanvas]
    rcases lt_or_ge x l with hx | hx
    · rw [if_neg (by omega), if_neg (by omega)]
      constructor
      · rintro ⟨_, h⟩; simp at h
      · omega
    · rcases lt_or_ge x r with hx' | hx'
      · rw [if_pos (by omega), if_neg (by omega)]
        constructor
        · intro _; omega
        · intro _; exact ⟨by omega, by decide⟩
      · rw [if_pos (by omega), if_pos (by omega)]
        constructor
        · rintro ⟨_, h⟩; exact absurd h (by decide)
        · omega
  · rw [if_neg h]
    simp only [List.countP_nil]
    constructor
    · rintro ⟨_, h⟩; simp at h
    · intro h'; exact absurd h'.2 h

/-! ## C51 -/

/-- C51 is false for black and white canvases: with background 1, no pixel but every eighth reads as 1. -/
theorem C51_background_violated :
    ∃ c, BW.init 8 1 1 = .ok c ∧ c.get 0 0 = .ok 0 ∧ c.get 6 0 = .ok 0 ∧ c.get 7 0 = .ok 1 := by
  refine ⟨⟨8, 1, [1]⟩, ?_⟩
  decide +kernel

/-- C51, black and white, what holds: with background 0 all pixels are 0, and with background 255 they are 1. Missing: the
background 1, which gives stripes (`C51_background_violated`). -/
theorem C51_background_bw_partial (w h : Nat) :
    (∃ c, BW.init w h 0 = .ok c ∧ ∀ x y, OnCanvas w h x y → c.get x y = .ok 0) ∧
    (∃ c, BW.init w h 255 = .ok c ∧ ∀ x y, OnCanvas w h x y → c.get x y = .ok 1) := by
  constructor
  · obtain ⟨c, hc⟩ := bw_init_ok w h (bg := 0) (by omega) (by omega)
    refine ⟨c, hc, fun x y hxy => ?_⟩
    obtain ⟨a, b, rfl, rfl, hx, hy⟩ := onCanvas_nat hxy
    rw [bw_init_get hc hx hy]
    simp
  · obtain ⟨c, hc⟩ := bw_init_ok w h (bg := 255) (by omega) (by omega)
    refine ⟨c, hc, fun x y hxy => ?_⟩
    obtain ⟨a, b, rfl, rfl, hx, hy⟩ := onCanvas_nat hxy
    rw [bw_init_get hc hx hy]
    have : ∀ k : Fin 8, (Int.toNat 255).testBit (7 - k) = true := by decide
    have := this ⟨a % 8, by omega⟩
    simp only at this
    rw [this]
    rfl

/-- C51, gray and colour: every pixel of a new canvas is the background. -/
theorem C51_background_gray (w h : Nat) (bg : Nat) (hbg : bg ≤ 255) :
    ∃ c, Gray.init w h bg = .ok c ∧ ∀ x y, OnCanvas w h x y → c.get x y = .ok bg := by
  obtain ⟨c, hc⟩ := gray_init_ok w h (bg := bg) (by omega) (by omega)
  refine ⟨c, hc, fun x y hxy => ?_⟩
  obtain ⟨a, b, rfl, rfl, hx, hy⟩ := onCanvas_nat hxy
  obtain ⟨v, hv, e⟩ := gray_init_get hc hx hy
  have : v = bg := by omega
  rw [hv, this]

theorem C51_background_colour (w h : Nat) (r g b : Nat) (hr : r ≤ 255) (hg : g ≤ 255) (hb : b ≤ 255) :
    ∃ c, Colour.init w h [(r : Int), g, b] = .ok c ∧ ∀ x y, OnCanvas w h x y → c.get x y = .ok (r, g, b) := by
  have hr' : 0 ≤ (r : Int) ∧ (r : Int) < 256 := by omega
  have hg' : 0 ≤ (g : Int) ∧ (g : Int) < 256 := by omega
  have hb' : 0 ≤ (b : Int) ∧ (b : Int) < 256 := by omega
  refine ⟨_, colour_init3 hr' hg' hb', fun x y hxy => ?_⟩
  obtain ⟨a, b, rfl, rfl, hx, hy⟩ := onCanvas_nat hxy
  rw [colour_init3_get hr' hg' hb' hx hy]
  simp

/-! ## C52 -/

theorem sizeLine_pnm {kind : Byte} {maxval raster : List Byte} (w h : Nat) :
    IsPNM kind maxval w h raster ([80, kind, 10] ++ (sizeLine w h ++ (maxval ++ raster))) := by
  refine ⟨decimal w, decimal h, decimal_isDecimal w, decimal_isDecimal h, ?_⟩
  simp [sizeLine]

/-- C52, black and white: after any history of in-range writes, the file saved is a PBM image (P4) of the canvas: what
can be read from the canvas is in the file at its place. -/
theorem C52_save_bw (w h : Nat) (bg : Int) (c c' : BW) (hc : BW.init w h bg = .ok c) (ws : List ((Int × Int) × Bool))
    (hws : ∀ a ∈ ws, OnCanvas w h a.1.1 a.1.2) (hw : c.writes ws = .ok c') :
    ∃ raster pix, IsPNM 0x34 [] w h raster c'.save ∧ PBMRaster w h raster pix ∧
      ∀ x y, x < w → y < h → c'.get (x : Nat) (y : Nat) = .ok (if pix x y then 1 else 0) := by
  obtain ⟨hwf, rfl, rfl, _⟩ := bw_init hc
  obtain ⟨c'', h1, hwf', e1, e2, _⟩ := bw_writes hwf ws hws
  rw [hw] at h1
  injection h1 with h1
  subst h1
  rw [← e1, ← e2]
  refine ⟨c'.data, fun x y => ((c'.data[y * ((c'.width + 7) / 8) + x / 8]?).map (fun b => b.testBit (7 - x % 8))).getD false,
    ?_, ⟨?_, hwf'.byte, ?_⟩, ?_⟩
  · exact sizeLine_pnm (maxval := []) c'.width c'.height
  · rw [hwf'.len, bytesPerRow, mul_comm]
  · intro x y hx hy
    have := bw_idx hwf' hx hy
    rw [bytesPerRow] at this
    simp only [List.getElem?_eq_getElem this, Option.map_some, Option.getD_some]
  · intro x y hx hy
    have := bw_idx hwf' hx hy
    rw [bw_get hwf' hx hy]
    simp only [bytesPerRow] at this ⊢
    simp only [List.getElem?_eq_getElem this, Option.map_some, Option.getD_some]
    cases (c'.data[y * ((c'.width + 7) / 8) + x / 8]'this).testBit (7 - x % 8) <;> rfl

section
variable {K : Type} [Field K] [LinearOrder K] [IsStrictOrderedRing K] [FloorRing K]

/-- C52, gray: a PGM image (P5, maximum 255). -/
theorem C52_save_gray (w h : Nat) (bg : Int) (c c' : Gray) (hc : Gray.init w h bg = .ok c) (ws : List ((Int × Int) × GrayVal K))
    (hws : ∀ a ∈ ws, OnCanvas w h a.1.1 a.1.2 ∧ a.2.Valid) (hw : c.writes ws = .ok c') :
    ∃ raster pix, IsPNM 0x35 [50, 53, 53, 10] w h raster c'.save ∧ PGMRaster w h raster pix ∧
      ∀ x y, x < w → y < h → c'.get (x : Nat) (y : Nat) = .ok (pix x y) := by
  obtain ⟨hwf, rfl, rfl, _⟩ := gray_init hc
  obtain ⟨c'', h1, hwf', e1, e2, _⟩ := gray_writes hwf ws hws
  rw [hw] at h1
  injection h1 with h1
  subst h1
  rw [← e1, ← e2]
  refine ⟨c'.data, fun x y => (c'.data[y * c'.width + x]?).getD 0, ?_, ⟨?_, hwf'.byte, ?_⟩, ?_⟩
  · exact sizeLine_pnm c'.width c'.height
  · rw [hwf'.len, mul_comm]
  · intro x y hx hy
    simp only [List.getElem?_eq_getElem (gray_idx hwf' hx hy), Option.getD_some]
  · intro x y hx hy
    rw [gray_get hwf' hx hy]
    simp only [List.getElem?_eq_getElem (gray_idx hwf' hx hy), Option.getD_some]

/-- C52, colour: a PPM image (P6, maximum 255). -/
theorem C52_save_colour (w h : Nat) (r g b : Int) (hr : 0 ≤ r ∧ r ≤ 255) (hg : 0 ≤ g ∧ g ≤ 255) (hb : 0 ≤ b ∧ b ≤ 255)
    (c c' : Colour) (hc : Colour.init w h [r, g, b] = .ok c) (ws : List ((Int × Int) × ColourVal K))
    (hws : ∀ a ∈ ws, OnCanvas w h a.1.1 a.1.2 ∧ a.2.Valid) (hw : c.writes ws = .ok c') :
    ∃ raster pix, IsPNM 0x36 [50, 53, 53, 10] w h raster c'.save ∧ PPMRaster w h raster pix ∧
      ∀ x y, x < w → y < h → c'.get (x : Nat) (y : Nat) = .ok (pix x y) := by
  have hr' : 0 ≤ r ∧ r < 256 := by omega
  have hg' : 0 ≤ g ∧ g < 256 := by omega
  have hb' : 0 ≤ b ∧ b < 256 := by omega
  rw [colour_init3 hr' hg' hb'] at hc
  injection hc with hc
  have hwf : c.WF := by rw [← hc]; exact colour_init3_wf hr' hg' hb'
  have e1 : w = c.width := by rw [← hc]
  have e2 : h = c.height := by rw [← hc]
  subst e1 e2
  obtain ⟨c'', h1, hwf', e1, e2, _⟩ := colour_writes hwf ws hws
  rw [hw] at h1
  injection h1 with h1
  subst h1
  rw [← e1, ← e2]
  refine ⟨c'.data, fun x y => ((c'.data[3 * (y * c'.width + x)]?).getD 0, (c'.data[3 * (y * c'.width + x) + 1]?).getD 0,
    (c'.data[3 * (y * c'.width + x) + 2]?).getD 0), ?_, ⟨?_, hwf'.byte, ?_⟩, ?_⟩
  · exact sizeLine_pnm c'.width c'.height
  · rw [hwf'.len]; ring
  · intro x y hx hy
    have hi := colour_idx hwf' hx hy
    have e : y * (c'.width * 3) + x * 3 = 3 * (y * c'.width + x) := by ring
    rw [e]
    simp only [List.getElem?_eq_getElem (show 3 * (y * c'.width + x) < c'.data.length by omega),
      List.getElem?_eq_getElem (show 3 * (y * c'.width + x) + 1 < c'.data.length by omega),
      List.getElem?_eq_getElem (show 3 * (y * c'.width + x) + 2 < c'.data.length by omega), Option.getD_some, and_self]
  · intro x y hx hy
    have hi := colour_idx hwf' hx hy
    rw [colour_get hwf' hx hy]
    simp only [List.getElem?_eq_getElem (show 3 * (y * c'.width + x) < c'.data.length by omega),
      List.getElem?_eq_getElem (show 3 * (y * c'.width + x) + 1 < c'.data.length by omega),
      List.getElem?_eq_getElem (show 3 * (y * c'.width + x) + 2 < c'.data.length by omega), Option.getD_some]

end

/-- A saved file: `P4`, `10 1`, two bytes. -/
example :
    (do
      let c ← BW.init 10 1 0
      let c ← c.writes [((0, 0), true), ((9, 0), true)]
      return c.save : Py _) = .ok ([80, 52, 10] ++ [49, 48, 32, 49, 10] ++ [0x80, 0x40]) := by
  have h : ∀ d, (BW.mk 10 1 d).save = [80, 52, 10, 49, 48, 32, 49, 10] ++ d := by
    intro d
    simp [BW.save, sizeLine, decimal]
  have : (do
      let c ← BW.init 10 1 0
      c.writes [((0, 0), true), ((9, 0), true)] : Py BW) = .ok ⟨10, 1, [0x80, 0x40]⟩ := by decide +kernel
  simp only [bind, Except.bind] at this ⊢
  split at this
  · simp at this
  · simp only [this, pure, Except.pure, h]; rfl

end Coral
