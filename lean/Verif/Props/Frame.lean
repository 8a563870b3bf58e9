import Verif.Proofs.Frame
import Verif.Props.Coord
import Verif.Proofs.Sphere

/-!
# Properties C29, C30, C31 and C104: frames
-/
namespace Coral
namespace Frame

open Proj
open scoped List

section
variable {K : Type} [Field K] [LinearOrder K] [IsStrictOrderedRing K] [FloorRing K]
set_option linter.unusedSectionVars false

/-! ### C29 -/

/-- C29 for PF files whose names are all different, every polygon of which has points that can be projected, and a frame of
positive width and height. `sel` are the positions of the entities written: exactly those one of whose polygons meets the
frame, in order; the number of lines is returned, and `loadnames` reads the names back. Missing: names occurring twice
(`C29_violated`). -/
theorem C29_cache_partial (geo2rect : K → K → Py (K × K)) (bounding : BBox K) (hb : bounding.Proper) (pff : PReader K)
    (hn : pff.names.Nodup) (entity : Nat → List (List (K × K))) (proj : K × K → K × K)
    (hread : ∀ i < pff.names.length, ∃ pos, pff.read 0 i = .ok (entity i, pos))
    (hproj : ∀ i < pff.names.length, ∀ part ∈ entity i, part ≠ [] ∧ ∀ p ∈ part, geo2rect p.1 p.2 = .ok (proj p)) :
    ∃ text, ∃ sel : List Nat, cachenames geo2rect bounding pff = .ok (sel.length, text) ∧ sel.Pairwise (· < ·) ∧
      (∀ i, i ∈ sel ↔ i < pff.names.length ∧ ∃ part ∈ entity i, Meets bounding (part.map proj)) ∧
      text = (sel.map (fun i => nameStr (pff.names.getD i []) ++ ['\n'])).flatten ∧
      ((∀ n ∈ pff.names, '\n' ∉ nameStr n ∧ '\r' ∉ nameStr n ∧ ∀ c, (nameStr n).getLast? = some c → isSpace c = false) →
        loadnames text = sel.map (fun i => nameStr (pff.names.getD i []))) := by
  classical
  let hit : List Nat → Bool := fun n => decide (∃ i < pff.names.length, pff.names.getD i [] = n ∧ ∃ part ∈ entity i, Meets bounding (part.map proj))
  have hget : ∀ n ∈ pff.names, ∃ parts pos, pff.get 0 n = .ok (parts, pos) ∧ anyCollides geo2rect bounding parts = .ok (hit n) := by
    intro n hm
    obtain ⟨i, hi, rfl⟩ := List.mem_iff_getElem.mp hm
    obtain ⟨pos, hr⟩ := hread i hi
    obtain ⟨b, hb1, hb2⟩ := anyCollides_ok (g := geo2rect) (proj := proj) hb (entity i) (hproj i hi)
    refine ⟨entity i, pos, ?_, ?_⟩
    · change (indexOf pff.names[i] pff.names).bind _ = _
      rw [indexOf_getElem _ hn i hi]
      exact hr
    · rw [hb1]
      congr 1
      rw [Bool.eq_iff_iff, hb2]
      simp only [hit, decide_eq_true_eq]
      constructor
      · intro h
        exact ⟨i, hi, List.getD_eq_getElem _ _ hi, h⟩
      · rintro ⟨j, hj, e, h⟩
        rw [List.getD_eq_getElem _ _ hj] at e
        obtain rfl := hn.getElem_inj_iff.mp e
        exact h
  have hnames : pff.names = (List.range pff.names.length).map (fun i => pff.names.getD i []) := by
    apply List.ext_getElem
    · simp
    · intro i h1 h2
      simp [h1]
  have hfilter : pff.names.filter hit = ((List.range pff.names.length).filter (fun i => hit (pff.names.getD i []))).map (fun i => pff.names.getD i []) := by
    conv_lhs => rw [hnames, List.filter_map]
    rfl
  have hc := collect_ok (g := geo2rect) (b := bounding) (pff := pff) hit pff.names hget
  refine ⟨_, (List.range pff.names.length).filter (fun i => hit (pff.names.getD i [])), ?_, ?_, ?_, rfl, ?_⟩
  · change (collect geo2rect bounding pff pff.names).bind _ = _
    rw [hc, hfilter]
    simp only [Except.bind, List.length_map, List.map_map]
    rfl
  · exact List.pairwise_lt_range.filter _
  · intro i
    simp only [List.mem_filter, List.mem_range, hit, decide_eq_true_eq]
    constructor
    · rintro ⟨hi, j, hj, e, h⟩
      rw [List.getD_eq_getElem _ _ hj, List.getD_eq_getElem _ _ hi] at e
      obtain rfl := hn.getElem_inj_iff.mp e
      exact ⟨hi, h⟩
    · rintro ⟨hi, h⟩
      exact ⟨hi, i, hi, rfl, h⟩
  · intro hg
    have := loadnames_lines (l := ((List.range pff.names.length).filter (fun i => hit (pff.names.getD i []))).map (fun i => nameStr (pff.names.getD i []))) (by
      intro s hs
      obtain ⟨i, hi, rfl⟩ := List.mem_map.mp hs
      have hi' : i < pff.names.length := List.mem_range.mp (List.mem_filter.mp hi).1
      refine hg _ ?_
      rw [List.getD_eq_getElem _ _ hi']
      exact List.getElem_mem _)
    rwa [List.map_map] at this

/-- C29: where a name occurs twice, the second entity is judged by the polygons of the first one. -/
theorem C29_duplicates (pff : PReader K) (n : List Nat) (ns : List (List Nat)) (h : pff.names = n :: ns) (pos : Nat) :
    pff.get pos n = pff.read pos 0 := by
  change (indexOf n pff.names).bind _ = _
  rw [h, indexOf, if_pos rfl]
  rfl

end

/-- A PF file with two entities of one point each, (0, 0) and (10, 10) up to the encoding, both of the same name "a". -/
def twins : PReader ℚ :=
  { file := [0, 0, 0, 0], datapos := 0, size := 1, umax := 255, names := [[97], [97]], bboxes := [⟨0, 10, 0, 10⟩, ⟨10, 20, 10, 20⟩],
    partlens := [[1], [1]] }

/-- The same file with different names. -/
def different : PReader ℚ := { twins with names := [[97], [98]] }

/-- C29 fails for names occurring twice: the second entity lies in the frame, the first one does not; nothing is written. -/
theorem C29_violated :
    (∃ pos, twins.read 0 1 = .ok ([[(10, 10)]], pos)) ∧
      Meets (⟨5, 5, 15, 15⟩ : BBox ℚ) [(10, 10)] ∧
      cachenames (fun x y => .ok (x, y)) ⟨5, 5, 15, 15⟩ twins = .ok (0, []) := by
  refine ⟨⟨4, by decide +kernel⟩, ⟨10, 10, by norm_num, ⟨⟨10, by simp⟩, .inr (by simp)⟩, ⟨⟨10, by simp⟩, .inr (by simp)⟩⟩, by decide +kernel⟩

example : different.names.Nodup ∧ (∃ pos, different.read 0 0 = .ok ([[(0, 0)]], pos)) ∧ (∃ pos, different.read 0 1 = .ok ([[(10, 10)]], pos)) ∧
    cachenames (fun x y => .ok (x, y)) ⟨5, 5, 15, 15⟩ different = .ok (1, ['b', '\n']) ∧ loadnames ['b', '\n'] = [['b']] := by
  refine ⟨by decide, ⟨2, by decide +kernel⟩, ⟨4, by decide +kernel⟩, by decide +kernel, by decide +kernel⟩

/-! ### C30 -/

/-- C30 for every projection of the sphere: the loaded frame equals the saved one. Missing: the ellipsoid and the cone. -/
theorem C30_sphere_partial (c : SphereClass) (p : Sphere) (b : BBox ℝ) :
    ∃ d, Frame.save ⟨.sphere c p, b⟩ = .ok d ∧ load d = .ok ⟨.sphere c p, b⟩ := by
  refine ⟨_, rfl, ?_⟩
  have h : rebuild (.sphere c) (deg p.lon0, deg p.lat0) (.sphere p.r) = .ok (.sphere c p) := by
    change Except.ok (Projection.sphere c (Sphere.new (some (deg p.lon0, deg p.lat0)) (some p.r))) = _
    have : Sphere.new (some (deg p.lon0, deg p.lat0)) (some p.r) = p := by
      simp only [Sphere.new, Option.getD_some, rad_deg]
    rw [this]
  have hc : classOf c.name = .ok (.sphere c) := by cases c <;> rfl
  change (classOf c.name).bind _ = _
  rw [hc]
  change (rebuild (.sphere c) (deg p.lon0, deg p.lat0) (.sphere p.r)).bind (fun prj => .ok (Frame.mk prj b)) = _
  rw [h]
  rfl

/-- C30: the frame built from an origin, a radius and a box comes back with the projection built from the same data. -/
theorem C30_sphere_new_partial (c : SphereClass) (origin : Option (ℝ × ℝ)) (radius : Option ℝ) (b : BBox ℝ) :
    ∃ d, Frame.save ⟨.sphere c (Sphere.new origin radius), b⟩ = .ok d ∧ d.type = c.name ∧ d.center = origin.getD (0, 0) ∧
      load d = .ok ⟨.sphere c (Sphere.new origin radius), b⟩ := by
  obtain ⟨d, h1, h2⟩ := C30_sphere_partial c (Sphere.new origin radius) b
  refine ⟨d, h1, ?_, ?_, h2⟩
  · obtain rfl := Except.ok.inj h1
    rfl
  · obtain rfl := Except.ok.inj h1
    simp only [Sphere.new, deg_rad]

/-- C30 fails for every frame with an ellipsoid: it is saved, but the file cannot be loaded. -/
theorem C30_violated_ellipsoid (p : Spheroid) (b : BBox ℝ) :
    ∃ d, Frame.save ⟨.eMercator p, b⟩ = .ok d ∧ load d = .error .nameError := ⟨_, rfl, rfl⟩

/-- C30 fails for every frame with the conic projection: it cannot be saved. -/
theorem C30_violated_conic (q : Conic) (b : BBox ℝ) : Frame.save ⟨.conic q, b⟩ = .error .attributeError := rfl

/-! ### C31 and C104 -/

section
variable {K : Type} [Field K] [LinearOrder K] [IsStrictOrderedRing K] [FloorRing K]
set_option linter.unusedSectionVars false

/-- C31 -/
theorem C31_cell (geo2rect : K → K → Py (K × K)) (scale : K) (hs : 0 < scale) (p : K × K) {x y : K} (h : geo2rect p.1 p.2 = .ok (x, y)) :
    ∃ i j : Int, point geo2rect scale p = .ok ((i : K), (j : K)) ∧ (i * scale ≤ x ∧ x < (i + 1) * scale) ∧ (j * scale ≤ y ∧ y < (j + 1) * scale) := by
  have key : ∀ t : K, (⌊t / scale⌋ : K) * scale ≤ t ∧ t < (⌊t / scale⌋ + 1) * scale := by
    intro t
    exact ⟨(le_div_iff₀ hs).mp (Int.floor_le _), (div_lt_iff₀ hs).mp (Int.lt_floor_add_one _)⟩
  refine ⟨⌊x / scale⌋, ⌊y / scale⌋, ?_, key x, key y⟩
  change (geo2rect p.1 p.2).bind _ = _
  rw [h]
  simp only [Except.bind, floorDiv, if_neg hs.ne']
  rfl

/-- C31: a point that cannot be projected, or the scale zero, raises. -/
theorem C31_raises (geo2rect : K → K → Py (K × K)) (scale : K) (p : K × K) :
    (∀ e, geo2rect p.1 p.2 = .error e → point geo2rect scale p = .error e) ∧
      (∀ q, geo2rect p.1 p.2 = .ok q → point geo2rect 0 p = .error .zeroDivisionError) := by
  refine ⟨fun e h => ?_, fun q h => ?_⟩
  · change (geo2rect p.1 p.2).bind _ = _
    rw [h]; rfl
  · change (geo2rect p.1 p.2).bind _ = _
    rw [h]
    simp only [Except.bind, floorDiv, if_true]
    rfl

example : point (fun x y => .ok (x, y)) (10 : ℚ) (25, -3) = .ok (2, -1) := by decide +kernel

theorem projectFit_ok {geo2rect : K → K → Py (K × K)} {proj : K × K → K × K} (m : K) {points : List (K × K)}
    (h : ∀ p ∈ points, geo2rect p.1 p.2 = .ok (proj p)) : projectFit geo2rect m points = sqrFit m (points.map proj) := by
  induction points with
  | nil => rfl
  | cons p ps ih =>
    obtain ⟨lon, lat⟩ := p
    have h1 := h (lon, lat) (by simp)
    simp only at h1
    simp only [projectFit, h1, List.map_cons, sqrFit, ih (fun q hq => h q (by simp [hq]))]

/-- C104: the outline, not closed. -/
theorem C104_open (geo2rect : K → K → Py (K × K)) (proj : K × K → K × K) (scale : K) (hs : scale ≠ 0) (points : List (K × K))
    (h2 : 2 ≤ points.length) (h : ∀ p ∈ points, geo2rect p.1 p.2 = .ok (proj p)) :
    ∃ first mid last, planify geo2rect scale points false = (first :: mid ++ [last], none) ∧
      (first :: mid ++ [last]) <+ gridPath scale (points.map proj) ∧
      (gridPath scale (points.map proj)).head? = some first ∧ (gridPath scale (points.map proj)).getLast? = some last := by
  have := C11_open_simplify_subsequence (points.map proj) scale hs 3 (by simpa using h2)
  rw [simplify, ← projectFit_ok scale h] at this
  exact this

/-- C104: the outline, closed (the default). -/
theorem C104_closed (geo2rect : K → K → Py (K × K)) (proj : K × K → K × K) (scale : K) (hs : scale ≠ 0) (points : List (K × K))
    (h3 : 3 ≤ points.length) (h : ∀ p ∈ points, geo2rect p.1 p.2 = .ok (proj p)) :
    ∃ first mid last, planify geo2rect scale points = (first :: mid ++ [last], none) ∧
      (∀ x ∈ first :: mid ++ [last], x ∈ gridPath scale (points.map proj)) ∧
      (gridPath scale (points.map proj)).head? = some first ∧ (gridPath scale (points.map proj)).getLast? = some last := by
  have := C13_closed_simplify_points_partial (points.map proj) scale hs 3 (by simpa using h3)
  rw [simplify, ← projectFit_ok scale h] at this
  exact this

/-- `projectFit` raises what the projection raises at the first point that cannot be projected. -/
theorem projectFit_raises {geo2rect : K → K → Py (K × K)} {proj : K × K → K × K} {m : K} (hm : m ≠ 0) {good : List (K × K)} {bad : K × K} {e : PyErr}
    (rest : List (K × K)) (h : ∀ p ∈ good, geo2rect p.1 p.2 = .ok (proj p)) (hbad : geo2rect bad.1 bad.2 = .error e) :
    projectFit geo2rect m (good ++ bad :: rest) = ((sqrFit m (good.map proj)).1, some e) := by
  induction good with
  | nil =>
    obtain ⟨lon, lat⟩ := bad
    simp only at hbad
    simp [projectFit, hbad, sqrFit]
  | cons p ps ih =>
    obtain ⟨lon, lat⟩ := p
    have h1 := h (lon, lat) (by simp)
    simp only at h1
    simp only [List.cons_append, projectFit, h1, List.map_cons, sqrFit, ih (fun q hq => h q (by simp [hq])), if_neg hm]

theorem openLoop_raises {b : Buffer Pt} {l : List Pt} (h : Buffer.Rep b l) (p q : Pt) (e : PyErr) (s : List Pt) :
    (openLoop b p q (some e) s).2 = some e := by
  induction s generalizing b l p q with
  | nil => simp [openLoop, Gen.raise]
  | cons r s ih =>
    obtain ⟨b', h1, -, h3⟩ := cornerStep_rep h q
    simp only [openLoop, h1]
    split_ifs
    · exact ih h p q
    · exact ih h3 q r
    · exact ih h q r

theorem closedLoop_raises {b1 b2 : Buffer Pt} {l1 l2 : List Pt} (h : Buffer.Rep b1 l1) (g : Buffer.Rep b2 l2) (hn : b2.n = b1.n) (p q : Pt) (last : Option Pt)
    (e : PyErr) (s : List Pt) : (closedLoop b1 b2 p q last (some e) s).2 = some e := by
  induction s generalizing b1 b2 l1 l2 p q last with
  | nil => simp [closedLoop, Gen.raise]
  | cons r s ih =>
    obtain ⟨b1', b2', h1, n1, n2, h3, h4⟩ := cornerStep2_rep h g hn q
    simp only [closedLoop, h1]
    split_ifs
    · exact ih h g hn p q _
    · exact ih h3 h4 (n2.trans n1.symm) q r _
    · exact ih h g hn q r _

/-- C104: the exception of the first point that cannot be projected ends the outline. -/
theorem C104_raises (geo2rect : K → K → Py (K × K)) (proj : K × K → K × K) (scale : K) (hs : scale ≠ 0) (good : List (K × K)) (bad : K × K) (rest : List (K × K))
    (e : PyErr) (h : ∀ p ∈ good, geo2rect p.1 p.2 = .ok (proj p)) (hbad : geo2rect bad.1 bad.2 = .error e) (closed : Bool) :
    (planify geo2rect scale (good ++ bad :: rest) closed).2 = some e := by
  obtain ⟨b, i1, i2, i3⟩ := Buffer.init_rep (α := Pt) (n := 8) ⟨3, rfl⟩
  rw [planify, projectFit_raises hs rest h hbad]
  generalize (sqrFit scale (good.map proj)).1 = l
  split_ifs
  · match l with
    | [] => simp [closedNoSlit, i1, nextErr, Gen.raise]
    | [p] => simp [closedNoSlit, i1, nextErr, Gen.raise, Gen.yields]
    | p :: q :: s => simp [closedNoSlit, i1, Gen.yields, closedLoop_raises i3 i3 rfl]
  · match l with
    | [] => simp [openNoSlit, i1, nextErr, Gen.raise]
    | [p] => simp [openNoSlit, i1, nextErr, Gen.raise, Gen.yields]
    | p :: q :: s => simp [openNoSlit, i1, Gen.yields, openLoop_raises i3]

end

example : planify (fun x y => .ok (x, y)) (1 : ℚ) [(0, 0), (1, 0), (2, 0), (2, 2), (0, 0)] false = ([(0, 0), (2, 0), (2, 2), (0, 0)], none) := by decide +kernel

end Frame
end Coral
