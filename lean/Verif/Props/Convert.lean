import Verif.Proofs.Convert
import Verif.Props.PF

/-!
# Conversion to P files: C113, C114, and the radius of the Earth: C115
-/
set_option linter.unusedSectionVars false
namespace Coral

section
variable {K : Type} [Field K] [LinearOrder K] [IsStrictOrderedRing K] [FloorRing K] {R : Type}

/-! ## C113 -/

/-- C113: what `sf2pf` makes of a shapefile. Each of the shape records is given by its record, the name that `getname` gives for it, and its
rings; the points of the shape are those of the rings, and its parts say where each ring starts. If the conversion succeeds, the P file has the
names in order, and reading entity `i` gives the rings of shape `i` (without closing points, wrapped), each coordinate within half a quantum of the box.
Missing: shapes without parts, for which the conversion raises (`C113_null_violated`). -/
theorem C113_convert_partial (getname : R → Py (List Nat)) (es : List (R × List Nat × List (List (K × K)))) (hn : ∀ e ∈ es, getname e.1 = .ok e.2.1)
    (h0 : ∀ e ∈ es, ∀ b ∈ e.2.1, b ≠ 0) (size : Nat) {file : List Byte}
    (h : sf2pf (es.map fun e => ((e.2.2.flatten, some (ringStarts 0 e.2.2)), e.1)) getname size = .ok file) :
    ∃ r : PReader K, PReader.open file = .ok r ∧ r.names = es.map (fun e => e.2.1) ∧ ∀ (i : Nat) (hi : i < es.length), ∃ q rings,
      r.bboxes[i]? = some q ∧ List.Forall₂ StoredRing es[i].2.2 rings ∧
      ∀ pos, ∃ parts pos', r.read pos i = .ok (parts, pos') ∧ List.Forall₂ (List.Forall₂ (Near size q)) parts rings := by
  simp only [sf2pf, Res.bind_ok, Res.lift_ok] at h
  obtain ⟨w0, hi, w, hw, hc⟩ := h
  rw [sf2pfLoop_rings getname es hn] at hw
  have hz : ∀ c ∈ es.map Prod.snd, ∀ b ∈ c.1, b ≠ 0 := by
    intro c hc
    obtain ⟨e, he, rfl⟩ := List.mem_map.mp hc
    exact h0 e he
  obtain ⟨r, h1, _, h3, _⟩ := C40_index_roundtrip (K := K) hi hw hc hz
  obtain ⟨r', k1, k2⟩ := C41_read_back (K := K) hi hw hc hz
  rw [h1] at k1
  cases k1
  refine ⟨r, h1, by rw [h3, List.map_map]; rfl, fun i hi => ?_⟩
  obtain ⟨q, rings, e1, e2, e3, _⟩ := k2 i (by simpa using hi)
  exact ⟨q, rings, e1, by simpa using e2, e3⟩

/-- C113: and it does succeed if every name is ASCII, each shape has a ring, the latitudes are at most 90, and each ring has positive extent.
Missing: the same shapes. -/
theorem C113_works_partial (getname : R → Py (List Nat)) (es : List (R × List Nat × List (List (K × K)))) (hn : ∀ e ∈ es, getname e.1 = .ok e.2.1)
    {size : Nat} (hs : size = 1 ∨ size = 2 ∨ size = 4 ∨ size = 8) (hascii : ∀ e ∈ es, ∀ b ∈ e.2.1, b < 128)
    (hne : ∀ e ∈ es, e.2.2 ≠ []) (hlat : ∀ e ∈ es, ∀ poly ∈ e.2.2, ∀ p ∈ poly, p.2 ≤ 90)
    (hpos : ∀ e ∈ es, ∀ poly ∈ e.2.2, poly ≠ [] ∧ ∀ ring, StoredRing poly ring → PosExtent ring) :
    ∃ file, sf2pf (es.map fun e => ((e.2.2.flatten, some (ringStarts 0 e.2.2)), e.1)) getname size = .ok file := by
  have hi : ∃ w0, PWriter.init size = .ok w0 := by
    rcases hs with rfl | rfl | rfl | rfl <;> exact ⟨_, rfl⟩
  obtain ⟨w0, hi⟩ := hi
  have lift : ∀ (P : List Nat × List (List (K × K)) → Prop), (∀ e ∈ es, P e.2) → ∀ c ∈ es.map Prod.snd, P c := by
    intro P hP c hc
    obtain ⟨e, he, rfl⟩ := List.mem_map.mp hc
    exact hP e he
  obtain ⟨w, file, h1, h2⟩ := C41_write_succeeds (K := K) hi (es.map Prod.snd) (lift _ hascii) (lift _ hne) (lift _ hlat) (lift _ hpos)
  refine ⟨file, ?_⟩
  simp only [sf2pf, Res.bind_ok, Res.lift_ok]
  exact ⟨w0, hi, w, (sf2pfLoop_rings getname es hn w0).trans h1, h2⟩

/-- C113 fails for files with a null shape (or with points only): the conversion does not succeed, whatever the other shapes are. -/
theorem C113_null_violated (shapeRecords : List ((List (K × K) × Option (List Int)) × R)) (getname : R → Py (List Nat)) (size : Nat)
    (h : ∃ s ∈ shapeRecords, s.1.2 = none) (file : List Byte) : sf2pf shapeRecords getname size ≠ .ok file := by
  intro hok
  simp only [sf2pf, Res.bind_ok, Res.lift_ok] at hok
  obtain ⟨w0, -, w, hw, -⟩ := hok
  induction shapeRecords generalizing w0 with
  | nil => obtain ⟨_, hs, _⟩ := h; cases hs
  | cons s rest ih =>
    obtain ⟨⟨points, parts⟩, rec⟩ := s
    simp only [sf2pfLoop, Res.bind_ok, Res.lift_ok] at hw
    obtain ⟨name, -, ps, h1, w1, -, h2⟩ := hw
    obtain ⟨s, hs, hnone⟩ := h
    rcases List.mem_cons.mp hs with rfl | hs
    · simp only at hnone
      subst hnone
      cases h1
    · exact ih ⟨s, hs, hnone⟩ w1 h2

end

/-- A case: two shapes, the first with two rings. -/
example : sf2pf (K := ℚ) [(([(0, 0), (1, 1), (1, 0), (0, 0), (5, 5), (6, 6), (6, 5)], some [0, 4]), [65, 66]), (([(2, 2), (3, 3), (3, 2)], some [0]), [67])]
    (fun s => .ok s) 2 >>= (fun file => Res.ok file.length) = .ok 68 := by
  decide +kernel

example : ringStarts 0 [[1, 2, 3, 4], [5, 6, 7]] = [0, 4] := rfl

/-! ## C114 -/

/-- C114: the errors that `close` returns: one for each point of the stored rings, in the order of the file, and it is the distance (`haversine`) from the point to
what the reader gives for it. -/
theorem C114_errors {size : Nat} {w0 w : PWriter} {ws : List (List Nat × List (List (ℝ × ℝ)))} {errs : List ℝ}
    {file : List Byte} (h0 : PWriter.init size = .ok w0) (hw : w0.writeAllErrs [] ws = .ok (w, errs)) (hc : w.close = .ok file)
    (hn : ∀ c ∈ ws, ∀ b ∈ c.1, b ≠ 0) :
    ∃ (r : PReader ℝ) (rings parts : List (List (List (ℝ × ℝ)))), PReader.open file = .ok r ∧
      List.Forall₂ (fun c rs => List.Forall₂ StoredRing c.2 rs) ws rings ∧
      List.Forall₂ (List.Forall₂ fun a b => a.length = b.length) rings parts ∧
      (∀ (i : Nat) (hi : i < parts.length) (pos : Nat), ∃ pos', r.read pos i = .ok (parts[i], pos')) ∧
      errs.map Except.ok = List.zipWith (fun p p' => Sph.haversine p.1 p.2 p'.1 p'.2 none) rings.flatten.flatten parts.flatten.flatten := by
  simp only [PWriter.init, Py.bind_ok] at h0
  obtain ⟨umax, hu, h0⟩ := h0
  injection h0 with h0
  subst h0
  obtain ⟨infos, g1, g2, g3, g4, g5, g6⟩ := writeAllErrs_infos hw
  simp only [List.nil_append] at g1 g2 g3 g4 g5 g6
  obtain ⟨r, r1, r2⟩ := read_infos hu g1 g2 g3 g4 g5 hc hn
  refine ⟨r, infos.map Info.parts, infos.map (fun i => i.parts.map fun ring => ring.map (storedAs umax (dequantBox (quantBox i.bb)))), r1, ?_, ?_, ?_, ?_⟩
  · rw [List.forall₂_map_right_iff]
    exact g1.imp fun c i h => h.2.1
  · rw [List.forall₂_map_right_iff, List.forall₂_map_left_iff, List.forall₂_same]
    intro i _
    rw [List.forall₂_map_right_iff, List.forall₂_same]
    intro ring _
    rw [List.length_map]
  · intro i hi pos
    rw [List.length_map] at hi
    obtain ⟨pos', h⟩ := r2 i hi pos
    exact ⟨pos', by rw [h, List.getElem_map]⟩
  · rw [g6]
    simp only [List.map_nil, List.nil_append]
    clear g1 g4 g5 g6 r2 hw hc
    induction infos with
    | nil => rfl
    | cons i infos ih =>
      simp only [List.map_cons, List.flatten_cons, List.flatten_append]
      rw [List.zipWith_append (by rw [← List.map_flatten, List.length_map]), ← ih, ← List.map_flatten]
      congr 1
      rw [List.zipWith_map_right, List.zipWith_self]
      rfl

/-- C114: the errors are computed for every entity that is written: computing them never makes a `write` fail, and it does not change the file. -/
theorem C114_same (w : PWriter) (errs : List ℝ) (ws : List (List Nat × List (List (ℝ × ℝ)))) (w' : PWriter) :
    w.writeAll ws = .ok w' ↔ ∃ errs', w.writeAllErrs errs ws = .ok (w', errs') :=
  writeAllErrs_writeAll w errs ws w'

/-- C114: an error is at least 0, and it is the great-circle distance on a sphere with the radius of WGS84 at the mean latitude of the two points. -/
theorem C114_distance (lon1 lat1 lon2 lat2 : ℝ) : ∃ r, Sph.radiusat ((lat1 + lat2) / 2) none = .ok r ∧ 0 ≤ r ∧
    Sph.haversine lon1 lat1 lon2 lat2 none = .ok (r * Spec.arc lon1 lat1 lon2 lat2) := by
  obtain ⟨x, z, h, -⟩ := Sph.atLatitude_exists Sph.wgs84_pos.1 Sph.wgs84_pos.2.1 ((lat1 + lat2) / 2)
  obtain ⟨r, h1, h2⟩ := Sph.haversine_default lon1 lat1 lon2 lat2
  have hr := Sph.radiusat_surface Sph.wgs84_pos.1 Sph.wgs84_pos.2.1 h
  rw [← Sph.radiusat_default, h1] at hr
  injection hr with hr
  exact ⟨r, h1, by rw [hr]; positivity, h2⟩

/-- A case: an entity of one ring is written. -/
example : ∃ w errs, (⟨2, 65535, [], []⟩ : PWriter).writeAllErrs [] [([65], [[(0, 0), (1, 1), (1, 0)]])] = .ok (w, errs) := by
  have h := C41_write_succeeds (K := ℝ) (size := 2) (w0 := ⟨2, 65535, [], []⟩) rfl [([65], [[(0, 0), (1, 1), (1, 0)]])]
    (by simp) (by simp) (by simp; rintro a b (⟨-, rfl⟩ | ⟨-, rfl⟩ | ⟨-, rfl⟩) <;> norm_num) (by
      simp only [List.mem_singleton, forall_eq]
      refine ⟨by simp, fun ring h => ?_⟩
      have stay : ∀ p q : ℝ × ℝ, (-180 ≤ p.1 ∧ p.1 ≤ 180 ∧ -90 ≤ p.2 ∧ p.2 ≤ 90) → WrapsPoint p q → q = p := by
        rintro ⟨p1, p2⟩ ⟨q1, q2⟩ ⟨g1, g2, g3, g4⟩ ⟨h1, h2⟩
        exact Prod.ext (h1.2.2.2 g1 g2) (h2.2.2.2 g3 g4)
      obtain ⟨w, h1, h2, h3⟩ := h
      rcases h1 with _ | ⟨a1, _ | ⟨a2, _ | ⟨a3, _ | _⟩⟩⟩
      rw [stay _ _ (by norm_num) a1, stay _ _ (by norm_num) a2, stay _ _ (by norm_num) a3] at h3
      rcases h3 with ⟨h3, -⟩ | ⟨-, rfl⟩
      · norm_num at h3
      · exact ⟨⟨(0, 0), by simp, (1, 1), by simp, by norm_num⟩, ⟨(0, 0), by simp, (1, 1), by simp, by norm_num⟩⟩)
  obtain ⟨w, file, h1, h2⟩ := h
  obtain ⟨errs, h⟩ := (C114_same _ [] _ _).mp h1
  exact ⟨w, errs, h⟩

/-! ## C115 -/
namespace Sph
open Real Proj

/-- C115: `radiusat` gives the distance from the centre to the surface of the ellipsoid at the given geodetic latitude: there is such a point, and the result is the distance
of every such point from the centre. -/
theorem C115_radius (E : Ellipsoid) (ha : 0 < E.a) (hb : 0 < E.b) (lat : ℝ) :
    (∃ x z, AtLatitude E.a E.b lat x z ∧ 0 ≤ x * cos (rad lat) + z * sin (rad lat)) ∧
    ∀ x z, AtLatitude E.a E.b lat x z → radiusat lat (some E) = .ok √(x ^ 2 + z ^ 2) :=
  ⟨atLatitude_exists ha hb lat, fun _ _ h => radiusat_surface ha hb h⟩

/-- C115: it is the equatorial radius at the equator and the polar radius at the poles, and between them elsewhere. -/
theorem C115_bounds (E : Ellipsoid) (ha : 0 < E.a) (hb : 0 < E.b) (hab : E.b ≤ E.a) :
    radiusat 0 (some E) = .ok E.a ∧ radiusat 90 (some E) = .ok E.b ∧ radiusat (-90) (some E) = .ok E.b ∧
    ∀ lat, ∃ r, radiusat lat (some E) = .ok r ∧ E.b ≤ r ∧ r ≤ E.a := by
  refine ⟨?_, ?_, ?_, fun lat => ?_⟩
  · rw [radiusat_surface ha hb (x := E.a) (z := 0) ⟨by field_simp; simp, by simp⟩]
    simp [Real.sqrt_sq ha.le]
  · rw [radiusat_surface ha hb (x := 0) (z := E.b) ⟨by field_simp; simp, by rw [show (90 : ℝ) * π / 180 = π / 2 by ring]; simp⟩]
    simp [Real.sqrt_sq hb.le]
  · rw [radiusat_surface ha hb (x := 0) (z := E.b) ⟨by field_simp; simp, by rw [show (-90 : ℝ) * π / 180 = -(π / 2) by ring]; simp⟩]
    simp [Real.sqrt_sq hb.le]
  · obtain ⟨x, z, h, -⟩ := atLatitude_exists ha hb lat
    refine ⟨_, radiusat_surface ha hb h, ?_, ?_⟩
    · apply Real.le_sqrt_of_sq_le
      have h1 := h.1
      have : x ^ 2 / E.a ^ 2 ≤ x ^ 2 / E.b ^ 2 := by gcongr
      have h2 : 1 ≤ (x ^ 2 + z ^ 2) / E.b ^ 2 := by rw [add_div]; linarith
      rwa [one_le_div (by positivity)] at h2
    · apply Real.sqrt_le_iff.mpr ⟨ha.le, ?_⟩
      have h1 := h.1
      have : z ^ 2 / E.a ^ 2 ≤ z ^ 2 / E.b ^ 2 := by gcongr
      have h2 : (x ^ 2 + z ^ 2) / E.a ^ 2 ≤ 1 := by rw [add_div]; linarith
      rwa [div_le_one (by positivity)] at h2

/-- C115: the north and south sides have the same radius, and without an ellipsoid it is that of WGS84. -/
theorem C115_symmetric (lat : ℝ) (E : Option Ellipsoid) : radiusat (-lat) E = radiusat lat E ∧ radiusat lat none = radiusat lat (some wgs84) := by
  refine ⟨?_, rfl⟩
  unfold radiusat
  have h1 : rad (-lat) = -rad lat := by unfold rad; ring
  simp only [h1, cos_neg, sin_neg]
  congr 2 <;> ring

/-- A case: the default ellipsoid. -/
example : 0 < wgs84.a ∧ 0 < wgs84.b ∧ wgs84.b ≤ wgs84.a := ⟨wgs84_pos.1, wgs84_pos.2.1, wgs84_pos.2.2.le⟩

end Sph
end Coral
