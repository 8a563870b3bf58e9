import Verif.Proofs.Centroid
import Verif.Proofs.Sphere
import Verif.Proofs.BBox

/-!
# The centroid of a region: C116
-/
namespace Coral
namespace Geoc
open Real Proj

/-- There is only one centroid. -/
theorem IsCentroid.unique {polys : List (List (ℝ × ℝ))} {c c' : ℝ × ℝ} (h : IsCentroid polys c) (h' : IsCentroid polys c') : c = c' := by
  obtain ⟨h0, h1, h2⟩ := h (0, 0)
  obtain ⟨-, h1', h2'⟩ := h' (0, 0)
  exact Prod.ext (mul_right_cancel₀ h0 (h1.trans h1'.symm)) (mul_right_cancel₀ h0 (h2.trans h2'.symm))

/-- The centroid of a triangle is the mean of its corners. -/
theorem IsCentroid.triangle {a b c : ℝ × ℝ} (h : triArea a b c ≠ 0) : IsCentroid [[a, b, c]] ((a.1 + b.1 + c.1) / 3, (a.2 + b.2 + c.2) / 3) := by
  intro o
  have e : fanArea o [[a, b, c]] = triArea a b c := by
    simp [fanArea, sides, triArea]; ring
  rw [e]
  refine ⟨h, ?_, ?_⟩ <;> simp [sides, triArea] <;> ring

/-- C116: what `geocentroid` returns. There is a centre `c0` within `epsilon` of the result, in longitude and latitude, such that the polygons, drawn with the equal-area
projection at `c0`, have a centroid `c`, and the result is what `rect2geo` gives for it; unless a pole is nearer to `c0` than the centroid is, the result is drawn at `c`.
Missing: the regions for which it raises (below), and those whose centroid is farther than a pole, for which the inverse may be wrong by a half turn (C25). -/
theorem C116_centroid_partial {region : List (List (ℝ × ℝ))} {bb : Option (BBox ℝ)} {epsilon : Option ℝ} {c1 : ℝ × ℝ} (h : Geocentroid region bb epsilon (.ok c1)) :
    ∃ (c0 : ℝ × ℝ) (polys : List (List (ℝ × ℝ))) (c : ℝ × ℝ), |c1.1 - c0.1| ≤ epsilon.getD 1e-10 ∧ |c1.2 - c0.2| ≤ epsilon.getD 1e-10 ∧
      List.Forall₂ (List.Forall₂ fun p xy => AzimuthalEqualArea.geo2rect (Sphere.new (some c0) none) p.1 p.2 = .ok xy) region polys ∧
      IsCentroid polys c ∧ AzimuthalEqualArea.rect2geo (Sphere.new (some c0) none) c.1 c.2 = .ok c1 ∧
      (2 * arcsin (√(c.1 * c.1 + c.2 * c.2) / (2 * (Sphere.new (some c0) none).r)) < π / 2 - |rad c0.2| →
        AzimuthalEqualArea.geo2rect (Sphere.new (some c0) none) c1.1 c1.2 = .ok c) := by
  have loop : ∀ {c0 : ℝ × ℝ} {r : Py (ℝ × ℝ)}, Loop region (epsilon.getD 1e-10) c0 r → r = .ok c1 →
      ∃ c0, round region c0 = .ok c1 ∧ |c1.1 - c0.1| ≤ epsilon.getD 1e-10 ∧ |c1.2 - c0.2| ≤ epsilon.getD 1e-10 := by
    intro c0 r hl
    induction hl with
    | stop h1 h2 => intro e; injection e with e; subst e; exact ⟨_, h1, h2⟩
    | next _ _ _ ih => exact ih
    | raise _ => intro e; cases e
  have : ∃ c0, round region c0 = .ok c1 ∧ |c1.1 - c0.1| ≤ epsilon.getD 1e-10 ∧ |c1.2 - c0.2| ≤ epsilon.getD 1e-10 := by
    cases h with
    | given _ hl => exact loop hl rfl
    | found _ _ hl => exact loop hl rfl
  obtain ⟨c0, h1, h2, h3⟩ := this
  simp only [round, Py.bind_ok] at h1
  obtain ⟨cw, g1, c, g2, g3⟩ := h1
  rw [Py.mapM_ok] at g1
  have : ∃ polys, List.Forall₂ (List.Forall₂ fun p xy => AzimuthalEqualArea.geo2rect (Sphere.new (some c0) none) p.1 p.2 = .ok xy) region polys ∧
      List.Forall₂ (fun xys c => polyCentroid xys = .ok c) polys cw := by
    clear g2 h h2 h3 loop
    induction g1 with
    | nil => exact ⟨[], .nil, .nil⟩
    | cons h _ ih =>
      obtain ⟨polys, i1, i2⟩ := ih
      rw [Py.bind_ok] at h
      obtain ⟨xys, k1, k2⟩ := h
      rw [Py.mapM_ok] at k1
      exact ⟨xys :: polys, .cons k1 i1, .cons k2 i2⟩
  obtain ⟨polys, i1, i2⟩ := this
  have hr : 0 < (Sphere.new (some c0) none).r := by
    norm_num [Sphere.new, wgs84]
  refine ⟨c0, polys, c, h2, h3, i1, centroid_of i2 g2, g3, fun hn => ?_⟩
  have ha : 0 ≤ arcsin (√(c.1 * c.1 + c.2 * c.2) / (2 * (Sphere.new (some c0) none).r)) := arcsin_nonneg.mpr (by positivity)
  have hl : |rad c0.2| ≤ π / 2 := by linarith
  exact equalArea_back _ hr (abs_le.mp hl) g3 hn

/-- C116 fails if the centroid is at the centre that is tried: then the round raises instead of ending the loop. -/
theorem C116_reached_violated (region : List (List (ℝ × ℝ))) (c0 : ℝ × ℝ) (epsilon : ℝ) {cw : List ((ℝ × ℝ) × ℝ)}
    (h1 : region.mapM (fun poly : List (ℝ × ℝ) => do
      let xys ← poly.mapM (fun p : ℝ × ℝ => AzimuthalEqualArea.geo2rect (Sphere.new (some c0) none) p.1 p.2)
      polyCentroid xys) = .ok cw) (h2 : weighted cw = .ok (0, 0)) (r : Py (ℝ × ℝ)) :
    Loop region epsilon c0 r ↔ r = .error .zeroDivisionError := by
  have hz : AzimuthalEqualArea.rect2geo (Sphere.new (some c0) none) 0 0 = .error .zeroDivisionError := by
    have hd : √((0 : ℝ) * 0 + 0 * 0) = 0 := by simp
    have hr : 0 < (Sphere.new (some c0) none).r := by
      norm_num [Sphere.new, wgs84]
    simp only [AzimuthalEqualArea.rect2geo, hd]
    rw [rdiv_ok (by positivity), zero_div]
    change (rasin 0 >>= _) = _
    rw [rasin_ok (by norm_num) (by norm_num)]
    exact azimuthal_origin _ _
  have hround : round region c0 = .error .zeroDivisionError := by
    unfold round
    change (List.mapM _ region >>= _) = _
    rw [h1]
    change (weighted cw >>= _) = _
    rw [h2]
    exact hz
  constructor
  · intro h
    cases h with
    | stop h _ => rw [hround] at h; cases h
    | next h _ _ => rw [hround] at h; cases h
    | raise h => rw [hround] at h; injection h with h; rw [h]
  · rintro rfl
    exact .raise hround

/-- C116 fails for every region of one rectangle around the crossing of the equator and the prime meridian: `geocentroid` raises. -/
theorem C116_rectangle_violated (a b : ℝ) (ha : 0 < a ∧ a < 90) (hb : 0 < b ∧ b < 90) (epsilon : Option ℝ) (r : Py (ℝ × ℝ)) :
    Geocentroid [[(-a, -b), (a, -b), (a, b), (-a, b)]] none epsilon r ↔ r = .error .zeroDivisionError := by
  have hbox : regionBox [[(-a, -b), (a, -b), (a, b), (-a, b)]] = .ok (some ⟨-a, -b, a, b⟩) := by
    have h1 : BBox.ofPoints [(-a, -b), (a, -b), (a, b), (-a, b)] = .ok (⟨-a, -b, a, b⟩ : BBox ℝ) := by
      have e1 : ¬ a < -a := by linarith
      have e2 : -a < a := by linarith
      have e3 : ¬ b < -b := by linarith
      have e4 : -b < b := by linarith
      simp [BBox.ofPoints, BBox.absorb, e1, e2, e3, e4]
    have h2 : (⟨-a, -b, a, b⟩ : BBox ℝ).truthy = true := by
      have : (a - -a) * (b - -b) ≠ 0 := by
        have := mul_pos ha.1 hb.1
        intro e
        nlinarith
      simpa [BBox.truthy, BBox.area] using this
    change (List.foldlM _ none [_]) = _
    rw [List.foldlM_cons, h1]
    change (Except.ok (orNone _ none) >>= _) = _
    rw [orNone, h2]
    rfl
  have hcen : (⟨-a, -b, a, b⟩ : BBox ℝ).center = (0, 0) := by simp [BBox.center]
  set p := Sphere.new (some ((0 : ℝ), (0 : ℝ))) none with hp
  have p1 : p.lon0 = 0 := by simp [hp, Sphere.new, rad]
  have p2 : p.lat0 = 0 := by simp [hp, Sphere.new, rad]
  have hr : 0 < p.r := by norm_num [hp, Sphere.new, wgs84]
  have rn : ∀ x, rad (-x) = -rad x := fun x => by unfold rad; ring
  have hpi := pi_pos
  have rr : ∀ {x : ℝ}, 0 < x → x < 90 → 0 < rad x ∧ rad x < π / 2 := fun h1 h2 => by
    unfold rad
    constructor
    · positivity
    · nlinarith
  obtain ⟨a1, a2⟩ := rr ha.1 ha.2
  obtain ⟨b1, b2⟩ := rr hb.1 hb.2
  have ca : 0 < cos (rad a) := cos_pos_of_mem_Ioo ⟨by linarith, a2⟩
  have cb : 0 < cos (rad b) := cos_pos_of_mem_Ioo ⟨by linarith, b2⟩
  have sa : 0 < sin (rad a) := sin_pos_of_pos_of_lt_pi a1 (by linarith)
  have sb : 0 < sin (rad b) := sin_pos_of_pos_of_lt_pi b1 (by linarith)
  have hdist : ∀ lon lat, (lon = a ∨ lon = -a) → (lat = b ∨ lat = -b) → cosDist p lon lat = cos (rad b) * cos (rad a) := by
    rintro lon lat (rfl | rfl) (rfl | rfl) <;> simp [cosDist, p1, p2, rn]
  obtain ⟨X, Y, hX, hY, g1, g2, g3, g4⟩ : ∃ X Y : ℝ, 0 < X ∧ 0 < Y ∧ AzimuthalEqualArea.geo2rect p (-a) (-b) = .ok (-X, -Y) ∧
      AzimuthalEqualArea.geo2rect p a (-b) = .ok (X, -Y) ∧ AzimuthalEqualArea.geo2rect p a b = .ok (X, Y) ∧ AzimuthalEqualArea.geo2rect p (-a) b = .ok (-X, Y) := by
    have hk : 0 < √(2 / (1 + cos (rad b) * cos (rad a))) := by positivity
    have hab := mul_pos cb ca
    refine ⟨p.r * √(2 / (1 + cos (rad b) * cos (rad a))) * (cos (rad b) * sin (rad a)), p.r * √(2 / (1 + cos (rad b) * cos (rad a))) * sin (rad b), by positivity, by positivity, ?_, ?_, ?_, ?_⟩
    all_goals
      rw [AzimuthalEqualArea.fwd p _ _ (by rw [hdist _ _ (by simp) (by simp)]; linarith), hdist _ _ (by simp) (by simp)]
      simp [east, north, p1, p2, rn]
  have hmap : ([[(-a, -b), (a, -b), (a, b), (-a, b)]] : List (List (ℝ × ℝ))).mapM (fun poly : List (ℝ × ℝ) => do
      let xys ← poly.mapM (fun q : ℝ × ℝ => AzimuthalEqualArea.geo2rect p q.1 q.2)
      polyCentroid xys) = .ok [((0, 0), 8 * (X * Y))] := by
    have hinner : ([(-a, -b), (a, -b), (a, b), (-a, b)] : List (ℝ × ℝ)).mapM (fun q => AzimuthalEqualArea.geo2rect p q.1 q.2) = .ok [(-X, -Y), (X, -Y), (X, Y), (-X, Y)] := by
      simp only [List.mapM_cons, g1, g2, g3, g4, List.mapM_nil]
      rfl
    have hpc : polyCentroid [(-X, -Y), (X, -Y), (X, Y), (-X, Y)] = .ok ((0, 0), 8 * (X * Y)) := by
      have hs : sideSums [(-X, -Y), (X, -Y), (X, Y), (-X, Y)] = (0, 0, 8 * (X * Y)) := by
        simp [sideSums]
        refine ⟨by ring, by ring, by ring⟩
      have hne : (3 : ℝ) * (8 * (X * Y)) ≠ 0 := by positivity
      simp only [polyCentroid, hs, rdiv_ok hne, zero_div]
      rfl
    rw [List.mapM_cons, hinner]
    change (polyCentroid _ >>= _) = _
    rw [hpc]
    rfl
  have hw : weighted [((0, 0), 8 * (X * Y))] = .ok (0, 0) := by
    rw [weighted_ok]
    simp
    exact ⟨hX.ne', hY.ne'⟩
  have hl := fun r => C116_reached_violated [[(-a, -b), (a, -b), (a, b), (-a, b)]] (0, 0) (epsilon.getD 1e-10) hmap hw r
  constructor
  · intro h
    cases h with
    | given h _ => cases h
    | found _ h1 h2 =>
      rw [hbox] at h1
      injection h1 with h1
      injection h1 with h1
      subst h1
      rw [hcen] at h2
      exact (hl _).mp h2
    | empty _ h => rw [hbox] at h; injection h with h; cases h
    | raise _ h => rw [hbox] at h; cases h
  · rintro rfl
    exact .found rfl hbox (by rw [hcen]; exact (hl _).mpr rfl)

/-- C116 fails if one of the polygons has no area, whatever the others are: the round raises. -/
theorem C116_flat_violated (region : List (List (ℝ × ℝ))) (c0 : ℝ × ℝ) {poly xys : List (ℝ × ℝ)} (hm : poly ∈ region)
    (h1 : poly.mapM (fun p => AzimuthalEqualArea.geo2rect (Sphere.new (some c0) none) p.1 p.2) = .ok xys) (h2 : fanArea (0, 0) [xys] = 0) (c1 : ℝ × ℝ) :
    round region c0 ≠ .ok c1 := by
  intro h
  simp only [round, Py.bind_ok] at h
  obtain ⟨cw, g1, -⟩ := h
  rw [Py.mapM_ok] at g1
  obtain ⟨i, hi, rfl⟩ := List.getElem_of_mem hm
  have := g1.get hi (by rw [← g1.length_eq]; exact hi)
  simp only [List.get_eq_getElem] at this
  rw [Py.bind_ok] at this
  obtain ⟨xys', k1, k2⟩ := this
  rw [h1] at k1
  injection k1 with k1
  subst k1
  have : ((sides xys).map cross).sum = 0 := by
    have := sides_area (0, 0) xys
    simp only [fanArea, List.flatMap_cons, List.flatMap_nil, List.append_nil] at h2
    linarith
  rw [polyCentroid_zero this] at k2
  cases k2

/-- A case for `C116_centroid_partial`: a triangle east of the first centre, and a large `epsilon`; the loop ends. -/
example : ∃ c1, Geocentroid [[(1, -1), (2, 0), (1, 1)]] (some ⟨-1, -1, 1, 1⟩) (some 180) (.ok c1) := by
  set p := Sphere.new (some ((0 : ℝ), (0 : ℝ))) none with hp
  have p1 : p.lon0 = 0 := by simp [hp, Sphere.new, rad]
  have p2 : p.lat0 = 0 := by simp [hp, Sphere.new, rad]
  have hr : 0 < p.r := by norm_num [hp, Sphere.new, wgs84]
  have rn : ∀ x, rad (-x) = -rad x := fun x => by unfold rad; ring
  have hpi := pi_pos
  have r1 : 0 < rad 1 ∧ rad 1 < π / 4 := by
    unfold rad
    constructor
    · positivity
    · linarith
  have r2 : rad 2 = 2 * rad 1 := by unfold rad; ring
  have r0 : rad 0 = 0 := by unfold rad; ring
  have c1 : 0 < cos (rad 1) := cos_pos_of_mem_Ioo ⟨by linarith, by linarith⟩
  have s1 : 0 < sin (rad 1) := sin_pos_of_pos_of_lt_pi r1.1 (by linarith)
  have c1' := cos_le_one (rad 1)
  have s1' := sin_le_one (rad 1)
  set k := √(2 / (1 + cos (rad 1) * cos (rad 1))) with hk
  have hk0 : 0 < k := by positivity
  have hk1 : k ≤ √2 := by
    apply sqrt_le_sqrt
    rw [div_le_iff₀ (by positivity)]
    nlinarith [mul_pos c1 c1]
  have hs2 : √2 < 2 := by
    rw [sqrt_lt' (by norm_num)]; norm_num
  set X := p.r * k * (cos (rad 1) * sin (rad 1)) with hX
  set Y := p.r * k * sin (rad 1) with hY
  set Z := p.r * 2 * sin (rad 1) with hZ
  have hX0 : 0 < X := by positivity
  have hY0 : 0 < Y := by positivity
  have hXZ : X < Z := by
    rw [hX, hZ, mul_assoc, mul_assoc]
    apply mul_lt_mul_of_pos_left _ hr
    have : cos (rad 1) * sin (rad 1) ≤ sin (rad 1) := by nlinarith
    nlinarith
  have g1 : AzimuthalEqualArea.geo2rect p 1 (-1) = .ok (X, -Y) := by
    rw [AzimuthalEqualArea.fwd p _ _ (by simp [cosDist, p1, p2, rn]; nlinarith)]
    simp [cosDist, east, north, p1, p2, rn, hX, hY, hk]
  have g3 : AzimuthalEqualArea.geo2rect p 1 1 = .ok (X, Y) := by
    rw [AzimuthalEqualArea.fwd p _ _ (by simp [cosDist, p1, p2]; nlinarith)]
    simp [cosDist, east, north, p1, p2, hX, hY, hk]
  have g2 : AzimuthalEqualArea.geo2rect p 2 0 = .ok (Z, 0) := by
    have hc2 : cos (rad 2) = 2 * cos (rad 1) ^ 2 - 1 := by rw [r2, cos_two_mul]
    have hne : cosDist p 2 0 ≠ -1 := by
      simp only [cosDist, p1, p2, r0, sub_zero, sin_zero, cos_zero, hc2]
      intro e
      have := pow_pos c1 2
      linarith
    rw [AzimuthalEqualArea.fwd p _ _ hne]
    have hq : √(2 / (1 + cos (rad 2))) = (cos (rad 1))⁻¹ := by
      rw [hc2, sqrt_eq_iff_mul_self_eq (by rw [show (1 : ℝ) + (2 * cos (rad 1) ^ 2 - 1) = 2 * cos (rad 1) ^ 2 by ring]; positivity) (by positivity)]
      rw [show (1 : ℝ) + (2 * cos (rad 1) ^ 2 - 1) = 2 * cos (rad 1) ^ 2 by ring]
      field_simp
    simp only [cosDist, east, north, p1, p2, r0, sub_zero, sin_zero, cos_zero, one_mul, zero_mul, zero_add, mul_zero, hq]
    have : p.r * (cos (rad 1))⁻¹ * sin (rad 2) = Z := by
      rw [r2, sin_two_mul, hZ]; field_simp
    rw [this]
  set C := (2 * X + Z) / 3 with hC
  have hC0 : 0 < C := by rw [hC]; linarith
  have hCZ : C < Z := by rw [hC]; linarith
  have hround : ∃ lon, round [[(1, -1), (2, 0), (1, 1)]] (0, 0) = .ok (lon, 0) ∧ |lon| ≤ 90 := by
    have hin : ([(1, -1), (2, 0), (1, 1)] : List (ℝ × ℝ)).mapM (fun q : ℝ × ℝ => AzimuthalEqualArea.geo2rect p q.1 q.2) = .ok [(X, -Y), (Z, 0), (X, Y)] := by
      simp only [List.mapM_cons, g1, g2, g3, List.mapM_nil]
      rfl
    have hne : (3 : ℝ) * (2 * (Y * (Z - X))) ≠ 0 := by
      have := mul_pos hY0 (sub_pos.mpr hXZ)
      positivity
    have hpc : polyCentroid [(X, -Y), (Z, 0), (X, Y)] = .ok ((C, 0), 2 * (Y * (Z - X))) := by
      have hs : sideSums [(X, -Y), (Z, 0), (X, Y)] = (C * (3 * (2 * (Y * (Z - X)))), 0, 2 * (Y * (Z - X))) := by
        simp [sideSums, hC]
        refine ⟨by ring, by ring⟩
      simp only [polyCentroid, hs, rdiv_ok hne, zero_div, mul_div_assoc, div_self hne, mul_one]
      rfl
    have hw : weighted [((C, 0), 2 * (Y * (Z - X)))] = .ok (C, 0) := by
      have h2 : (2 : ℝ) * (Y * (Z - X)) ≠ 0 := fun e => hne (by rw [e, mul_zero])
      rw [weighted_ok]
      simp only [List.map_cons, List.map_nil, List.sum_cons, List.sum_nil, add_zero]
      exact ⟨h2, by rw [mul_div_assoc, div_self h2, mul_one], by simp⟩
    have hq : C / (2 * p.r) ≤ sin (rad 1) := by
      rw [div_le_iff₀ (by positivity)]
      rw [hZ] at hCZ
      linarith
    have hq0 : 0 ≤ C / (2 * p.r) := by positivity
    have hd : √(C * C + 0 * 0) = C := by rw [mul_zero, add_zero, sqrt_mul_self hC0.le]
    have hasin : arcsin (C / (2 * p.r)) ≤ rad 1 := by
      rw [arcsin_le_iff_le_sin ⟨by linarith, by linarith⟩ ⟨by linarith, by linarith⟩]
      exact hq
    have hasin0 := arcsin_nonneg.mpr hq0
    have hcos : 0 < cos (2 * arcsin (C / (2 * p.r))) := cos_pos_of_mem_Ioo ⟨by linarith, by linarith⟩
    refine ⟨deg (0 + arctan (C * sin (2 * arcsin (C / (2 * p.r))) / (C * cos (2 * arcsin (C / (2 * p.r)))))), ?_, ?_⟩
    · unfold round
      change (List.mapM _ _ >>= _) = _
      rw [List.mapM_cons, hin]
      change ((polyCentroid _ >>= _) >>= _) = _
      rw [hpc]
      change (weighted [((C, 0), 2 * (Y * (Z - X)))] >>= _) = _
      rw [hw]
      change AzimuthalEqualArea.rect2geo p C 0 = _
      simp only [AzimuthalEqualArea.rect2geo, hd]
      rw [rdiv_ok (by positivity)]
      change (rasin _ >>= _) = _
      rw [rasin_ok (by linarith) (by linarith)]
      change azimuthal _ _ _ _ _ = _
      simp only [azimuthal, azimuthalQuot, p1, p2, sin_zero, cos_zero, mul_zero, zero_mul, sub_zero, mul_one, zero_add, zero_div]
      rw [if_neg (by linarith), if_neg (by linarith), rdiv_ok (by positivity), rdiv_ok hC0.ne']
      change (rasin (0 / C) >>= _) = _
      rw [zero_div, rasin_ok (by norm_num) (by norm_num), arcsin_zero]
      change Except.ok (_, deg 0) = _
      rw [show deg 0 = 0 by simp [deg]]
    · rw [zero_add, deg, abs_div, abs_mul, abs_of_pos hpi, div_le_iff₀ hpi]
      have := arctan_lt_pi_div_two (C * sin (2 * arcsin (C / (2 * p.r))) / (C * cos (2 * arcsin (C / (2 * p.r)))))
      have := neg_pi_div_two_lt_arctan (C * sin (2 * arcsin (C / (2 * p.r))) / (C * cos (2 * arcsin (C / (2 * p.r)))))
      have h := abs_le.mpr ⟨this.le, by linarith⟩
      rw [abs_of_pos (by norm_num : (0 : ℝ) < 180)]
      linarith
  obtain ⟨lon, h1, h2⟩ := hround
  refine ⟨(lon, 0), .given rfl (.stop ?_ ?_)⟩
  · have : (⟨-1, -1, 1, 1⟩ : BBox ℝ).center = (0, 0) := by simp [BBox.center]
    rw [this]
    exact h1
  · simp [BBox.center]
    linarith

/-- C116: without a box the search starts at the centre of the least box around all the polygons, if each of them has an extent. -/
theorem C116_start {region : List (List (ℝ × ℝ))} (hne : region ≠ [])
    (hext : ∀ poly ∈ region, (∃ p ∈ poly, ∃ q ∈ poly, p.1 ≠ q.1) ∧ ∃ p ∈ poly, ∃ q ∈ poly, p.2 ≠ q.2) :
    ∃ b : BBox ℝ, b.IsLeast region.flatten ∧ ∀ epsilon r, Geocentroid region none epsilon r ↔ Geocentroid region (some b) epsilon r := by
  have key : ∀ (rest : List (List (ℝ × ℝ))) (ps : List (ℝ × ℝ)) (acc : Option (BBox ℝ)),
      (∀ poly ∈ rest, (∃ p ∈ poly, ∃ q ∈ poly, p.1 ≠ q.1) ∧ ∃ p ∈ poly, ∃ q ∈ poly, p.2 ≠ q.2) →
      (acc = none ∧ ps = [] ∨ ∃ b : BBox ℝ, acc = some b ∧ b.Proper ∧ (∀ q ∈ ps, b.Covers q) ∧ b.Tight ps) → (rest ≠ [] ∨ ps ≠ []) →
      ∃ b : BBox ℝ, rest.foldlM (fun bb poly => do
        let b ← BBox.ofPoints poly
        return orNone b bb) acc = .ok (some b) ∧ b.Proper ∧ (∀ q ∈ ps ++ rest.flatten, b.Covers q) ∧ b.Tight (ps ++ rest.flatten) := by
    intro rest
    induction rest with
    | nil =>
      intro ps acc _ hacc hn
      rcases hacc with ⟨-, h⟩ | ⟨b, rfl, h⟩
      · rcases hn with hn | hn
        · exact absurd rfl hn
        · exact absurd h hn
      · exact ⟨b, rfl, by simpa using h⟩
    | cons poly rest ih =>
      intro ps acc hx hacc _
      obtain ⟨⟨px, hpx, qx, hqx, hnx⟩, ⟨py, hpy, qy, hqy, hny⟩⟩ := hx poly (by simp)
      obtain ⟨b, hb, hw, hc, ht⟩ : ∃ b, BBox.ofPoints poly = .ok b ∧ b.WF ∧ (∀ q ∈ poly, b.Covers q) ∧ b.Tight poly := by
        cases poly with
        | nil => simp at hpx
        | cons p ps => exact BBox.ofPoints_spec p ps
      have hbp : b.Proper := by
        constructor
        · refine lt_of_le_of_ne hw.1 (fun e => hnx ?_)
          obtain ⟨a1, a2, -, -⟩ := hc px hpx
          obtain ⟨a3, a4, -, -⟩ := hc qx hqx
          rw [e] at a1 a3
          exact (le_antisymm a2 a1).trans (le_antisymm a4 a3).symm
        · refine lt_of_le_of_ne hw.2 (fun e => hny ?_)
          obtain ⟨-, -, a1, a2⟩ := hc py hpy
          obtain ⟨-, -, a3, a4⟩ := hc qy hqy
          rw [e] at a1 a3
          exact (le_antisymm a2 a1).trans (le_antisymm a4 a3).symm
      have hnext : ∃ b' : BBox ℝ, orNone b acc = some b' ∧ b'.Proper ∧ (∀ q ∈ ps ++ poly, b'.Covers q) ∧ b'.Tight (ps ++ poly) := by
        rcases hacc with ⟨rfl, rfl⟩ | ⟨o, rfl, hop, hoc, hot⟩
        · exact ⟨b, by simp [orNone, hbp.truthy], hbp, by simpa using hc, by simpa using ht⟩
        · refine ⟨_, by rw [orNone, BBox.union_proper hbp hop], ⟨?_, ?_⟩, ?_, ?_⟩
          · exact lt_of_le_of_lt (min_le_left _ _) (lt_of_lt_of_le hbp.1 (le_max_left _ _))
          · exact lt_of_le_of_lt (min_le_left _ _) (lt_of_lt_of_le hbp.2 (le_max_left _ _))
          · intro q hq
            rcases List.mem_append.mp hq with hq | hq
            · obtain ⟨a1, a2, a3, a4⟩ := hoc q hq
              exact ⟨le_trans (min_le_right _ _) a1, le_trans a2 (le_max_right _ _), le_trans (min_le_right _ _) a3, le_trans a4 (le_max_right _ _)⟩
            · obtain ⟨a1, a2, a3, a4⟩ := hc q hq
              exact ⟨le_trans (min_le_left _ _) a1, le_trans a2 (le_max_left _ _), le_trans (min_le_left _ _) a3, le_trans a4 (le_max_left _ _)⟩
          · obtain ⟨⟨p1, m1, e1⟩, ⟨p2, m2, e2⟩, ⟨p3, m3, e3⟩, ⟨p4, m4, e4⟩⟩ := ht
            obtain ⟨⟨q1, n1, f1⟩, ⟨q2, n2, f2⟩, ⟨q3, n3, f3⟩, ⟨q4, n4, f4⟩⟩ := hot
            refine ⟨?_, ?_, ?_, ?_⟩
            · rcases min_choice b.x0 o.x0 with hm | hm
              · exact ⟨p1, by simp [m1], by rw [e1]; exact hm.symm⟩
              · exact ⟨q1, by simp [n1], by rw [f1]; exact hm.symm⟩
            · rcases max_choice b.x1 o.x1 with hm | hm
              · exact ⟨p2, by simp [m2], by rw [e2]; exact hm.symm⟩
              · exact ⟨q2, by simp [n2], by rw [f2]; exact hm.symm⟩
            · rcases min_choice b.y0 o.y0 with hm | hm
              · exact ⟨p3, by simp [m3], by rw [e3]; exact hm.symm⟩
              · exact ⟨q3, by simp [n3], by rw [f3]; exact hm.symm⟩
            · rcases max_choice b.y1 o.y1 with hm | hm
              · exact ⟨p4, by simp [m4], by rw [e4]; exact hm.symm⟩
              · exact ⟨q4, by simp [n4], by rw [f4]; exact hm.symm⟩
      obtain ⟨b', g1, g2, g3, g4⟩ := hnext
      obtain ⟨c, k1, k2, k3, k4⟩ := ih (ps ++ poly) (orNone b acc) (fun q hq => hx q (by simp [hq])) (Or.inr ⟨b', g1, g2, g3, g4⟩)
        (Or.inr (by intro e; rw [List.append_eq_nil_iff] at e; rw [e.2] at hpx; simp at hpx))
      refine ⟨c, ?_, k2, ?_, ?_⟩
      · rw [List.foldlM_cons, hb]
        exact k1
      · simpa using k3
      · simpa using k4
  obtain ⟨b, h1, h2, h3, h4⟩ := key region [] none hext (Or.inl ⟨rfl, rfl⟩) (Or.inl hne)
  refine ⟨b, BBox.tight_least b _ (by simpa using h3) (by simpa using h4), fun epsilon r => ⟨fun h => ?_, fun h => ?_⟩⟩
  · have hbox : regionBox region = .ok (some b) := h1
    cases h with
    | given e _ => cases e
    | found _ e hl => rw [hbox] at e; injection e with e; injection e with e; subst e; exact .given rfl hl
    | empty _ e => rw [hbox] at e; cases e
    | raise _ e => rw [hbox] at e; cases e
  · cases h with
    | given e hl => injection e with e; subst e; exact .found rfl h1 hl
    | found e _ _ => cases e
    | empty e _ => cases e
    | raise e _ => cases e

/-- Cases: a triangle; and a square with a square hole off its centre (the hole turns the other way). -/
example : IsCentroid [[(0, 0), (3, 0), (0, 3)]] (1, 1) := by
  have := IsCentroid.triangle (a := (0, 0)) (b := (3, 0)) (c := (0, 3)) (by norm_num [triArea])
  norm_num at this
  exact this

example : IsCentroid [[(0, 0), (4, 0), (4, 4), (0, 4)], [(0, 0), (0, 2), (2, 2), (2, 0)]] (7 / 3, 7 / 3) := by
  intro o
  have : fanArea o [[(0, 0), (4, 0), (4, 4), (0, 4)], [(0, 0), (0, 2), (2, 2), (2, 0)]] = 12 := by
    simp [fanArea, sides, triArea]
    ring
  rw [this]
  refine ⟨by norm_num, ?_, ?_⟩ <;> simp [sides, triArea] <;> ring

end Geoc
end Coral
