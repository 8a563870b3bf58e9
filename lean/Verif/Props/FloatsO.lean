import Verif.Model.FloatsO
import Verif.Props.FloatsN
import Verif.Proofs.Conformal

/-!
# The transverse Mercator projection on floats (C182)
-/
namespace Coral
namespace Flt

/-! ### The area tangent -/

/-- The logarithm grows slowly above `a`. -/
theorem log_lip {a u v : ℝ} (ha : 0 < a) (hu : a ≤ u) (hv : a ≤ v) : |Real.log u - Real.log v| ≤ |u - v| / a := by
  have key : ∀ {u v : ℝ}, a ≤ u → a ≤ v → Real.log u - Real.log v ≤ |u - v| / a := by
    intro u v hu hv
    have u0 : 0 < u := by linarith
    have v0 : 0 < v := by linarith
    rw [← Real.log_div u0.ne' v0.ne']
    have h := Real.log_le_sub_one_of_pos (div_pos u0 v0)
    refine h.trans ?_
    rw [show u / v - 1 = (u - v) / v by field_simp]
    exact (div_le_div_of_nonneg_right (le_abs_self _) v0.le).trans (div_le_div_of_nonneg_left (abs_nonneg _) ha hv)
  have k1 := key hu hv
  have k2 := key hv hu
  rw [abs_sub_comm] at k2
  exact abs_le.mpr ⟨by linarith, k1⟩

theorem artanh_eq {x : ℝ} (h : |x| < 1) : Real.artanh x = (Real.log (1 + x) - Real.log (1 - x)) / 2 := by
  obtain ⟨h1, h2⟩ := abs_lt.mp h
  rw [Real.artanh_eq_half_log ⟨h1.le, h2.le⟩, Real.log_div (by linarith) (by linarith)]
  ring

theorem artanh_lip {a x y : ℝ} (ha : 0 < a) (hx : |x| ≤ 1 - a) (hy : |y| ≤ 1 - a) : |Real.artanh x - Real.artanh y| ≤ |x - y| / a := by
  obtain ⟨x1, x2⟩ := abs_le.mp hx
  obtain ⟨y1, y2⟩ := abs_le.mp hy
  rw [artanh_eq (by linarith), artanh_eq (by linarith)]
  have k1 := log_lip ha (u := 1 + x) (v := 1 + y) (by linarith) (by linarith)
  have k2 := log_lip ha (u := 1 - x) (v := 1 - y) (by linarith) (by linarith)
  rw [add_sub_add_left_eq_sub] at k1
  rw [sub_sub_sub_cancel_left, abs_sub_comm y x] at k2
  obtain ⟨a1, a2⟩ := abs_le.mp k1
  obtain ⟨b1, b2⟩ := abs_le.mp k2
  rw [abs_le]
  constructor <;> linarith

/-- The area tangent of a float does not exceed 19. -/
theorem artanh_abs {x : ℝ} (h : |x| ≤ 1 - w / 2) : |Real.artanh x| ≤ 19 := by
  have hw := w_pos
  have hle := w_tiny
  have key : ∀ {x : ℝ}, |x| ≤ 1 - w / 2 → Real.log (1 + x) - Real.log (1 - x) ≤ 38 := by
    intro x h
    obtain ⟨x1, x2⟩ := abs_le.mp h
    have l1 : Real.log (1 + x) ≤ Real.log 2 := Real.log_le_log (by linarith) (by linarith)
    have l2 : Real.log (w / 2) ≤ Real.log (1 - x) := Real.log_le_log (by linarith) (by linarith)
    have l3 : Real.log (w / 2) = -53 * Real.log 2 := by
      rw [show w / 2 = ((2 : ℝ) ^ 53)⁻¹ by rw [w_eq]; norm_num, Real.log_inv, Real.log_pow]
      push_cast
      ring
    have := Real.log_two_lt_d9
    linarith
  have k1 := key h
  have k2 := key (x := -x) (by rwa [abs_neg])
  rw [sub_neg_eq_add, ← sub_eq_add_neg] at k2
  rw [artanh_eq (by linarith), abs_le]
  constructor <;> linarith

/-- Floats below 1. -/
theorem below_one {b : ℚ} (hd : IsDouble b) (h : b < 1) : b ≤ 1 - 2 ^ (-53 : ℤ) := by
  rcases le_or_gt b (1 / 2) with h2 | h2
  · refine h2.trans ?_
    norm_num
  obtain ⟨m, e, hm, -, hje⟩ := hd
  obtain ⟨i, hi⟩ := double_grid (E := -53) hm hje (Or.inr (by rw [abs_of_pos (by linarith)]; norm_num; linarith))
  have p : (0 : ℚ) < 2 ^ (-53 : ℤ) := by positivity
  have e1 : (1 : ℚ) = (9007199254740992 : ℤ) * 2 ^ (-53 : ℤ) := by norm_num
  have lt : i < 9007199254740992 := by
    by_contra hc
    push Not at hc
    have hc' : ((9007199254740992 : ℤ) : ℚ) ≤ i := by exact_mod_cast hc
    have := mul_le_mul_of_nonneg_right hc' p.le
    rw [← hi, ← e1] at this
    linarith
  have le : (i : ℚ) ≤ (9007199254740992 : ℤ) - 1 := by
    have : i ≤ 9007199254740992 - 1 := by omega
    exact_mod_cast this
  have := mul_le_mul_of_nonneg_right le p.le
  rw [← hi, sub_mul, ← e1, one_mul] at this
  exact this

theorem inside {b : ℚ} (hd : IsDouble b) (h : |b| ≤ 1) (h1 : b ≠ -1) (h2 : b ≠ 1) : |(b : ℝ)| ≤ 1 - w / 2 := by
  obtain ⟨a1, a2⟩ := abs_le.mp h
  have k1 := below_one hd (lt_of_le_of_ne a2 h2)
  have k2 := below_one (double_neg hd) (by
    have := lt_of_le_of_ne a1 (Ne.symm h1)
    linarith)
  have k : |b| ≤ 1 - 2 ^ (-53 : ℤ) := abs_le.mpr ⟨by linarith, k1⟩
  have k' := (Rat.cast_le (K := ℝ)).mpr k
  push_cast at k'
  rw [show w / 2 = (2 : ℝ) ^ (-53 : ℤ) by rw [w_eq]; norm_num]
  exact k'

/-! ### The projection -/

theorem b_err {m : TransLib} (hm : m.Rounds) {lon0 lat0 r lon lat : ℚ} (l0 : |lon0| ≤ 360) (l1 : |lon| ≤ 360) (h : |lat| ≤ 90) :
    |((Transverse.init lon0 lat0 r).b m lon lat : ℝ) - Real.cos (rad lat) * Real.sin (rad lon - rad lon0)| ≤ 38 * w := by
  have l0' := abs_real l0
  have l1' := abs_real l1
  have h' := abs_real h
  push_cast at l0' l1' h'
  obtain ⟨c, c'⟩ := cos_err hm.base (radians_err (x := lat) (by linarith))
  obtain ⟨s, s'⟩ := sin_err hm.base (lon_err l0' l1')
  have := (mul_err c' s' (Real.abs_cos_le_one _) c s).1
  rw [Transverse.b, Transverse.init]
  exact this.trans (by linarith)

theorem b_abs {m : TransLib} (hm : m.Rounds) (p : Transverse) (lon lat : ℚ) : |p.b m lon lat| ≤ 1 := by
  have c := near_abs_one (hm.base.cos (radians lat)) (Real.abs_cos_le_one _)
  have s := near_abs_one (hm.base.sin (fl (radians lon - p.lon0))) (Real.abs_sin_le_one _)
  have : |(p.b m lon lat : ℝ)| ≤ 1 := by
    rw [Transverse.b]
    refine fl_abs_one ?_
    push_cast
    rw [abs_mul]
    exact mul_le_one₀ c (abs_nonneg _) s
  exact_mod_cast this

/-- The difference of angles that `corangle` gets. -/
theorem north_err {m : TransLib} (hm : m.Rounds) {lat0 : ℚ} (h0 : |lat0| ≤ 90) {t c : ℚ} {A e : ℝ} (hA : |(m.atan2 t c : ℝ) - A| ≤ e) (he : e ≤ 1 / 2) :
    |(fl (m.atan2 t c - radians lat0) : ℝ) - (A - rad lat0)| ≤ e + 14 * w ∧ |A - rad lat0| ≤ 6 := by
  have hw := w_pos
  have hle := w_tiny
  have h0' := abs_real h0
  push_cast at h0'
  have r0 := radians_err (x := lat0) (by linarith)
  have b0 := rad_abs h0'
  have a := atan2_range hm.base t c
  have a' : |(m.atan2 t c : ℝ)| ≤ piD := by exact_mod_cast a
  have p := piD_real
  have B : |A - rad lat0| ≤ 6 := by
    have q1 := abs_sub_abs_le_abs_sub A (m.atan2 t c : ℝ)
    rw [abs_sub_comm] at q1
    have q2 := abs_sub A (rad (lat0 : ℝ))
    linarith
  refine ⟨?_, B⟩
  have st : |((m.atan2 t c - radians lat0 : ℚ) : ℝ) - (A - rad lat0)| ≤ e + 9 * w := by
    push_cast
    rw [sub_sub_sub_comm]
    exact (abs_sub _ _).trans (by linarith)
  exact (fl_step st B (by linarith)).trans (by linarith)

theorem transverse_ends {m : TransLib} (hm : m.Rounds) {lon0 lat0 r lon lat v : ℚ}
    (hb1 : (Transverse.init lon0 lat0 r).b m lon lat ≠ -1) (hb2 : (Transverse.init lon0 lat0 r).b m lon lat ≠ 1)
    (hv : CorangleEnds (fl (m.atan2 (m.tan (radians lat)) (m.cos (fl (radians lon - radians lon0))) - radians lat0)) v)
    (hu : ∀ v', CorangleEnds (fl (m.atan2 (m.tan (radians lat)) (m.cos (fl (radians lon - radians lon0))) - radians lat0)) v' → v' = v) (res : Py (ℚ × ℚ)) :
    (Transverse.init lon0 lat0 r).Geo2rect m lon lat res ↔ res = .ok (fl (r * m.atanh ((Transverse.init lon0 lat0 r).b m lon lat)), fl (r * v)) := by
  obtain ⟨a1, a2⟩ := abs_le.mp (b_abs hm (Transverse.init lon0 lat0 r) lon lat)
  have e : m.pyAtanh ((Transverse.init lon0 lat0 r).b m lon lat) = .ok (m.atanh ((Transverse.init lon0 lat0 r).b m lon lat)) := by
    rw [TransLib.pyAtanh, if_neg]
    push Not
    exact ⟨lt_of_le_of_ne a1 (Ne.symm hb1), lt_of_le_of_ne a2 hb2⟩
  rw [Transverse.Geo2rect, if_neg (by rintro (h | h) <;> contradiction), e]
  constructor
  · rintro ⟨v', q1, q2⟩
    rw [hu v' q1] at q2
    exact q2
  · rintro rfl
    exact ⟨v, hv, rfl⟩

theorem scaled_abs {r l : ℚ} {B : ℝ} (hr : 1 ≤ r) (h : |(l : ℝ)| ≤ B) : |(fl (r * l) : ℝ)| ≤ r * (B + (B + 2) * (w / 2)) := by
  have hr' : (1 : ℝ) ≤ r := by exact_mod_cast hr
  have s := scaled hr (l := l) (L := l) (e := 0) (by simp) h (by norm_num)
  have t := abs_sub_abs_le_abs_sub (fl (r * l) : ℝ) (r * l)
  rw [abs_mul, abs_of_nonneg (by linarith : (0 : ℝ) ≤ r)] at t
  have := mul_le_mul_of_nonneg_left h (by linarith : (0 : ℝ) ≤ r)
  nlinarith

/-- C182: every position is projected, or refused with `ProjectionError`; no other exception is raised, and the map has a finite width. -/
theorem C182_returns (m : TransLib) (hm : m.Rounds) (lon0 lat0 r lon lat : ℚ) (h0 : |lat0| ≤ 90) (hr : 1 ≤ r) :
    ∃ res, (∀ res', (Transverse.init lon0 lat0 r).Geo2rect m lon lat res' ↔ res' = res) ∧
      (res = .error .projectionError ∨ ∃ x y, res = .ok (x, y) ∧ |x| ≤ 20 * r ∧ |y| ≤ 4 * r) := by
  have hw := w_pos
  have hle := w_tiny
  have hr' : (1 : ℝ) ≤ r := by exact_mod_cast hr
  by_cases hb : (Transverse.init lon0 lat0 r).b m lon lat = -1 ∨ (Transverse.init lon0 lat0 r).b m lon lat = 1
  · refine ⟨.error .projectionError, fun res' => ?_, Or.inl rfl⟩
    rw [Transverse.Geo2rect, if_pos hb]
  push Not at hb
  obtain ⟨n1, n2⟩ := north_err hm h0 (t := m.tan (radians lat)) (c := m.cos (fl (radians lon - radians lon0))) (e := 0) (A := _) (by rw [sub_self, abs_zero]) (by norm_num)
  obtain ⟨v, hv, hu, hvp, -⟩ := corangle_any n1 (n2.trans (by norm_num)) (by linarith)
  refine ⟨_, transverse_ends hm hb.1 hb.2 hv hu, Or.inr ⟨_, _, rfl, ?_, ?_⟩⟩
  · have ab := b_abs hm (Transverse.init lon0 lat0 r) lon lat
    have ins := inside (b := (Transverse.init lon0 lat0 r).b m lon lat) (fl_double _) ab hb.1 hb.2
    obtain ⟨a1, a2⟩ := abs_le.mp ab
    have ar := artanh_abs ins
    have ne := near_step (hm.atanh _ (lt_of_le_of_ne a1 (Ne.symm hb.1)) (lt_of_le_of_ne a2 hb.2)) (e := 0) (by rw [sub_self, abs_zero]) ar (by norm_num)
    have na : |(m.atanh ((Transverse.init lon0 lat0 r).b m lon lat) : ℝ)| ≤ 19.5 := by
      have := abs_sub_abs_le_abs_sub (m.atanh ((Transverse.init lon0 lat0 r).b m lon lat) : ℝ) (Real.artanh ((Transverse.init lon0 lat0 r).b m lon lat))
      linarith
    have s := scaled_abs hr na
    have : |(fl (r * m.atanh ((Transverse.init lon0 lat0 r).b m lon lat)) : ℝ)| ≤ 20 * r := by
      refine s.trans ?_
      rw [mul_comm]
      exact mul_le_mul_of_nonneg_right (by linarith) (by linarith)
    exact_mod_cast this
  · have v' : |(v : ℝ)| ≤ piD := by exact_mod_cast hvp
    have s := scaled_abs hr (v'.trans piD_real)
    have : |(fl (r * v) : ℝ)| ≤ 4 * r := by
      refine s.trans ?_
      rw [mul_comm]
      exact mul_le_mul_of_nonneg_right (by linarith) (by linarith)
    exact_mod_cast this

/-- C182: only positions within 64 · 2⁻⁵² of the two points that have no image are refused. -/
theorem C182_refused (m : TransLib) (hm : m.Rounds) (lon0 lat0 r lon lat : ℚ) (l0 : |lon0| ≤ 360) (l1 : |lon| ≤ 360) (h : |lat| ≤ 90)
    (hg : (Transverse.init lon0 lat0 r).Geo2rect m lon lat (.error .projectionError)) :
    1 - 2 ^ (-46 : ℤ) ≤ |Real.cos (rad lat) * Real.sin (rad lon - rad lon0)| := by
  have hw := w_pos
  have e := b_err hm (lat0 := lat0) (r := r) l0 l1 h
  have hb : (Transverse.init lon0 lat0 r).b m lon lat = -1 ∨ (Transverse.init lon0 lat0 r).b m lon lat = 1 := by
    by_contra hc
    rw [Transverse.Geo2rect, if_neg hc] at hg
    obtain ⟨v, -, hv⟩ := hg
    push Not at hc
    obtain ⟨a1, a2⟩ := abs_le.mp (b_abs hm (Transverse.init lon0 lat0 r) lon lat)
    rw [TransLib.pyAtanh, if_neg] at hv
    · cases hv
    · push Not
      exact ⟨lt_of_le_of_ne a1 (Ne.symm hc.1), lt_of_le_of_ne a2 hc.2⟩
  have one : |((Transverse.init lon0 lat0 r).b m lon lat : ℝ)| = 1 := by
    rcases hb with hb | hb <;> rw [hb] <;> norm_num
  have := abs_sub_abs_le_abs_sub ((Transverse.init lon0 lat0 r).b m lon lat : ℝ) (Real.cos (rad lat) * Real.sin (rad lon - rad lon0))
  rw [show (2 : ℝ) ^ (-46 : ℤ) = 64 * w by rw [w_eq]; norm_num]
  linarith

/-- C182: the points on the equator 90 degrees east and west of the central meridian 0 are refused. -/
theorem C182_edge (m : TransLib) (hm : m.Rounds) (lat0 r : ℚ) (res : Py (ℚ × ℚ)) :
    ((Transverse.init 0 lat0 r).Geo2rect m 90 0 res ↔ res = .error .projectionError) ∧
      ((Transverse.init 0 lat0 r).Geo2rect m (-90) 0 res ↔ res = .error .projectionError) := by
  have s := sin_right hm.base
  have s' : m.sin (-(piD / 2)) = -1 := by
    have n := hm.base.sin (-(piD / 2))
    have n' := nearest_neg' n
    have e : -Real.sin ((-(piD / 2) : ℚ) : ℝ) = Real.sin ((piD / 2 : ℚ) : ℝ) := by
      push_cast
      rw [Real.sin_neg, neg_neg]
    rw [e] at n'
    have k := near_le n' double_one (by
      push_cast
      exact Real.sin_le_one _)
    have base := hm.base.sin (piD / 2)
    rw [s] at base
    have l1 := n'.2 1 double_one
    have l2 : -m.sin (-(piD / 2)) = 1 := by
      by_contra hc
      have b := below_one n'.1 (lt_of_le_of_ne k hc)
      have b' : ((-m.sin (-(piD / 2)) : ℚ) : ℝ) ≤ 1 - w / 2 := by
        have := (Rat.cast_le (K := ℝ)).mpr b
        rw [show w / 2 = (2 : ℝ) ^ (-53 : ℤ) by rw [w_eq]; norm_num]
        push_cast at this ⊢
        exact this
      have c := Real.one_sub_sq_div_two_le_cos (x := Real.pi / 2 - ((piD / 2 : ℚ) : ℝ))
      rw [Real.cos_pi_div_two_sub] at c
      have d := abs_le.mp piD_err
      have hw := w_pos
      have hle := w_tiny
      have sm : (Real.pi / 2 - ((piD / 2 : ℚ) : ℝ)) ^ 2 ≤ w / 8 := by
        push_cast
        have : |Real.pi / 2 - (piD : ℝ) / 2| ≤ w := abs_le.mpr ⟨by linarith, by linarith⟩
        calc (Real.pi / 2 - (piD : ℝ) / 2) ^ 2 = |Real.pi / 2 - (piD : ℝ) / 2| ^ 2 := (sq_abs _).symm
          _ ≤ w ^ 2 := pow_le_pow_left₀ (abs_nonneg _) this 2
          _ ≤ w / 8 := by nlinarith
      have one := Real.sin_le_one ((piD / 2 : ℚ) : ℝ)
      have f1 : |((1 : ℚ) : ℝ) - Real.sin ((piD / 2 : ℚ) : ℝ)| ≤ w / 16 := by
        push_cast at *
        rw [abs_of_nonneg (by linarith)]
        linarith
      have f2 := (neg_abs_le (((-m.sin (-(piD / 2)) : ℚ) : ℝ) - Real.sin ((piD / 2 : ℚ) : ℝ)))
      linarith
    linarith
  have e1 : fl (radians 90 - radians 0) = piD / 2 := by decide +kernel
  have e2 : fl (radians (-90) - radians 0) = -(piD / 2) := by decide +kernel
  constructor
  · rw [Transverse.Geo2rect, if_pos]
    right
    rw [Transverse.b, Transverse.init]
    simp only
    rw [e1, s, radians_zero, cos_zero hm.base, mul_one, fl_id double_one]
  · rw [Transverse.Geo2rect, if_pos]
    left
    rw [Transverse.b, Transverse.init]
    simp only
    rw [e2, s', radians_zero, cos_zero hm.base, one_mul, fl_id (double_neg double_one)]

/-- The tangent of a latitude. -/
theorem tan_err {m : TransLib} (hm : m.Rounds) {lat : ℚ} (h : |lat| ≤ 89) : |(m.tan (radians lat) : ℝ) - Real.tan (rad lat)| ≤ 74000 * w := by
  have hw := w_pos
  have hle := w_tiny
  have h' := abs_real h
  push_cast at h'
  have r := radians_err (x := lat) (by linarith)
  have c := cos_lat_large h'
  have c' : 1 / 91 ≤ Real.cos (radians lat) := by
    have := Real.abs_cos_sub_cos_le (radians lat : ℝ) (rad lat)
    have := (abs_le.mp (this.trans r)).1
    linarith
  have t : |Real.tan (radians lat) - Real.tan (rad lat)| ≤ 73710 * w := by
    have e : Real.tan (radians lat) - Real.tan (rad lat) = Real.sin (radians lat - rad lat) / (Real.cos (radians lat) * Real.cos (rad lat)) := by
      rw [Real.tan_eq_sin_div_cos, Real.tan_eq_sin_div_cos, Real.sin_sub]
      have : Real.cos (radians lat : ℝ) ≠ 0 := by linarith
      have : Real.cos (rad (lat : ℝ)) ≠ 0 := by linarith
      field_simp
    have cc : 1 / 8190 ≤ Real.cos (radians lat) * Real.cos (rad lat) := by
      have := mul_le_mul c' c (by norm_num) (by linarith)
      linarith
    rw [e, abs_div, abs_of_pos (by linarith : 0 < Real.cos (radians lat) * Real.cos (rad lat)), div_le_iff₀ (by linarith)]
    have s := Real.abs_sin_sub_sin_le ((radians lat : ℝ) - rad lat) 0
    rw [Real.sin_zero, sub_zero, sub_zero] at s
    replace s := s.trans r
    have := mul_le_mul_of_nonneg_left cc (by linarith : 0 ≤ 73710 * w)
    linarith
  have B : |Real.tan (rad lat)| ≤ 90 := by
    rw [Real.tan_eq_sin_div_cos, abs_div, abs_of_pos (by linarith : 0 < Real.cos (rad (lat : ℝ))), div_le_iff₀ (by linarith)]
    have := Real.abs_sin_le_one (rad (lat : ℝ))
    linarith
  exact (near_step (hm.tan _) t B (by linarith)).trans (by linarith)

/-- C182: away from the edge and from the poles the abscissa is right up to 2⁻³⁹ radii and the ordinate, up to whole turns, up to 2⁻³⁰ radii. -/
theorem C182_close (m : TransLib) (hm : m.Rounds) (lon0 lat0 r lon lat : ℚ) (l0 : |lon0| ≤ 360) (l1 : |lon| ≤ 360) (h0 : |lat0| ≤ 90) (hr : 1 ≤ r) (h : |lat| ≤ 89)
    (hB : |Real.cos (rad lat) * Real.sin (rad lon - rad lon0)| ≤ 99 / 100) :
    ∃ x y X Y, (∀ res, (Transverse.init lon0 lat0 r).Geo2rect m lon lat res ↔ res = .ok (x, y)) ∧
      Proj.TransMercator.geo2rect (Proj.Sphere.new (some ((lon0 : ℝ), (lat0 : ℝ))) (some (r : ℝ))) lon lat = .ok (X, Y) ∧
      |(x : ℝ) - X| ≤ r * 2 ^ (-39 : ℤ) ∧ ∃ k : ℤ, |(y : ℝ) - (Y + 2 * Real.pi * r * k)| ≤ r * 2 ^ (-30 : ℤ) := by
  have hw := w_pos
  have hle := w_tiny
  have hr' : (1 : ℝ) ≤ r := by exact_mod_cast hr
  have l0' := abs_real l0
  have l1' := abs_real l1
  have h' := abs_real h
  push_cast at l0' l1' h'
  have be := b_err hm (lat0 := lat0) (r := r) l0 l1 (h.trans (by norm_num))
  obtain ⟨B, hBe⟩ : ∃ B, B = Real.cos (rad lat) * Real.sin (rad lon - rad lon0) := ⟨_, rfl⟩
  rw [← hBe] at be hB
  obtain ⟨b, hb⟩ : ∃ b, b = (Transverse.init lon0 lat0 r).b m lon lat := ⟨_, rfl⟩
  rw [← hb] at be
  have b99 : |(b : ℝ)| ≤ 1 - 9 / 1000 := by
    have := abs_sub_abs_le_abs_sub (b : ℝ) B
    linarith
  have blt : |b| < 1 := by
    have : |(b : ℝ)| < 1 := by linarith
    exact_mod_cast this
  obtain ⟨bl, bu⟩ := abs_lt.mp blt
  -- the direction
  have te := tan_err hm h
  obtain ⟨ce, -⟩ := cos_err hm.base (lon_err l0' l1')
  have n : (14 / 100 : ℝ) ^ 2 ≤ Real.cos (rad lon - rad lon0) ^ 2 + Real.tan (rad lat) ^ 2 := by
    have c := cos_lat_large h'
    have c0 : Real.cos (rad (lat : ℝ)) ≠ 0 := by linarith
    have id : (Real.cos (rad lon - rad lon0) ^ 2 + Real.tan (rad lat) ^ 2) * Real.cos (rad lat) ^ 2 = 1 - B ^ 2 := by
      rw [hBe, Real.tan_eq_sin_div_cos, div_pow, add_mul, div_mul_cancel₀ _ (pow_ne_zero 2 c0), mul_pow]
      have e1 := Real.sin_sq_add_cos_sq (rad (lat : ℝ))
      have e2 := Real.sin_sq_add_cos_sq (rad (lon : ℝ) - rad lon0)
      linear_combination e1 + Real.cos (rad (lat : ℝ)) ^ 2 * e2
    have B2 : B ^ 2 ≤ (99 / 100) ^ 2 := by
      rw [← sq_abs B]
      exact pow_le_pow_left₀ (abs_nonneg _) hB 2
    have c1 : Real.cos (rad (lat : ℝ)) ^ 2 ≤ 1 := Real.cos_sq_le_one _
    have nn : 0 ≤ Real.cos (rad (lon : ℝ) - rad lon0) ^ 2 + Real.tan (rad (lat : ℝ)) ^ 2 := by positivity
    have := mul_le_of_le_one_right nn c1
    norm_num at B2 ⊢
    linarith
  obtain ⟨k, hk⟩ := atan2_err hm.base (by norm_num) n ce te (by linarith)
  have hk' := hk.trans (by linarith : _ ≤ 1060000 * w)
  obtain ⟨n1, n2⟩ := north_err hm h0 hk' (by linarith)
  obtain ⟨v, hv, hu, hvp, j, hj⟩ := corangle_any n1 (n2.trans (by norm_num)) (by linarith)
  have ex := Proj.TransMercator.geo2rect_eq (Proj.Sphere.new (some ((lon0 : ℝ), (lat0 : ℝ))) (some (r : ℝ))) lon (lat := lat) (by linarith) (by
    show |Real.cos (rad lat) * Real.sin (rad lon - rad lon0)| < 1
    rw [← hBe]
    linarith)
  refine ⟨_, _, _, _, transverse_ends hm (by rw [← hb]; exact ne_of_gt bl) (by rw [← hb]; exact ne_of_lt bu) hv hu, ex, ?_, ?_⟩
  · show |_ - (r : ℝ) * Real.artanh (Real.cos (rad lat) * Real.sin (rad lon - rad lon0))| ≤ _
    rw [← hb, ← hBe]
    have lip := artanh_lip (a := 9 / 1000) (by norm_num) b99 (hB.trans (by norm_num))
    have lip' : |Real.artanh b - Real.artanh B| ≤ 4223 * w := by
      refine lip.trans ?_
      rw [div_le_iff₀ (by norm_num)]
      linarith
    have AB := artanh_abs (x := B) (by linarith)
    have ne := near_step (hm.atanh b bl bu) lip' AB (by linarith)
    have s := scaled hr ne AB (by linarith)
    refine s.trans (mul_le_mul_of_nonneg_left ?_ (by linarith))
    rw [show (2 : ℝ) ^ (-39 : ℤ) = 8192 * w by rw [w_eq]; norm_num]
    linarith
  · obtain ⟨i, hi⟩ := Proj.corangle_turns (Coral.atan2 (Real.tan (rad lat)) (Real.cos (rad lon - rad lon0)) - rad lat0)
    refine ⟨k + j - i, ?_⟩
    show |_ - ((r : ℝ) * Proj.corangle (Coral.atan2 (Real.tan (rad lat)) (Real.cos (rad lon - rad lon0)) - rad lat0) + 2 * Real.pi * r * ((k + j - i : ℤ) : ℝ))| ≤ _
    rw [hi]
    obtain ⟨L, hL⟩ : ∃ L, L = Coral.atan2 (Real.tan (rad lat)) (Real.cos (rad lon - rad lon0)) + 2 * Real.pi * k - rad lat0 + 2 * Real.pi * j := ⟨_, rfl⟩
    rw [← hL] at hj
    have e : (r : ℝ) * (Coral.atan2 (Real.tan (rad lat)) (Real.cos (rad lon - rad lon0)) - rad lat0 + 2 * Real.pi * i) + 2 * Real.pi * r * ((k + j - i : ℤ) : ℝ) = r * L := by
      rw [hL]
      push_cast
      ring
    rw [e]
    have v' : |(v : ℝ)| ≤ piD := by exact_mod_cast hvp
    have p := piD_real
    have LB : |L| ≤ 4 := by
      have := abs_sub_abs_le_abs_sub L v
      rw [abs_sub_comm] at this
      linarith
    have s := scaled hr hj LB (by linarith)
    refine s.trans (mul_le_mul_of_nonneg_left ?_ (by linarith))
    rw [show (2 : ℝ) ^ (-30 : ℤ) = 4194304 * w by rw [w_eq]; norm_num]
    linarith

/-! ### Back -/

/-- Numbers up to π/2 are rounded to floats up to `math.pi / 2`. -/
theorem right_range {t : ℝ} {r : ℚ} (hr : Nearest t r) (ht : |t| ≤ Real.pi / 2) : |r| ≤ piD / 2 := by
  have hd : IsDouble (piD / 2) := ⟨7074237752028440, -52, by norm_num, by norm_num, by rw [piD]; norm_num⟩
  have key : ∀ {t : ℝ} {r : ℚ}, Nearest t r → |t| ≤ Real.pi / 2 → r ≤ piD / 2 := by
    intro t r hr ht
    by_contra hc
    push Not at hc
    obtain ⟨m, e, hm, he, hre⟩ := hr.1
    have p3 := piD_bounds.1
    obtain ⟨i, hi⟩ := double_grid (E := -52) hm hre (Or.inr (by rw [abs_of_pos (by linarith)]; norm_num; linarith))
    have hp : piD / 2 = (7074237752028440 : ℤ) * 2 ^ (-52 : ℤ) := by rw [piD]; norm_num
    have hpos : (0 : ℚ) < 2 ^ (-52 : ℤ) := by positivity
    have lt : (7074237752028440 : ℤ) < i := by
      by_contra h
      push Not at h
      have h' : (i : ℚ) ≤ (7074237752028440 : ℤ) := by exact_mod_cast h
      have := mul_le_mul_of_nonneg_right h' hpos.le
      rw [← hi, ← hp] at this
      linarith
    have le : ((7074237752028440 : ℤ) : ℚ) + 1 ≤ i := by exact_mod_cast lt
    have gap := mul_le_mul_of_nonneg_right le hpos.le
    rw [← hi, add_mul, ← hp, one_mul] at gap
    have gap' : ((piD / 2 + 2 ^ (-52 : ℤ) : ℚ) : ℝ) ≤ r := Rat.cast_le.mpr gap
    push_cast at gap'
    have e52 : (2 : ℝ) ^ (-52 : ℤ) = w := by rw [w_eq]; norm_num
    rw [e52] at gap'
    have near := hr.2 _ hd
    push_cast at near
    have ht' := (abs_le.mp ht).2
    have hw := w_pos
    have lo : (r : ℝ) - t ≤ |(piD : ℝ) / 2 - t| := (le_abs_self _).trans near
    have small : Real.pi - piD < w := by
      have h1 := Real.pi_lt_d20
      rw [w_eq, piD]
      push_cast
      norm_num at h1 ⊢
      linarith
    rcases le_total ((piD : ℝ) / 2) t with h | h
    · rw [abs_of_nonpos (by linarith)] at lo
      linarith
    · rw [abs_of_nonneg (by linarith)] at lo
      linarith
  rw [abs_le]
  refine ⟨?_, key hr ht⟩
  have := key (nearest_neg' hr) (by rwa [abs_neg])
  linarith

theorem quarter_turn : fl (piD / 2 * perRadian) = 90 := by decide +kernel

theorem degrees_right {v : ℚ} (h : |v| ≤ piD / 2) : |degrees v| ≤ 90 := by
  obtain ⟨h0, h1⟩ := abs_le.mp h
  have c : 0 ≤ perRadian := by rw [perRadian_eq]; norm_num
  have a := fl_mono (mul_le_mul_of_nonneg_right h1 c)
  have b := fl_mono (mul_le_mul_of_nonneg_right h0 c)
  rw [neg_mul, fl_neg, quarter_turn] at b
  rw [quarter_turn] at a
  exact abs_le.mpr ⟨b, a⟩

/-- C182: all points of the plane are taken to a position on the globe. -/
theorem C182_back_returns (m : TransLib) (hm : m.Rounds) (lon0 lat0 r x y : ℚ) (hr : r ≠ 0) :
    ∃ lon lat, (Transverse.init lon0 lat0 r).rect2geo m x y = .ok (lon, lat) ∧ |lat| ≤ 90 := by
  have ch : ∀ a : ℚ, 1 ≤ m.cosh a := fun a => le_near (hm.cosh a) double_one (by
    push_cast
    exact Real.one_le_cosh _)
  obtain ⟨d, hd⟩ : ∃ d, d = fl (fl (y / r) + radians lat0) := ⟨_, rfl⟩
  obtain ⟨c, hc⟩ : ∃ c, c = m.cosh (fl (x / r)) := ⟨_, rfl⟩
  have c1 : 1 ≤ c := hc ▸ ch _
  have s1 : |m.sin d| ≤ 1 := by
    have := near_abs_one (hm.base.sin d) (Real.abs_sin_le_one _)
    exact_mod_cast this
  have q1 : |(fl (m.sin d / c) : ℝ)| ≤ 1 := by
    refine fl_abs_one ?_
    have : |m.sin d / c| ≤ 1 := by
      rw [abs_div, abs_of_pos (a := c) (by linarith), div_le_one (by linarith)]
      linarith
    exact_mod_cast this
  have q1' : |fl (m.sin d / c)| ≤ 1 := by exact_mod_cast q1
  obtain ⟨qa, qb⟩ := abs_le.mp q1'
  have as := hm.asin _ qa qb
  refine ⟨degrees (fl (radians lon0 + m.atan2 (m.sinh (fl (x / r))) (m.cos d))), degrees (m.asin (fl (m.sin d / c))), ?_, ?_⟩
  · rw [Transverse.rect2geo, Transverse.init]
    simp only
    rw [div_ok hr, div_ok hr]
    change (do
      let q ← div (m.sin (fl (fl (y / r) + radians lat0))) (m.cosh (fl (x / r)))
      let lat ← pyAsin m.asin q
      return (degrees (fl (radians lon0 + m.atan2 (m.sinh (fl (x / r))) (m.cos (fl (fl (y / r) + radians lat0))))), degrees lat) : Py (ℚ × ℚ)) = _
    rw [← hd, ← hc, div_ok (by linarith)]
    change (do
      let lat ← pyAsin m.asin (fl (m.sin d / c))
      return (degrees (fl (radians lon0 + m.atan2 (m.sinh (fl (x / r))) (m.cos d))), degrees lat) : Py (ℚ × ℚ)) = _
    rw [pyAsin, if_neg (by push Not; exact ⟨qa, qb⟩)]
    rfl
  · refine degrees_right (right_range as ?_)
    exact abs_le.mpr ⟨Real.neg_pi_div_two_le_arcsin _, Real.arcsin_le_pi_div_two _⟩

/-! ### Cases -/

/-- There is a correctly rounded library. -/
theorem exists_transverse_rounds : ∃ m : TransLib, m.Rounds := by
  obtain ⟨b, hb⟩ := exists_rounds
  obtain ⟨a, ha⟩ := exists_asin
  choose f hf using exists_near
  exact ⟨⟨b, fun x => f (Real.tan x), a, fun x => f (Real.sinh x), fun x => f (Real.cosh x), fun x => f (Real.artanh x)⟩,
    ⟨hb, fun x => hf _, ha, fun x => hf _, fun x => hf _, fun x _ _ => hf _⟩⟩

/-- Twenty degrees east of the central meridian. -/
example (m : TransLib) (hm : m.Rounds) : ∃ x y, (Transverse.init 30 0 6367000).Geo2rect m 50 45 (.ok (x, y)) := by
  obtain ⟨x, y, -, -, h, -⟩ := C182_close m hm 30 0 6367000 50 45 (by norm_num) (by norm_num) (by norm_num) (by norm_num) (by norm_num) (by
    rw [abs_mul, ← rad_sub]
    have c := Real.abs_cos_le_one (rad ((45 : ℚ) : ℝ))
    have s := Real.abs_sin_sub_sin_le (rad ((50 : ℚ) : ℝ) - rad ((30 : ℚ) : ℝ)) 0
    rw [Real.sin_zero, sub_zero, sub_zero, ← rad_sub] at s
    have t := rad_abs (x := ((50 : ℚ) : ℝ) - ((30 : ℚ) : ℝ)) (k := 20) (by norm_num)
    have := mul_le_mul c (s.trans t) (abs_nonneg _) (by norm_num)
    linarith)
  exact ⟨x, y, (h _).mpr rfl⟩

end Flt
end Coral
