import Verif.Model.FloatsM
import Verif.Props.FloatsE
import Verif.Props.FloatsU
import Verif.Proofs.Mercator
import Mathlib.Analysis.Calculus.MeanValue
import Mathlib.Analysis.Complex.ExponentialBounds
import Mathlib.Analysis.SpecialFunctions.Trigonometric.DerivHyp
import Mathlib.Analysis.SpecialFunctions.Trigonometric.ArctanDeriv
import Mathlib.Analysis.SpecialFunctions.Trigonometric.Bounds
import Mathlib.Analysis.SpecialFunctions.Log.Deriv

/-!
# The Mercator projection on floats (C178)
-/
namespace Coral
namespace Flt

/-- A correctly rounded library exists. -/
theorem exists_mercator_rounds : ∃ m : MercLib, m.Rounds := by
  choose f hf using exists_near
  exact ⟨⟨fun x => f (Real.tan x), fun x => f (Real.log x), fun x => f (Real.sinh x), fun x => f (Real.arctan x)⟩,
    fun _ => hf _, fun _ _ => hf _, fun _ => hf _, fun _ => hf _⟩

/-! ### Real functions -/

theorem sin_double_lower {a t : ℝ} (ha : 0 ≤ a) (h0 : a ≤ t) (h1 : t ≤ Real.pi / 2 - a) : 4 * a / Real.pi ≤ Real.sin (2 * t) := by
  have hp := Real.pi_pos
  have key : ∀ s, 2 * a ≤ s → s ≤ Real.pi / 2 → 4 * a / Real.pi ≤ Real.sin s := by
    intro s hs hs'
    refine le_trans ?_ (Real.mul_le_sin (by linarith) hs')
    rw [div_mul_eq_mul_div]
    exact div_le_div_of_nonneg_right (by linarith) hp.le
  rcases le_total (2 * t) (Real.pi / 2) with h | h
  · exact key _ (by linarith) h
  · rw [← Real.sin_pi_sub]
    exact key _ (by linarith) (by linarith)

/-- The logarithm of the tangent does not change faster than this. -/
theorem log_tan_lip {a u v : ℝ} (ha : 0 < a) (hu : a ≤ u) (hu' : u ≤ Real.pi / 2 - a) (hv : a ≤ v) (hv' : v ≤ Real.pi / 2 - a) :
    |Real.log (Real.tan u) - Real.log (Real.tan v)| ≤ Real.pi / (2 * a) * |u - v| := by
  have hp := Real.pi_pos
  have der : ∀ t ∈ Set.Icc a (Real.pi / 2 - a), HasDerivWithinAt (fun t => Real.log (Real.tan t)) (2 / Real.sin (2 * t)) (Set.Icc a (Real.pi / 2 - a)) t := by
    rintro t ⟨h0, h1⟩
    have hc : 0 < Real.cos t := Real.cos_pos_of_mem_Ioo ⟨by linarith, by linarith⟩
    have hs : 0 < Real.sin t := Real.sin_pos_of_pos_of_lt_pi (by linarith) (by linarith)
    have ht : Real.tan t ≠ 0 := by rw [Real.tan_eq_sin_div_cos]; positivity
    have := ((Real.hasDerivAt_tan hc.ne').log ht).hasDerivWithinAt (s := Set.Icc a (Real.pi / 2 - a))
    have e : 2 / Real.sin (2 * t) = 1 / Real.cos t ^ 2 / Real.tan t := by
      rw [Real.tan_eq_sin_div_cos, Real.sin_two_mul]
      field_simp
    rw [e]
    exact this
  have bound : ∀ t ∈ Set.Icc a (Real.pi / 2 - a), ‖2 / Real.sin (2 * t)‖ ≤ Real.pi / (2 * a) := by
    rintro t ⟨h0, h1⟩
    have := sin_double_lower ha.le h0 h1
    have h4 : 0 < 4 * a / Real.pi := by positivity
    rw [Real.norm_eq_abs, abs_of_nonneg (div_nonneg (by norm_num) (h4.le.trans this))]
    refine (div_le_div_of_nonneg_left (by norm_num) h4 this).trans (le_of_eq ?_)
    field_simp
    norm_num
  have := (convex_Icc a (Real.pi / 2 - a)).norm_image_sub_le_of_norm_hasDerivWithin_le der bound ⟨hv, hv'⟩ ⟨hu, hu'⟩
  simpa [Real.norm_eq_abs] using this

theorem arctan_lip (a b : ℝ) : |Real.arctan a - Real.arctan b| ≤ |a - b| := by
  have := convex_univ.norm_image_sub_le_of_norm_hasDerivWithin_le (f := Real.arctan) (f' := fun t => 1 / (1 + t ^ 2)) (s := Set.univ) (C := 1) (x := b) (y := a)
    (fun t _ => (Real.hasDerivAt_arctan t).hasDerivWithinAt) (fun t _ => by
      rw [Real.norm_eq_abs, abs_of_nonneg (by positivity), div_le_one (by positivity)]
      nlinarith [sq_nonneg t]) trivial trivial
  simpa [Real.norm_eq_abs] using this

/-- The inverse of the projection does not magnify errors. -/
theorem gd_lip (a b : ℝ) : |Real.arctan (Real.sinh a) - Real.arctan (Real.sinh b)| ≤ |a - b| := by
  have := convex_univ.norm_image_sub_le_of_norm_hasDerivWithin_le (f := fun t => Real.arctan (Real.sinh t)) (f' := fun t => 1 / (1 + Real.sinh t ^ 2) * Real.cosh t)
    (s := Set.univ) (C := 1) (x := b) (y := a)
    (fun t _ => ((Real.hasDerivAt_sinh t).arctan).hasDerivWithinAt) (fun t _ => by
      have h1 := Real.one_le_cosh t
      rw [← Real.cosh_sq', Real.norm_eq_abs, abs_of_nonneg (by positivity)]
      rw [div_mul_eq_mul_div, one_mul, div_le_one (by positivity)]
      nlinarith) trivial trivial
  simpa [Real.norm_eq_abs] using this

/-! ### Steps of a calculation -/

theorem fl_step {x : ℚ} {X e B : ℝ} (h : |(x : ℝ) - X| ≤ e) (hB : |X| ≤ B) (he : e ≤ 1) : |(fl x : ℝ) - X| ≤ e + (B + 2) * (w / 2) := by
  have hw := w_pos
  have a := fl_err_real x
  have b := abs_sub_le (fl x : ℝ) x X
  have c : |(x : ℝ)| ≤ B + 1 := by
    have := abs_sub_abs_le_abs_sub (x : ℝ) X
    linarith
  have d := mul_le_mul_of_nonneg_right c (by linarith : (0 : ℝ) ≤ w / 2)
  linarith

theorem near_step {y Y : ℝ} {r : ℚ} {e B : ℝ} (hn : Nearest y r) (h : |y - Y| ≤ e) (hB : |Y| ≤ B) (he : e ≤ 1) : |(r : ℝ) - Y| ≤ e + (B + 2) * (w / 2) := by
  have hw := w_pos
  have a := near_err hn
  have b := abs_sub_le (r : ℝ) y Y
  have c : |y| ≤ B + 1 := by
    have := abs_sub_abs_le_abs_sub y Y
    linarith
  have d := mul_le_mul_of_nonneg_right c (by linarith : (0 : ℝ) ≤ w / 2)
  linarith

/-! ### From the latitude to the ordinate -/

theorem quarter_eq : fl (piD / 4) = piD / 4 := by decide +kernel

theorem piD_err : |(piD : ℝ) - Real.pi| ≤ w := by
  have h1 := Real.pi_gt_d20
  have h2 := Real.pi_lt_d20
  rw [w_eq, piD, abs_le]
  push_cast
  constructor <;> norm_num at h1 h2 ⊢ <;> linarith

/-- The argument of the tangent. -/
def half (lat : ℚ) : ℚ := fl (fl (piD / 4) + fl (radians lat / 2))

theorem halfAngle_err {lat : ℚ} (h : |lat| ≤ 90) : |(half lat : ℝ) - (Real.pi / 4 + rad lat / 2)| ≤ 9 * w := by
  have hw := w_pos
  have hle := w_le
  have hp := Real.pi_lt_d2
  have h' := abs_real h
  push_cast at h'
  have r1 := radians_err (x := lat) (by linarith)
  obtain ⟨b1, b2⟩ := Proj.rad_bounds_le h'
  have s1 : |(fl (radians lat / 2) : ℝ) - rad lat / 2| ≤ 9 / 2 * w + (1 + 2) * (w / 2) := by
    refine fl_step ?_ ?_ (by linarith)
    · push_cast
      rw [← sub_div, abs_div, abs_of_pos (by norm_num : (0 : ℝ) < 2)]
      linarith
    · rw [abs_le]; constructor <;> linarith
  have s2 : |((fl (piD / 4) + fl (radians lat / 2) : ℚ) : ℝ) - (Real.pi / 4 + rad lat / 2)| ≤ 7 * w := by
    rw [quarter_eq]
    push_cast
    have := abs_add_le (((piD : ℝ) - Real.pi) / 4) ((fl (radians lat / 2) : ℝ) - rad lat / 2)
    rw [abs_div, abs_of_pos (by norm_num : (0 : ℝ) < 4)] at this
    have := piD_err
    rw [show (piD : ℝ) / 4 + (fl (radians lat / 2) : ℝ) - (Real.pi / 4 + rad lat / 2) = ((piD : ℝ) - Real.pi) / 4 + ((fl (radians lat / 2) : ℝ) - rad lat / 2) by ring]
    linarith
  have s3 := fl_step s2 (B := 2) (by rw [abs_le]; constructor <;> linarith) (by linarith)
  rw [half]
  linarith

/-- The tangent of the half angle, up to a degree from the poles. -/
theorem tan_bounds {u : ℝ} (h0 : Real.pi / 362 ≤ u) (h1 : u ≤ Real.pi / 2 - Real.pi / 362) : 1 / 128 ≤ Real.tan u ∧ Real.tan u ≤ 128 := by
  have hp := Real.pi_gt_d2
  have lower : ∀ v, Real.pi / 362 ≤ v → v < Real.pi / 2 → 1 / 128 ≤ Real.tan v := by
    intro v a b
    have := Real.lt_tan (by linarith) b
    linarith
  refine ⟨lower u h0 (by linarith), ?_⟩
  have l := lower (Real.pi / 2 - u) (by linarith) (by linarith)
  rw [Real.tan_pi_div_two_sub] at l
  have t0 : 0 < Real.tan u := Real.tan_pos_of_pos_of_lt_pi_div_two (by linarith) (by linarith)
  have := mul_le_mul_of_nonneg_right l t0.le
  rw [inv_mul_cancel₀ t0.ne'] at this
  linarith

theorem log_bounds {t : ℝ} (h0 : 1 / 128 ≤ t) (h1 : t ≤ 128) : |Real.log t| ≤ 5 := by
  have e : Real.log 128 = 7 * Real.log 2 := by
    rw [show (128 : ℝ) = 2 ^ 7 by norm_num, Real.log_pow]
    norm_num
  have l2 := Real.log_two_lt_d9
  have a := Real.log_le_log (by linarith) h1
  have b := Real.log_le_log (by norm_num) h0
  rw [one_div, Real.log_inv] at b
  rw [abs_le]
  constructor <;> linarith

theorem log_near {s t : ℝ} (ht : 0 < t) (h : |s - t| ≤ t * w) : 0 < s ∧ |Real.log s - Real.log t| ≤ 2 * w := by
  have hw := w_pos
  have hle := w_le
  obtain ⟨a, b⟩ := abs_le.mp h
  have s0 : 0 < s := by nlinarith
  refine ⟨s0, ?_⟩
  rw [← Real.log_div s0.ne' ht.ne']
  have q0 : 0 < s / t := div_pos s0 ht
  have u1 : s / t ≤ 1 + w := by rw [div_le_iff₀ ht]; linarith
  have u2 : 1 - w ≤ s / t := by rw [le_div_iff₀ ht]; linarith
  have l1 := Real.log_le_sub_one_of_pos q0
  have l2 := Real.one_sub_inv_le_log_of_pos q0
  have l3 : (s / t)⁻¹ ≤ 1 + 2 * w := by
    rw [inv_le_comm₀ q0 (by linarith)]
    refine le_trans ?_ u2
    rw [inv_le_iff_one_le_mul₀ (by linarith)]
    nlinarith
  rw [abs_le]
  constructor <;> linarith

/-- What the ordinate is without rounding, for a sphere of radius 1. -/
noncomputable def mercOrdinate (lat : ℝ) : ℝ := Real.log (Real.tan (Real.pi / 4 + rad lat / 2))

theorem exact_range {lat : ℝ} (h : |lat| ≤ 89) : Real.pi / 360 ≤ Real.pi / 4 + rad lat / 2 ∧ Real.pi / 4 + rad lat / 2 ≤ Real.pi / 2 - Real.pi / 360 := by
  obtain ⟨a, b⟩ := abs_le.mp h
  have hp := Real.pi_pos
  rw [rad]
  constructor <;> nlinarith

theorem mercOrdinate_abs {lat : ℝ} (h : |lat| ≤ 89) : |mercOrdinate lat| ≤ 5 := by
  obtain ⟨a, b⟩ := exact_range h
  have hp := Real.pi_pos
  obtain ⟨c, d⟩ := tan_bounds (u := Real.pi / 4 + rad lat / 2) (by linarith) (by linarith)
  exact log_bounds c d

theorem log_err {m : MercLib} (hm : m.Rounds) {lat : ℚ} (h : |lat| ≤ 89) :
    m.pyLog (m.tan (half lat)) = .ok (m.log (m.tan (half lat))) ∧ |(m.log (m.tan (half lat)) : ℝ) - mercOrdinate lat| ≤ 1635 * w := by
  have hw := w_pos
  have hle := w_le
  have hp := Real.pi_gt_d2
  have h' := abs_real h
  push_cast at h'
  have e := halfAngle_err (lat := lat) (by linarith)
  obtain ⟨a, b⟩ := exact_range h'
  obtain ⟨e1, e2⟩ := abs_le.mp e
  have u0 : Real.pi / 362 ≤ half lat := by linarith
  have u1 : (half lat : ℝ) ≤ Real.pi / 2 - Real.pi / 362 := by linarith
  have l := log_tan_lip (a := Real.pi / 362) (by linarith) u0 u1 (v := Real.pi / 4 + rad lat / 2) (by linarith) (by linarith)
  have e181 : Real.pi / (2 * (Real.pi / 362)) = 181 := by field_simp; norm_num
  rw [e181] at l
  obtain ⟨t1, t2⟩ := tan_bounds u0 u1
  have n := near_err (hm.tan (half lat))
  rw [abs_of_nonneg (by linarith : (0 : ℝ) ≤ Real.tan (half lat))] at n
  have n' : |(m.tan (half lat) : ℝ) - Real.tan (half lat)| ≤ Real.tan (half lat) * w := by nlinarith
  obtain ⟨p, q⟩ := log_near (by linarith) n'
  have p' : 0 < m.tan (half lat) := by exact_mod_cast p
  refine ⟨by rw [MercLib.pyLog, if_neg (not_le.mpr p')], ?_⟩
  have s : |Real.log (m.tan (half lat)) - mercOrdinate lat| ≤ 1631 * w := by
    have := abs_sub_le (Real.log (m.tan (half lat))) (Real.log (Real.tan (half lat))) (mercOrdinate lat)
    rw [mercOrdinate] at this ⊢
    linarith
  have := near_step (hm.log _ p') s (mercOrdinate_abs h') (by linarith)
  linarith

/-- A product with the radius. -/
theorem scaled {r l : ℚ} {L e B : ℝ} (hr : 1 ≤ r) (h : |(l : ℝ) - L| ≤ e) (hB : |L| ≤ B) (he : e ≤ 1) : |(fl (r * l) : ℝ) - r * L| ≤ r * (e + (B + 2) * (w / 2)) := by
  have hw := w_pos
  have hr' : (1 : ℝ) ≤ r := by exact_mod_cast hr
  have a := fl_err_real (r * l)
  push_cast at a
  rw [abs_mul, abs_of_nonneg (by linarith : (0 : ℝ) ≤ r)] at a
  have c : |(l : ℝ)| ≤ B + 1 := by
    have := abs_sub_abs_le_abs_sub (l : ℝ) L
    linarith
  have b := abs_sub_le (fl (r * l) : ℝ) (r * l) (r * L)
  rw [← mul_sub, abs_mul, abs_of_nonneg (by linarith : (0 : ℝ) ≤ r)] at b
  have d := mul_le_mul_of_nonneg_left h (by linarith : (0 : ℝ) ≤ r)
  have f := mul_le_mul_of_nonneg_left c (by nlinarith : (0 : ℝ) ≤ r * (w / 2))
  have g : w / 1024 ≤ r * (w / 2) := by nlinarith
  nlinarith

/-- A quotient by the radius. -/
theorem unscaled {r y : ℚ} {L e B : ℝ} (hr : 1 ≤ r) (h : |(y : ℝ) - r * L| ≤ r * e) (hB : |L| ≤ B) (he : e ≤ 1) : |(fl (y / r) : ℝ) - L| ≤ e + (B + 2) * (w / 2) := by
  have hr' : (0 : ℝ) < r := by
    have : (1 : ℝ) ≤ r := by exact_mod_cast hr
    linarith
  refine fl_step ?_ hB he
  push_cast
  have : (y : ℝ) / r - L = (y - r * L) / r := by field_simp
  rw [this, abs_div, abs_of_pos hr', div_le_iff₀ hr']
  linarith

/-! ### Degrees -/

theorem perRadian_eq : perRadian = 1007958012753983 / 17592186044416 := by decide +kernel

theorem perRadian_err : |(perRadian : ℝ) - 180 / Real.pi| ≤ 50 * w := by
  have h1 := Real.pi_gt_d20
  have h2 := Real.pi_lt_d20
  have a : 180 / Real.pi ≤ 180 / 3.14159265358979323846 := div_le_div_of_nonneg_left (by norm_num) (by norm_num) h1.le
  have b : 180 / 3.14159265358979323847 ≤ 180 / Real.pi := div_le_div_of_nonneg_left (by norm_num) Real.pi_pos h2.le
  rw [w_eq, perRadian_eq, abs_le]
  push_cast
  constructor <;> norm_num at a b ⊢ <;> linarith

theorem degrees_err {x : ℚ} {X e : ℝ} (h : |(x : ℝ) - X| ≤ e) (hX : |X| ≤ 4) (he : e ≤ 1 / 100) : |(degrees x : ℝ) - deg X| ≤ 58 * e + 320 * w := by
  have hw := w_pos
  have hle := w_le
  have hp := Real.pi_gt_d2
  have c := perRadian_err
  have d0 : 180 / Real.pi ≤ 57.33 := by
    rw [div_le_iff₀ (by linarith)]
    linarith
  have d1 : 0 < 180 / Real.pi := by positivity
  have cb : |(perRadian : ℝ)| ≤ 57.34 := by
    have := abs_sub_abs_le_abs_sub (perRadian : ℝ) (180 / Real.pi)
    rw [abs_of_pos d1] at this
    linarith
  have e0 : 0 ≤ e := (abs_nonneg _).trans h
  have s : |((x * perRadian : ℚ) : ℝ) - deg X| ≤ 57.34 * e + 200 * w := by
    push_cast
    rw [deg, show (x : ℝ) * perRadian - X * 180 / Real.pi = (x - X) * perRadian + X * (perRadian - 180 / Real.pi) by ring]
    refine (abs_add_le _ _).trans ?_
    rw [abs_mul, abs_mul]
    have k1 := mul_le_mul h cb (abs_nonneg _) e0
    have k2 := mul_le_mul hX c (abs_nonneg _) (by norm_num)
    linarith
  have B : |deg X| ≤ 232 := by
    rw [deg, show X * 180 / Real.pi = X * (180 / Real.pi) by ring, abs_mul, abs_of_pos d1]
    have := mul_le_mul hX d0 d1.le (by norm_num)
    linarith
  have := fl_step s B (by linarith)
  rw [degrees]
  linarith

theorem half_turn : fl (piD * perRadian) = 180 := by decide +kernel

theorem degrees_range {v : ℚ} (h0 : -piD ≤ v) (h1 : v ≤ piD) : |degrees v| ≤ 180 := by
  have c : 0 ≤ perRadian := by rw [perRadian_eq]; norm_num
  have a := fl_mono (mul_le_mul_of_nonneg_right h1 c)
  have b := fl_mono (mul_le_mul_of_nonneg_right h0 c)
  rw [neg_mul, fl_neg, half_turn] at b
  rw [half_turn] at a
  rw [degrees, abs_le]
  exact ⟨b, a⟩

/-! ### Longitudes -/

theorem turn_err {k : ℝ} (h : |k| ≤ 11) : |k| / 10 ^ 15 ≤ 50 * w := by
  rw [w_eq, div_le_iff₀ (by norm_num)]
  norm_num
  linarith

/-- The reduced difference of longitudes. -/
theorem corangle_lon {lon0 lon : ℚ} (l0 : |lon0| ≤ 360) (l1 : |lon| ≤ 360) :
    ∃ v, CorangleEnds (fl (radians lon - radians lon0)) v ∧ (∀ v', CorangleEnds (fl (radians lon - radians lon0)) v' → v' = v) ∧ |v| ≤ piD ∧
      ∃ k : ℤ, |(v : ℝ) - (rad lon - rad lon0 + 2 * Real.pi * k)| ≤ 76 * w := by
  have hw := w_pos
  have hle := w_le
  have l0' := abs_real l0
  have l1' := abs_real l1
  push_cast at l0' l1'
  have e := lon_err l0' l1'
  have b0 := rad_abs l0'
  have b1 := rad_abs l1'
  have big : |fl (radians lon - radians lon0)| ≤ 64 := by
    have a1 := abs_sub_abs_le_abs_sub (fl (radians lon - radians lon0) : ℝ) (rad lon - rad lon0)
    have a2 := abs_sub (rad (lon : ℝ)) (rad lon0)
    have : |(fl (radians lon - radians lon0) : ℝ)| ≤ 64 := by linarith
    exact_mod_cast this
  obtain ⟨h1, h2⟩ := C164_ends _ (fl_double (radians lon - radians lon0))
  obtain ⟨v, hv⟩ := h1.mpr (big.trans (by norm_num))
  obtain ⟨v0, v1, -, u⟩ := h2 v hv
  obtain ⟨k, -, k1, k2⟩ := C164_turns _ v (fl_double _) big hv
  refine ⟨v, hv, u, abs_le.mpr ⟨v0, v1⟩, k, ?_⟩
  have k3 := turn_err (k := k) (by exact_mod_cast k1)
  have := abs_sub_le (v : ℝ) (fl (radians lon - radians lon0) + 2 * Real.pi * k) (rad lon - rad lon0 + 2 * Real.pi * k)
  rw [add_sub_add_right_eq_sub] at this
  linarith

/-! ### The projection -/

theorem geo2rect_unique {m : MercLib} {lon0 r lon lat v : ℚ} (hl : lat ≠ -90) (hv : CorangleEnds (fl (radians lon - radians lon0)) v)
    (hu : ∀ v', CorangleEnds (fl (radians lon - radians lon0)) v' → v' = v) (hlog : m.pyLog (m.tan (half lat)) = .ok (m.log (m.tan (half lat)))) (res : Py (ℚ × ℚ)) :
    (Mercator.init lon0 r).Geo2rect m lon lat res ↔ res = .ok (fl (r * v), fl (r * m.log (m.tan (half lat)))) := by
  rw [Mercator.Geo2rect, if_neg hl]
  have e : (do
      let l ← m.pyLog (m.tan (fl (fl (piD / 4) + fl (radians lat / 2))))
      return (fl ((Mercator.init lon0 r).r * v), fl ((Mercator.init lon0 r).r * l)) : Py (ℚ × ℚ)) = .ok (fl (r * v), fl (r * m.log (m.tan (half lat)))) := by
    have : m.pyLog (m.tan (fl (fl (piD / 4) + fl (radians lat / 2)))) = .ok (m.log (m.tan (half lat))) := hlog
    rw [this]
    rfl
  constructor
  · rintro ⟨v', h1, h2⟩
    rw [hu v' h1, e] at h2
    exact h2
  · rintro rfl
    exact ⟨v, hv, e.symm⟩

/-- C178: the south pole raises `ProjectionError`. -/
theorem C178_south (m : MercLib) (lon0 r lon : ℚ) (res : Py (ℚ × ℚ)) : (Mercator.init lon0 r).Geo2rect m lon (-90) res ↔ res = .error .projectionError := by
  rw [Mercator.Geo2rect, if_pos rfl]

/-- C178: up to a degree from the poles the coordinates are right up to 2⁻⁴¹ radii; the abscissa up to whole turns. -/
theorem C178_close (m : MercLib) (hm : m.Rounds) (lon0 r lon lat : ℚ) (l0 : |lon0| ≤ 360) (l1 : |lon| ≤ 360) (hr : 1 ≤ r) (h : |lat| ≤ 89) :
    ∃ x y X Y, (∀ res, (Mercator.init lon0 r).Geo2rect m lon lat res ↔ res = .ok (x, y)) ∧
      Proj.Mercator.geo2rect (Proj.Sphere.new (some ((lon0 : ℝ), 0)) (some (r : ℝ))) lon lat = .ok (X, Y) ∧
      |(y : ℝ) - Y| ≤ r * 2 ^ (-41 : ℤ) ∧ ∃ k : ℤ, |(x : ℝ) - (X + 2 * Real.pi * r * k)| ≤ r * 2 ^ (-45 : ℤ) := by
  have hw := w_pos
  have hle := w_le
  have hr' : (1 : ℝ) ≤ r := by exact_mod_cast hr
  have h' := abs_real h
  push_cast at h'
  obtain ⟨v, hv, hu, hb, k, hk⟩ := corangle_lon l0 l1
  obtain ⟨p, q⟩ := log_err hm h
  have hl : lat ≠ -90 := by
    rintro rfl
    norm_num at h
  obtain ⟨j, hj⟩ := Proj.corangle_turns (rad lon - rad lon0)
  have hlt : |(lat : ℝ)| < 90 := by linarith
  obtain ⟨c1, c2⟩ := Proj.rad_bounds hlt
  refine ⟨_, _, _, _, geo2rect_unique hl hv hu p, Proj.Mercator.geo2rect_eq _ _ hlt, ?_, k - j, ?_⟩
  · have e : Real.log ((1 + Real.sin (rad lat)) / Real.cos (rad lat)) = mercOrdinate lat := by rw [mercOrdinate, (Proj.half_angle c1 c2).2]
    have s := scaled hr q (mercOrdinate_abs h') (by linarith)
    rw [e]
    refine s.trans (mul_le_mul_of_nonneg_left ?_ (by linarith))
    rw [show (2 : ℝ) ^ (-41 : ℤ) = 2048 * w by rw [w_eq]; norm_num]
    linarith
  · have hb' := abs_real hb
    have hpi := piD_err
    have hpl := Real.pi_lt_d2
    have hp4 : (piD : ℝ) ≤ 4 := by
      obtain ⟨-, p4⟩ := piD_bounds
      exact_mod_cast p4.le
    have B : |rad (lon : ℝ) - rad lon0 + 2 * Real.pi * k| ≤ 5 := by
      have := abs_sub_abs_le_abs_sub (rad (lon : ℝ) - rad lon0 + 2 * Real.pi * k) v
      rw [abs_sub_comm] at this
      linarith
    have s := scaled hr hk B (by linarith)
    have e : (Proj.Sphere.new (some ((lon0 : ℝ), 0)) (some (r : ℝ))).r * Proj.corangle (rad lon - (Proj.Sphere.new (some ((lon0 : ℝ), 0)) (some (r : ℝ))).lon0)
        + 2 * Real.pi * r * ((k - j : ℤ) : ℝ) = r * (rad lon - rad lon0 + 2 * Real.pi * k) := by
      show (r : ℝ) * Proj.corangle (rad lon - rad lon0) + 2 * Real.pi * r * ((k - j : ℤ) : ℝ) = r * (rad lon - rad lon0 + 2 * Real.pi * k)
      rw [hj]
      push_cast
      ring
    rw [e]
    refine s.trans (mul_le_mul_of_nonneg_left ?_ (by linarith))
    rw [show (2 : ℝ) ^ (-45 : ℤ) = 128 * w by rw [w_eq]; norm_num]
    linarith

theorem sinh_abs {f : ℝ} (h : |f| ≤ 6) : |Real.sinh f| ≤ 365 := by
  obtain ⟨a, b⟩ := abs_le.mp h
  have e : Real.exp 6 ≤ 729 := by
    have h1 := Real.exp_one_lt_d9
    have h2 : Real.exp 6 = Real.exp 1 ^ 6 := by rw [← Real.exp_nat_mul]; norm_num
    rw [h2]
    calc Real.exp 1 ^ 6 ≤ 3 ^ 6 := pow_le_pow_left₀ (Real.exp_pos 1).le (by linarith) 6
      _ = 729 := by norm_num
  have e1 := Real.exp_le_exp.mpr b
  have e2 := Real.exp_le_exp.mpr (by linarith : -f ≤ 6)
  have p1 := Real.exp_pos f
  have p2 := Real.exp_pos (-f)
  rw [Real.sinh_eq, abs_le]
  constructor <;> linarith

theorem exact_back {lat : ℝ} (h : |lat| ≤ 89) : Real.arctan (Real.sinh (mercOrdinate lat)) = rad lat := by
  have hlt : |lat| < 90 := by linarith
  obtain ⟨c1, c2⟩ := Proj.rad_bounds hlt
  rw [mercOrdinate, (Proj.half_angle c1 c2).2, Proj.sinh_log_tan (Proj.cos_rad_pos hlt), Real.arctan_tan c1 c2]

/-- Latitudes on the way back. -/
theorem lat_back {m : MercLib} (hm : m.Rounds) {r y lat : ℚ} (hr : 1 ≤ r) (h : |lat| ≤ 89) (hy : |(y : ℝ) - r * mercOrdinate lat| ≤ r * (1640 * w)) :
    |(degrees (m.atan (m.sinh (fl (y / r)))) : ℝ) - lat| ≤ 2 ^ (-35 : ℤ) := by
  have hw := w_pos
  have hle := w_le
  have h' := abs_real h
  push_cast at h'
  have o := mercOrdinate_abs h'
  have f := unscaled hr hy o (by linarith)
  have f6 : |(fl (y / r) : ℝ)| ≤ 6 := by
    have := abs_sub_abs_le_abs_sub (fl (y / r) : ℝ) (mercOrdinate lat)
    linarith
  have s := near_err (hm.sinh (fl (y / r)))
  have sb := mul_le_mul_of_nonneg_right (sinh_abs f6) (by linarith : (0 : ℝ) ≤ w / 2)
  have g := gd_lip (fl (y / r)) (mercOrdinate lat)
  rw [exact_back h'] at g
  have a := arctan_lip (m.sinh (fl (y / r))) (Real.sinh (fl (y / r)))
  have t := abs_sub_le (Real.arctan (m.sinh (fl (y / r)))) (Real.arctan (Real.sinh (fl (y / r)))) (rad lat)
  have hlt : |(lat : ℝ)| < 90 := by linarith
  obtain ⟨c1, c2⟩ := Proj.rad_bounds hlt
  have hpi := Real.pi_lt_d2
  have rb : |rad (lat : ℝ)| ≤ 2 := by rw [abs_le]; constructor <;> linarith
  have n := near_step (hm.atan (m.sinh (fl (y / r)))) (Y := rad lat) (e := 1827 * w) (by linarith) rb (by linarith)
  have d := degrees_err n (by linarith) (by linarith)
  rw [deg_rad] at d
  rw [show (2 : ℝ) ^ (-35 : ℤ) = 131072 * w by rw [w_eq]; norm_num]
  linarith

/-- Longitudes on the way back. -/
theorem lon_back {r x lon lon0 v : ℚ} {k : ℤ} (hr : 1 ≤ r) (l0 : |lon0| ≤ 360) (hv : |v| ≤ piD)
    (hk : |(v : ℝ) - (rad lon - rad lon0 + 2 * Real.pi * k)| ≤ 76 * w) (hx : |(x : ℝ) - r * v| ≤ r * (3 * w)) :
    ∃ v', CorangleEnds (fl (fl (x / r) + radians lon0)) v' ∧ (∀ u, CorangleEnds (fl (fl (x / r) + radians lon0)) u → u = v') ∧
      |degrees v'| ≤ 180 ∧ ∃ j : ℤ, |(degrees v' : ℝ) - (lon + 360 * j)| ≤ 2 ^ (-38 : ℤ) := by
  have hw := w_pos
  have hle := w_le
  have l0' := abs_real l0
  push_cast at l0'
  have hp4 : (piD : ℝ) ≤ 4 := by
    obtain ⟨-, p4⟩ := piD_bounds
    exact_mod_cast p4.le
  have hp315 : (piD : ℝ) ≤ 3.15 := by
    have := piD_lt
    have := Real.pi_lt_d2
    linarith
  have hv' := abs_real hv
  have f := unscaled hr hx (B := 4) (by linarith) (by linarith)
  have r0 := radians_err (x := lon0) (by linarith)
  have b0 := rad_abs l0'
  have V : |((fl (x / r) + radians lon0 : ℚ) : ℝ) - (rad lon + 2 * Real.pi * k)| ≤ 91 * w := by
    push_cast
    rw [show (fl (x / r) : ℝ) + radians lon0 - (rad lon + 2 * Real.pi * k) =
      ((fl (x / r) : ℝ) - v) + ((v - (rad lon - rad lon0 + 2 * Real.pi * k)) + (radians lon0 - rad lon0)) by ring]
    have a := abs_add_le ((fl (x / r) : ℝ) - v) ((v - (rad lon - rad lon0 + 2 * Real.pi * k)) + (radians lon0 - rad lon0))
    have b := abs_add_le ((v : ℝ) - (rad lon - rad lon0 + 2 * Real.pi * k)) (radians lon0 - rad lon0)
    linarith
  have B : |rad (lon : ℝ) + 2 * Real.pi * k| ≤ 12 := by
    have a := abs_sub_abs_le_abs_sub (rad (lon : ℝ) - rad lon0 + 2 * Real.pi * k) v
    rw [abs_sub_comm] at a
    have b := abs_add_le (rad (lon : ℝ) - rad lon0 + 2 * Real.pi * k) (rad lon0)
    rw [show rad (lon : ℝ) - rad lon0 + 2 * Real.pi * k + rad lon0 = rad lon + 2 * Real.pi * k by ring] at b
    linarith
  have s := fl_step V B (by linarith)
  have big : |fl (fl (x / r) + radians lon0)| ≤ 64 := by
    have a := abs_sub_abs_le_abs_sub (fl (fl (x / r) + radians lon0) : ℝ) (rad lon + 2 * Real.pi * k)
    have : |(fl (fl (x / r) + radians lon0) : ℝ)| ≤ 64 := by linarith
    exact_mod_cast this
  obtain ⟨h1, h2⟩ := C164_ends _ (fl_double (fl (x / r) + radians lon0))
  obtain ⟨v', hv1⟩ := h1.mpr (big.trans (by norm_num))
  obtain ⟨v0, v1, -, u⟩ := h2 v' hv1
  obtain ⟨j, -, k1, k2⟩ := C164_turns _ v' (fl_double _) big hv1
  have k3 := turn_err (k := j) (by exact_mod_cast k1)
  refine ⟨v', hv1, u, degrees_range v0 v1, k + j, ?_⟩
  have e : |(v' : ℝ) - (rad lon + 2 * Real.pi * ((k + j : ℤ) : ℝ))| ≤ 148 * w := by
    push_cast
    have := abs_sub_le (v' : ℝ) (fl (fl (x / r) + radians lon0) + 2 * Real.pi * j) (rad lon + 2 * Real.pi * (k + j))
    rw [show (fl (fl (x / r) + radians lon0) : ℝ) + 2 * Real.pi * j - (rad lon + 2 * Real.pi * (k + j)) =
      fl (fl (x / r) + radians lon0) - (rad lon + 2 * Real.pi * k) by ring] at this
    linarith
  have hvb := abs_real (abs_le.mpr ⟨v0, v1⟩)
  have d := degrees_err e (by
    have a := abs_sub_abs_le_abs_sub (rad (lon : ℝ) + 2 * Real.pi * ((k + j : ℤ) : ℝ)) v'
    rw [abs_sub_comm] at a
    linarith) (by linarith)
  rw [Proj.deg_turns_of rfl] at d
  rw [show (2 : ℝ) ^ (-38 : ℤ) = 16384 * w by rw [w_eq]; norm_num]
  linarith

/-- C178: a position up to a degree from the poles comes back as it was, up to 2⁻³⁵ degrees of latitude and, up to whole turns, 2⁻³⁸ degrees of longitude. -/
theorem C178_back (m : MercLib) (hm : m.Rounds) (lon0 r lon lat : ℚ) (l0 : |lon0| ≤ 360) (l1 : |lon| ≤ 360) (hr : 1 ≤ r) (h : |lat| ≤ 89) :
    ∃ x y lon' lat', (∀ res, (Mercator.init lon0 r).Geo2rect m lon lat res ↔ res = .ok (x, y)) ∧
      (∀ res, (Mercator.init lon0 r).Rect2geo m x y res ↔ res = .ok (lon', lat')) ∧
      |(lat' : ℝ) - lat| ≤ 2 ^ (-35 : ℤ) ∧ |lon'| ≤ 180 ∧ ∃ k : ℤ, |(lon' : ℝ) - (lon + 360 * k)| ≤ 2 ^ (-38 : ℤ) := by
  have hw := w_pos
  have hle := w_le
  have hr' : (1 : ℝ) ≤ r := by exact_mod_cast hr
  have h' := abs_real h
  push_cast at h'
  obtain ⟨v, hv, hu, hb, k, hk⟩ := corangle_lon l0 l1
  obtain ⟨p, q⟩ := log_err hm h
  have hl : lat ≠ -90 := by
    rintro rfl
    norm_num at h
  have hb' := abs_real hb
  have hp4 : (piD : ℝ) ≤ 4 := by
    obtain ⟨-, p4⟩ := piD_bounds
    exact_mod_cast p4.le
  have sx : |(fl (r * v) : ℝ) - r * v| ≤ r * (3 * w) := by
    have := scaled hr (l := v) (L := v) (e := 0) (B := 4) (by simp) (by linarith) (by norm_num)
    refine this.trans (mul_le_mul_of_nonneg_left (by linarith) (by linarith))
  have sy : |(fl (r * m.log (m.tan (half lat))) : ℝ) - r * mercOrdinate lat| ≤ r * (1640 * w) :=
    (scaled hr q (mercOrdinate_abs h') (by linarith)).trans (mul_le_mul_of_nonneg_left (by linarith) (by linarith))
  obtain ⟨v', a1, a2, a3, a4⟩ := lon_back hr l0 hb hk sx
  refine ⟨_, _, degrees v', degrees (m.atan (m.sinh (fl (fl (r * m.log (m.tan (half lat))) / r)))), geo2rect_unique hl hv hu p, ?_, lat_back hm hr h sy, a3, a4⟩
  intro res
  have r0 : (Mercator.init lon0 r).r ≠ 0 := by
    show r ≠ 0
    linarith
  rw [Mercator.Rect2geo, if_neg r0]
  constructor
  · rintro ⟨u, h1, h2⟩
    rw [a2 u h1] at h2
    exact h2
  · rintro rfl
    exact ⟨v', a1, rfl⟩

/-! ### All latitudes -/

theorem last_south : 2 ^ (-53 : ℤ) ≤ fl (fl (piD / 4) + fl (radians (-(90 - 2 ^ (-46 : ℤ))) / 2)) := by decide +kernel

theorem right_north : fl (fl (piD / 4) + fl (radians 90 / 2)) = piD / 2 := by decide +kernel

theorem half_mono {a b : ℚ} (h : a ≤ b) : half a ≤ half b := by
  rw [half, half]
  refine fl_mono (add_le_add_right (fl_mono (div_le_div_of_nonneg_right ?_ (by norm_num))) _)
  exact fl_mono (mul_le_mul_of_nonneg_right h degree_pos.le)

/-- No float lies between -90 and its neighbour. -/
theorem next_float {lat : ℚ} (hd : IsDouble lat) (h : -90 < lat) : -(90 - 2 ^ (-46 : ℤ)) ≤ lat := by
  rcases le_or_gt (-64) lat with h64 | h64
  · refine le_trans ?_ h64
    norm_num
  obtain ⟨m, e, hm, -, hje⟩ := hd
  obtain ⟨i, hi⟩ := double_grid (E := -46) hm hje (Or.inr (by rw [abs_of_neg (by linarith)]; norm_num; linarith))
  have p : (0 : ℚ) < 2 ^ (-46 : ℤ) := by positivity
  have e46 : (90 * 2 ^ 46 : ℚ) * 2 ^ (-46 : ℤ) = 90 := by norm_num
  have i1 : (-(90 * 2 ^ 46) : ℚ) < i := by
    by_contra hc
    have := mul_le_mul_of_nonneg_right (not_lt.mp hc) p.le
    rw [neg_mul, e46, ← hi] at this
    linarith
  have i2 : -(90 * 2 ^ 46) + 1 ≤ i := by
    have : (-(90 * 2 ^ 46) : ℤ) < i := by exact_mod_cast i1
    omega
  have i3 : (-(90 * 2 ^ 46) + 1 : ℚ) ≤ i := by exact_mod_cast i2
  have := mul_le_mul_of_nonneg_right i3 p.le
  rw [← hi, add_mul, neg_mul, e46] at this
  linarith

theorem north_tan : Real.tan ((piD / 2 : ℚ) : ℝ) ≤ 2 ^ 54 := by
  have h1 := Real.pi_gt_d20
  have h2 := piD_lt
  have h3 : (piD : ℝ) ≤ 3.14159265358979311600 := by rw [piD]; push_cast; norm_num
  push_cast
  have l := Real.lt_tan (x := Real.pi / 2 - piD / 2) (by linarith) (by
    have : (0 : ℝ) < piD := by rw [piD]; push_cast; norm_num
    linarith)
  rw [Real.tan_pi_div_two_sub] at l
  have t0 : 0 < Real.tan (piD / 2 : ℝ) := Real.tan_pos_of_pos_of_lt_pi_div_two (by rw [piD]; push_cast; norm_num) (by linarith)
  have := mul_lt_mul_of_pos_right l t0
  rw [inv_mul_cancel₀ t0.ne'] at this
  have g : (1 : ℝ) / 2 ^ 54 ≤ Real.pi / 2 - piD / 2 := by norm_num; norm_num at h1 h3; linarith
  by_contra hc
  push Not at hc
  have k := mul_lt_mul' g hc (by positivity) (lt_of_lt_of_le (by positivity) g)
  norm_num at k
  linarith

/-- C178: all latitudes above -90 and up to 90 are projected, the north pole as well, and no ordinate exceeds 39 radii. -/
theorem C178_returns (m : MercLib) (hm : m.Rounds) (lon0 r lon lat : ℚ) (l0 : |lon0| ≤ 360) (l1 : |lon| ≤ 360) (hr : 1 ≤ r) (hd : IsDouble lat)
    (h0 : -90 < lat) (h1 : lat ≤ 90) :
    ∃ x y, (∀ res, (Mercator.init lon0 r).Geo2rect m lon lat res ↔ res = .ok (x, y)) ∧ |y| ≤ 39 * r := by
  have hw := w_pos
  have hle := w_le
  have hr' : (1 : ℝ) ≤ r := by exact_mod_cast hr
  obtain ⟨v, hv, hu, -, -⟩ := corangle_lon l0 l1
  have u0 : 2 ^ (-53 : ℤ) ≤ half lat := last_south.trans (half_mono (next_float hd h0))
  have u1 : half lat ≤ piD / 2 := by
    have := half_mono h1
    rwa [half, half, right_north] at this
  have u0' : (2 : ℝ) ^ (-53 : ℤ) ≤ half lat := by
    have := (Rat.cast_le (K := ℝ)).mpr u0
    push_cast at this
    exact this
  have u1' : (half lat : ℝ) ≤ ((piD / 2 : ℚ) : ℝ) := by exact_mod_cast u1
  have hup : 0 < half lat := lt_of_lt_of_le (by positivity) u0
  have hup' : (0 : ℝ) < half lat := by exact_mod_cast hup
  have hpi := piD_lt
  have hlt : (half lat : ℝ) < Real.pi / 2 := by push_cast at u1'; linarith
  have t0 : (half lat : ℝ) < Real.tan (half lat) := Real.lt_tan hup' hlt
  have T0 : half lat ≤ m.tan (half lat) := le_near (hm.tan _) (fl_double _) t0.le
  have t1 : Real.tan (half lat) ≤ 2 ^ 54 := by
    refine le_trans ?_ north_tan
    rcases u1'.eq_or_lt with e | e
    · rw [e]
    · refine (Real.tan_lt_tan_of_nonneg_of_lt_pi_div_two hup'.le ?_ e).le
      push_cast
      linarith
  have T1 : m.tan (half lat) ≤ 2 ^ 54 := near_le (hm.tan _) (by simpa using double_pow (e := 54) (by norm_num)) (by push_cast; exact t1)
  have p' : 0 < m.tan (half lat) := hup.trans_le T0
  have lb : |Real.log (m.tan (half lat))| ≤ 38 := by
    have l2 := Real.log_two_lt_d9
    have a : ((m.tan (half lat) : ℚ) : ℝ) ≤ 2 ^ 54 := by exact_mod_cast T1
    have b : (2 : ℝ) ^ (-53 : ℤ) ≤ m.tan (half lat) := u0'.trans (by exact_mod_cast T0)
    have a' := Real.log_le_log (by exact_mod_cast p') a
    have b' := Real.log_le_log (by positivity) b
    rw [Real.log_pow] at a'
    rw [Real.log_zpow] at b'
    push_cast at a' b'
    rw [abs_le]
    constructor <;> linarith
  refine ⟨_, _, geo2rect_unique h0.ne' hv hu (by rw [MercLib.pyLog, if_neg (not_le.mpr p')]), ?_⟩
  have n := near_step (hm.log _ p') (Y := Real.log (m.tan (half lat))) (e := 0) (by simp) lb (by norm_num)
  have s := scaled hr n lb (by linarith)
  have : |(fl (r * m.log (m.tan (half lat))) : ℝ)| ≤ 39 * r := by
    have a := abs_sub_abs_le_abs_sub (fl (r * m.log (m.tan (half lat))) : ℝ) (r * Real.log (m.tan (half lat)))
    rw [abs_mul, abs_of_nonneg (by linarith : (0 : ℝ) ≤ r)] at a
    have b := mul_le_mul_of_nonneg_left lb (by linarith : (0 : ℝ) ≤ r)
    have c := s.trans (mul_le_mul_of_nonneg_left (show 0 + (38 + 2) * (w / 2) + (38 + 2) * (w / 2) ≤ 1 by linarith) (by linarith : (0 : ℝ) ≤ r))
    linarith
  exact_mod_cast this

/-- Paris on the sphere of radius 6367 km, and the seam of the map. -/
example (m : MercLib) (hm : m.Rounds) : ∃ x y lon' lat', (Mercator.init (-180) 6367000).Geo2rect m (-180) (195 / 4) (.ok (x, y)) ∧
    (Mercator.init (-180) 6367000).Rect2geo m x y (.ok (lon', lat')) ∧ |(lat' : ℝ) - 195 / 4| ≤ 2 ^ (-35 : ℤ) := by
  obtain ⟨x, y, lon', lat', h1, h2, h3, -⟩ := C178_back m hm (-180) 6367000 (-180) (195 / 4) (by norm_num) (by norm_num) (by norm_num) (by norm_num)
  refine ⟨x, y, lon', lat', (h1 _).mpr rfl, (h2 _).mpr rfl, ?_⟩
  push_cast at h3
  exact h3

/-- The north pole is projected. -/
example (m : MercLib) (hm : m.Rounds) : ∃ x y, (Mercator.init 0 1).Geo2rect m 0 90 (.ok (x, y)) := by
  obtain ⟨x, y, h, -⟩ := C178_returns m hm 0 1 0 90 (by norm_num) (by norm_num) le_rfl (by simpa using double_int (n := 90) (by norm_num)) (by norm_num) le_rfl
  exact ⟨x, y, (h _).mpr rfl⟩

end Flt
end Coral
