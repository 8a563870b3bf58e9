import Verif.Model.FloatsW
import Verif.Props.FloatsQ
import Verif.Proofs.AreaMaps
import Verif.Proofs.Chart

/-!
# The Mercator projection for the ellipsoid on floats: the loop ends (C189)

Each operation of the loop is monotonic after rounding, so the latitudes form a monotonic sequence; and there are only finitely many floats between -π/2 and π/2.
-/
namespace Coral
namespace Flt

/-- Rounding is monotonic. -/
theorem near_mono {y y' : ℝ} {r r' : ℚ} (h : Nearest y r) (h' : Nearest y' r') (lt : y < y') : r ≤ r' := by
  by_contra hc
  push Not at hc
  have hc' : (r' : ℝ) < r := by exact_mod_cast hc
  have a := h.2 r' h'.1
  have b := h'.2 r h.1
  rcases le_total y r' with c | c
  · rw [abs_of_nonneg (by linarith), abs_of_nonneg (by linarith)] at a
    linarith
  · rcases le_total (r : ℝ) y' with d | d
    · rw [abs_of_nonpos (by linarith), abs_of_nonpos (by linarith)] at b
      linarith
    · have a' := (abs_le.mp (a.trans_eq (abs_of_nonpos (by linarith)))).2
      have b' := (abs_le.mp (b.trans_eq (abs_of_nonneg (by linarith)))).1
      linarith

theorem pow_mono {m : EllLib} (hm : m.Rounds) {q q' p : ℚ} (h0 : 0 < q') (hq : q' ≤ q) (hp : 0 ≤ p) : m.pow q' p ≤ m.pow q p := by
  rcases hq.eq_or_lt with rfl | lt
  · exact le_rfl
  rcases hp.eq_or_lt with rfl | pp
  · have one : ∀ z : ℚ, 0 < z → m.pow z 0 = 1 := fun z hz => near_id (hm.pow z 0 hz) double_one (by push_cast; rw [Real.rpow_zero])
    rw [one _ h0, one _ (h0.trans lt)]
  · refine near_mono (hm.pow q' p h0) (hm.pow q p (h0.trans lt)) ?_
    exact Real.rpow_lt_rpow (by exact_mod_cast h0.le) (by exact_mod_cast lt) (by exact_mod_cast pp)

theorem atan_mono {m : EllLib} (hm : m.Rounds) {u u' : ℚ} (h : u' ≤ u) : m.atan u' ≤ m.atan u := by
  rcases h.eq_or_lt with rfl | lt
  · exact le_rfl
  · exact near_mono (hm.atan u') (hm.atan u) (Real.arctan_strictMono (by exact_mod_cast lt))

theorem sin_mono {m : Libm} (hm : m.Rounds) {l l' : ℚ} (h0 : -(piD / 2) ≤ l') (h : l' ≤ l) (h1 : l ≤ piD / 2) : m.sin l' ≤ m.sin l := by
  rcases h.eq_or_lt with rfl | lt
  · exact le_rfl
  have p := piD_lt
  have h0' : -((piD : ℝ) / 2) ≤ l' := by exact_mod_cast h0
  have h1' : (l : ℝ) ≤ piD / 2 := by exact_mod_cast h1
  have lt' : (l' : ℝ) < l := by exact_mod_cast lt
  exact near_mono (hm.sin l') (hm.sin l) (Real.strictMonoOn_sin ⟨by linarith, by linarith⟩ ⟨by linarith, by linarith⟩ lt')

/-! ### The factor for the eccentricity -/

/-- The quotient under the power. -/
def eQuot (m : EllLib) (e l : ℚ) : ℚ := fl (fl (1 - fl (e * m.sin l)) / fl (1 + fl (e * m.sin l)))

theorem double_half : IsDouble (1 / 2) := ⟨1, -1, by norm_num, by norm_num, by norm_num⟩

theorem double_quarter : IsDouble (1 / 4) := ⟨1, -2, by norm_num, by norm_num, by norm_num⟩

theorem double_three_halves : IsDouble (3 / 2) := ⟨3, -1, by norm_num, by norm_num, by norm_num⟩

theorem double_four : IsDouble 4 := ⟨1, 2, by norm_num, by norm_num, by norm_num⟩

theorem e_sin {m : Libm} (hm : m.Rounds) {e : ℚ} (h0 : 0 ≤ e) (h1 : e ≤ 1 / 2) (l : ℚ) : |fl (e * m.sin l)| ≤ 1 / 2 := by
  have s := near_abs_one (hm.sin l) (Real.abs_sin_le_one _)
  have s' : |m.sin l| ≤ 1 := by exact_mod_cast s
  obtain ⟨a, b⟩ := abs_le.mp s'
  rw [abs_le]
  constructor
  · exact le_fl (double_neg double_half) (by nlinarith)
  · exact fl_le double_half (by nlinarith)

theorem e_sides {s : ℚ} (h : |s| ≤ 1 / 2) : (1 / 2 ≤ fl (1 - s) ∧ fl (1 - s) ≤ 3 / 2) ∧ 1 / 2 ≤ fl (1 + s) ∧ fl (1 + s) ≤ 3 / 2 := by
  obtain ⟨a, b⟩ := abs_le.mp h
  exact ⟨⟨le_fl double_half (by linarith), fl_le double_three_halves (by linarith)⟩, le_fl double_half (by linarith), fl_le double_three_halves (by linarith)⟩

theorem eQuot_range {m : EllLib} (hm : m.Rounds) {e : ℚ} (h0 : 0 ≤ e) (h1 : e ≤ 1 / 2) (l : ℚ) : 1 / 4 ≤ eQuot m e l ∧ eQuot m e l ≤ 4 := by
  obtain ⟨⟨a, b⟩, c, d⟩ := e_sides (e_sin hm.base h0 h1 l)
  constructor
  · refine le_fl double_quarter ?_
    rw [le_div_iff₀ (by linarith)]
    linarith
  · refine fl_le double_four ?_
    rw [div_le_iff₀ (by linarith)]
    linarith

theorem factor_ok {m : EllLib} (hm : m.Rounds) {e : ℚ} (h0 : 0 ≤ e) (h1 : e ≤ 1 / 2) (l : ℚ) : EMercator.factor m e l = .ok (m.pow (eQuot m e l) (fl (e / 2))) := by
  obtain ⟨-, c, -⟩ := e_sides (e_sin hm.base h0 h1 l)
  rw [EMercator.factor]
  change (div (fl (1 - fl (e * m.sin l))) (fl (1 + fl (e * m.sin l))) >>= _) = _
  rw [div_ok (by linarith)]
  rfl

theorem eQuot_anti {m : EllLib} (hm : m.Rounds) {e : ℚ} (h0 : 0 ≤ e) (h1 : e ≤ 1 / 2) {l l' : ℚ} (ha : -(piD / 2) ≤ l') (h : l' ≤ l) (hb : l ≤ piD / 2) :
    eQuot m e l ≤ eQuot m e l' := by
  have s := fl_mono (mul_le_mul_of_nonneg_left (sin_mono hm.base ha h hb) h0)
  obtain ⟨⟨a, b⟩, c, d⟩ := e_sides (e_sin hm.base h0 h1 l)
  obtain ⟨⟨a', b'⟩, c', d'⟩ := e_sides (e_sin hm.base h0 h1 l')
  exact fl_mono (div_le_div₀ (by linarith) (fl_mono (by linarith)) (by linarith) (fl_mono (by linarith)))

/-! ### One turn of the loop -/

/-- The next latitude. -/
def eStep (m : EllLib) (e t l : ℚ) : ℚ := fl (fl (piD / 2) - fl (2 * m.atan (fl (t * m.pow (eQuot m e l) (fl (e / 2))))))

theorem improve_ok {m : EllLib} (hm : m.Rounds) {e : ℚ} (h0 : 0 ≤ e) (h1 : e ≤ 1 / 2) (t l : ℚ) : EMercator.improve m e t l = .ok (eStep m e t l) := by
  rw [EMercator.improve, factor_ok hm h0 h1]
  rfl

theorem half_pi : fl (piD / 2) = piD / 2 := by decide +kernel

theorem double_half_pi : IsDouble (piD / 2) := ⟨7074237752028440, -52, by norm_num, by norm_num, by rw [piD]; norm_num⟩

/-- The latitude from a number that is not negative. -/
theorem latitude_range {m : EllLib} (hm : m.Rounds) {u : ℚ} (hu : 0 ≤ u) : |fl (fl (piD / 2) - fl (2 * m.atan u))| ≤ piD / 2 := by
  have hu' : (0 : ℝ) ≤ u := by exact_mod_cast hu
  have a0 : 0 ≤ m.atan u := le_near (hm.atan u) double_zero (by push_cast; exact Real.arctan_nonneg.mpr hu')
  have a1 : m.atan u ≤ piD / 2 := (abs_le.mp (right_range (hm.atan u)
    (abs_le.mpr ⟨(Real.neg_pi_div_two_lt_arctan _).le, (Real.arctan_lt_pi_div_two _).le⟩))).2
  have b0 : 0 ≤ fl (2 * m.atan u) := le_fl double_zero (by linarith)
  have b1 : fl (2 * m.atan u) ≤ piD := fl_le piD_double (by linarith)
  rw [half_pi, abs_le]
  exact ⟨le_fl (double_neg double_half_pi) (by linarith), fl_le double_half_pi (by linarith)⟩

theorem pow_nonneg' {m : EllLib} (hm : m.Rounds) {q : ℚ} (p : ℚ) (h : 0 < q) : 0 ≤ m.pow q p :=
  le_near (hm.pow q p h) double_zero (by push_cast; exact Real.rpow_nonneg (by exact_mod_cast h.le) _)

theorem eStep_range {m : EllLib} (hm : m.Rounds) {e t : ℚ} (h0 : 0 ≤ e) (h1 : e ≤ 1 / 2) (ht : 0 ≤ t) (l : ℚ) : |eStep m e t l| ≤ piD / 2 := by
  have q := (eQuot_range hm h0 h1 l).1
  exact latitude_range hm (fl_nonneg (mul_nonneg ht (pow_nonneg' hm _ (by linarith))))

theorem eStep_mono {m : EllLib} (hm : m.Rounds) {e t : ℚ} (h0 : 0 ≤ e) (h1 : e ≤ 1 / 2) (ht : 0 ≤ t) {l l' : ℚ} (ha : -(piD / 2) ≤ l') (h : l' ≤ l)
    (hb : l ≤ piD / 2) : eStep m e t l' ≤ eStep m e t l := by
  have q := eQuot_anti hm h0 h1 ha h hb
  have q0 := (eQuot_range hm h0 h1 l).1
  have p := pow_mono hm (p := fl (e / 2)) (by linarith) q (fl_nonneg (by linarith))
  have a := atan_mono hm (fl_mono (mul_le_mul_of_nonneg_left p ht))
  refine fl_mono (sub_le_sub_left (fl_mono ?_) _)
  linarith

/-! ### The loop -/

theorem loop_unique {m : EllLib} {e t l : ℚ} {res res' : Py ℚ} (h : EMercator.Loop m e t l res) (h' : EMercator.Loop m e t l res') : res = res' := by
  induction h with
  | raise e1 =>
    cases h' with
    | raise e2 => rw [e1] at e2; injection e2 with e2; rw [e2]
    | done e2 => rw [e1] at e2; cases e2
    | again e2 _ _ => rw [e1] at e2; cases e2
  | done e1 =>
    cases h' with
    | raise e2 => rw [e1] at e2; cases e2
    | done e2 => rfl
    | again e2 n _ => rw [e1] at e2; injection e2 with e2; exact absurd e2.symm n
  | again e1 n _ ih =>
    cases h' with
    | raise e2 => rw [e1] at e2; cases e2
    | done e2 => rw [e1] at e2; injection e2 with e2; exact absurd e2 n
    | again e2 _ k => rw [e1] at e2; injection e2 with e2; subst e2; exact ih k

/-- Different floats are at least 2⁻¹⁰⁷⁴ apart. -/
theorem step_gap {x y : ℚ} (hx : IsDouble x) (hy : IsDouble y) (h : x < y) : 2 ^ (-1074 : ℤ) ≤ y - x := by
  obtain ⟨m, e, -, he, rfl⟩ := hx
  obtain ⟨n, f, -, hf, rfl⟩ := hy
  obtain ⟨j, hj⟩ := zpow_split he
  obtain ⟨k, hk⟩ := zpow_split hf
  rw [hj, hk] at h ⊢
  have p := two_zpow_pos (-1074)
  generalize (2 : ℚ) ^ (-1074 : ℤ) = z at *
  rw [← mul_assoc, ← mul_assoc, ← sub_mul] at *
  have h' := lt_of_mul_lt_mul_right h p.le
  have : m * 2 ^ j < n * 2 ^ k := by exact_mod_cast h'
  have g : (1 : ℚ) ≤ (n : ℚ) * ((2 ^ k : ℤ) : ℚ) - m * ((2 ^ j : ℤ) : ℚ) := by
    have : 1 ≤ n * 2 ^ k - m * 2 ^ j := by omega
    exact_mod_cast this
  nlinarith

/-- A rising sequence of floats comes to rest. -/
theorem loop_up {m : EllLib} (hm : m.Rounds) {e t : ℚ} (h0 : 0 ≤ e) (h1 : e ≤ 1 / 2) (ht : 0 ≤ t) (n : ℕ) : ∀ l, IsDouble l → |l| ≤ piD / 2 → l ≤ eStep m e t l →
    piD / 2 - l ≤ n * 2 ^ (-1074 : ℤ) → ∃ v, |v| ≤ piD / 2 ∧ eStep m e t v = v ∧ EMercator.Loop m e t l (.ok v) := by
  induction n with
  | zero =>
    intro l _ hl up hn
    have r := eStep_range hm h0 h1 ht l
    obtain ⟨-, b⟩ := abs_le.mp r
    have e : eStep m e t l = l := by
      push_cast at hn
      linarith
    exact ⟨l, hl, e, .done (by rw [improve_ok hm h0 h1, e])⟩
  | succ n ih =>
    intro l dl hl up hn
    rcases up.eq_or_lt with e | lt
    · exact ⟨l, hl, e.symm, .done (by rw [improve_ok hm h0 h1, ← e])⟩
    · have r := eStep_range hm h0 h1 ht l
      obtain ⟨ra, rb⟩ := abs_le.mp r
      obtain ⟨la, lb⟩ := abs_le.mp hl
      have gap := step_gap dl (fl_double _ : IsDouble (eStep m e t l)) lt
      obtain ⟨v, v1, v2, v3⟩ := ih _ (fl_double _) r (eStep_mono hm h0 h1 ht la up rb) (by
        push_cast at hn
        generalize (2 : ℚ) ^ (-1074 : ℤ) = z at *
        linarith)
      exact ⟨v, v1, v2, .again (improve_ok hm h0 h1 t l) lt.ne' v3⟩

/-- A falling sequence of floats comes to rest. -/
theorem loop_down {m : EllLib} (hm : m.Rounds) {e t : ℚ} (h0 : 0 ≤ e) (h1 : e ≤ 1 / 2) (ht : 0 ≤ t) (n : ℕ) : ∀ l, IsDouble l → |l| ≤ piD / 2 → eStep m e t l ≤ l →
    l + piD / 2 ≤ n * 2 ^ (-1074 : ℤ) → ∃ v, |v| ≤ piD / 2 ∧ eStep m e t v = v ∧ EMercator.Loop m e t l (.ok v) := by
  induction n with
  | zero =>
    intro l _ hl up hn
    have r := eStep_range hm h0 h1 ht l
    obtain ⟨a, -⟩ := abs_le.mp r
    have e : eStep m e t l = l := by
      push_cast at hn
      linarith
    exact ⟨l, hl, e, .done (by rw [improve_ok hm h0 h1, e])⟩
  | succ n ih =>
    intro l dl hl up hn
    rcases up.eq_or_lt with e | lt
    · exact ⟨l, hl, e, .done (by rw [improve_ok hm h0 h1, e])⟩
    · have r := eStep_range hm h0 h1 ht l
      obtain ⟨ra, rb⟩ := abs_le.mp r
      obtain ⟨la, lb⟩ := abs_le.mp hl
      have gap := step_gap (fl_double _ : IsDouble (eStep m e t l)) dl lt
      obtain ⟨v, v1, v2, v3⟩ := ih _ (fl_double _) r (eStep_mono hm h0 h1 ht ra up lb) (by
        push_cast at hn
        generalize (2 : ℚ) ^ (-1074 : ℤ) = z at *
        linarith)
      exact ⟨v, v1, v2, .again (improve_ok hm h0 h1 t l) lt.ne v3⟩

/-- The loop ends, at a fixed point. -/
theorem turns_end {m : EllLib} (hm : m.Rounds) {e t : ℚ} (h0 : 0 ≤ e) (h1 : e ≤ 1 / 2) (ht : 0 ≤ t) :
    ∃ v, |v| ≤ piD / 2 ∧ eStep m e t v = v ∧ ∀ res, EMercator.Loop m e t (EMercator.start m t) res ↔ res = .ok v := by
  have r := latitude_range hm ht
  obtain ⟨l, hl⟩ : ∃ l, l = EMercator.start m t := ⟨_, rfl⟩
  have r' : |l| ≤ piD / 2 := hl ▸ r
  have dl : IsDouble l := hl ▸ fl_double _
  rw [← hl]
  have key : ∃ v, |v| ≤ piD / 2 ∧ eStep m e t v = v ∧ EMercator.Loop m e t l (.ok v) := by
    have p := two_zpow_pos (-1074)
    rcases le_total l (eStep m e t l) with up | down
    · obtain ⟨n, hn⟩ := exists_nat_ge ((piD / 2 - l) / 2 ^ (-1074 : ℤ))
      exact loop_up hm h0 h1 ht n l dl r' up (by rwa [div_le_iff₀ p] at hn)
    · obtain ⟨n, hn⟩ := exists_nat_ge ((l + piD / 2) / 2 ^ (-1074 : ℤ))
      exact loop_down hm h0 h1 ht n l dl r' down (by rwa [div_le_iff₀ p] at hn)
  obtain ⟨v, v1, v2, v3⟩ := key
  exact ⟨v, v1, v2, fun res => ⟨fun h => loop_unique h v3, fun h => h ▸ v3⟩⟩

theorem exp_nonneg' {m : EllLib} (hm : m.Rounds) (x : ℚ) : 0 ≤ m.exp x :=
  le_near (hm.exp x) double_zero (by push_cast; exact (Real.exp_pos _).le)

/-- The longitude of the way back. -/
theorem lon_turns {a x lon0 : ℚ} (ha : 1 ≤ a) (l0 : |lon0| ≤ 360) (hx : |x| ≤ 50 * a) :
    ∃ v, CorangleEnds (fl (fl (x / a) + radians lon0)) v ∧ (∀ u, CorangleEnds (fl (fl (x / a) + radians lon0)) u → u = v) ∧ |v| ≤ piD ∧
      ∃ j : ℤ, |(v : ℝ) - (x / a + rad lon0 + 2 * Real.pi * j)| ≤ 116 * w := by
  have hw := w_pos
  have hle := w_le
  have l0' := abs_real l0
  push_cast at l0'
  have ha' : (0 : ℝ) < a := by
    have : (1 : ℝ) ≤ a := by exact_mod_cast ha
    linarith
  have hx' := abs_real hx
  push_cast at hx'
  have hq : |(x : ℝ) / a| ≤ 50 := by rwa [abs_div, abs_of_pos ha', div_le_iff₀ ha']
  have f := fl_step (x := x / a) (X := (x : ℝ) / a) (e := 0) (by push_cast; simp) hq (by norm_num)
  have r0 := radians_err (x := lon0) (by linarith)
  have b0 := rad_abs l0'
  have V : |((fl (x / a) + radians lon0 : ℚ) : ℝ) - (x / a + rad lon0)| ≤ 35 * w := by
    push_cast
    rw [show (fl (x / a) : ℝ) + radians lon0 - (x / a + rad lon0) = ((fl (x / a) : ℝ) - x / a) + (radians lon0 - rad lon0) by ring]
    have := abs_add_le ((fl (x / a) : ℝ) - x / a) (radians lon0 - rad lon0)
    linarith
  have B : |(x : ℝ) / a + rad lon0| ≤ 58 := by
    have := abs_add_le ((x : ℝ) / a) (rad lon0)
    linarith
  have s := fl_step V B (by linarith)
  have big : |fl (fl (x / a) + radians lon0)| ≤ 64 := by
    have c := abs_sub_abs_le_abs_sub (fl (fl (x / a) + radians lon0) : ℝ) (x / a + rad lon0)
    have : |(fl (fl (x / a) + radians lon0) : ℝ)| ≤ 64 := by linarith
    exact_mod_cast this
  obtain ⟨h1, h2⟩ := C164_ends _ (fl_double (fl (x / a) + radians lon0))
  obtain ⟨v, hv⟩ := h1.mpr (big.trans (by norm_num))
  obtain ⟨v0, v1, -, u⟩ := h2 v hv
  obtain ⟨j, -, k1, k2⟩ := C164_turns _ v (fl_double _) big hv
  have k3 := turn_err (k := j) (by exact_mod_cast k1)
  refine ⟨v, hv, u, abs_le.mpr ⟨v0, v1⟩, j, ?_⟩
  have := abs_sub_le (v : ℝ) (fl (fl (x / a) + radians lon0) + 2 * Real.pi * j) (x / a + rad lon0 + 2 * Real.pi * j)
  rw [add_sub_add_right_eq_sub] at this
  linarith

theorem rect2geo_unique {m : EllLib} {lon0 a e x y v l : ℚ} (ha : a ≠ 0) (hv : CorangleEnds (fl (fl (x / a) + radians lon0)) v)
    (hu : ∀ u, CorangleEnds (fl (fl (x / a) + radians lon0)) u → u = v) (he : m.pyExp (fl (-y / a)) = .ok (m.exp (fl (-y / a))))
    (hl : ∀ res, EMercator.Loop m e (m.exp (fl (-y / a))) (EMercator.start m (m.exp (fl (-y / a)))) res ↔ res = .ok l) (res : Py (ℚ × ℚ)) :
    (EMercator.init lon0 a e).Rect2geo m x y res ↔ res = .ok (degrees v, degrees l) := by
  rw [EMercator.Rect2geo, if_neg (show (EMercator.init lon0 a e).a ≠ 0 from ha)]
  have e1 : m.pyExp (fl (-y / (EMercator.init lon0 a e).a)) = .ok (m.exp (fl (-y / a))) := he
  simp only [e1]
  constructor
  · rintro ⟨v', h1, r, h2, h3⟩
    rw [hu v' h1, (hl r).mp h2] at h3
    exact h3
  · rintro rfl
    exact ⟨v, hv, .ok l, (hl _).mpr rfl, rfl⟩

theorem double_power (n : ℕ) : IsDouble (2 ^ n) := ⟨1, n, by norm_num, by omega, by simp⟩

theorem double_small {n : ℤ} (h : |n| < 2 ^ 53) : IsDouble n := ⟨n, 0, h, by norm_num, by simp⟩

theorem exp_ok {m : EllLib} (hm : m.Rounds) {x : ℚ} (h : x ≤ 709) : m.pyExp x = .ok (m.exp x) := by
  have h' : (x : ℝ) ≤ 709 := by exact_mod_cast h
  have l := Real.log_two_gt_d9
  have b : Real.exp x ≤ ((2 ^ 1023 : ℚ) : ℝ) := by
    push_cast
    rw [← Real.exp_log (by positivity : (0 : ℝ) < 2 ^ 1023), Real.exp_le_exp, Real.log_pow]
    push_cast
    linarith
  have c := near_le (hm.exp x) (double_power 1023) b
  rw [EllLib.pyExp, if_neg]
  have : (2 : ℚ) ^ 1024 = 2 * 2 ^ 1023 := by rw [← pow_succ']
  have p : (0 : ℚ) < 2 ^ 1023 := by positivity
  rw [this]
  exact not_le.mpr (c.trans_lt (lt_mul_of_one_lt_left p (by norm_num)))

theorem exp_overflow {m : EllLib} (hm : m.Rounds) {x : ℚ} (h : 710 ≤ x) : m.pyExp x = .error .overflowError := by
  have h' : (710 : ℝ) ≤ x := by exact_mod_cast h
  have l := Real.log_two_lt_d9
  have b : ((2 ^ 1024 : ℚ) : ℝ) ≤ Real.exp x := by
    push_cast
    rw [← Real.exp_log (by positivity : (0 : ℝ) < 2 ^ 1024), Real.exp_le_exp, Real.log_pow]
    push_cast
    linarith
  rw [EllLib.pyExp, if_pos (le_near (hm.exp x) (double_power 1024) b)]

theorem exp_arg {m : EllLib} (hm : m.Rounds) {a y : ℚ} (ha : 1 ≤ a) (hy : -(709 * a) ≤ y) : m.pyExp (fl (-y / a)) = .ok (m.exp (fl (-y / a))) := by
  refine exp_ok hm (fl_le (double_small (n := 709) (by norm_num)) ?_)
  rw [div_le_iff₀ (by linarith)]
  push_cast
  linarith

/-- C189: unless the ordinate is less than -709 equatorial radii, the loop of the way back ends, and the result is a position. -/
theorem C189_ends (m : EllLib) (hm : m.Rounds) (lon0 a e x y : ℚ) (l0 : |lon0| ≤ 360) (ha : 1 ≤ a) (h0 : 0 ≤ e) (h1 : e ≤ 1 / 2) (hx : |x| ≤ 50 * a)
    (hy : -(709 * a) ≤ y) :
    ∃ lon lat, (∀ res, (EMercator.init lon0 a e).Rect2geo m x y res ↔ res = .ok (lon, lat)) ∧ |lon| ≤ 180 ∧ |lat| ≤ 90 := by
  obtain ⟨v, v1, v2, v3, -⟩ := lon_turns ha l0 hx
  obtain ⟨l, l1, -, l3⟩ := turns_end hm h0 h1 (exp_nonneg' hm (fl (-y / a)))
  obtain ⟨va, vb⟩ := abs_le.mp v3
  exact ⟨_, _, rect2geo_unique (by linarith) v1 v2 (exp_arg hm ha hy) l3, degrees_range va vb, degrees_right l1⟩

/-- C189: from -710 equatorial radii on southwards it raises `OverflowError`, though far in the north it does not. -/
theorem C189_far (m : EllLib) (hm : m.Rounds) (lon0 a e x y : ℚ) (l0 : |lon0| ≤ 360) (ha : 1 ≤ a) (hx : |x| ≤ 50 * a) (hy : y ≤ -(710 * a)) (res : Py (ℚ × ℚ)) :
    (EMercator.init lon0 a e).Rect2geo m x y res ↔ res = .error .overflowError := by
  obtain ⟨v, v1, -⟩ := lon_turns ha l0 hx
  have e1 : m.pyExp (fl (-y / (EMercator.init lon0 a e).a)) = .error .overflowError := by
    refine exp_overflow hm (le_fl (double_small (n := 710) (by norm_num)) ?_)
    show ((710 : ℤ) : ℚ) ≤ -y / a
    rw [le_div_iff₀ (by linarith)]
    push_cast
    linarith
  have h : (EMercator.init lon0 a e).a ≠ 0 := by
    show a ≠ 0
    linarith
  rw [EMercator.Rect2geo, if_neg h]
  simp only [e1]
  exact ⟨fun ⟨_, _, h⟩ => h, fun h => ⟨v, v1, h⟩⟩

/-! ### How far the latitude is off -/

theorem arctan_exp_lip (a b : ℝ) : |Real.arctan (Real.exp a) - Real.arctan (Real.exp b)| ≤ |a - b| := by
  have := convex_univ.norm_image_sub_le_of_norm_hasDerivWithin_le (f := fun t => Real.arctan (Real.exp t)) (f' := fun t => 1 / (1 + Real.exp t ^ 2) * Real.exp t)
    (s := Set.univ) (C := 1) (x := b) (y := a)
    (fun t _ => ((Real.hasDerivAt_exp t).arctan).hasDerivWithinAt) (fun t _ => by
      have h1 := Real.exp_pos t
      rw [Real.norm_eq_abs, abs_of_nonneg (by positivity)]
      rw [div_mul_eq_mul_div, one_mul, div_le_one (by positivity)]
      nlinarith [sq_nonneg (Real.exp t - 1)]) (Set.mem_univ _) (Set.mem_univ _)
  rw [one_mul] at this
  exact this

theorem log_near_two {s t : ℝ} (ht : 0 < t) (h : |s - t| ≤ t * (2 * w)) : 0 < s ∧ |Real.log s - Real.log t| ≤ 4 * w := by
  have hw := w_pos
  have hle := w_le
  obtain ⟨a, b⟩ := abs_le.mp h
  have s0 : t / 2 ≤ s := by nlinarith
  refine ⟨by linarith, ?_⟩
  have := log_lip (a := t / 2) (by linarith) s0 (by linarith : t / 2 ≤ t)
  refine this.trans ?_
  rw [div_le_iff₀ (by linarith)]
  nlinarith

theorem near_log {y : ℝ} {r : ℚ} (hn : Nearest y r) (hy : 1 / 1536 ≤ y) : (0 : ℝ) < r ∧ |Real.log r - Real.log y| ≤ 4 * w := by
  have hw := w_pos
  have a := near_err hn
  rw [abs_of_nonneg (by linarith : (0 : ℝ) ≤ y)] at a
  exact log_near_two (by linarith) (by nlinarith)

theorem fl_log {x : ℚ} (hx : (1 : ℝ) / 1536 ≤ x) : (0 : ℝ) < fl x ∧ |Real.log (fl x) - Real.log x| ≤ 4 * w := by
  have hw := w_pos
  have a := fl_err_real x
  rw [abs_of_nonneg (by linarith : (0 : ℝ) ≤ x)] at a
  exact log_near_two (by linarith) (by nlinarith)

/-- The logarithm of the quotient, exactly. -/
noncomputable def eLog (e S : ℝ) : ℝ := Real.log ((1 - e * S) / (1 + e * S))

theorem eLog_abs {e S : ℝ} (h0 : 0 ≤ e) (h1 : e ≤ 1 / 2) (hS : |S| ≤ 1) : |eLog e S| ≤ 2 := by
  obtain ⟨a, b⟩ := abs_le.mp hS
  have c : |e * S| ≤ 1 / 2 := by
    rw [abs_mul, abs_of_nonneg h0]
    nlinarith [abs_nonneg S]
  obtain ⟨c0, c1⟩ := abs_le.mp c
  have d : 0 < 1 + e * S := by linarith
  have p : 0 < (1 - e * S) / (1 + e * S) := div_pos (by linarith) d
  have up := Real.log_le_sub_one_of_pos p
  have dn := Real.log_le_sub_one_of_pos (inv_pos.mpr p)
  rw [Real.log_inv, inv_div] at dn
  have u1 : (1 - e * S) / (1 + e * S) ≤ 3 := by
    rw [div_le_iff₀ d]
    linarith
  have u2 : (1 + e * S) / (1 - e * S) ≤ 3 := by
    rw [div_le_iff₀ (by linarith)]
    linarith
  rw [eLog, abs_le]
  constructor <;> linarith

theorem half_real {e : ℚ} (h : e ≤ 1 / 2) : (e : ℝ) ≤ 1 / 2 := by
  have := (Rat.cast_le (K := ℝ)).mpr h
  push_cast at this
  exact this

/-- The factor is off by less than 31 units, relatively. -/
theorem eFactor_err {m : EllLib} (hm : m.Rounds) {e l : ℚ} {S : ℝ} (h0 : 0 ≤ e) (h1 : e ≤ 1 / 2) (hS : |S| ≤ 1) (hs : |(m.sin l : ℝ) - S| ≤ 10 * w) :
    (0 : ℝ) < m.pow (eQuot m e l) (fl (e / 2)) ∧ |Real.log (m.pow (eQuot m e l) (fl (e / 2))) - e / 2 * eLog e S| ≤ 31 * w := by
  have hw := w_pos
  have hle := w_tiny
  have h0' : (0 : ℝ) ≤ e := by exact_mod_cast h0
  have h1' := half_real h1
  obtain ⟨a, b⟩ := abs_le.mp hS
  have c : |(e : ℝ) * S| ≤ 1 / 2 := by
    rw [abs_mul, abs_of_nonneg h0']
    nlinarith [abs_nonneg S]
  obtain ⟨c0, c1⟩ := abs_le.mp c
  have s1 : |((e * m.sin l : ℚ) : ℝ) - e * S| ≤ 5 * w := by
    push_cast
    rw [← mul_sub, abs_mul, abs_of_nonneg h0']
    nlinarith [abs_nonneg ((m.sin l : ℝ) - S)]
  have s2 := fl_step s1 c (by linarith)
  have d1 : |((1 - fl (e * m.sin l) : ℚ) : ℝ) - (1 - e * S)| ≤ 7 * w := by
    push_cast
    rw [show (1 : ℝ) - fl (e * m.sin l) - (1 - e * S) = -((fl (e * m.sin l) : ℝ) - e * S) by ring, abs_neg]
    linarith
  have d2 : |((1 + fl (e * m.sin l) : ℚ) : ℝ) - (1 + e * S)| ≤ 7 * w := by
    push_cast
    rw [show (1 : ℝ) + fl (e * m.sin l) - (1 + e * S) = (fl (e * m.sin l) : ℝ) - e * S by ring]
    linarith
  have e1 := fl_step d1 (B := 3 / 2) (abs_le.mpr ⟨by linarith, by linarith⟩) (by linarith)
  have e2 := fl_step d2 (B := 3 / 2) (abs_le.mpr ⟨by linarith, by linarith⟩) (by linarith)
  obtain ⟨⟨q1, q2⟩, q3, q4⟩ := e_sides (e_sin hm.base h0 h1 l)
  have q1' := (Rat.cast_le (K := ℝ)).mpr q1
  have q2' := (Rat.cast_le (K := ℝ)).mpr q2
  have q3' := (Rat.cast_le (K := ℝ)).mpr q3
  have q4' := (Rat.cast_le (K := ℝ)).mpr q4
  push_cast at q1' q2' q3' q4'
  have g1 := log_lip (a := 1 / 4) (by norm_num) (by linarith) (by linarith : (1 : ℝ) / 4 ≤ 1 - e * S) (u := fl (1 - fl (e * m.sin l)))
  have g2 := log_lip (a := 1 / 4) (by norm_num) (by linarith) (by linarith : (1 : ℝ) / 4 ≤ 1 + e * S) (u := fl (1 + fl (e * m.sin l)))
  have quot : (1 : ℝ) / 3 ≤ (fl (1 - fl (e * m.sin l)) : ℝ) / fl (1 + fl (e * m.sin l)) := by
    rw [le_div_iff₀ (by linarith)]
    linarith
  obtain ⟨f1, f2⟩ := fl_log (x := fl (1 - fl (e * m.sin l)) / fl (1 + fl (e * m.sin l))) (by push_cast; linarith)
  have f3 : (0 : ℝ) < eQuot m e l := f1
  have f4 : |Real.log (eQuot m e l) - eLog e S| ≤ 76 * w := by
    push_cast at f2
    rw [Real.log_div (by linarith) (by linarith)] at f2
    rw [eLog, Real.log_div (by linarith) (by linarith)]
    have t := abs_sub_le (Real.log (eQuot m e l)) (Real.log (fl (1 - fl (e * m.sin l))) - Real.log (fl (1 + fl (e * m.sin l))))
      (Real.log (1 - e * S) - Real.log (1 + e * S))
    rw [sub_sub_sub_comm] at t
    have t' := abs_sub (Real.log (fl (1 - fl (e * m.sin l))) - Real.log (1 - e * S)) (Real.log (fl (1 + fl (e * m.sin l))) - Real.log (1 + e * S))
    have f2' : |Real.log (eQuot m e l) - (Real.log (fl (1 - fl (e * m.sin l))) - Real.log (fl (1 + fl (e * m.sin l))))| ≤ 4 * w := f2
    linarith
  have L := eLog_abs h0' h1' hS
  have p1 := fl_step (x := e / 2) (X := (e : ℝ) / 2) (e := 0) (by push_cast; simp) (B := 1 / 4) (by rw [abs_of_nonneg (by linarith)]; linarith) (by norm_num)
  have p2 : |(fl (e / 2) : ℝ)| ≤ 3 / 10 := by
    have := abs_sub_abs_le_abs_sub (fl (e / 2) : ℝ) (e / 2)
    rw [abs_of_nonneg (by linarith : (0 : ℝ) ≤ e / 2)] at this
    linarith
  have key : |(fl (e / 2) : ℝ) * Real.log (eQuot m e l) - e / 2 * eLog e S| ≤ 27 * w := by
    rw [show (fl (e / 2) : ℝ) * Real.log (eQuot m e l) - e / 2 * eLog e S =
      fl (e / 2) * (Real.log (eQuot m e l) - eLog e S) + ((fl (e / 2) : ℝ) - e / 2) * eLog e S by ring]
    have t := abs_add_le ((fl (e / 2) : ℝ) * (Real.log (eQuot m e l) - eLog e S)) (((fl (e / 2) : ℝ) - e / 2) * eLog e S)
    have t1 : |(fl (e / 2) : ℝ) * (Real.log (eQuot m e l) - eLog e S)| ≤ 3 / 10 * (76 * w) := by
      rw [abs_mul]
      exact mul_le_mul p2 f4 (abs_nonneg _) (by norm_num)
    have t2 : |((fl (e / 2) : ℝ) - e / 2) * eLog e S| ≤ 2 * w * 2 := by
      rw [abs_mul]
      exact mul_le_mul (by linarith) L (abs_nonneg _) (by linarith)
    linarith
  have f5 : (0 : ℚ) < eQuot m e l := by exact_mod_cast f3
  have rp : Real.log ((eQuot m e l : ℝ) ^ (fl (e / 2) : ℝ)) = fl (e / 2) * Real.log (eQuot m e l) := Real.log_rpow f3 _
  have low : (1 : ℝ) / 1536 ≤ (eQuot m e l : ℝ) ^ (fl (e / 2) : ℝ) := by
    have pos := Real.rpow_pos_of_pos f3 (fl (e / 2) : ℝ)
    have k := (abs_le.mp key).1
    have bound : |(e : ℝ) / 2 * eLog e S| ≤ 1 / 2 := by
      rw [abs_mul, abs_of_nonneg (by linarith)]
      nlinarith [abs_nonneg (eLog e S)]
    have k2 := (abs_le.mp bound).1
    have dn := Real.log_le_sub_one_of_pos (inv_pos.mpr pos)
    have up := Real.add_one_le_exp (Real.log ((eQuot m e l : ℝ) ^ (fl (e / 2) : ℝ)))
    rw [Real.exp_log pos, rp] at up
    linarith
  obtain ⟨r1, r2⟩ := near_log (hm.pow _ _ f5) low
  refine ⟨r1, ?_⟩
  rw [rp] at r2
  have := abs_sub_le (Real.log (m.pow (eQuot m e l) (fl (e / 2)))) (fl (e / 2) * Real.log (eQuot m e l)) (e / 2 * eLog e S)
  linarith

theorem exp_minus_seven : (1 : ℝ) / 1536 ≤ Real.exp (-7) := by
  have h := Real.exp_one_lt_d9
  have e : Real.exp 7 = Real.exp 1 ^ 7 := by rw [← Real.exp_nat_mul]; norm_num
  have : Real.exp 7 ≤ 1536 := by
    rw [e]
    exact (pow_le_pow_left₀ (Real.exp_pos 1).le h.le 7).trans (by norm_num)
  rw [Real.exp_neg, one_div]
  exact inv_anti₀ (Real.exp_pos _) this

/-- One turn of the loop, compared with the exact one. -/
theorem step_err {m : EllLib} (hm : m.Rounds) {e t l : ℚ} {L c : ℝ} (h0 : 0 ≤ e) (h1 : e ≤ 1 / 2) (ht : (0 : ℝ) < t) (hL : |L| ≤ 6) (hc : |Real.log t - -L| ≤ c)
    (hc' : c ≤ 1 / 10 ^ 4) : |(eStep m e t l : ℝ) - Proj.EMercator.improve e (Real.exp (-L)) l| ≤ 2 * c + 80 * w := by
  have hw := w_pos
  have hle := w_tiny
  have h0' : (0 : ℝ) ≤ e := by exact_mod_cast h0
  have h1' := half_real h1
  have hS := Real.abs_sin_le_one (l : ℝ)
  have s := (sin_err hm.base (x := l) (X := l) (e := 0) (by simp)).1
  obtain ⟨f1, f2⟩ := eFactor_err hm h0 h1 hS (l := l) (by linarith)
  have bound : |(e : ℝ) / 2 * eLog e (Real.sin l)| ≤ 1 / 2 := by
    have := eLog_abs h0' h1' hS
    rw [abs_mul, abs_of_nonneg (by linarith)]
    nlinarith [abs_nonneg (eLog e (Real.sin l))]
  have real : Proj.EMercator.improve e (Real.exp (-L)) l = Real.pi / 2 - 2 * Real.arctan (Real.exp (-L + e / 2 * eLog e (Real.sin l))) := by
    obtain ⟨w1, w2⟩ := Proj.EMercator.w_pos h0' (by linarith) (l : ℝ)
    rw [Proj.EMercator.improve, Proj.EMercator.factor, Real.rpow_def_of_pos (div_pos w1 w2), ← Real.exp_add, eLog, mul_comm (Real.log _)]
  rw [real, eStep]
  generalize m.pow (eQuot m e l) (fl (e / 2)) = F at *
  generalize (e : ℝ) / 2 * eLog e (Real.sin l) = G at *
  have tf : (0 : ℝ) < t * F := mul_pos ht f1
  have lg : |Real.log (t * F) - (-L + G)| ≤ c + 31 * w := by
    rw [Real.log_mul ht.ne' f1.ne', show Real.log t + Real.log F - (-L + G) = (Real.log t - -L) + (Real.log F - G) by ring]
    have := abs_add_le (Real.log t - -L) (Real.log F - G)
    linarith
  have low : (1 : ℝ) / 1536 ≤ t * F := by
    have a := (abs_le.mp lg).1
    have b := (abs_le.mp bound).1
    have d := (abs_le.mp hL).2
    have : Real.exp (-7) ≤ Real.exp (Real.log (t * F)) := Real.exp_le_exp.mpr (by linarith)
    rw [Real.exp_log tf] at this
    exact exp_minus_seven.trans this
  obtain ⟨u1, u2⟩ := fl_log (x := t * F) (by push_cast; exact low)
  push_cast at u2
  have u3 : |Real.log (fl (t * F)) - (-L + G)| ≤ c + 35 * w := by
    have := abs_sub_le (Real.log (fl (t * F))) (Real.log (t * F)) (-L + G)
    linarith
  have at1 := arctan_exp_lip (Real.log (fl (t * F))) (-L + G)
  rw [Real.exp_log u1] at at1
  have hpi := Real.pi_lt_d2
  have hpi0 := Real.pi_pos
  have r : |Real.arctan (Real.exp (-L + G))| ≤ 2 :=
    abs_le.mpr ⟨by linarith [Real.neg_pi_div_two_lt_arctan (Real.exp (-L + G))], by linarith [Real.arctan_lt_pi_div_two (Real.exp (-L + G))]⟩
  have r' : |Real.pi / 2 - 2 * Real.arctan (Real.exp (-L + G))| ≤ 2 := by
    have a0 : 0 ≤ Real.arctan (Real.exp (-L + G)) := Real.arctan_nonneg.mpr (Real.exp_pos _).le
    exact abs_le.mpr ⟨by linarith [Real.arctan_lt_pi_div_two (Real.exp (-L + G))], by linarith⟩
  have at2 := near_step (hm.atan (fl (t * F))) (at1.trans u3) r (by linarith)
  have d1 : |((2 * m.atan (fl (t * F)) : ℚ) : ℝ) - 2 * Real.arctan (Real.exp (-L + G))| ≤ 2 * c + 74 * w := by
    push_cast
    rw [← mul_sub, abs_mul, abs_of_pos (by norm_num : (0 : ℝ) < 2)]
    linarith
  have d2 := fl_step d1 (B := 4) (by rw [abs_mul, abs_of_pos (by norm_num : (0 : ℝ) < 2)]; linarith) (by linarith)
  rw [half_pi]
  have hp := piD_err
  have d3 : |((piD / 2 - fl (2 * m.atan (fl (t * F))) : ℚ) : ℝ) - (Real.pi / 2 - 2 * Real.arctan (Real.exp (-L + G)))| ≤ 2 * c + 78 * w := by
    push_cast
    rw [show (piD : ℝ) / 2 - fl (2 * m.atan (fl (t * F))) - (Real.pi / 2 - 2 * Real.arctan (Real.exp (-L + G))) =
      ((piD : ℝ) - Real.pi) / 2 - ((fl (2 * m.atan (fl (t * F))) : ℝ) - 2 * Real.arctan (Real.exp (-L + G))) by ring]
    have := abs_sub (((piD : ℝ) - Real.pi) / 2) ((fl (2 * m.atan (fl (t * F))) : ℝ) - 2 * Real.arctan (Real.exp (-L + G)))
    rw [abs_div, abs_of_pos (by norm_num : (0 : ℝ) < 2)] at this
    linarith
  have d4 := fl_step d3 r' (by linarith)
  linarith

/-- The latitude the loop ends with, compared with the exact fixed point. -/
theorem fixed_err {m : EllLib} (hm : m.Rounds) {e t l : ℚ} {L c φ : ℝ} (h0 : 0 ≤ e) (h1 : e ≤ 1 / 2) (ht : (0 : ℝ) < t) (hL : |L| ≤ 6) (hc : |Real.log t - -L| ≤ c)
    (hc' : c ≤ 1 / 10 ^ 4) (hl : eStep m e t l = l) (hφ : φ = Proj.EMercator.improve e (Real.exp (-L)) φ) : |(l : ℝ) - φ| ≤ 3 * c + 107 * w := by
  have hw := w_pos
  have h0' : (0 : ℝ) ≤ e := by exact_mod_cast h0
  have h1' := half_real h1
  have s := step_err hm h0 h1 ht hL hc hc' (l := l)
  rw [hl] at s
  have k := Proj.EMercator.contract (t := Real.exp (-L)) h0' (by nlinarith) l φ
  rw [← hφ] at k
  have t := abs_sub_le (l : ℝ) (Proj.EMercator.improve e (Real.exp (-L)) l) φ
  have e2 : (e : ℝ) ^ 2 * |(l : ℝ) - φ| ≤ 1 / 4 * |(l : ℝ) - φ| := mul_le_mul_of_nonneg_right (by nlinarith) (abs_nonneg _)
  have c0 : 0 ≤ c := (abs_nonneg _).trans hc
  linarith

/-- Where the exact projection leads to the ordinate `a L`, there is a fixed point of the exact loop. -/
theorem exact_fix {e L φ : ℝ} (h0 : 0 ≤ e) (h1 : e < 1) (l1 : -(Real.pi / 2) < φ) (l2 : φ < Real.pi / 2)
    (h : Real.log ((1 + Real.sin φ) / Real.cos φ) + e / 2 * Real.log ((1 - e * Real.sin φ) / (1 + e * Real.sin φ)) = L) :
    φ = Proj.EMercator.improve e (Real.exp (-L)) φ := by
  obtain ⟨hc, ht⟩ := Proj.half_angle l1 l2
  obtain ⟨w1, w2⟩ := Proj.EMercator.w_pos h0 h1 φ
  have tp : 0 < Real.tan (Real.pi / 4 + φ / 2) := Real.tan_pos_of_pos_of_lt_pi_div_two (by linarith) (by linarith)
  have key : Real.exp (-L) * Proj.EMercator.factor e φ = Real.tan (Real.pi / 2 - (Real.pi / 4 + φ / 2)) := by
    rw [Proj.EMercator.factor, Real.rpow_def_of_pos (div_pos w1 w2), ← Real.exp_add, ← h, ← ht, Real.tan_pi_div_two_sub]
    rw [show -(Real.log (Real.tan (Real.pi / 4 + φ / 2)) + e / 2 * Real.log ((1 - e * Real.sin φ) / (1 + e * Real.sin φ))) +
      Real.log ((1 - e * Real.sin φ) / (1 + e * Real.sin φ)) * (e / 2) = -Real.log (Real.tan (Real.pi / 4 + φ / 2)) by ring]
    rw [Real.exp_neg, Real.exp_log tp]
  rw [Proj.EMercator.improve, key, Real.arctan_tan (by linarith) (by linarith)]
  ring

/-- `t` is off by less than four units, relatively, beyond the error of the ordinate. -/
theorem t_err {m : EllLib} (hm : m.Rounds) {a y : ℚ} {L c : ℝ} (ha : 1 ≤ a) (hL : |L| ≤ 6) (hc : |(y : ℝ) - a * L| ≤ a * c) (hc' : c ≤ 1 / 10 ^ 5) :
    (0 : ℝ) < m.exp (fl (-y / a)) ∧ |Real.log (m.exp (fl (-y / a))) - -L| ≤ c + 8 * w := by
  have hw := w_pos
  have hle := w_tiny
  have u := unscaled (y := -y) (L := -L) ha (e := c) (by
    push_cast
    rw [show -(y : ℝ) - a * -L = -(y - a * L) by ring, abs_neg]
    exact hc) (B := 6) (by rwa [abs_neg]) (by linarith)
  have low : (1 : ℝ) / 1536 ≤ Real.exp (fl (-y / a)) := by
    refine exp_minus_seven.trans (Real.exp_le_exp.mpr ?_)
    have := (abs_le.mp u).1
    have := (abs_le.mp hL).2
    linarith
  obtain ⟨t1, t2⟩ := near_log (hm.exp (fl (-y / a))) low
  refine ⟨t1, ?_⟩
  rw [Real.log_exp] at t2
  have := abs_sub_le (Real.log (m.exp (fl (-y / a)))) (fl (-y / a)) (-L)
  linarith

/-- C189: the position is the one the exact projection leads to the point, up to 2⁻³⁹ degrees, the longitude up to whole turns. -/
theorem C189_close (m : EllLib) (hm : m.Rounds) (lon0 a e x y : ℚ) (l0 : |lon0| ≤ 360) (ha : 1 ≤ a) (h0 : 0 ≤ e) (h1 : e ≤ 1 / 2) (hy : |y| ≤ 6 * a)
    (ell : Proj.Ellipsoid) (ea : ell.a = a) (ee : ell.e = e) (LON LAT : ℝ) (hLAT : |LAT| < 90)
    (hxy : Proj.EMercator.geo2rect (Proj.Spheroid.new (some ((lon0 : ℝ), 0)) (some ell)) LON LAT = .ok ((x : ℝ), (y : ℝ))) :
    ∃ lon lat, (∀ res, (EMercator.init lon0 a e).Rect2geo m x y res ↔ res = .ok (lon, lat)) ∧ |(lat : ℝ) - LAT| ≤ 2 ^ (-39 : ℤ) ∧
      ∃ k : ℤ, |(lon : ℝ) - (LON + 360 * k)| ≤ 2 ^ (-39 : ℤ) := by
  have hw := w_pos
  have hle := w_tiny
  have h0' : (0 : ℝ) ≤ e := by exact_mod_cast h0
  have h1' := half_real h1
  have ha' : (1 : ℝ) ≤ a := by exact_mod_cast ha
  have hpi := Real.pi_lt_d2
  have hpi0 := Real.pi_pos
  have hy' := abs_real hy
  push_cast at hy'
  have g := Proj.EMercator.geo2rect_eq (Proj.Spheroid.new (some ((lon0 : ℝ), 0)) (some ell)) (by show 0 ≤ ell.e; rw [ee]; exact h0')
    (by show ell.e < 1; rw [ee]; linarith) LON hLAT
  rw [hxy] at g
  injection g with g
  injection g with gx gy
  have gx' : (x : ℝ) = a * Proj.corangle (rad LON - rad lon0) := ea ▸ gx
  have gy' : (y : ℝ) = a * (Real.log ((1 + Real.sin (rad LAT)) / Real.cos (rad LAT)) + e / 2 * Real.log ((1 - e * Real.sin (rad LAT)) / (1 + e * Real.sin (rad LAT)))) :=
    ea ▸ ee ▸ gy
  obtain ⟨c1, c2⟩ := Proj.rad_bounds hLAT
  have fix := exact_fix h0' (by linarith) c1 c2 rfl
  generalize Real.log ((1 + Real.sin (rad LAT)) / Real.cos (rad LAT)) + e / 2 * Real.log ((1 - e * Real.sin (rad LAT)) / (1 + e * Real.sin (rad LAT))) = L at *
  have hL : |L| ≤ 6 := by
    rw [gy', abs_mul, abs_of_pos (by linarith), mul_comm] at hy'
    exact le_of_mul_le_mul_right hy' (by linarith)
  have hxb : |x| ≤ 50 * a := by
    obtain ⟨r1, r2⟩ := Proj.corangle_range (rad LON - rad lon0)
    have : |(x : ℝ)| ≤ 50 * a := by
      rw [gx', abs_mul, abs_of_pos (by linarith), mul_comm]
      exact mul_le_mul_of_nonneg_right (abs_le.mpr ⟨by linarith, by linarith⟩) (by linarith)
    exact_mod_cast this
  obtain ⟨t1, t2⟩ := t_err hm ha hL (c := 0) (y := y) (by rw [gy']; simp) (by norm_num)
  obtain ⟨v, v1, v2, v3, j, hj⟩ := lon_turns ha l0 hxb
  obtain ⟨l, q1, q2, q3⟩ := turns_end hm h0 h1 (exp_nonneg' hm (fl (-y / a)))
  refine ⟨_, _, rect2geo_unique (by linarith) v1 v2 (exp_arg hm ha (by linarith [(abs_le.mp hy).1])) q3, ?_, ?_⟩
  · have f := fixed_err hm h0 h1 t1 hL t2 (by linarith) q2 fix
    have d := degrees_err f (abs_le.mpr ⟨by linarith, by linarith⟩) (by linarith)
    rw [deg_rad] at d
    rw [show (2 : ℝ) ^ (-39 : ℤ) = 8192 * w by rw [w_eq]; norm_num]
    linarith
  · obtain ⟨i, hi⟩ := Proj.corangle_turns (rad LON - rad lon0)
    refine ⟨i + j, ?_⟩
    have e1 : (x : ℝ) / a + rad lon0 + 2 * Real.pi * j = rad LON + 2 * Real.pi * ((i + j : ℤ) : ℝ) := by
      rw [gx', mul_div_cancel_left₀ _ (by linarith : (a : ℝ) ≠ 0), hi]
      push_cast
      ring
    rw [e1] at hj
    have v4 := abs_real v3
    have hp := piD_real
    have d := degrees_err hj (by
      have := abs_sub_abs_le_abs_sub (rad LON + 2 * Real.pi * ((i + j : ℤ) : ℝ)) v
      rw [abs_sub_comm] at this
      linarith) (by linarith)
    rw [Proj.deg_turns_of rfl] at d
    rw [show (2 : ℝ) ^ (-39 : ℤ) = 8192 * w by rw [w_eq]; norm_num]
    linarith

/-! ### The way forth (C190) -/

theorem tan_log {m : EllLib} (hm : m.Rounds) {lat : ℚ} (h : |lat| ≤ 89) :
    (0 : ℝ) < m.tan (half lat) ∧ |Real.log (m.tan (half lat)) - mercOrdinate lat| ≤ 1633 * w := by
  have hw := w_pos
  have hle := w_le
  have hp := Real.pi_gt_d2
  have h' := abs_real h
  push_cast at h'
  have e := halfAngle_err (lat := lat) (by linarith)
  obtain ⟨a, b⟩ := exact_range h'
  obtain ⟨e1, e2⟩ := abs_le.mp e
  have u0 : Real.pi / 362 ≤ half lat := by linarith
  have u1 : (half lat : ℝ) ≤ Real.pi / 2 - Real.pi / 362 := by linarith
  have l := log_tan_lip (a := Real.pi / 362) (by linarith) u0 u1 (v := Real.pi / 4 + rad lat / 2) (by linarith) (by linarith)
  have e181 : Real.pi / (2 * (Real.pi / 362)) = 181 := by field_simp; norm_num
  rw [e181] at l
  obtain ⟨t1, t2⟩ := tan_bounds u0 u1
  obtain ⟨p, q⟩ := near_log (hm.tan (half lat)) (by linarith)
  refine ⟨p, ?_⟩
  have := abs_sub_le (Real.log (m.tan (half lat))) (Real.log (Real.tan (half lat))) (mercOrdinate lat)
  rw [mercOrdinate] at this ⊢
  linarith

/-- The ordinate of the exact projection, in equatorial radii. -/
noncomputable def ellOrdinate (e lat : ℝ) : ℝ := mercOrdinate lat + e / 2 * eLog e (Real.sin (rad lat))

theorem ellOrdinate_abs {e lat : ℝ} (h0 : 0 ≤ e) (h1 : e ≤ 1 / 2) (h : |lat| ≤ 89) : |ellOrdinate e lat| ≤ 6 := by
  have a := mercOrdinate_abs h
  have b := eLog_abs h0 h1 (Real.abs_sin_le_one (rad lat))
  have c : |e / 2 * eLog e (Real.sin (rad lat))| ≤ 1 / 2 := by
    rw [abs_mul, abs_of_nonneg (by linarith)]
    nlinarith [abs_nonneg (eLog e (Real.sin (rad lat)))]
  have := abs_add_le (mercOrdinate lat) (e / 2 * eLog e (Real.sin (rad lat)))
  rw [ellOrdinate]
  linarith

/-- The float under the logarithm. -/
def eArg (m : EllLib) (e lat : ℚ) : ℚ := fl (m.tan (half lat) * m.pow (eQuot m e (radians lat)) (fl (e / 2)))

theorem ordinate_err {m : EllLib} (hm : m.Rounds) {e lat : ℚ} (h0 : 0 ≤ e) (h1 : e ≤ 1 / 2) (h : |lat| ≤ 89) :
    0 < eArg m e lat ∧ |(m.log (eArg m e lat) : ℝ) - ellOrdinate e lat| ≤ 1672 * w := by
  have hw := w_pos
  have hle := w_tiny
  have h0' : (0 : ℝ) ≤ e := by exact_mod_cast h0
  have h1' := half_real h1
  have h' := abs_real h
  push_cast at h'
  obtain ⟨t1, t2⟩ := tan_log hm h
  have r := radians_err (x := lat) (by linarith)
  have s := (sin_err hm.base r).1
  obtain ⟨f1, f2⟩ := eFactor_err hm h0 h1 (Real.abs_sin_le_one (rad lat)) (l := radians lat) (by linarith)
  have o := ellOrdinate_abs h0' h1' h'
  rw [eArg]
  generalize m.pow (eQuot m e (radians lat)) (fl (e / 2)) = F at *
  generalize m.tan (half lat) = T at *
  have lg : |Real.log (T * F) - ellOrdinate e lat| ≤ 1664 * w := by
    rw [Real.log_mul t1.ne' f1.ne', ellOrdinate]
    rw [show Real.log T + Real.log F - (mercOrdinate lat + e / 2 * eLog e (Real.sin (rad lat))) =
      (Real.log T - mercOrdinate lat) + (Real.log F - e / 2 * eLog e (Real.sin (rad lat))) by ring]
    have := abs_add_le (Real.log T - mercOrdinate lat) (Real.log F - e / 2 * eLog e (Real.sin (rad lat)))
    linarith
  have tf := mul_pos t1 f1
  have low : (1 : ℝ) / 1536 ≤ T * F := by
    have a := (abs_le.mp lg).1
    have b := (abs_le.mp o).1
    have : Real.exp (-7) ≤ Real.exp (Real.log (T * F)) := Real.exp_le_exp.mpr (by linarith)
    rw [Real.exp_log tf] at this
    exact exp_minus_seven.trans this
  obtain ⟨u1, u2⟩ := fl_log (x := T * F) (by push_cast; exact low)
  push_cast at u2
  have u1' : 0 < fl (T * F) := by exact_mod_cast u1
  refine ⟨u1', ?_⟩
  have u3 : |Real.log (fl (T * F)) - ellOrdinate e lat| ≤ 1668 * w := by
    have := abs_sub_le (Real.log (fl (T * F))) (Real.log (T * F)) (ellOrdinate e lat)
    linarith
  have := near_step (hm.log _ u1') u3 o (by linarith)
  linarith

theorem ell_geo2rect_unique {m : EllLib} (hm : m.Rounds) {lon0 a e lon lat v : ℚ} (h0 : 0 ≤ e) (h1 : e ≤ 1 / 2) (hl : lat ≠ -90)
    (hv : CorangleEnds (fl (radians lon - radians lon0)) v) (hu : ∀ v', CorangleEnds (fl (radians lon - radians lon0)) v' → v' = v) (hp : 0 < eArg m e lat)
    (res : Py (ℚ × ℚ)) : (EMercator.init lon0 a e).Geo2rect m lon lat res ↔ res = .ok (fl (a * v), fl (a * m.log (eArg m e lat))) := by
  rw [EMercator.Geo2rect, if_neg hl]
  have e1 : (do
      let f ← EMercator.factor m (EMercator.init lon0 a e).e (radians lat)
      let l ← m.pyLog (fl (m.tan (fl (fl (piD / 4) + fl (radians lat / 2))) * f))
      return (fl ((EMercator.init lon0 a e).a * v), fl ((EMercator.init lon0 a e).a * l)) : Py (ℚ × ℚ)) = .ok (fl (a * v), fl (a * m.log (eArg m e lat))) := by
    rw [show EMercator.factor m (EMercator.init lon0 a e).e (radians lat) = .ok (m.pow (eQuot m e (radians lat)) (fl (e / 2))) from factor_ok hm h0 h1 _]
    change (m.pyLog (eArg m e lat) >>= _) = _
    rw [EllLib.pyLog, if_neg (not_le.mpr hp)]
    rfl
  constructor
  · rintro ⟨v', k1, k2⟩
    rw [hu v' k1, e1] at k2
    exact k2
  · rintro rfl
    exact ⟨v, hv, e1.symm⟩

/-- C190: the south pole raises `ProjectionError`. -/
theorem C190_south (m : EllLib) (lon0 a e lon : ℚ) (res : Py (ℚ × ℚ)) : (EMercator.init lon0 a e).Geo2rect m lon (-90) res ↔ res = .error .projectionError := by
  rw [EMercator.Geo2rect, if_pos rfl]

/-- C190: up to a degree from the poles the coordinates are right up to 2⁻⁴¹ equatorial radii; the abscissa up to whole turns. -/
theorem C190_close (m : EllLib) (hm : m.Rounds) (lon0 a e lon lat : ℚ) (l0 : |lon0| ≤ 360) (l1 : |lon| ≤ 360) (ha : 1 ≤ a) (h0 : 0 ≤ e) (h1 : e ≤ 1 / 2) (h : |lat| ≤ 89)
    (ell : Proj.Ellipsoid) (ea : ell.a = a) (ee : ell.e = e) :
    ∃ x y X Y, (∀ res, (EMercator.init lon0 a e).Geo2rect m lon lat res ↔ res = .ok (x, y)) ∧
      Proj.EMercator.geo2rect (Proj.Spheroid.new (some ((lon0 : ℝ), 0)) (some ell)) lon lat = .ok (X, Y) ∧
      |(y : ℝ) - Y| ≤ a * 2 ^ (-41 : ℤ) ∧ ∃ k : ℤ, |(x : ℝ) - (X + 2 * Real.pi * a * k)| ≤ a * 2 ^ (-45 : ℤ) := by
  have hw := w_pos
  have hle := w_tiny
  have h0' : (0 : ℝ) ≤ e := by exact_mod_cast h0
  have h1' := half_real h1
  have ha' : (1 : ℝ) ≤ a := by exact_mod_cast ha
  have h' := abs_real h
  push_cast at h'
  obtain ⟨v, hv, hu, hb, k, hk⟩ := corangle_lon l0 l1
  obtain ⟨p, q⟩ := ordinate_err hm h0 h1 h
  have hl : lat ≠ -90 := by
    rintro rfl
    norm_num at h
  obtain ⟨j, hj⟩ := Proj.corangle_turns (rad lon - rad lon0)
  have hlt : |(lat : ℝ)| < 90 := by linarith
  obtain ⟨c1, c2⟩ := Proj.rad_bounds hlt
  refine ⟨_, _, a * Proj.corangle (rad lon - rad lon0), a * ellOrdinate e lat, ell_geo2rect_unique hm h0 h1 hl hv hu p, ?_, ?_, k - j, ?_⟩
  · rw [Proj.EMercator.geo2rect_eq _ (by show 0 ≤ ell.e; rw [ee]; exact h0') (by show ell.e < 1; rw [ee]; linarith) _ hlt]
    show Except.ok (ell.a * Proj.corangle (rad lon - rad lon0), ell.a * (Real.log ((1 + Real.sin (rad lat)) / Real.cos (rad lat)) +
      ell.e / 2 * Real.log ((1 - ell.e * Real.sin (rad lat)) / (1 + ell.e * Real.sin (rad lat))))) = _
    rw [ea, ee, ellOrdinate, mercOrdinate, (Proj.half_angle c1 c2).2, eLog]
  · have s := scaled ha q (ellOrdinate_abs h0' h1' h') (by linarith)
    refine s.trans (mul_le_mul_of_nonneg_left ?_ (by linarith))
    rw [show (2 : ℝ) ^ (-41 : ℤ) = 2048 * w by rw [w_eq]; norm_num]
    linarith
  · have hb' := abs_real hb
    have hpi := piD_real
    have B : |rad (lon : ℝ) - rad lon0 + 2 * Real.pi * k| ≤ 5 := by
      have := abs_sub_abs_le_abs_sub (rad (lon : ℝ) - rad lon0 + 2 * Real.pi * k) v
      rw [abs_sub_comm] at this
      linarith
    have s := scaled ha hk B (by linarith)
    have e1 : (a : ℝ) * Proj.corangle (rad lon - rad lon0) + 2 * Real.pi * a * ((k - j : ℤ) : ℝ) = a * (rad lon - rad lon0 + 2 * Real.pi * k) := by
      rw [hj]
      push_cast
      ring
    rw [e1]
    refine s.trans (mul_le_mul_of_nonneg_left ?_ (by linarith))
    rw [show (2 : ℝ) ^ (-45 : ℤ) = 128 * w by rw [w_eq]; norm_num]
    linarith

/-- C190: a position up to a degree from the poles comes back as it was, up to 2⁻³³ degrees of latitude and, up to whole turns, 2⁻³⁸ degrees of longitude. -/
theorem C190_back (m : EllLib) (hm : m.Rounds) (lon0 a e lon lat : ℚ) (l0 : |lon0| ≤ 360) (l1 : |lon| ≤ 360) (ha : 1 ≤ a) (h0 : 0 ≤ e) (h1 : e ≤ 1 / 2) (h : |lat| ≤ 89) :
    ∃ x y lon' lat', (∀ res, (EMercator.init lon0 a e).Geo2rect m lon lat res ↔ res = .ok (x, y)) ∧
      (∀ res, (EMercator.init lon0 a e).Rect2geo m x y res ↔ res = .ok (lon', lat')) ∧
      |(lat' : ℝ) - lat| ≤ 2 ^ (-33 : ℤ) ∧ ∃ k : ℤ, |(lon' : ℝ) - (lon + 360 * k)| ≤ 2 ^ (-38 : ℤ) := by
  have hw := w_pos
  have hle := w_tiny
  have h0' : (0 : ℝ) ≤ e := by exact_mod_cast h0
  have h1' := half_real h1
  have h' := abs_real h
  push_cast at h'
  have hpi := Real.pi_lt_d2
  obtain ⟨v, hv, hu, hb, k, hk⟩ := corangle_lon l0 l1
  obtain ⟨p, q⟩ := ordinate_err hm h0 h1 h
  have hl : lat ≠ -90 := by
    rintro rfl
    norm_num at h
  have hlt : |(lat : ℝ)| < 90 := by linarith
  obtain ⟨c1, c2⟩ := Proj.rad_bounds hlt
  have o := ellOrdinate_abs h0' h1' h'
  have sy := scaled ha q o (by linarith)
  have hp := piD_real
  have hb' := abs_real hb
  have sx := scaled ha (l := v) (L := v) (e := 0) (by simp) (B := 4) (by linarith) (by norm_num)
  obtain ⟨v', v1, v2, -, j, hj⟩ := lon_back (x := fl (a * v)) ha l0 hb hk (by linarith)
  obtain ⟨t1, t2⟩ := t_err hm ha o (c := 1676 * w) (y := fl (a * m.log (eArg m e lat))) (sy.trans (mul_le_mul_of_nonneg_left (by linarith) (by
    have : (1 : ℝ) ≤ a := by exact_mod_cast ha
    linarith))) (by linarith)
  obtain ⟨l, q1, q2, q3⟩ := turns_end hm h0 h1 (exp_nonneg' hm (fl (-fl (a * m.log (eArg m e lat)) / a)))
  have far : -(709 * a) ≤ fl (a * m.log (eArg m e lat)) := by
    have ha' : (1 : ℝ) ≤ a := by exact_mod_cast ha
    have o1 := (abs_le.mp o).1
    have s1 := (abs_le.mp sy).1
    have : (-(709 * a) : ℝ) ≤ fl (a * m.log (eArg m e lat)) := by nlinarith
    exact_mod_cast this
  refine ⟨_, _, _, _, ell_geo2rect_unique hm h0 h1 hl hv hu p, rect2geo_unique (by linarith) v1 v2 (exp_arg hm ha far) q3, ?_, j, hj⟩
  have fix := exact_fix (L := ellOrdinate e lat) h0' (by linarith) c1 c2 (by rw [ellOrdinate, mercOrdinate, (Proj.half_angle c1 c2).2, eLog])
  have f := fixed_err hm h0 h1 t1 o t2 (by linarith) q2 fix
  have d := degrees_err f (abs_le.mpr ⟨by linarith, by linarith⟩) (by linarith)
  rw [deg_rad] at d
  rw [show (2 : ℝ) ^ (-33 : ℤ) = 524288 * w by rw [w_eq]; norm_num]
  linarith

/-! ### The scale factors (C191) -/

theorem quot_cos {s c S C : ℝ} {f : ℝ} (hC : 1 / 90 ≤ C) (hc : |c - C| ≤ 10 * w) (hS : |S| ≤ 1) (hs : |s - S| ≤ f) : c ≠ 0 ∧ |s / c - S / C| ≤ 91 * f + 81910 * w := by
  have hw := w_pos
  have hle := w_tiny
  obtain ⟨a, b⟩ := abs_le.mp hc
  have c0 : 1 / 91 ≤ c := by linarith
  have f0 : 0 ≤ f := (abs_nonneg _).trans hs
  refine ⟨by linarith, ?_⟩
  have e : s / c - S / C = (s - S) / c + S * (C - c) / (c * C) := by
    have : c ≠ 0 := by linarith
    have : C ≠ 0 := by linarith
    field_simp
    ring
  rw [e]
  have t := abs_add_le ((s - S) / c) (S * (C - c) / (c * C))
  have t1 : |(s - S) / c| ≤ 91 * f := by
    rw [abs_div, abs_of_pos (by linarith : 0 < c), div_le_iff₀ (by linarith)]
    nlinarith
  have t2 : |S * (C - c) / (c * C)| ≤ 81910 * w := by
    rw [abs_div, abs_mul, abs_of_pos (mul_pos (by linarith) (by linarith) : 0 < c * C), abs_sub_comm, div_le_iff₀ (mul_pos (by linarith) (by linarith))]
    have p : 1 / 91 * (1 / 90) ≤ c * C := mul_le_mul c0 hC (by norm_num) (by linarith)
    have q : |S| * |c - C| ≤ 1 * (10 * w) := mul_le_mul hS hc (abs_nonneg _) (by norm_num)
    nlinarith
  linarith

/-- C191: up to a degree from the poles the scale factor of the Mercator projection is right up to 2⁻³⁵. -/
theorem C191_sphere (m : Libm) (hm : m.Rounds) (lon lat : ℚ) (h : |lat| ≤ 89) (p : Proj.Sphere) :
    ∃ k K, Mercator.scale m lon lat = .ok k ∧ Proj.Mercator.scale p lon lat = .ok K ∧ |(k : ℝ) - K| ≤ 2 ^ (-35 : ℤ) := by
  have hw := w_pos
  have hle := w_tiny
  have h' := abs_real h
  push_cast at h'
  have r := radians_err (x := lat) (by linarith)
  have c := (cos_err hm r).1
  have C := cos_lat_large h'
  obtain ⟨q0, q⟩ := quot_cos C (by linarith) (by norm_num : |(1 : ℝ)| ≤ 1) (s := 1) (f := 0) (by simp)
  have q0' : m.cos (radians lat) ≠ 0 := by exact_mod_cast q0
  refine ⟨_, _, div_ok q0', Proj.Mercator.scale_ok p _ (by linarith), ?_⟩
  have s := fl_step (x := 1 / m.cos (radians lat)) (by push_cast; exact q) (B := 90) (by
    rw [abs_of_pos (by positivity), div_le_iff₀ (by linarith)]
    linarith) (by linarith)
  rw [show (2 : ℝ) ^ (-35 : ℤ) = 131072 * w by rw [w_eq]; norm_num]
  linarith

/-- C191: and so is that of the projection for the ellipsoid. -/
theorem C191_ellipsoid (m : EllLib) (hm : m.Rounds) (lon0 a e lon lat : ℚ) (h0 : 0 ≤ e) (h1 : e ≤ 1 / 2) (h : |lat| ≤ 89) (p : Proj.Spheroid) (ee : p.ell.e = e) :
    ∃ k K, (EMercator.init lon0 a e).scale m lon lat = .ok k ∧ Proj.EMercator.scale p lon lat = .ok K ∧ |(k : ℝ) - K| ≤ 2 ^ (-35 : ℤ) := by
  have hw := w_pos
  have hle := w_tiny
  have h' := abs_real h
  push_cast at h'
  have h0' : (0 : ℝ) ≤ e := by exact_mod_cast h0
  have h1' := half_real h1
  have r := radians_err (x := lat) (by linarith)
  have c := (cos_err hm.base r).1
  obtain ⟨s1, s2⟩ := sin_err hm.base r
  have C := cos_lat_large h'
  have hS := Real.abs_sin_le_one (rad lat)
  have ab : |(e : ℝ)| ≤ 1 := by rw [abs_of_nonneg h0']; linarith
  obtain ⟨m1, m2⟩ := mul_err ab ab ab (A := (e : ℝ)) (B := (e : ℝ)) (e := 0) (f := 0) (by simp) (by simp)
  have A1 : |(e : ℝ) * e| ≤ 1 / 4 := by rw [abs_of_nonneg (by positivity)]; nlinarith
  obtain ⟨n1, n2⟩ := mul_err m2 s2 (by linarith : |(e : ℝ) * e| ≤ 1) m1 s1
  have A2 : |(e : ℝ) * e * Real.sin (rad lat)| ≤ 1 / 4 := by
    rw [abs_mul]
    nlinarith [abs_nonneg ((e : ℝ) * e), abs_nonneg (Real.sin (rad lat))]
  obtain ⟨o1, o2⟩ := mul_err n2 s2 (by linarith : |(e : ℝ) * e * Real.sin (rad lat)| ≤ 1) n1 s1
  have A3 : |(e : ℝ) * e * Real.sin (rad lat) * Real.sin (rad lat)| ≤ 1 / 4 := by
    rw [abs_mul]
    nlinarith [abs_nonneg ((e : ℝ) * e * Real.sin (rad lat)), abs_nonneg (Real.sin (rad lat))]
  have A4 : 0 ≤ (e : ℝ) * e * Real.sin (rad lat) * Real.sin (rad lat) := by
    rw [mul_assoc]
    exact mul_nonneg (mul_self_nonneg _) (mul_self_nonneg _)
  obtain ⟨-, A5⟩ := abs_le.mp A3
  obtain ⟨w1, w2⟩ := Proj.EMercator.w_pos h0' (by linarith) (rad lat)
  have sc := Proj.EMercator.scale_ok p (by rw [ee]; exact h0') (by rw [ee]; linarith) lon (lat := lat) (by linarith)
  rw [ee] at sc
  have eq : (1 - (e : ℝ) * Real.sin (rad lat)) * (1 + e * Real.sin (rad lat)) = 1 - (e : ℝ) * e * Real.sin (rad lat) * Real.sin (rad lat) := by ring
  rw [eq] at sc
  have d := sub_err (a := 1) (A := 1) (e := 0) (by norm_num) o2 (by norm_num) o1
  obtain ⟨x, hx⟩ : ∃ x, x = fl (1 - fl (fl (fl (e * e) * m.sin (radians lat)) * m.sin (radians lat))) := ⟨_, rfl⟩
  rw [← hx] at d
  obtain ⟨D, hD⟩ : ∃ D, D = 1 - (e : ℝ) * e * Real.sin (rad lat) * Real.sin (rad lat) := ⟨_, rfl⟩
  rw [← hD] at d sc
  have Dl : 3 / 4 ≤ D := by linarith
  have Du : D ≤ 1 := by linarith
  have xp : 0 ≤ (x : ℝ) := by
    have := (abs_le.mp d).1
    linarith
  have rl : 1 / 2 ≤ √D := Real.le_sqrt_of_sq_le (by norm_num; linarith)
  have ru : √D ≤ 1 := Real.sqrt_le_one.mpr Du
  have root : |√(x : ℝ) - √D| ≤ 52 * w := by
    have sx := Real.sqrt_nonneg (x : ℝ)
    have e : (√(x : ℝ) - √D) * (√(x : ℝ) + √D) = x - D := by
      have e1 := Real.mul_self_sqrt xp
      have e2 := Real.mul_self_sqrt (by linarith : 0 ≤ D)
      linear_combination e1 - e2
    have a : |√(x : ℝ) - √D| * (1 / 2) ≤ |√(x : ℝ) - √D| * |√(x : ℝ) + √D| := by
      refine mul_le_mul_of_nonneg_left ?_ (abs_nonneg _)
      rw [abs_of_nonneg (by linarith)]
      linarith
    rw [← abs_mul, e] at a
    linarith
  have xp' : 0 ≤ x := by exact_mod_cast xp
  have near : Nearest (√(x : ℝ)) (m.sqrt x) := ⟨(hm.base.sqrt x xp').1, (hm.base.sqrt x xp').2.2⟩
  have ra : |√D| ≤ 1 := by rwa [abs_of_nonneg (Real.sqrt_nonneg _)]
  have s := near_step near root ra (by linarith)
  obtain ⟨q0, q⟩ := quot_cos C (by linarith) ra s
  have q0' : m.cos (radians lat) ≠ 0 := by exact_mod_cast q0
  refine ⟨fl (m.sqrt x / m.cos (radians lat)), _, ?_, sc, ?_⟩
  · rw [EMercator.scale]
    change (m.pySqrt (fl (1 - fl (fl (fl (e * e) * m.sin (radians lat)) * m.sin (radians lat)))) >>= _) = _
    rw [← hx, sqrt_ok xp']
    exact div_ok q0'
  · have s' := fl_step (x := m.sqrt x / m.cos (radians lat)) (by push_cast; exact q) (B := 90) (by
      rw [abs_div, abs_of_pos (by linarith : 0 < Real.cos (rad lat)), div_le_iff₀ (by linarith)]
      linarith) (by linarith)
    rw [show (2 : ℝ) ^ (-35 : ℤ) = 131072 * w by rw [w_eq]; norm_num]
    linarith

/-- C191: the poles, where the scale is infinite, raise nothing; the factor is more than 10¹⁶. -/
theorem C191_poles (m : Libm) (hm : m.Rounds) (lon lat : ℚ) (h : |lat| = 90) : ∃ k, Mercator.scale m lon lat = .ok k ∧ 10 ^ 16 < k := by
  have hw := w_eq
  have p1 := Real.pi_gt_d20
  have p2 := Real.pi_lt_d20
  have rp : radians 90 = piD / 2 := by decide +kernel
  have rn : radians (-90) = -(piD / 2) := by decide +kernel
  have key : Real.cos (radians lat) = Real.sin (Real.pi / 2 - piD / 2) := by
    rw [← Real.cos_pi_div_two_sub]
    rcases eq_or_eq_neg_of_abs_eq h with e | e
    · rw [e, rp]
      push_cast
      congr 1
      ring
    · rw [e, rn]
      push_cast
      rw [Real.cos_neg]
      congr 1
      ring
  have small : (61 : ℝ) / 10 ^ 18 ≤ Real.pi / 2 - piD / 2 ∧ Real.pi / 2 - piD / 2 ≤ 62 / 10 ^ 18 := by
    rw [piD]
    push_cast
    constructor <;> norm_num at p1 p2 ⊢ <;> linarith
  obtain ⟨s1, s2⟩ := small
  have up := Real.sin_le (x := Real.pi / 2 - piD / 2) (by linarith)
  have dn := Real.sin_gt_sub_cube (x := Real.pi / 2 - piD / 2) (by linarith)
  have n := near_err (hm.cos (radians lat))
  rw [key] at n
  have cube : (Real.pi / 2 - piD / 2) ^ 3 / 6 ≤ 1 / 10 ^ 18 := by
    have := pow_le_pow_left₀ (by linarith) s2 3
    norm_num at this ⊢
    linarith
  have lo : (59 : ℝ) / 10 ^ 18 ≤ Real.sin (Real.pi / 2 - piD / 2) := by linarith
  rw [abs_of_nonneg (by linarith : (0 : ℝ) ≤ Real.sin (Real.pi / 2 - piD / 2)), hw] at n
  obtain ⟨n1, n2⟩ := abs_le.mp n
  have c0 : (0 : ℝ) < m.cos (radians lat) := by
    norm_num at n1
    linarith
  have c1 : (m.cos (radians lat) : ℝ) ≤ 63 / 10 ^ 18 := by
    norm_num at n2
    linarith
  have c0' : 0 < m.cos (radians lat) := by exact_mod_cast c0
  have c1' : m.cos (radians lat) ≤ 63 / 10 ^ 18 := by
    have : (m.cos (radians lat) : ℝ) ≤ ((63 / 10 ^ 18 : ℚ) : ℝ) := by push_cast; exact c1
    exact_mod_cast this
  refine ⟨_, div_ok c0'.ne', ?_⟩
  have big : 2 ^ 53 + 2 ^ 51 ≤ fl (1 / m.cos (radians lat)) := by
    refine le_fl ⟨5, 51, by norm_num, by norm_num, by norm_num⟩ ?_
    rw [le_div_iff₀ c0']
    have := mul_le_mul_of_nonneg_left c1' (by norm_num : (0 : ℚ) ≤ 2 ^ 53 + 2 ^ 51)
    refine this.trans ?_
    norm_num
  refine lt_of_lt_of_le ?_ big
  norm_num

/-! ### Cases -/

theorem exists_ell_rounds : ∃ m : EllLib, m.Rounds := by
  obtain ⟨b, hb⟩ := exists_rounds
  choose f hf using exists_near
  exact ⟨⟨b, fun x => f (Real.tan x), fun x => f (Real.log x), fun x => f (Real.exp x), fun x => f (Real.arctan x), fun x y => f ((x : ℝ) ^ (y : ℝ))⟩,
    ⟨hb, fun x => hf _, fun x _ => hf _, fun x => hf _, fun x => hf _, fun x y _ => hf _⟩⟩

/-- A point far from the origin, for an ellipsoid like the earth. -/
example (m : EllLib) (hm : m.Rounds) : ∃ lon lat, (∀ res, (EMercator.init 15 6378137 (818 / 10000)).Rect2geo m (-1000000) 5000000 res ↔ res = .ok (lon, lat)) ∧
    |lon| ≤ 180 ∧ |lat| ≤ 90 :=
  C189_ends m hm 15 6378137 (818 / 10000) (-1000000) 5000000 (by norm_num) (by norm_num) (by norm_num) (by norm_num) (by norm_num) (by norm_num)

/-- The point of the origin comes from the origin. -/
example (m : EllLib) (hm : m.Rounds) : ∃ lon lat, (∀ res, (EMercator.init 0 6378137 (818 / 10000)).Rect2geo m 0 0 res ↔ res = .ok (lon, lat)) ∧ |(lat : ℝ) - 0| ≤ 2 ^ (-39 : ℤ) ∧
    ∃ k : ℤ, |(lon : ℝ) - (0 + 360 * k)| ≤ 2 ^ (-39 : ℤ) := by
  refine C189_close m hm 0 6378137 (818 / 10000) 0 0 (by norm_num) (by norm_num) (by norm_num) (by norm_num) (by norm_num) ⟨6378137, 0, 818 / 10000, 0⟩ (by norm_num)
    (by norm_num) 0 0 (by norm_num) ?_
  rw [Proj.EMercator.geo2rect_eq _ (by show (0 : ℝ) ≤ 818 / 10000; norm_num) (by show (818 : ℝ) / 10000 < 1; norm_num) _ (by norm_num)]
  have r0 : rad 0 = 0 := by simp [rad]
  have c0 : Proj.corangle 0 = 0 := by
    obtain ⟨a, b⟩ := Proj.corangle_range 0
    obtain ⟨k, hk⟩ := Proj.corangle_turns 0
    have hp := Real.pi_pos
    rw [zero_add] at hk
    have k1 : (k : ℝ) < 1 := by nlinarith
    have k2 : (-1 : ℝ) < k := by nlinarith
    have k3 : k = 0 := by
      have : k < 1 := by exact_mod_cast k1
      have : -1 < k := by exact_mod_cast k2
      omega
    rw [hk, k3]
    simp
  have l0 : (Proj.Spheroid.new (some (((0 : ℚ) : ℝ), 0)) (some ⟨6378137, 0, 818 / 10000, 0⟩)).lon0 = 0 := by
    show rad ((0 : ℚ) : ℝ) = 0
    push_cast
    exact r0
  rw [l0, r0, sub_zero, c0]
  simp

/-- A place near the pole goes and comes back. -/
example (m : EllLib) (hm : m.Rounds) : ∃ x y lon' lat', (∀ res, (EMercator.init 0 6378137 (818 / 10000)).Geo2rect m 17 89 res ↔ res = .ok (x, y)) ∧
    (∀ res, (EMercator.init 0 6378137 (818 / 10000)).Rect2geo m x y res ↔ res = .ok (lon', lat')) ∧
    |(lat' : ℝ) - (89 : ℚ)| ≤ 2 ^ (-33 : ℤ) ∧ ∃ k : ℤ, |(lon' : ℝ) - ((17 : ℚ) + 360 * k)| ≤ 2 ^ (-38 : ℤ) :=
  C190_back m hm 0 6378137 (818 / 10000) 17 89 (by norm_num) (by norm_num) (by norm_num) (by norm_num) (by norm_num) (by norm_num)

end Flt
end Coral
