import Verif.Props.FloatsR

/-!
# The way there and back with the conic equal-area projection on floats (C186)
-/
namespace Coral
namespace Flt

/-- The sizes of `w / h³` and `w / h⁴`. -/
theorem unit_powers {h : ℝ} (h0 : 2 ^ (-6 : ℤ) ≤ h) (h1 : h ≤ 1) : 2 ^ (-16 : ℤ) ≤ h ∧ 0 < w / h ^ 3 ∧ w / h ^ 2 ≤ w / h ^ 3 ∧ w / h ^ 3 ≤ w / h ^ 4 ∧ 10000000000 * (w / h ^ 3) ≤ 1 ∧
    200000000 * (w / h ^ 4) ≤ 1 := by
  have hw := w_pos
  have hp : 0 < h := lt_of_lt_of_le (by positivity) h0
  have e3 : h ^ 3 ≤ h ^ 2 := pow_le_pow_of_le_one hp.le h1 (by norm_num)
  have e4 : h ^ 4 ≤ h ^ 3 := pow_le_pow_of_le_one hp.le h1 (by norm_num)
  have a : ((2 : ℝ) ^ (-6 : ℤ)) ^ 4 ≤ h ^ 4 := pow_le_pow_left₀ (by positivity) h0 4
  have b : 200000000 * w ≤ ((2 : ℝ) ^ (-6 : ℤ)) ^ 4 := by rw [w_eq]; norm_num
  refine ⟨le_trans (by norm_num) h0, by positivity, div_le_div_of_nonneg_left hw.le (by positivity) e3, div_le_div_of_nonneg_left hw.le (by positivity) e4, ?_, ?_⟩
  · rw [← mul_div_assoc, div_le_one (by positivity)]
    have c : ((2 : ℝ) ^ (-6 : ℤ)) ^ 3 ≤ h ^ 3 := pow_le_pow_left₀ (by positivity) h0 3
    have d : 10000000000 * w ≤ ((2 : ℝ) ^ (-6 : ℤ)) ^ 3 := by rw [w_eq]; norm_num
    exact d.trans c
  · rw [← mul_div_assoc, div_le_one (by positivity)]
    exact b.trans a

/-- The difference `p0 - y` of the way back. -/
theorem cone_away {r p0 y : ℚ} {A B h : ℝ} (hr : 1 ≤ r) (h0 : 2 ^ (-16 : ℤ) ≤ h) (h1 : h ≤ 1) (hp : |(p0 : ℝ) - r * A| ≤ r * (170 * (w / h ^ 2)))
    (hB : |B| ≤ 2 / h) (hy : |(y : ℝ) - (r * A - r * B)| ≤ r * (1024 * (w / h ^ 2))) : |(fl (p0 - y) : ℝ) - r * B| ≤ r * (1200 * (w / h ^ 2)) := by
  have hw := w_pos
  obtain ⟨hp0, V0, V1, a1, a2, a3, a4⟩ := unit_sizes h0 h1
  have hr' : (1 : ℝ) ≤ r := by exact_mod_cast hr
  have r0 : (0 : ℝ) ≤ r := by linarith
  have e1 : |(p0 : ℝ) - y - r * B| ≤ r * (1194 * (w / h ^ 2)) := by
    rw [show (p0 : ℝ) - y - r * B = (p0 - r * A) - (y - (r * A - r * B)) by ring]
    refine (abs_sub _ _).trans ?_
    have f : (r : ℝ) * (1194 * (w / h ^ 2)) = r * (170 * (w / h ^ 2)) + r * (1024 * (w / h ^ 2)) := by ring
    linarith
  have hB' : |(r : ℝ) * B| ≤ r * (2 / h) := by
    rw [abs_mul, abs_of_nonneg r0]
    exact mul_le_mul_of_nonneg_left hB r0
  have e := fl_err_real (p0 - y)
  push_cast at e
  have k : |(p0 : ℝ) - y| ≤ r * (3 / h) := by
    have a := abs_sub_abs_le_abs_sub ((p0 : ℝ) - y) (r * B)
    have d : (r : ℝ) * (1194 * (w / h ^ 2)) ≤ r * (1 / h) := by
      refine mul_le_mul_of_nonneg_left ?_ r0
      have : 1 ≤ 1 / h := by rw [le_div_iff₀ hp0]; linarith
      linarith
    have f : (r : ℝ) * (3 / h) = r * (2 / h) + r * (1 / h) := by ring
    linarith
  have g := mul_le_mul_of_nonneg_right k (by linarith : 0 ≤ w / 2)
  have g2 : (r : ℝ) * (3 / h) * (w / 2) = r * (1.5 * (w / h)) := by field_simp; norm_num
  have g3 : (r : ℝ) * (1.5 * (w / h)) ≤ r * (1.5 * (w / h ^ 2)) := mul_le_mul_of_nonneg_left (by linarith) r0
  have g4 : w ≤ r * (w / h ^ 2) := (a2.trans a1).trans (le_mul_of_one_le_left V0.le hr')
  have t := abs_sub_le (fl (p0 - y) : ℝ) (p0 - y) (r * B)
  have z : (r : ℝ) * (1200 * (w / h ^ 2)) = r * (1194 * (w / h ^ 2)) + r * (1.5 * (w / h ^ 2)) + 4.5 * (r * (w / h ^ 2)) := by ring
  rw [z]
  linarith

/-- The lengths of vectors that are close. -/
theorem length_close {x y X Y : ℝ} : |√(x ^ 2 + y ^ 2) - √(X ^ 2 + Y ^ 2)| ≤ |x - X| + |y - Y| := by
  have key : ∀ x y X Y : ℝ, √(x ^ 2 + y ^ 2) ≤ √(X ^ 2 + Y ^ 2) + (|x - X| + |y - Y|) := by
    intro x y X Y
    have a := Real.sq_sqrt (by positivity : 0 ≤ X ^ 2 + Y ^ 2)
    have s0 := Real.sqrt_nonneg (X ^ 2 + Y ^ 2)
    have sx : |X| ≤ √(X ^ 2 + Y ^ 2) := Real.abs_le_sqrt (by linarith [sq_nonneg Y])
    have sy : |Y| ≤ √(X ^ 2 + Y ^ 2) := Real.abs_le_sqrt (by linarith [sq_nonneg X])
    rw [Real.sqrt_le_left (by positivity)]
    have bx : x ^ 2 ≤ (|X| + |x - X|) ^ 2 := by
      rw [← sq_abs x]
      refine pow_le_pow_left₀ (abs_nonneg _) ?_ 2
      have := abs_add_le X (x - X)
      rwa [add_sub_cancel] at this
    have by' : y ^ 2 ≤ (|Y| + |y - Y|) ^ 2 := by
      rw [← sq_abs y]
      refine pow_le_pow_left₀ (abs_nonneg _) ?_ 2
      have := abs_add_le Y (y - Y)
      rwa [add_sub_cancel] at this
    have X2 := sq_abs X
    have Y2 := sq_abs Y
    have u := abs_nonneg (x - X)
    have v := abs_nonneg (y - Y)
    generalize |x - X| = u' at *
    generalize |y - Y| = v' at *
    have p := mul_le_mul_of_nonneg_right sx u
    have q := mul_le_mul_of_nonneg_right sy v
    have t := mul_nonneg u v
    nlinarith
  have a := key x y X Y
  have b := key X Y x y
  rw [abs_sub_comm X x, abs_sub_comm Y y] at b
  rw [abs_le]
  constructor <;> linarith

/-- A root and the number whose square is close. -/
theorem root_near {s R : ℝ} (hs : 0 ≤ s) (hR : 0 < R) : |√s - R| ≤ |s - R ^ 2| / R := by
  rw [le_div_iff₀ hR]
  have a := Real.sq_sqrt hs
  have c := Real.sqrt_nonneg s
  rw [show s - R ^ 2 = (√s - R) * (√s + R) by linear_combination -a, abs_mul, abs_of_nonneg (a := √s + R) (by linarith)]
  exact mul_le_mul_of_nonneg_left (by linarith) (abs_nonneg _)

/-- The sum of two squares as the code computes it. -/
theorem squares_err (x d : ℚ) : 0 ≤ fl (fl (x * x) + fl (d * d)) ∧ |(fl (fl (x * x) + fl (d * d)) : ℝ) - ((x : ℝ) ^ 2 + d ^ 2)| ≤ 1.1 * w * ((x : ℝ) ^ 2 + d ^ 2) + w / 200 := by
  have hw := w_pos
  have hle := w_le
  have n1 : 0 ≤ fl (x * x) := fl_nonneg (mul_self_nonneg x)
  have n2 : 0 ≤ fl (d * d) := fl_nonneg (mul_self_nonneg d)
  refine ⟨fl_nonneg (add_nonneg n1 n2), ?_⟩
  have a := fl_err_real (x * x)
  have b := fl_err_real (d * d)
  have c := fl_err_real (fl (x * x) + fl (d * d))
  have n1' : (0 : ℝ) ≤ fl (x * x) := by exact_mod_cast n1
  have n2' : (0 : ℝ) ≤ fl (d * d) := by exact_mod_cast n2
  push_cast at a b c
  rw [abs_of_nonneg (a := (x : ℝ) * x) (mul_self_nonneg _), ← sq (x : ℝ)] at a
  rw [abs_of_nonneg (a := (d : ℝ) * d) (mul_self_nonneg _), ← sq (d : ℝ)] at b
  rw [abs_of_nonneg (a := (fl (x * x) : ℝ) + fl (d * d)) (by linarith)] at c
  have X0 := sq_nonneg (x : ℝ)
  have D0 := sq_nonneg (d : ℝ)
  generalize (fl (x * x) : ℝ) = u at *
  generalize (fl (d * d) : ℝ) = v at *
  generalize (x : ℝ) ^ 2 = X at *
  generalize (d : ℝ) ^ 2 = D at *
  generalize (fl (fl (x * x) + fl (d * d)) : ℝ) = t at *
  obtain ⟨a1, a2⟩ := abs_le.mp a
  obtain ⟨b1, b2⟩ := abs_le.mp b
  obtain ⟨c1, c2⟩ := abs_le.mp c
  have e : (u + v) * (w / 2) ≤ (1.01 * (X + D) + w) * (w / 2) := by
    refine mul_le_mul_of_nonneg_right ?_ (by linarith)
    have p : X * (w / 2) ≤ X * (1 / 100) := mul_le_mul_of_nonneg_left (by linarith) X0
    have q : D * (w / 2) ≤ D * (1 / 100) := mul_le_mul_of_nonneg_left (by linarith) D0
    linarith
  have f : w * w ≤ w / 1000 := by nlinarith
  have g : 0 ≤ (X + D) * w := mul_nonneg (by linarith) hw.le
  rw [abs_le]
  constructor <;> nlinarith

/-- The distance from the tip of the cone. -/
theorem tip_err {m : Libm} (hm : m.Rounds) {r x d : ℚ} {P S C h : ℝ} (hr : 1 ≤ r) (h0 : 2 ^ (-6 : ℤ) ≤ h) (h1 : h ≤ 1) (P0 : h ≤ P) (P1 : P ≤ 2 / h) (hSC : S ^ 2 + C ^ 2 = 1)
    (hx : |(x : ℝ) - r * (P * S)| ≤ r * (380 * (w / h ^ 2))) (hd : |(d : ℝ) - r * (P * C)| ≤ r * (1200 * (w / h ^ 2))) :
    ∃ p, m.pySqrt (fl (fl (x * x) + fl (d * d))) = .ok p ∧ |(p : ℝ) - r * P| ≤ r * (1700 * (w / h ^ 2)) := by
  have hw := w_pos
  obtain ⟨h0', -, -⟩ := unit_powers h0 h1
  obtain ⟨hp, V0, V1, a1, a2, a3, a4⟩ := unit_sizes h0' h1
  have hr' : (1 : ℝ) ≤ r := by exact_mod_cast hr
  have r0 : (0 : ℝ) ≤ r := by linarith
  obtain ⟨s0, se⟩ := squares_err x d
  refine ⟨_, sqrt_ok s0, ?_⟩
  have s0' : (0 : ℝ) ≤ fl (fl (x * x) + fl (d * d)) := by exact_mod_cast s0
  have L : |√((x : ℝ) ^ 2 + d ^ 2) - r * P| ≤ r * (1580 * (w / h ^ 2)) := by
    have e : √((r * (P * S)) ^ 2 + (r * (P * C)) ^ 2) = r * P := by
      rw [show ((r : ℝ) * (P * S)) ^ 2 + (r * (P * C)) ^ 2 = (r * P) ^ 2 * (S ^ 2 + C ^ 2) by ring, hSC, mul_one]
      exact Real.sqrt_sq (mul_nonneg r0 (by linarith))
    rw [← e]
    refine length_close.trans ((add_le_add hx hd).trans ?_)
    exact le_of_eq (by ring)
  have R2 := Real.sq_sqrt (by positivity : 0 ≤ (x : ℝ) ^ 2 + d ^ 2)
  rw [← R2] at se
  generalize √((x : ℝ) ^ 2 + d ^ 2) = R at *
  have rV : 1000000 * (r * (w / h ^ 2)) ≤ r * h := by
    have b : h * (2 ^ (-6 : ℤ)) ^ 2 ≤ h * h ^ 2 := mul_le_mul_of_nonneg_left (pow_le_pow_left₀ (by positivity) h0 2) hp.le
    have c : 1000000 * w ≤ 2 ^ (-6 : ℤ) * (2 ^ (-6 : ℤ)) ^ 2 := by rw [w_eq]; norm_num
    have d : (2 : ℝ) ^ (-6 : ℤ) * (2 ^ (-6 : ℤ)) ^ 2 ≤ h * (2 ^ (-6 : ℤ)) ^ 2 := mul_le_mul_of_nonneg_right h0 (by positivity)
    have f : 1000000 * (w / h ^ 2) ≤ h := by
      rw [← mul_div_assoc, div_le_iff₀ (by positivity)]
      exact c.trans (d.trans b)
    have := mul_le_mul_of_nonneg_left f r0
    linarith
  obtain ⟨L1, L2⟩ := abs_le.mp L
  have rP : (r : ℝ) * h ≤ r * P := mul_le_mul_of_nonneg_left P0 r0
  have rP2 : (r : ℝ) * P ≤ r * (2 / h) := mul_le_mul_of_nonneg_left P1 r0
  have hrh : h ≤ r * h := le_mul_of_one_le_left hp.le hr'
  have Rlo : 99 / 100 * h ≤ R := by linarith
  have R0 : 0 < R := by linarith
  have hle1 : (r : ℝ) * h ≤ r * (1 / h) := mul_le_mul_of_nonneg_left (by rw [le_div_iff₀ hp]; nlinarith) r0
  have Rhi : R ≤ r * (3 / h) := by
    have f : (r : ℝ) * (3 / h) = r * (2 / h) + r * (1 / h) := by ring
    linarith
  have N1 := root_near s0' R0
  have wR : w * R ≤ 3 * (r * (w / h ^ 2)) := by
    have b := mul_le_mul_of_nonneg_left Rhi hw.le
    have c : w * (r * (3 / h)) = 3 * (r * (w / h)) := by ring
    have d := mul_le_mul_of_nonneg_left a1 r0
    linarith
  have g4 : w / h ≤ r * (w / h ^ 2) := a1.trans (le_mul_of_one_le_left V0.le hr')
  have N2 : |√(fl (fl (x * x) + fl (d * d)) : ℝ) - R| ≤ 5 * (r * (w / h ^ 2)) := by
    refine N1.trans ?_
    rw [div_le_iff₀ R0]
    refine se.trans ?_
    have b : w / 200 ≤ w / h * R := by
      have := mul_le_mul_of_nonneg_left Rlo (by positivity : 0 ≤ w / h)
      have e : w / h * (99 / 100 * h) = 99 / 100 * w := by field_simp
      linarith
    have c := mul_le_mul_of_nonneg_right wR R0.le
    have d := mul_le_mul_of_nonneg_right g4 R0.le
    nlinarith
  have ne := near_err ⟨(hm.sqrt _ s0).1, (hm.sqrt _ s0).2.2⟩
  rw [abs_of_nonneg (Real.sqrt_nonneg _)] at ne
  have rv1 : 5 * (r * (w / h ^ 2)) ≤ R := by linarith
  generalize √(fl (fl (x * x) + fl (d * d)) : ℝ) = T at *
  have T2 : T * (w / 2) ≤ w * R := by
    have : T ≤ 2 * R := by linarith [(abs_le.mp N2).2]
    nlinarith
  have k1 := abs_sub_le (m.sqrt (fl (fl (x * x) + fl (d * d))) : ℝ) T (r * P)
  have k2 := abs_sub_le T R (r * P)
  have z : (r : ℝ) * (1700 * (w / h ^ 2)) = r * (1580 * (w / h ^ 2)) + 120 * (r * (w / h ^ 2)) := by ring
  rw [z]
  linarith

/-- A number of units divided by `h`. -/
theorem unit_div {h k : ℝ} (hp : 0 < h) (n : ℕ) (t : ℝ) (ht : 99 / 100 * h ≤ t) (hk : 0 ≤ k) : k * (w / h ^ n) ≤ k * 1.02 * (w / h ^ (n + 1)) * t := by
  have hw := w_pos
  have a := mul_le_mul_of_nonneg_left ht (by positivity : 0 ≤ k * 1.02 * (w / h ^ (n + 1)))
  have b : k * 1.02 * (w / h ^ (n + 1)) * (99 / 100 * h) = k * (w / h ^ n) * 1.0098 := by
    rw [pow_succ]
    field_simp
    ring
  have c : 0 ≤ k * (w / h ^ n) := by positivity
  linarith

/-- The sine of the latitude, on the way back. -/
theorem cone_sine {r p n c : ℚ} {P N S C h : ℝ} (hr : 1 ≤ r) (h0 : 2 ^ (-6 : ℤ) ≤ h) (h1 : h ≤ 1) (hN : h ≤ |N|) (N1 : |N| ≤ 1) (P1 : |P| ≤ 2 / h) (G2 : |P * N| ≤ 2) (S1 : |S| ≤ 1)
    (e : C - (P * N) ^ 2 = 2 * N * S) (hp : |(p : ℝ) - r * P| ≤ r * (1700 * (w / h ^ 2))) (hn : |(n : ℝ) - N| ≤ 13 * w) (hc : |(c : ℝ) - C| ≤ 73 * w) :
    fl (2 * n) ≠ 0 ∧ |(fl (fl (c - fl (fl (fl (p * n) / r) * fl (fl (p * n) / r))) / fl (2 * n)) : ℝ) - S| ≤ 3800 * (w / h ^ 3) := by
  have hw := w_pos
  obtain ⟨h0', U0, VU, -, U1, -⟩ := unit_powers h0 h1
  obtain ⟨hp0, V0, V1, a1, a2, a3, a4⟩ := unit_sizes h0' h1
  have hr' : (1 : ℝ) ≤ r := by exact_mod_cast hr
  have r0 : (0 : ℝ) ≤ r := by linarith
  have x1 : |(p : ℝ) * n - r * (P * N)| ≤ r * (1730 * (w / h ^ 2)) := by
    rw [show (p : ℝ) * n - r * (P * N) = (p - r * P) * n + r * (P * (n - N)) by ring]
    refine (abs_add_le _ _).trans ?_
    rw [abs_mul, abs_mul (r : ℝ), abs_of_nonneg r0, abs_mul P]
    have n1 : |(n : ℝ)| ≤ 1.001 := by
      have := abs_sub_abs_le_abs_sub (n : ℝ) N
      linarith
    have a := mul_le_mul hp n1 (abs_nonneg _) (by positivity)
    have b := mul_le_mul P1 hn (abs_nonneg _) (by positivity)
    have c : 2 / h * (13 * w) = 26 * (w / h) := by field_simp; norm_num
    rw [c] at b
    have d := mul_le_mul_of_nonneg_left (b.trans (by linarith : 26 * (w / h) ≤ 26 * (w / h ^ 2))) r0
    have f : (r : ℝ) * (1730 * (w / h ^ 2)) = r * (1700 * (w / h ^ 2)) * 1.001 + r * (26 * (w / h ^ 2)) + 2.3 * (r * (w / h ^ 2)) := by ring
    have g : 0 ≤ r * (w / h ^ 2) := mul_nonneg r0 V0.le
    linarith
  have x2 : |(fl (p * n) : ℝ) - r * (P * N)| ≤ r * (1735 * (w / h ^ 2)) := by
    have e1 := fl_err_real (p * n)
    push_cast at e1
    have b : |(p : ℝ) * n| ≤ r * 3 := by
      have a := abs_sub_abs_le_abs_sub ((p : ℝ) * n) (r * (P * N))
      have c : |(r : ℝ) * (P * N)| ≤ r * 2 := by
        rw [abs_mul, abs_of_nonneg r0]
        exact mul_le_mul_of_nonneg_left G2 r0
      have d : (r : ℝ) * (1730 * (w / h ^ 2)) ≤ r * 1 := mul_le_mul_of_nonneg_left (by linarith) r0
      linarith
    have g := mul_le_mul_of_nonneg_right b (by linarith : 0 ≤ w / 2)
    have g3 : (r : ℝ) * w ≤ r * (w / h ^ 2) := mul_le_mul_of_nonneg_left (a2.trans a1) r0
    have g4 : w ≤ r * w := le_mul_of_one_le_left hw.le hr'
    have t := abs_sub_le (fl (p * n) : ℝ) (p * n) (r * (P * N))
    have z : (r : ℝ) * (1735 * (w / h ^ 2)) = r * (1730 * (w / h ^ 2)) + 5 * (r * (w / h ^ 2)) := by ring
    rw [z]
    linarith
  have x3 := unscaled hr x2 G2 (by linarith)
  generalize fl (fl (p * n) / r) = g at *
  generalize P * N = G at *
  have x4 : |((g * g : ℚ) : ℝ) - G ^ 2| ≤ 7000 * (w / h ^ 2) := by
    push_cast
    rw [show (g : ℝ) * g - G ^ 2 = (g - G) * (g + G) by ring, abs_mul]
    have gs : |(g : ℝ) + G| ≤ 4.001 := by
      have a := abs_add_le ((g : ℝ) - G) (2 * G)
      rw [show (g : ℝ) - G + 2 * G = g + G by ring, abs_mul, abs_two] at a
      linarith
    have := mul_le_mul x3 gs (abs_nonneg _) (by linarith)
    linarith
  have G4 : |G ^ 2| ≤ 4 := by
    rw [abs_pow]
    have := pow_le_pow_left₀ (abs_nonneg G) G2 2
    linarith
  have x5 := fl_step x4 G4 (by linarith)
  generalize fl (g * g) = k at *
  have NS : |N * S| ≤ 1 := by
    rw [abs_mul]
    exact mul_le_one₀ N1 (abs_nonneg _) S1
  have x6 := fl_step (x := c - k) (X := 2 * N * S) (e := 7080 * (w / h ^ 2)) (B := 2)
    (by
      push_cast
      rw [← e, show (c : ℝ) - k - (C - G ^ 2) = (c - C) - (k - G ^ 2) by ring]
      exact (abs_sub _ _).trans (by linarith))
    (by
      rw [mul_assoc, abs_mul, abs_two]
      linarith) (by linarith)
  have x7 := fl_step (x := 2 * n) (X := 2 * N) (e := 26 * w) (B := 2) (by push_cast; rw [← mul_sub, abs_mul, abs_two]; linarith)
    (by rw [abs_mul, abs_two]; linarith) (by linarith)
  generalize fl (c - k) = u at *
  generalize fl (2 * n) = v at *
  have hs1 : 1000000 * w ≤ h := by
    have : w / h ≤ 1 / 1000000 := by linarith
    rw [div_le_iff₀ hp0] at this
    linarith
  have v1 : 99 / 100 * h ≤ |(v : ℝ)| / 2 := by
    have := abs_sub_abs_le_abs_sub (2 * N) (v : ℝ)
    rw [abs_sub_comm, abs_mul, abs_two] at this
    linarith
  have v0 : (0 : ℝ) < |(v : ℝ)| := by linarith
  have vv : (v : ℝ) ≠ 0 := abs_pos.mp v0
  refine ⟨by exact_mod_cast vv, ?_⟩
  have x8 : |((u / v : ℚ) : ℝ) - S| ≤ 3700 * (w / h ^ 3) := by
    push_cast
    have e1 : (u : ℝ) / v - S = ((u - 2 * N * S) + S * (2 * N - v)) / v := by
      field_simp
      ring
    rw [e1, abs_div, div_le_iff₀ v0]
    refine (abs_add_le _ _).trans ?_
    rw [abs_mul S, abs_sub_comm (2 * N)]
    have a := mul_le_mul S1 x7 (abs_nonneg _) zero_le_one
    have b := unit_div (k := 7120) hp0 2 _ v1 (by norm_num)
    have z : 0 ≤ w / h ^ 3 * |(v : ℝ)| := by positivity
    have f : (3700 : ℝ) * (w / h ^ 3) * |(v : ℝ)| = 7400 * (w / h ^ 3) * (|(v : ℝ)| / 2) := by ring
    have f2 : 7120 * 1.02 * (w / h ^ (2 + 1)) * (|(v : ℝ)| / 2) = 3631.2 * (w / h ^ 3 * |(v : ℝ)|) := by ring
    have f3 : (3700 : ℝ) * (w / h ^ 3) * |(v : ℝ)| = 3700 * (w / h ^ 3 * |(v : ℝ)|) := by ring
    rw [f2] at b
    rw [f3]
    linarith
  have := fl_step x8 S1 (by linarith)
  linarith

/-- The latitude, on the way back. -/
theorem cone_lat {asin : ℚ → ℚ} (ha : RoundsAsin asin) {s lat : ℚ} {h : ℝ} (h0 : 2 ^ (-6 : ℤ) ≤ h) (h1 : h ≤ 1) (hl : |lat| ≤ 89)
    (hs : |(s : ℝ) - Real.sin (rad lat)| ≤ 3800 * (w / h ^ 3)) : pyAsin asin s = .ok (asin s) ∧ |(degrees (asin s) : ℝ) - lat| ≤ 2 ^ 25 * (w / h ^ 3) := by
  have hw := w_pos
  obtain ⟨h0', U0, VU, -, U1, -⟩ := unit_powers h0 h1
  obtain ⟨hp0, V0, V1, a1, a2, a3, a4⟩ := unit_sizes h0' h1
  have hl' := abs_real hl
  push_cast at hl'
  obtain ⟨s1, e1⟩ := arcsin_close hl' (by linarith) (by linarith) hs
  have s1' : |s| ≤ 1 := by
    have : ((|s| : ℚ) : ℝ) ≤ ((1 : ℚ) : ℝ) := by push_cast; exact s1
    exact_mod_cast this
  obtain ⟨b1, b2⟩ := abs_le.mp s1'
  have rl := rad_abs hl'
  have e2 := near_step (ha s b1 b2) e1 (B := 2) (by linarith) (by linarith)
  have e3 := degrees_err e2 (by linarith) (by linarith)
  rw [deg_rad] at e3
  refine ⟨?_, by linarith⟩
  rw [pyAsin, if_neg]
  push Not
  exact ⟨b1, b2⟩

/-- The longitude, on the way back. -/
theorem cone_lon {m : Libm} (hm : m.Rounds) {r x d n lon : ℚ} {P N h : ℝ} (hr : 1 ≤ r) (h0 : 2 ^ (-6 : ℤ) ≤ h) (h1 : h ≤ 1) (hN : h ≤ |N|) (N1 : |N| ≤ 1) (P0 : h ≤ P) (l : |lon| ≤ 170)
    (hn : |(n : ℝ) - N| ≤ 13 * w) (hx : |(x : ℝ) - r * (P * Real.sin (N * rad lon))| ≤ r * (380 * (w / h ^ 2)))
    (hd : |(d : ℝ) - r * (P * Real.cos (N * rad lon))| ≤ r * (1200 * (w / h ^ 2))) :
    n ≠ 0 ∧ |(degrees (fl (m.atan2 x d / n)) : ℝ) - lon| ≤ 2 ^ 18 * (w / h ^ 4) := by
  have hw := w_pos
  obtain ⟨h0', U0, VU, UW, U1, W1⟩ := unit_powers h0 h1
  obtain ⟨hp0, V0, V1, a1, a2, a3, a4⟩ := unit_sizes h0' h1
  have hr' : (1 : ℝ) ≤ r := by exact_mod_cast hr
  have r0 : (0 : ℝ) < r := by linarith
  have l' := abs_real l
  push_cast at l'
  have rl := rad_abs l'
  have T1 : |N * rad lon| ≤ 3.07 := by
    rw [abs_mul]
    have := mul_le_mul N1 rl (abs_nonneg _) zero_le_one
    linarith
  have hpi := Real.pi_gt_d2
  have hpi2 := Real.pi_lt_d2
  obtain ⟨t1, t2⟩ := abs_le.mp T1
  have rh : 0 < r * h := mul_pos r0 hp0
  have len : ((r : ℝ) * h) ^ 2 ≤ (r * (P * Real.cos (N * rad lon))) ^ 2 + (r * (P * Real.sin (N * rad lon))) ^ 2 := by
    rw [show ((r : ℝ) * (P * Real.cos (N * rad lon))) ^ 2 + (r * (P * Real.sin (N * rad lon))) ^ 2 =
      (r * P) ^ 2 * (Real.sin (N * rad lon) ^ 2 + Real.cos (N * rad lon) ^ 2) by ring, Real.sin_sq_add_cos_sq, mul_one]
    exact pow_le_pow_left₀ rh.le (mul_le_mul_of_nonneg_left P0 r0.le) 2
  have Vh : w / h ^ 2 = w / h ^ 3 * h := by field_simp
  have small : (r : ℝ) * (1200 * (w / h ^ 2)) + r * (380 * (w / h ^ 2)) ≤ r * h / 2 := by
    have : 1580 * (w / h ^ 2) ≤ h / 2 := by
      rw [Vh]
      have := mul_le_mul_of_nonneg_right (by linarith : 1580 * (w / h ^ 3) ≤ 1 / 2) hp0.le
      linarith
    have := mul_le_mul_of_nonneg_left this r0.le
    linarith
  obtain ⟨k, hk⟩ := atan2_err hm rh len hd hx small
  rw [← mul_assoc, ← mul_assoc, atan2_polar (mul_pos r0 (by linarith)) (by linarith) (by linarith)] at hk
  have q : 2 * ((r : ℝ) * (1200 * (w / h ^ 2)) + r * (380 * (w / h ^ 2))) / (r * h) = 3160 * (w / h ^ 3) := by
    field_simp
    norm_num
  rw [q] at hk
  have rg := abs_real (atan2_range hm x d)
  have pb := piD_err
  push_cast at rg
  have k0 : k = 0 := by
    obtain ⟨k1, k2⟩ := abs_le.mp hk
    obtain ⟨g1, g2⟩ := abs_le.mp rg
    obtain ⟨p1, p2⟩ := abs_le.mp pb
    generalize (m.atan2 x d : ℝ) = t at *
    have u : (k : ℝ) < 1 := by
      by_contra hc
      push Not at hc
      have : 2 * Real.pi * 1 ≤ 2 * Real.pi * k := mul_le_mul_of_nonneg_left hc (by linarith)
      linarith
    have v : (-1 : ℝ) < k := by
      by_contra hc
      push Not at hc
      have : 2 * Real.pi * k ≤ 2 * Real.pi * (-1) := mul_le_mul_of_nonneg_left hc (by linarith)
      linarith
    have u' : k < 1 := by exact_mod_cast u
    have v' : -1 < k := by exact_mod_cast v
    omega
  rw [k0, Int.cast_zero, mul_zero, add_zero] at hk
  have hs1 : 1000000 * w ≤ h := by
    have : w / h ≤ 1 / 1000000 := by linarith
    rw [div_le_iff₀ hp0] at this
    linarith
  have n1 : 99 / 100 * h ≤ |(n : ℝ)| := by
    have := abs_sub_abs_le_abs_sub N n
    rw [abs_sub_comm] at this
    linarith
  have n0 : (0 : ℝ) < |(n : ℝ)| := by linarith
  have nn : (n : ℝ) ≠ 0 := abs_pos.mp n0
  refine ⟨by exact_mod_cast nn, ?_⟩
  generalize m.atan2 x d = t at *
  have e1 : |((t / n : ℚ) : ℝ) - rad lon| ≤ 3280 * (w / h ^ 4) := by
    push_cast
    rw [show (t : ℝ) / n - rad lon = ((t - N * rad lon) + rad lon * (N - n)) / n by field_simp; ring, abs_div, div_le_iff₀ n0]
    refine (abs_add_le _ _).trans ?_
    rw [abs_mul (rad lon), abs_sub_comm N]
    have a := mul_le_mul rl hn (abs_nonneg _) (by norm_num)
    have b := unit_div (k := 3210) hp0 3 _ n1 (by norm_num)
    have z : 0 ≤ w / h ^ 4 * |(n : ℝ)| := by positivity
    have f : 3210 * 1.02 * (w / h ^ (3 + 1)) * |(n : ℝ)| = 3274.2 * (w / h ^ 4 * |(n : ℝ)|) := by ring
    have f3 : (3280 : ℝ) * (w / h ^ 4) * |(n : ℝ)| = 3280 * (w / h ^ 4 * |(n : ℝ)|) := by ring
    rw [f] at b
    rw [f3]
    linarith
  have e2 := fl_step e1 (B := 4) (by linarith) (by linarith)
  have e3 := degrees_err e2 (by linarith) (by linarith)
  rw [deg_rad] at e3
  linarith

/-- C186: there and back again on floats: a position of a latitude of at most 89 degrees is brought back, up to `2⁻³⁴ / h⁴` degrees of longitude and
`2⁻²⁷ / h³` degrees of latitude. Missing: positions at the poles, see `C186_back_violated`, and those for which the number under the root is close to
zero. -/
theorem C186_back_partial (m : Libm) (hm : m.Rounds) (asin : ℚ → ℚ) (ha : RoundsAsin asin) (lat1 lat2 r lon lat : ℚ) (h : ℝ) (h1 : |lat1| ≤ 90) (h2 : |lat2| ≤ 90)
    (hl : |lat| ≤ 89) (l : |lon| ≤ 170) (hr : 1 ≤ r) (hh0 : 2 ^ (-6 : ℤ) ≤ h) (hh1 : h ≤ 1) (hN : h ≤ |(Real.sin (rad lat1) + Real.sin (rad lat2)) / 2|)
    (hD : h ^ 2 ≤ 1 + Real.sin (rad lat1) * Real.sin (rad lat2) - (Real.sin (rad lat1) + Real.sin (rad lat2)) * Real.sin (rad lat)) :
    ∃ q x y lon' lat', Cone.init m lat1 lat2 r = .ok q ∧ q.geo2rect m lon lat = .ok (x, y) ∧ q.rect2geo m asin x y = .ok (lon', lat') ∧
      |(lon' : ℝ) - lon| ≤ 2 ^ (-34 : ℤ) / h ^ 4 ∧ |(lat' : ℝ) - lat| ≤ 2 ^ (-27 : ℤ) / h ^ 3 := by
  have hw := w_pos
  obtain ⟨h0', U0, VU, UW, U1, W1⟩ := unit_powers hh0 hh1
  obtain ⟨hp, V0, V1, a1, a2, -, -⟩ := unit_sizes h0' hh1
  have u4 : 2 ^ (-34 : ℤ) / h ^ 4 = 2 ^ 18 * (w / h ^ 4) := by
    rw [← mul_div_assoc]
    congr 1
    rw [w_eq]
    norm_num
  have u3 : 2 ^ (-27 : ℤ) / h ^ 3 = 2 ^ 25 * (w / h ^ 3) := by
    rw [← mul_div_assoc]
    congr 1
    rw [w_eq]
    norm_num
  rw [u4, u3]
  have hN' : h ≤ |coneN lat1 lat2| := hN
  have hD' : h ^ 2 ≤ coneD lat1 lat2 lat := by
    rw [coneD, coneN]
    linarith
  obtain ⟨p0, ei, f1, f2⟩ := cone_init hm h1 h2 hr h0' hh1 hN'
  obtain ⟨d1, d2⟩ := under_err hm h1 h2 (hl.trans (by norm_num)) r p0
  obtain ⟨e1, e2, e3⟩ := root_err hm h0' hh1 hD' (abs_le.mp d2).2 d1
  have ne := cone_half_err hm h1 h2
  have ce := const_err hm h1 h2
  have N1 := coneN_abs lat1 lat2
  obtain ⟨n0, g1, g2⟩ := cone_err hr h0' hh1 hN' ne (Real.sqrt_nonneg _) e3 e2
  have t := cone_turn_err N1 ne (l.trans (by norm_num))
  obtain ⟨s1, s2⟩ := sin_err hm t
  obtain ⟨c1, c2⟩ := cos_err hm t
  obtain ⟨x1, -⟩ := cone_coord hr h0' hh1 g1 g2 (Real.abs_sin_le_one _) (s1.trans (by linarith)) s2
  obtain ⟨y1, y2⟩ := cone_coord hr h0' hh1 g1 g2 (Real.abs_cos_le_one _) (c1.trans (by linarith)) c2
  have y3 := cone_diff hr h0' hh1 f1 f2 y2 y1
  have Q1 : |√(coneD lat1 lat2 lat) / coneN lat1 lat2 * Real.cos (coneN lat1 lat2 * rad lon)| ≤ 2 / h := by
    rw [abs_mul]
    have := mul_le_mul g1 (Real.abs_cos_le_one (coneN lat1 lat2 * rad lon)) (abs_nonneg _) (by positivity)
    linarith
  have dd := cone_away hr h0' hh1 f2 Q1 y3
  have Sh : h ≤ √(coneD lat1 lat2 lat) := Real.le_sqrt_of_sq_le hD'
  have Npos : 0 < |coneN lat1 lat2| := by linarith
  have NN : coneN lat1 lat2 ≠ 0 := abs_pos.mp Npos
  have SC := Real.sin_sq_add_cos_sq (coneN lat1 lat2 * rad lon)
  have D2 := Real.sq_sqrt ((sq_nonneg h).trans hD')
  have cd : 1 + Real.sin (rad lat1) * Real.sin (rad lat2) - coneD lat1 lat2 lat = 2 * coneN lat1 lat2 * Real.sin (rad lat) := by
    rw [coneD]
    ring
  have geo : Cone.geo2rect m ⟨r, Cone.half m lat1 lat2, Cone.const m lat1 lat2, p0⟩ lon lat =
      .ok (fl (fl (fl (r * m.sqrt (Cone.under m ⟨r, Cone.half m lat1 lat2, Cone.const m lat1 lat2, p0⟩ lat)) / Cone.half m lat1 lat2) *
          m.sin (fl (Cone.half m lat1 lat2 * radians lon))),
        fl (p0 - fl (fl (fl (r * m.sqrt (Cone.under m ⟨r, Cone.half m lat1 lat2, Cone.const m lat1 lat2, p0⟩ lat)) / Cone.half m lat1 lat2) *
          m.cos (fl (Cone.half m lat1 lat2 * radians lon))))) := by
    rw [Cone.geo2rect, e1]
    change (do
      let p ← div (fl (r * m.sqrt (Cone.under m ⟨r, Cone.half m lat1 lat2, Cone.const m lat1 lat2, p0⟩ lat))) (Cone.half m lat1 lat2)
      let t := fl (Cone.half m lat1 lat2 * radians lon)
      return (fl (p * m.sin t), fl (p0 - fl (p * m.cos t)))) = _
    rw [div_ok n0]
    rfl
  generalize fl (fl (fl (r * m.sqrt (Cone.under m ⟨r, Cone.half m lat1 lat2, Cone.const m lat1 lat2, p0⟩ lat)) / Cone.half m lat1 lat2) *
          m.sin (fl (Cone.half m lat1 lat2 * radians lon))) = x at *
  generalize fl (p0 - fl (fl (fl (r * m.sqrt (Cone.under m ⟨r, Cone.half m lat1 lat2, Cone.const m lat1 lat2, p0⟩ lat)) / Cone.half m lat1 lat2) *
          m.cos (fl (Cone.half m lat1 lat2 * radians lon)))) = y at *
  generalize Cone.half m lat1 lat2 = n at *
  generalize Cone.const m lat1 lat2 = c at *
  generalize coneN lat1 lat2 = N at *
  generalize √(coneD lat1 lat2 lat) = S at *
  -- the distance from the tip, with its sign
  obtain ⟨p, ps, pe⟩ : ∃ p, m.pySqrt (fl (fl (x * x) + fl (fl (p0 - y) * fl (p0 - y)))) = .ok p ∧ |(p : ℝ) - r * (S / |N|)| ≤ r * (1700 * (w / h ^ 2)) := by
    have P0 : h ≤ S / |N| := by
      rw [le_div_iff₀ Npos]
      exact (mul_le_of_le_one_right hp.le N1).trans Sh
    have P1 : S / |N| ≤ 2 / h := div_le_div₀ (by norm_num) e3 hp hN'
    rcases lt_or_gt_of_ne NN with hneg | hpos
    · rw [abs_of_neg hneg] at *
      refine tip_err hm hr hh0 hh1 P0 P1 (S := -Real.sin (N * rad lon)) (C := -Real.cos (N * rad lon)) (by rw [neg_sq, neg_sq]; exact SC) ?_ ?_
      · rw [show S / -N * -Real.sin (N * rad lon) = S / N * Real.sin (N * rad lon) by rw [div_neg]; ring]
        exact x1
      · rw [show S / -N * -Real.cos (N * rad lon) = S / N * Real.cos (N * rad lon) by rw [div_neg]; ring]
        exact dd
    · rw [abs_of_pos hpos] at *
      exact tip_err hm hr hh0 hh1 P0 P1 SC x1 dd
  have S0 : 0 ≤ S := by linarith
  have G : (S / |N| * N) ^ 2 = S ^ 2 := by
    rw [mul_pow, div_pow, sq_abs]
    field_simp
  have G2 : abs (S / |N| * N) ≤ 2 := by
    refine abs_le_of_sq_le_sq ?_ (by norm_num)
    rw [G]
    exact pow_le_pow_left₀ S0 e3 2
  have P1 : abs (S / |N|) ≤ 2 / h := by
    rw [abs_of_nonneg (div_nonneg S0 Npos.le)]
    exact div_le_div₀ (by norm_num) e3 hp hN'
  obtain ⟨v0, se⟩ := cone_sine hr hh0 hh1 hN' N1 P1 G2 (Real.abs_sin_le_one (rad lat)) (C := 1 + Real.sin (rad lat1) * Real.sin (rad lat2))
    (by rw [G, D2]; exact cd) pe ne ce
  obtain ⟨ao, le⟩ := cone_lat ha hh0 hh1 hl se
  have P0 : h ≤ S / |N| := by
    rw [le_div_iff₀ Npos]
    exact (mul_le_of_le_one_right hp.le N1).trans Sh
  have hs1 : 1000000 * w ≤ h := by
    have : w / h ≤ 1 / 1000000 := by linarith
    rw [div_le_iff₀ hp] at this
    linarith
  obtain ⟨t', ht', lo⟩ : ∃ t', (if n < 0 then m.atan2 (-x) (fl (-p0 - -y)) else m.atan2 x (fl (p0 - y))) = t' ∧ |(degrees (fl (t' / n)) : ℝ) - lon| ≤ 2 ^ 18 * (w / h ^ 4) := by
    obtain ⟨b1, b2⟩ := abs_le.mp ne
    rcases lt_or_gt_of_ne NN with hneg | hpos
    · have nneg : n < 0 := by
        rw [abs_of_neg hneg] at hN'
        have : (n : ℝ) < 0 := by linarith
        exact_mod_cast this
      refine ⟨_, if_pos nneg, ?_⟩
      rw [abs_of_neg hneg] at P0
      rw [show -p0 - -y = -(p0 - y) by ring, fl_neg]
      refine (cone_lon hm hr hh0 hh1 hN' N1 P0 l ne ?_ ?_).2
      · push_cast
        rw [show -(x : ℝ) - r * (S / -N * Real.sin (N * rad lon)) = -(x - r * (S / N * Real.sin (N * rad lon))) by rw [div_neg]; ring, abs_neg]
        exact x1
      · push_cast
        rw [show -(fl (p0 - y) : ℝ) - r * (S / -N * Real.cos (N * rad lon)) = -(fl (p0 - y) - r * (S / N * Real.cos (N * rad lon))) by rw [div_neg]; ring, abs_neg]
        exact dd
    · have npos : ¬n < 0 := by
        rw [abs_of_pos hpos] at hN'
        have : (0 : ℝ) < n := by linarith
        exact not_lt.mpr (by exact_mod_cast this.le)
      refine ⟨_, if_neg npos, ?_⟩
      rw [abs_of_pos hpos] at P0
      exact (cone_lon hm hr hh0 hh1 hN' N1 P0 l ne x1 dd).2
  have r0 : r ≠ 0 := by linarith
  refine ⟨_, x, y, _, _, ei, geo, ?_, lo, le⟩
  simp only [Cone.rect2geo]
  rw [ps, ht']
  change (do
    let lon ← div t' n
    let pnr ← div (fl (p * n)) r
    let s ← div (fl (c - fl (pnr * pnr))) (fl (2 * n))
    let lat ← pyAsin asin s
    return (degrees lon, degrees lat)) = _
  rw [div_ok n0, div_ok r0]
  change (do
    let s ← div (fl (c - fl (fl (fl (p * n) / r) * fl (fl (p * n) / r)))) (fl (2 * n))
    let lat ← pyAsin asin s
    return (degrees (fl (t' / n)), degrees lat)) = _
  rw [div_ok v0]
  change (do
    let lat ← pyAsin asin (fl (fl (c - fl (fl (fl (p * n) / r) * fl (fl (p * n) / r))) / fl (2 * n)))
    return (degrees (fl (t' / n)), degrees lat)) = _
  rw [ao]
  rfl

/-- The hypotheses can be met: the parallels 30 and 30 degrees, a position at the equator. -/
example : ∃ (m : Libm) (asin : ℚ → ℚ), m.Rounds ∧ RoundsAsin asin ∧ (1 / 2 : ℝ) ≤ |(Real.sin (rad ((30 : ℚ) : ℝ)) + Real.sin (rad ((30 : ℚ) : ℝ))) / 2| ∧
    (1 / 2 : ℝ) ^ 2 ≤ 1 + Real.sin (rad ((30 : ℚ) : ℝ)) * Real.sin (rad ((30 : ℚ) : ℝ)) -
      (Real.sin (rad ((30 : ℚ) : ℝ)) + Real.sin (rad ((30 : ℚ) : ℝ))) * Real.sin (rad ((0 : ℚ) : ℝ)) := by
  obtain ⟨m, hm⟩ := exists_rounds
  obtain ⟨asin, ha⟩ := exists_asin
  refine ⟨m, asin, hm, ha, ?_⟩
  push_cast
  rw [show rad 30 = Real.pi / 6 by rw [rad]; ring, Real.sin_pi_div_six, show rad 0 = 0 by simp [rad], Real.sin_zero]
  norm_num

end Flt
end Coral
