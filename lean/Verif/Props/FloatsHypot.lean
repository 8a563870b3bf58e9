import Verif.Model.FloatsHypot
import Verif.Proofs.FloatsT
import Verif.Props.Floats
import Mathlib.Analysis.Complex.Norm

/-!
# The diagonal of a box on floats (C204)
-/
namespace Coral
namespace Flt

/-- The four corners are floats. -/
def DoubleBox (b : BBox ℚ) : Prop := IsDouble b.x0 ∧ IsDouble b.y0 ∧ IsDouble b.x1 ∧ IsDouble b.y1

/-- The exact diagonal. -/
noncomputable def diagonal (b : BBox ℚ) : ℝ := √(((b.x1 : ℝ) - b.x0) ^ 2 + ((b.y1 : ℝ) - b.y0) ^ 2)

theorem near_order {y z : ℝ} {r s : ℚ} (hr : Nearest y r) (hs : Nearest z s) (h : y < z) : r ≤ s := by
  by_contra hlt
  have hlt' : (s : ℝ) < r := by exact_mod_cast not_le.mp hlt
  have h1 := hr.2 s hs.1
  have h2 := hs.2 r hr.1
  rw [abs_le_abs_iff_sq] at h1 h2
  nlinarith
where
  abs_le_abs_iff_sq {a b : ℝ} : |a| ≤ |b| ↔ a ^ 2 ≤ b ^ 2 := sq_le_sq.symm

/-- The calculated diagonal is a float and at least as long as each calculated side. -/
theorem C204_sides {hypot : ℚ → ℚ → ℚ} (h : RoundsHypot hypot) (b : BBox ℚ) :
    IsDouble (boxHypot hypot b) ∧ |fl (b.x1 - b.x0)| ≤ boxHypot hypot b ∧ |fl (b.y1 - b.y0)| ≤ boxHypot hypot b := by
  obtain ⟨rnd, h1, h2⟩ := h
  unfold boxHypot
  rw [h2]
  have key : ∀ x : ℚ, IsDouble x → IsDouble |x| := by
    intro x hx
    rcases abs_choice x with e | e <;> rw [e]
    · exact hx
    · have := fl_neg x
      rw [fl_id hx] at this
      rw [← this]; exact fl_double _
  refine ⟨(h1 _).1, le_near (h1 _) (key _ (fl_double _)) ?_, le_near (h1 _) (key _ (fl_double _)) ?_⟩
  · rw [Rat.cast_abs]; exact Real.abs_le_sqrt (by nlinarith [sq_nonneg ((fl (b.y1 - b.y0) : ℚ) : ℝ)])
  · rw [Rat.cast_abs]; exact Real.abs_le_sqrt (by nlinarith [sq_nonneg ((fl (b.x1 - b.x0) : ℚ) : ℝ)])

/-- It is zero exactly if both sides of the box are: no box is so small that its diagonal vanishes. -/
theorem C204_zero {hypot : ℚ → ℚ → ℚ} (h : RoundsHypot hypot) (b : BBox ℚ) (hb : DoubleBox b) :
    boxHypot hypot b = 0 ↔ b.x0 = b.x1 ∧ b.y0 = b.y1 := by
  constructor
  · intro h0
    obtain ⟨-, h1, h2⟩ := C204_sides h b
    rw [h0] at h1 h2
    exact ⟨(C154_sides_do_not_vanish _ _ hb.1 hb.2.2.1).mp (abs_nonpos_iff.mp h1),
      (C154_sides_do_not_vanish _ _ hb.2.1 hb.2.2.2).mp (abs_nonpos_iff.mp h2)⟩
  · rintro ⟨e1, e2⟩
    obtain ⟨rnd, h1, h2⟩ := h
    have z : IsDouble 0 := by have := fl_double 0; rwa [show fl 0 = 0 by decide +kernel] at this
    unfold boxHypot
    rw [h2, e1, e2, sub_self, sub_self, show fl 0 = 0 by decide +kernel]
    exact near_id (h1 _) z (by simp)

/-- A box that is neither wider nor higher has no longer diagonal: in particular one that lies within the other. -/
theorem C204_monotone {hypot : ℚ → ℚ → ℚ} (h : RoundsHypot hypot) (a b : BBox ℚ) (hx : a.x0 ≤ a.x1) (hy : a.y0 ≤ a.y1)
    (hw : a.x1 - a.x0 ≤ b.x1 - b.x0) (hh : a.y1 - a.y0 ≤ b.y1 - b.y0) : boxHypot hypot a ≤ boxHypot hypot b := by
  obtain ⟨rnd, h1, h2⟩ := h
  unfold boxHypot
  rw [h2, h2]
  have z : fl 0 = 0 := by decide +kernel
  have w1 : (0 : ℝ) ≤ fl (a.x1 - a.x0) := by rw [← Rat.cast_zero, Rat.cast_le, ← z]; exact fl_mono (by linarith)
  have w2 : (0 : ℝ) ≤ fl (a.y1 - a.y0) := by rw [← Rat.cast_zero, Rat.cast_le, ← z]; exact fl_mono (by linarith)
  have w3 : (fl (a.x1 - a.x0) : ℝ) ≤ fl (b.x1 - b.x0) := by exact_mod_cast fl_mono hw
  have w4 : (fl (a.y1 - a.y0) : ℝ) ≤ fl (b.y1 - b.y0) := by exact_mod_cast fl_mono hh
  have hle : √((fl (a.x1 - a.x0) : ℝ) ^ 2 + (fl (a.y1 - a.y0) : ℝ) ^ 2) ≤ √((fl (b.x1 - b.x0) : ℝ) ^ 2 + (fl (b.y1 - b.y0) : ℝ) ^ 2) :=
    Real.sqrt_le_sqrt (add_le_add (pow_le_pow_left₀ w1 w3 2) (pow_le_pow_left₀ w2 w4 2))
  rcases hle.lt_or_eq with hl | he
  · exact near_order (h1 _) (h1 _) hl
  · rw [he]

/-! ### Closeness -/

theorem hypot_sub (a b c d : ℝ) : |√(a ^ 2 + b ^ 2) - √(c ^ 2 + d ^ 2)| ≤ √((a - c) ^ 2 + (b - d) ^ 2) := by
  have e : ∀ x y : ℝ, √(x ^ 2 + y ^ 2) = ‖(⟨x, y⟩ : ℂ)‖ := fun x y => by rw [Complex.norm_eq_sqrt_sq_add_sq]
  rw [e, e, e]
  exact abs_norm_sub_norm_le _ _

theorem hypot_err {p q P Q u t D : ℝ} (hu : 0 ≤ u) (ht : 0 ≤ t) (hD : D = √(P ^ 2 + Q ^ 2)) (h1 : |p - P| ≤ |P| * u + t) (h2 : |q - Q| ≤ |Q| * u + t) :
    |√(p ^ 2 + q ^ 2) - D| ≤ D * u + 2 * t := by
  have D0 : 0 ≤ D := hD ▸ Real.sqrt_nonneg _
  have hP : |P| ≤ D := hD ▸ Real.abs_le_sqrt (by nlinarith [sq_nonneg Q])
  have hQ : |Q| ≤ D := hD ▸ Real.abs_le_sqrt (by nlinarith [sq_nonneg P])
  have hs : D ^ 2 = |P| ^ 2 + |Q| ^ 2 := by rw [hD, Real.sq_sqrt (by positivity), sq_abs, sq_abs]
  have h3 := hypot_sub p q P Q
  rw [← hD] at h3
  refine h3.trans ?_
  rw [Real.sqrt_le_left (by positivity), ← sq_abs (p - P), ← sq_abs (q - Q)]
  have a1 := pow_le_pow_left₀ (abs_nonneg _) h1 2
  have a2 := pow_le_pow_left₀ (abs_nonneg _) h2 2
  have a3 : |P| * (u * t) ≤ D * (u * t) := mul_le_mul_of_nonneg_right hP (by positivity)
  have a4 : |Q| * (u * t) ≤ D * (u * t) := mul_le_mul_of_nonneg_right hQ (by positivity)
  have a5 : (|P| * u + t) ^ 2 + (|Q| * u + t) ^ 2 = (|P| ^ 2 + |Q| ^ 2) * u ^ 2 + 2 * (|P| * (u * t)) + 2 * (|Q| * (u * t)) + 2 * t ^ 2 := by ring
  have a6 : (D * u + 2 * t) ^ 2 = D ^ 2 * u ^ 2 + 4 * (D * (u * t)) + 4 * t ^ 2 := by ring
  rw [a6, hs]
  nlinarith [sq_nonneg t]

theorem fl_err_small (x : ℚ) : |(fl x : ℝ) - x| ≤ |(x : ℝ)| * 2 ^ (-53 : ℤ) + 2 ^ (-1075 : ℤ) := by
  have := fl_error x
  have h' : ((|fl x - x| : ℚ) : ℝ) ≤ ((|x| * 2 ^ (-53 : ℤ) + 2 ^ (-1075 : ℤ) : ℚ) : ℝ) := by exact_mod_cast this
  simpa only [Rat.cast_abs, Rat.cast_sub, Rat.cast_add, Rat.cast_mul, Rat.cast_zpow, Rat.cast_ofNat] using h'

theorem near_err_small {y : ℝ} {r : ℚ} (h : Nearest y r) : |(r : ℝ) - y| ≤ |y| * 2 ^ (-53 : ℤ) + 2 ^ (-1075 : ℤ) := by
  refine le_of_forall_pos_le_add fun ε hε => ?_
  obtain ⟨q, q1, q2⟩ := exists_rat_btwn (show y - ε / 2 < y by linarith)
  have b := h.2 (fl q) (fl_double q)
  have c := fl_err_small q
  have t : |(fl q : ℝ) - y| ≤ |(fl q : ℝ) - q| + |(q : ℝ) - y| := abs_sub_le _ _ _
  have t2 : |(q : ℝ) - y| ≤ ε / 2 := by rw [abs_of_nonpos (by linarith)]; linarith
  have t3 : |(q : ℝ)| ≤ |y| + ε / 2 := by
    have := abs_sub_abs_le_abs_sub (q : ℝ) y
    linarith
  have hu : (2 : ℝ) ^ (-53 : ℤ) ≤ 1 := zpow_le_one_of_nonpos₀ (by norm_num) (by norm_num)
  have hu0 : (0 : ℝ) < 2 ^ (-53 : ℤ) := by positivity
  generalize (2 : ℝ) ^ (-53 : ℤ) = u at *
  generalize (2 : ℝ) ^ (-1075 : ℤ) = s at *
  have t4 : |(q : ℝ)| * u ≤ (|y| + ε / 2) * u := mul_le_mul_of_nonneg_right t3 hu0.le
  nlinarith

/-- The calculated diagonal is that of the box up to about one unit in the last place. -/
theorem C204_close {hypot : ℚ → ℚ → ℚ} (h : RoundsHypot hypot) (b : BBox ℚ) :
    |(boxHypot hypot b : ℝ) - diagonal b| ≤ diagonal b * (2 ^ (-52 : ℤ) + 2 ^ (-106 : ℤ)) + 2 ^ (-1073 : ℤ) := by
  obtain ⟨rnd, h1, h2⟩ := h
  unfold boxHypot
  rw [h2]
  have e1 := fl_err_small (b.x1 - b.x0)
  have e2 := fl_err_small (b.y1 - b.y0)
  rw [Rat.cast_sub] at e1 e2
  have e3 := hypot_err (u := 2 ^ (-53 : ℤ)) (t := 2 ^ (-1075 : ℤ)) (by positivity) (by positivity) (D := diagonal b) rfl e1 e2
  have e4 := near_err_small (h1 (√((fl (b.x1 - b.x0) : ℝ) ^ 2 + (fl (b.y1 - b.y0) : ℝ) ^ 2)))
  generalize hr : (rnd (√((fl (b.x1 - b.x0) : ℝ) ^ 2 + (fl (b.y1 - b.y0) : ℝ) ^ 2)) : ℝ) = r at *
  rw [abs_of_nonneg (Real.sqrt_nonneg _)] at e4
  generalize √((fl (b.x1 - b.x0) : ℝ) ^ 2 + (fl (b.y1 - b.y0) : ℝ) ^ 2) = y at *
  have D0 : 0 ≤ diagonal b := Real.sqrt_nonneg _
  generalize diagonal b = D at *
  have p1 : (2 : ℝ) ^ (-52 : ℤ) = 2 * 2 ^ (-53 : ℤ) := by rw [← zpow_one_add₀ (by norm_num)]; norm_num
  have p2 : (2 : ℝ) ^ (-106 : ℤ) = 2 ^ (-53 : ℤ) * 2 ^ (-53 : ℤ) := by rw [← zpow_add₀ (by norm_num)]; norm_num
  have p3 : (2 : ℝ) ^ (-1073 : ℤ) = 4 * 2 ^ (-1075 : ℤ) := by
    rw [show (-1073 : ℤ) = 2 + -1075 by norm_num, zpow_add₀ (by norm_num)]; norm_num
  have hu : (2 : ℝ) ^ (-53 : ℤ) ≤ 1 / 2 := by
    rw [show (1 / 2 : ℝ) = 2 ^ (-1 : ℤ) by norm_num]; exact zpow_le_zpow_right₀ (by norm_num) (by norm_num)
  have hu0 : (0 : ℝ) < 2 ^ (-53 : ℤ) := by positivity
  have hs0 : (0 : ℝ) < 2 ^ (-1075 : ℤ) := by positivity
  rw [p1, p2, p3]
  clear p1 p2 p3
  generalize (2 : ℝ) ^ (-53 : ℤ) = u at *
  generalize (2 : ℝ) ^ (-1075 : ℤ) = s at *
  have t := abs_sub_le r y D
  have y1 : y ≤ D + (D * u + 2 * s) := by have := le_abs_self (y - D); linarith
  have y2 : y * u ≤ (D + (D * u + 2 * s)) * u := mul_le_mul_of_nonneg_right y1 hu0.le
  have y3 : s * u ≤ s * (1 / 2) := mul_le_mul_of_nonneg_left hu hs0.le
  nlinarith

/-! ### The hypotheses can be met -/

example : ∃ hypot, RoundsHypot hypot := by
  choose rnd h using exists_near
  exact ⟨fun a b => rnd (√((a : ℝ) ^ 2 + (b : ℝ) ^ 2)), rnd, h, fun _ _ => rfl⟩

/-- The box from (0, 0) to (3, 4) has the diagonal 5. -/
example {hypot : ℚ → ℚ → ℚ} (h : RoundsHypot hypot) : boxHypot hypot ⟨0, 0, 3, 4⟩ = 5 := by
  obtain ⟨rnd, h1, h2⟩ := h
  have a : fl (3 - 0) = 3 := by decide +kernel
  have b : fl (4 - 0) = 4 := by decide +kernel
  unfold boxHypot
  rw [h2, a, b]
  refine near_id (h1 _) (by have := fl_double 5; rwa [show fl 5 = 5 by decide +kernel] at this) ?_
  rw [show (((3 : ℚ) : ℝ)) ^ 2 + (((4 : ℚ) : ℝ)) ^ 2 = 5 ^ 2 by norm_num, Real.sqrt_sq (by norm_num)]
  norm_num

end Flt
end Coral
