import Verif.Model.ProjLoop
import Verif.Props.ProjLocal

/-!
# The loop of `EMercator.rect2geo` with inexact arithmetic: C165
-/
namespace Coral
namespace Proj
open Real

/-- The loop of the code, with exact arithmetic. -/
theorem EMercator.loop_with (e t lat : ℝ) : EMercator.Loop e t lat ↔ EMercator.LoopWith (EMercator.improve e t) (π / 2 - 2 * arctan t) lat := by
  constructor
  · intro h
    have key : ∀ s u, While (fun s : ℝ × Bool => s.2 = false) (fun s => (EMercator.improve e t s.1, decide (EMercator.improve e t s.1 = s.1))) s u →
        While (fun s : ℝ × Prop => ¬ s.2) (fun s => (EMercator.improve e t s.1, EMercator.improve e t s.1 = s.1)) (s.1, s.2 = true) (u.1, u.2 = true) := by
      intro s u h
      induction h with
      | done hn => exact .done (by simpa using hn)
      | step hc _ ih =>
        refine .step (by simpa using hc) ?_
        simpa using ih
    simpa [EMercator.LoopWith] using key _ _ h
  · intro h
    have key : ∀ s u, While (fun s : ℝ × Prop => ¬ s.2) (fun s => (EMercator.improve e t s.1, EMercator.improve e t s.1 = s.1)) s u → ∀ b c : Bool, s.2 = (b = true) → u.2 = (c = true) →
        While (fun s : ℝ × Bool => s.2 = false) (fun s => (EMercator.improve e t s.1, decide (EMercator.improve e t s.1 = s.1))) (s.1, b) (u.1, c) := by
      intro s u h
      induction h with
      | done hn =>
        intro b c hb hc
        have : b = c := by
          rw [hb] at hc
          have := iff_of_eq hc
          cases b <;> cases c <;> simp_all
        subst this
        exact .done (by rw [hb] at hn; simpa using hn)
      | step hs _ ih =>
        intro b c hb hc
        refine .step (by rw [hb] at hs; simpa using hs) ?_
        exact ih _ c (by simp) hc
    exact key _ _ h false true (by simp) (by simp)

/-- What the loop returns is the first latitude that is its own successor. -/
theorem EMercator.loopWith_iff {step : ℝ → ℝ} {l0 lat : ℝ} : EMercator.LoopWith step l0 lat ↔ ∃ n, lat = step^[n] l0 ∧ step lat = lat := by
  constructor
  · intro h
    have key : ∀ s u, While (fun s : ℝ × Prop => ¬ s.2) (fun s => (step s.1, step s.1 = s.1)) s u → (s.2 → step s.1 = s.1) → u.2 → ∃ n, u.1 = step^[n] s.1 ∧ step u.1 = u.1 := by
      intro s u h
      induction h with
      | done hn => intro h1 h2; exact ⟨0, rfl, h1 h2⟩
      | step hc _ ih =>
        intro _ h2
        obtain ⟨n, e1, e2⟩ := ih (fun hh => by change step (step _) = step _; rw [show step _ = _ from hh]; exact hh) h2
        exact ⟨n + 1, e1, e2⟩
    exact key _ _ h (by simp) trivial
  · rintro ⟨n, rfl, hf⟩
    have key : ∀ (n : ℕ) (l : ℝ), step (step^[n] l) = step^[n] l →
        While (fun s : ℝ × Prop => ¬ s.2) (fun s => (step s.1, step s.1 = s.1)) (l, False) (step^[n] l, True) := by
      intro n
      induction n with
      | zero =>
        intro l hl
        refine .step (by simp) ?_
        change step l = l at hl
        simp only [hl, Function.iterate_zero, id]
        exact .done (by simp)
      | succ n ih =>
        intro l hl
        refine .step (by simp) ?_
        by_cases hs : step l = l
        · have : step^[n + 1] l = l := Function.iterate_fixed hs _
          rw [this]
          simp only [hs]
          exact .done (by simp)
        · simp only [hs]
          exact ih (step l) hl
    exact key n l0 hf

section
variable {e t : ℝ} (h0 : 0 < e) (h1 : e < 1) (ht : 0 < t)
include h0 h1 ht

theorem EMercator.improve_strictMono : StrictMonoOn (EMercator.improve e t) (Set.Icc (-(π / 2)) (π / 2)) := by
  intro a ha b hb hab
  have hs : sin a < sin b := strictMonoOn_sin ha hb hab
  obtain ⟨a1, a2⟩ := EMercator.w_pos h0.le h1 a
  obtain ⟨b1, b2⟩ := EMercator.w_pos h0.le h1 b
  have hq : (1 - e * sin b) / (1 + e * sin b) < (1 - e * sin a) / (1 + e * sin a) := by
    rw [div_lt_div_iff₀ b2 a2]
    nlinarith
  have hf : EMercator.factor e b < EMercator.factor e a := rpow_lt_rpow (div_pos b1 b2).le hq (by positivity)
  unfold EMercator.improve
  have := arctan_strictMono (mul_lt_mul_of_pos_left hf ht)
  linarith

theorem EMercator.improve_range (l : ℝ) : EMercator.improve e t l ∈ Set.Ioo (-(π / 2)) (π / 2) := by
  have hq : 0 < t * EMercator.factor e l := mul_pos ht (EMercator.factor_pos h0.le h1 l)
  have a1 := arctan_pos.mpr hq
  have a2 := arctan_lt_pi_div_two (t * EMercator.factor e l)
  unfold EMercator.improve
  constructor <;> linarith

/-- With exact arithmetic no latitude but the first can be its own successor. -/
theorem EMercator.first_of_fixed {l0 : ℝ} (hl : l0 ∈ Set.Icc (-(π / 2)) (π / 2)) (n : ℕ) (h : EMercator.improve e t ((EMercator.improve e t)^[n] l0) = (EMercator.improve e t)^[n] l0) :
    EMercator.improve e t l0 = l0 := by
  induction n with
  | zero => exact h
  | succ n ih =>
    have hm : ∀ n : ℕ, (EMercator.improve e t)^[n] l0 ∈ Set.Icc (-(π / 2)) (π / 2) := by
      intro n
      cases n with
      | zero => exact hl
      | succ n =>
        rw [Function.iterate_succ_apply']
        exact Set.Ioo_subset_Icc_self (EMercator.improve_range h0 h1 ht _)
    apply ih
    rw [Function.iterate_succ_apply'] at h
    refine (EMercator.improve_strictMono h0 h1 ht).injOn (Set.Ioo_subset_Icc_self (EMercator.improve_range h0 h1 ht _)) (hm n) h

end

/-- C165: in exact arithmetic `rect2geo` ends only on the equator (and on a sphere): that the exit test `lat == l0` ever holds is due to rounding. -/
theorem C165_exact (p : Spheroid) (ha : 0 < p.ell.a) (h0 : 0 ≤ p.ell.e) (h1 : p.ell.e < 1) (x y : ℝ) :
    (∃ r, EMercator.Rect2geo p x y r) ↔ y = 0 ∨ p.ell.e = 0 := by
  have hpi := pi_pos
  set t := exp (-y / p.ell.a) with htd
  have ht : 0 < t := exp_pos _
  have ends : (∃ r, EMercator.Rect2geo p x y r) ↔ ∃ lat, EMercator.Loop p.ell.e t lat := by
    constructor
    · rintro ⟨r, h⟩
      cases h with
      | zero h => exact absurd h ha.ne'
      | ok _ h => exact ⟨_, h⟩
    · rintro ⟨lat, h⟩
      exact ⟨_, .ok ha.ne' h⟩
  rw [ends]
  constructor
  · rintro ⟨lat, h⟩
    by_contra hne
    push Not at hne
    obtain ⟨hy, he⟩ := hne
    have he0 : 0 < p.ell.e := lt_of_le_of_ne h0 (Ne.symm he)
    rw [EMercator.loop_with, EMercator.loopWith_iff] at h
    obtain ⟨n, rfl, hf⟩ := h
    have a1 := arctan_pos.mpr ht
    have a2 := arctan_lt_pi_div_two t
    have hfix := EMercator.first_of_fixed he0 h1 ht (l0 := π / 2 - 2 * arctan t) ⟨by linarith, by linarith⟩ n hf
    unfold EMercator.improve at hfix
    have hF : t * EMercator.factor p.ell.e (π / 2 - 2 * arctan t) = t := arctan_injective (by linarith)
    have hF1 : EMercator.factor p.ell.e (π / 2 - 2 * arctan t) = 1 := by
      have := mul_left_cancel₀ ht.ne' (hF.trans (mul_one t).symm)
      exact this
    obtain ⟨w1, w2⟩ := EMercator.w_pos h0 h1 (π / 2 - 2 * arctan t)
    have hq : (1 - p.ell.e * sin (π / 2 - 2 * arctan t)) / (1 + p.ell.e * sin (π / 2 - 2 * arctan t)) = 1 := by
      rw [EMercator.factor] at hF1
      exact rpow_left_injOn (x := p.ell.e / 2) (by positivity) (div_pos w1 w2).le (zero_le_one (α := ℝ)) (hF1.trans (one_rpow _).symm)
    rw [div_eq_one_iff_eq w2.ne'] at hq
    have hs : sin (π / 2 - 2 * arctan t) = 0 := by
      have : p.ell.e * sin (π / 2 - 2 * arctan t) = 0 := by linarith
      rcases mul_eq_zero.mp this with h | h
      · exact absurd h he
      · exact h
    have hz : π / 2 - 2 * arctan t = 0 := by
      refine injOn_sin ⟨by linarith, by linarith⟩ ⟨by linarith, by linarith⟩ ?_
      rw [hs, sin_zero]
    have ht1 : t = 1 := by
      have : arctan t = arctan 1 := by rw [arctan_one]; linarith
      exact arctan_injective this
    rw [htd, exp_eq_one_iff, div_eq_zero_iff] at ht1
    rcases ht1 with h | h
    · exact hy (by linarith)
    · exact ha.ne' h
  · intro h
    refine ⟨π / 2 - 2 * arctan t, ?_⟩
    rw [EMercator.loop_with, EMercator.loopWith_iff]
    refine ⟨0, rfl, ?_⟩
    rcases h with rfl | he
    · have : t = 1 := by rw [htd]; simp
      rw [this, arctan_one]
      simp only [EMercator.improve, EMercator.factor]
      rw [show π / 2 - 2 * (π / 4) = 0 by ring, sin_zero, mul_zero, sub_zero, add_zero, div_one, one_rpow, mul_one, arctan_one]
      ring
    · simp only [EMercator.improve, EMercator.factor, he, zero_mul, sub_zero, add_zero, div_one, one_rpow, mul_one]

/-- C165: every point of the map is the image of a place. -/
theorem C165_image (p : Spheroid) (ha : 0 < p.ell.a) (h0 : 0 ≤ p.ell.e) (h1 : p.ell.e < 1) (x y : ℝ) (hx : |x| < π * p.ell.a) :
    ∃ lon lat, |lat| < 90 ∧ EMercator.geo2rect p lon lat = .ok (x, y) := by
  have hpi := pi_pos
  set t := exp (-y / p.ell.a) with htd
  have ht : 0 < t := exp_pos _
  have hrange : ∀ l, -(π / 2) < EMercator.improve p.ell.e t l ∧ EMercator.improve p.ell.e t l < π / 2 := by
    intro l
    have hq : 0 < t * EMercator.factor p.ell.e l := mul_pos ht (EMercator.factor_pos h0 h1 l)
    have a1 := arctan_pos.mpr hq
    have a2 := arctan_lt_pi_div_two (t * EMercator.factor p.ell.e l)
    unfold EMercator.improve
    constructor <;> linarith
  have hcont : ContinuousOn (fun l => l - EMercator.improve p.ell.e t l) (Set.Icc (-(π / 2)) (π / 2)) :=
    fun l _ => (continuousAt_id.sub (EMercator.improve_deriv h0 h1 l).continuousAt).continuousWithinAt
  obtain ⟨l, -, hl⟩ := intermediate_value_Icc (by linarith : -(π / 2) ≤ π / 2) hcont
    (show (0 : ℝ) ∈ Set.Icc _ _ from ⟨by have := hrange (-(π / 2)); linarith, by have := hrange (π / 2); linarith⟩)
  exact ⟨_, _, EMercator.forth_fix p ha h0 h1 hx (sub_eq_zero.mp hl)⟩

/-- C165: if every latitude is computed from the one before with an error of at most `η`, the latitude after `n` rounds is off by at most `e ^ (2 * n)` times the error of the first one,
and `η / (1 - e²)`; and if the loop ends, the latitude it returns is off by at most `η / (1 - e²)`. (`S` are the latitudes that occur, in radians.) -/
theorem C165_rounded (p : Spheroid) (ha : 0 < p.ell.a) (h0 : 0 ≤ p.ell.e) (h1 : 2 * p.ell.e ^ 2 ≤ 1) (lon lat x y : ℝ) (h : |lat| < 90)
    (hg : EMercator.geo2rect p lon lat = .ok (x, y)) (η : ℝ) (S : Set ℝ) (step : ℝ → ℝ) (l0 : ℝ) (hl0 : l0 ∈ S)
    (hS : ∀ l ∈ S, step l ∈ S ∧ |step l - EMercator.improve p.ell.e (exp (-y / p.ell.a)) l| ≤ η) :
    (∀ n : ℕ, |step^[n] l0 - rad lat| ≤ p.ell.e ^ (2 * n) * |l0 - rad lat| + η / (1 - p.ell.e ^ 2)) ∧
    ∀ l, EMercator.LoopWith step l0 l → |l - rad lat| ≤ η / (1 - p.ell.e ^ 2) := by
  have he : p.ell.e < 1 := by nlinarith
  have hf := EMercator.fixed p ha h0 he h hg
  set t := exp (-y / p.ell.a)
  have hk : 0 < 1 - p.ell.e ^ 2 := by linarith
  have hη : 0 ≤ η := (abs_nonneg _).trans (hS l0 hl0).2
  have hmem : ∀ n : ℕ, step^[n] l0 ∈ S := by
    intro n
    induction n with
    | zero => exact hl0
    | succ n ih => rw [Function.iterate_succ_apply']; exact (hS _ ih).1
  have one : ∀ l ∈ S, |step l - rad lat| ≤ p.ell.e ^ 2 * |l - rad lat| + η := by
    intro l hl
    have c := EMercator.contract (t := t) h0 h1 l (rad lat)
    rw [hf] at c
    have := abs_sub_le (step l) (EMercator.improve p.ell.e t l) (rad lat)
    have := (hS l hl).2
    linarith
  constructor
  · intro n
    induction n with
    | zero =>
      have : 0 ≤ η / (1 - p.ell.e ^ 2) := by positivity
      simpa using this
    | succ n ih =>
      rw [Function.iterate_succ_apply']
      have := one _ (hmem n)
      have h2 := mul_le_mul_of_nonneg_left ih (sq_nonneg p.ell.e)
      have h3 : p.ell.e ^ 2 * (η / (1 - p.ell.e ^ 2)) + η = η / (1 - p.ell.e ^ 2) := by field_simp; ring
      calc _ ≤ _ := this
        _ ≤ p.ell.e ^ 2 * (p.ell.e ^ (2 * n) * |l0 - rad lat| + η / (1 - p.ell.e ^ 2)) + η := by linarith
        _ = p.ell.e ^ (2 * (n + 1)) * |l0 - rad lat| + (p.ell.e ^ 2 * (η / (1 - p.ell.e ^ 2)) + η) := by ring
        _ = _ := by rw [h3]
  · intro l hl
    rw [EMercator.loopWith_iff] at hl
    obtain ⟨n, rfl, hfix⟩ := hl
    have := one _ (hmem n)
    rw [hfix] at this
    rw [le_div_iff₀ hk]
    linarith

/-- C165: if the latitudes that can occur are finitely many, as floats are, and rounding keeps the order of the computed latitudes, the loop ends. -/
theorem C165_ends (S : Set ℝ) (hfin : S.Finite) (step : ℝ → ℝ) (hS : ∀ l ∈ S, step l ∈ S) (hmono : ∀ l ∈ S, ∀ l' ∈ S, l ≤ l' → step l ≤ step l') (l0 : ℝ) (hl0 : l0 ∈ S) :
    ∃ l, EMercator.LoopWith step l0 l := by
  have hmem : ∀ n : ℕ, step^[n] l0 ∈ S := by
    intro n
    induction n with
    | zero => exact hl0
    | succ n ih => rw [Function.iterate_succ_apply']; exact hS _ ih
  by_contra hno
  have hne : ∀ n : ℕ, step^[n + 1] l0 ≠ step^[n] l0 := by
    intro n hn
    rw [Function.iterate_succ_apply'] at hn
    exact hno ⟨_, EMercator.loopWith_iff.mpr ⟨n, rfl, hn⟩⟩
  have hinj : Function.Injective fun n : ℕ => step^[n] l0 := by
    rcases lt_or_gt_of_ne (hne 0) with h | h
    · have : ∀ n : ℕ, step^[n + 1] l0 < step^[n] l0 := by
        intro n
        induction n with
        | zero => exact h
        | succ n ih =>
          refine lt_of_le_of_ne ?_ (hne (n + 1))
          rw [Function.iterate_succ_apply' step (n + 1), Function.iterate_succ_apply' step n]
          rw [Function.iterate_succ_apply'] at ih
          exact hmono _ (hS _ (hmem n)) _ (hmem n) ih.le
      exact (strictAnti_nat_of_succ_lt this).injective
    · have : ∀ n : ℕ, step^[n] l0 < step^[n + 1] l0 := by
        intro n
        induction n with
        | zero => exact h
        | succ n ih =>
          refine lt_of_le_of_ne ?_ (hne (n + 1)).symm
          rw [Function.iterate_succ_apply' step (n + 1), Function.iterate_succ_apply' step n]
          rw [Function.iterate_succ_apply'] at ih
          exact hmono _ (hmem n) _ (hS _ (hmem n)) ih.le
      exact (strictMono_nat_of_lt_succ this).injective
  exact Set.infinite_of_injective_forall_mem hinj hmem hfin

/-- C165: without this it need not end, however exact the steps are: with two latitudes, both within `η` of what they should be, the loop alternates between them forever. -/
theorem C165_endless_violated (p : Spheroid) (ha : 0 < p.ell.a) (h0 : 0 ≤ p.ell.e) (h1 : 2 * p.ell.e ^ 2 ≤ 1) (lon lat x y : ℝ) (h : |lat| < 90)
    (hg : EMercator.geo2rect p lon lat = .ok (x, y)) (η : ℝ) (hη : 0 < η) :
    ∃ (S : Set ℝ) (step : ℝ → ℝ), S.Finite ∧ rad lat ∈ S ∧ (∀ l ∈ S, step l ∈ S ∧ |step l - EMercator.improve p.ell.e (exp (-y / p.ell.a)) l| ≤ η) ∧
      ∀ l0 ∈ S, ¬ ∃ l, EMercator.LoopWith step l0 l := by
  classical
  have he : p.ell.e < 1 := by nlinarith
  have hf := EMercator.fixed p ha h0 he h hg
  set t := exp (-y / p.ell.a)
  set a := rad lat
  have hab : a + η ≠ a := by linarith
  refine ⟨{a, a + η}, fun l => if l = a then a + η else a, by simp, by simp, ?_, ?_⟩
  · rintro l (rfl | rfl)
    · beta_reduce
      rw [if_pos rfl, hf]
      refine ⟨by simp, ?_⟩
      rw [add_sub_cancel_left, abs_of_pos hη]
    · beta_reduce
      rw [if_neg hab]
      refine ⟨by simp, ?_⟩
      have c := EMercator.contract (t := t) h0 h1 a (a + η)
      rw [hf, show a - (a + η) = -η by ring, abs_neg, abs_of_pos hη] at c
      nlinarith
  · intro l0 hl0
    rintro ⟨l, hl⟩
    rw [EMercator.loopWith_iff] at hl
    obtain ⟨n, rfl, hfix⟩ := hl
    generalize (fun l => if l = a then a + η else a)^[n] l0 = m at hfix
    split_ifs at hfix with hc
    · rw [hc] at hfix; exact hab hfix
    · exact hc hfix.symm

/-- Cases: the equator is the only parallel of the WGS 84 ellipsoid for which the exact loop ends; for any other place the hypotheses of the rest are met. -/
example : (∃ r, EMercator.Rect2geo { lon0 := 0, lat0 := 0, ell := wgs84 } 5 0 r) ∧ ¬ ∃ r, EMercator.Rect2geo { lon0 := 0, lat0 := 0, ell := wgs84 } 5 1 r := by
  have he : wgs84.e ≠ 0 := by
    have e2 : wgs84.e ^ 2 = 2 * (1 / 298.257223563) - (1 / 298.257223563) * (1 / 298.257223563) := sq_sqrt (by norm_num)
    intro e
    rw [e] at e2
    norm_num at e2
  constructor
  · rw [C165_exact _ wgs84_ok.1 wgs84_ok.2.1 wgs84_ok.2.2]; exact .inl rfl
  · rw [C165_exact _ wgs84_ok.1 wgs84_ok.2.1 wgs84_ok.2.2]; simpa using he

end Proj
end Coral
