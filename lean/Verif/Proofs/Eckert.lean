import Verif.Proofs.Mercator
import Mathlib.Analysis.SpecialFunctions.Trigonometric.Bounds
import Mathlib.Analysis.Calculus.Deriv.MeanValue
import Mathlib.Analysis.SpecialFunctions.Trigonometric.Deriv

namespace Coral
namespace Proj

open Real

theorem PyWhile.det {S : Type} {cond : S → Prop} {body : S → Py S} {s : S} {t u : Py S} (h : PyWhile cond body s t) (h' : PyWhile cond body s u) : t = u := by
  induction h with
  | done hn => cases h' with
    | done => rfl
    | step hc => exact absurd hc hn
    | raise hc => exact absurd hc hn
  | step hc hb _ ih => cases h' with
    | done hn => exact absurd hc hn
    | step _ hb' hw =>
      rw [hb] at hb'
      cases hb'
      exact ih hw
    | raise _ hb' =>
      rw [hb] at hb'
      cases hb'
  | raise hc hb => cases h' with
    | done hn => exact absurd hc hn
    | step _ hb' =>
      rw [hb] at hb'
      cases hb'
    | raise _ hb' =>
      rw [hb] at hb'
      cases hb'
      rfl

namespace EckertIV

theorem C_pos : 0 < C := by
  have := pi_pos
  rw [C]
  linarith

theorem CX_pos : 0 < CX := by
  have := pi_pos
  rw [CX]
  positivity

theorem CY_pos : 0 < CY := by
  have := pi_pos
  rw [CY]
  positivity

/-- The left side of the equation for `theta`. -/
noncomputable def G (θ : ℝ) : ℝ := θ + sin θ * cos θ + 2 * sin θ

theorem G_deriv (θ : ℝ) : HasDerivAt G (2 * cos θ * (1 + cos θ)) θ := by
  have h := ((hasDerivAt_id θ).add ((hasDerivAt_sin θ).mul (hasDerivAt_cos θ))).add ((hasDerivAt_sin θ).const_mul 2)
  refine h.congr_deriv ?_
  linear_combination -sin_sq_add_cos_sq θ

theorem G_neg (θ : ℝ) : G (-θ) = -G θ := by
  rw [G, G, sin_neg, cos_neg]
  ring

theorem G_cont : Continuous G := continuous_iff_continuousAt.mpr fun θ => (G_deriv θ).continuousAt

theorem G_half_pi : G (π / 2) = C := by
  rw [G, sin_pi_div_two, cos_pi_div_two, C]
  ring

theorem G_zero : G 0 = 0 := by simp [G]

theorem G_mono : StrictMonoOn G (Set.Icc (-(π / 2)) (π / 2)) := by
  refine strictMonoOn_of_deriv_pos (convex_Icc _ _) G_cont.continuousOn fun x hx => ?_
  rw [interior_Icc] at hx
  rw [(G_deriv x).deriv]
  have := cos_pos_of_mem_Ioo hx
  positivity

theorem G_range {θ : ℝ} (h1 : -(π / 2) ≤ θ) (h2 : θ ≤ π / 2) : -1 ≤ G θ / C ∧ G θ / C ≤ 1 := by
  have hC := C_pos
  have hp := pi_pos
  have a := G_mono.monotoneOn ⟨h1, h2⟩ ⟨by linarith, le_rfl⟩ h2
  have b := G_mono.monotoneOn ⟨le_rfl, by linarith⟩ ⟨h1, h2⟩ h1
  rw [G_half_pi] at a
  rw [G_neg, G_half_pi] at b
  rw [le_div_iff₀ hC, div_le_iff₀ hC]
  exact ⟨by linarith, by linarith⟩

theorem G_solve {σ : ℝ} (h1 : -1 ≤ σ) (h2 : σ ≤ 1) : ∃ θ, -(π / 2) ≤ θ ∧ θ ≤ π / 2 ∧ G θ = C * σ := by
  have hC := C_pos
  have hp := pi_pos
  have := intermediate_value_Icc (show -(π / 2) ≤ π / 2 by linarith) G_cont.continuousOn
  rw [G_neg, G_half_pi] at this
  obtain ⟨θ, ⟨a, b⟩, h⟩ := this (show C * σ ∈ Set.Icc (-C) C from ⟨by nlinarith, by nlinarith⟩)
  exact ⟨θ, a, b, h⟩

/-- Tangents are above the graph on the right. -/
theorem G_tangent {θ θ' : ℝ} (h0 : 0 ≤ θ) (h : θ < θ') (h1 : θ' ≤ π / 2) : G θ' < G θ + 2 * cos θ * (1 + cos θ) * (θ' - θ) := by
  have hp := pi_pos
  obtain ⟨ξ, ⟨a, b⟩, hξ⟩ := exists_hasDerivAt_eq_slope G (fun x => 2 * cos x * (1 + cos x)) h G_cont.continuousOn fun x _ => G_deriv x
  have hc : cos ξ < cos θ := cos_lt_cos_of_nonneg_of_le_pi_div_two h0 (by linarith) a
  have hc0 : 0 < cos ξ := cos_pos_of_mem_Ioo ⟨by linarith, by linarith⟩
  have hd : 0 < θ' - θ := by linarith
  rw [eq_div_iff hd.ne'] at hξ
  have : 2 * cos ξ * (1 + cos ξ) < 2 * cos θ * (1 + cos θ) := by nlinarith
  nlinarith

theorem rect2geo_eq (p : Sphere) (hr : p.r ≠ 0) {θ : ℝ} (d : ℝ) (h1 : -(π / 2) ≤ θ) (h2 : θ ≤ π / 2) :
    rect2geo p (CX * p.r * d * (1 + cos θ)) (CY * p.r * sin θ) = .ok (deg (p.lon0 + d), deg (arcsin (G θ / C))) := by
  have hx := CX_pos.ne'
  have hy := CY_pos.ne'
  have hc : 0 ≤ cos θ := cos_nonneg_of_neg_pi_div_two_le_of_le h1 h2
  have hc1 : 1 + cos θ ≠ 0 := by linarith
  obtain ⟨g1, g2⟩ := G_range h1 h2
  have e1 : CY * p.r * sin θ / (CY * p.r) = sin θ := by field_simp
  have e2 : CX * p.r * d * (1 + cos θ) / (CX * p.r * (1 + cos θ)) = d := by field_simp
  rw [rect2geo, rdiv_ok (mul_ne_zero hy hr), e1]
  change (rasin (sin θ) >>= _) = _
  rw [rasin_sin h1 h2]
  change (rdiv _ (CX * p.r * (1 + cos θ)) >>= _) = _
  rw [rdiv_ok (mul_ne_zero (mul_ne_zero hx hr) hc1), e2]
  change (rdiv (G θ) C >>= _) = _
  rw [rdiv_ok C_pos.ne']
  change (rasin _ >>= _) = _
  rw [rasin_ok g1 g2]
  rfl

/-! ### The iteration -/

/-- A round, seen from either hemisphere. -/
theorem body_eq {ε σ u : ℝ} (hε : ε = 1 ∨ ε = -1) (hu : 0 < cos u) (s : State) (hs : s.theta = ε * u) :
    body (ε * σ) s = .ok
      { theta := ε * (u + (C * σ - G u) / (2 * cos u * (1 + cos u)))
        costheta := cos u
        sintheta := ε * sin u
        delta := ε * ((C * σ - G u) / (2 * cos u * (1 + cos u))) } := by
  have hc : cos (ε * u) = cos u := by
    rcases hε with rfl | rfl
    · rw [one_mul]
    · rw [neg_one_mul, cos_neg]
  have hsn : sin (ε * u) = ε * sin u := by
    rcases hε with rfl | rfl
    · rw [one_mul, one_mul]
    · rw [neg_one_mul, neg_one_mul, sin_neg]
  have hd : 2 * cos u * (1 + cos u) ≠ 0 := by positivity
  have hnum : -(ε * u + ε * sin u * cos u + 2 * (ε * sin u) - C * (ε * σ)) / (2 * cos u * (1 + cos u)) =
      ε * ((C * σ - G u) / (2 * cos u * (1 + cos u))) := by
    rw [G]
    ring
  simp only [body, hs, hc, hsn]
  rw [rdiv_ok hd, hnum]
  change Except.ok _ = _
  congr 2
  ring

/-- The loop ends close to the solution. -/
theorem loop_ends {ε σ t : ℝ} (hε : ε = 1 ∨ ε = -1) (ht : t ≤ π / 2) (hG : G t = C * σ) (n : ℕ) :
    ∀ (s : State) (u : ℝ), s.theta = ε * u → 0 ≤ u → u ≤ t → u < π / 2 → |s.delta| > 1e-6 → π / 2 - u ≤ n * 1e-6 →
      ∃ s' v, PyWhile (fun s : State => |s.delta| > 1e-6) (body (ε * σ)) s (.ok s') ∧ s'.costheta = cos v ∧ s'.sintheta = ε * sin v ∧
        0 ≤ v ∧ v < π / 2 ∧ 0 ≤ C * σ - G v ∧ C * σ - G v ≤ 4e-6 := by
  have hp := pi_pos
  have habs : ∀ x : ℝ, |ε * x| = |x| := by
    intro x
    rcases hε with rfl | rfl
    · rw [one_mul]
    · rw [neg_one_mul, abs_neg]
  induction n with
  | zero =>
    intro s u _ _ _ h _ h'
    simp at h'
    linarith
  | succ n ih =>
    intro s u hs h0 hut hu hd hn
    have hc : 0 < cos u := cos_pos_of_mem_Ioo ⟨by linarith, hu⟩
    have hc1 := cos_le_one u
    have hden : 0 < 2 * cos u * (1 + cos u) := by positivity
    have hb := body_eq (σ := σ) hε hc s hs
    set δ := (C * σ - G u) / (2 * cos u * (1 + cos u)) with hδ
    have hmul : δ * (2 * cos u * (1 + cos u)) = C * σ - G u := by
      rw [hδ]
      field_simp
    have hgap : 0 ≤ C * σ - G u := by
      rw [← hG, sub_nonneg]
      exact G_mono.monotoneOn ⟨by linarith, hu.le⟩ ⟨by linarith, ht⟩ hut
    have hδ0 : 0 ≤ δ := div_nonneg hgap hden.le
    by_cases hlast : |ε * δ| > 1e-6
    · have hlt : u < t := by
        rcases hut.lt_or_eq with h | h
        · exact h
        · rw [h, hG, sub_self, zero_div] at hδ
          rw [hδ, mul_zero, abs_zero] at hlast
          norm_num at hlast
      have htan := G_tangent h0 hlt ht
      have hstep : u + δ < t := by
        rw [hG] at htan
        have : δ * (2 * cos u * (1 + cos u)) < (t - u) * (2 * cos u * (1 + cos u)) := by
          rw [hmul]
          linarith
        have := lt_of_mul_lt_mul_right this hden.le
        linarith
      rw [habs, abs_of_nonneg hδ0] at hlast
      obtain ⟨s', v, hw, rest⟩ := ih { theta := ε * (u + δ), costheta := cos u, sintheta := ε * sin u, delta := ε * δ } (u + δ) rfl (by linarith) hstep.le
        (by linarith) (by rw [habs, abs_of_nonneg hδ0]; exact hlast) (by push_cast at hn; linarith)
      exact ⟨s', v, .step hd hb hw, rest⟩
    · refine ⟨_, u, .step hd hb (.done hlast), rfl, rfl, h0, hu, hgap, ?_⟩
      rw [habs, abs_of_nonneg hδ0, gt_iff_lt, not_lt] at hlast
      rw [← hmul]
      have : 2 * cos u * (1 + cos u) ≤ 4 := by nlinarith
      calc δ * (2 * cos u * (1 + cos u)) ≤ 1e-6 * 4 := mul_le_mul hlast this hden.le (by norm_num)
        _ = 4e-6 := by norm_num

/-- The start is on the near side of the solution. -/
theorem start_le {φ : ℝ} (h0 : 0 ≤ φ) (h1 : φ ≤ π / 2) : G (φ / 2) ≤ C * sin φ := by
  have hp := pi_pos
  have hs0 : 0 ≤ sin φ := sin_nonneg_of_nonneg_of_le_pi h0 (by linarith)
  have hj := mul_le_sin h0 h1
  have hφ : φ / 2 ≤ π / 4 * sin φ := by
    have : π / 4 * (2 / π * φ) ≤ π / 4 * sin φ := mul_le_mul_of_nonneg_left hj (by linarith)
    have e : π / 4 * (2 / π * φ) = φ / 2 := by field_simp; ring
    linarith
  have hd := sin_two_mul (φ / 2)
  rw [show 2 * (φ / 2) = φ by ring] at hd
  have hsh : 0 ≤ sin (φ / 2) := sin_nonneg_of_nonneg_of_le_pi (by linarith) (by linarith)
  have hch : 2 / 3 ≤ cos (φ / 2) := by
    have h2 := cos_sq (φ / 2)
    rw [show 2 * (φ / 2) = φ by ring] at h2
    have hcφ : 0 ≤ cos φ := cos_nonneg_of_neg_pi_div_two_le_of_le (by linarith) h1
    have hc0 : 0 ≤ cos (φ / 2) := cos_nonneg_of_neg_pi_div_two_le_of_le (by linarith) (by linarith)
    nlinarith
  have h3 : 2 * sin (φ / 2) ≤ 3 / 2 * sin φ := by
    rw [hd]
    nlinarith
  have h4 : sin (φ / 2) * cos (φ / 2) = sin φ / 2 := by linarith
  rw [G, h4, C]
  nlinarith

theorem loop_exists {φ : ℝ} (h1 : -(π / 2) ≤ φ) (h2 : φ ≤ π / 2) :
    ∃ s θ, Loop φ (.ok s) ∧ s.costheta = cos θ ∧ s.sintheta = sin θ ∧ -(π / 2) ≤ θ ∧ θ ≤ π / 2 ∧ |G θ - C * sin φ| ≤ 4e-6 := by
  have hp := pi_pos
  have hC := C_pos
  obtain ⟨ε, hε, hφ⟩ : ∃ ε : ℝ, (ε = 1 ∨ ε = -1) ∧ φ = ε * |φ| := by
    rcases le_total 0 φ with h | h
    · exact ⟨1, .inl rfl, by rw [abs_of_nonneg h, one_mul]⟩
    · exact ⟨-1, .inr rfl, by rw [abs_of_nonpos h]; ring⟩
  have ha0 := abs_nonneg φ
  have ha1 : |φ| ≤ π / 2 := abs_le.mpr ⟨h1, h2⟩
  have hsin : sin φ = ε * sin |φ| := by
    rcases hε with rfl | rfl
    · rw [one_mul] at *
      rw [← hφ]
    · rw [neg_one_mul] at *
      rw [← sin_neg, ← hφ]
  have hs0 : 0 ≤ sin |φ| := sin_nonneg_of_nonneg_of_le_pi ha0 (by linarith)
  obtain ⟨t, ht1, ht2, hG⟩ := G_solve (σ := sin |φ|) (neg_one_le_sin _) (sin_le_one _)
  have hst : |φ| / 2 ≤ t := by
    have := start_le ha0 ha1
    rw [← hG] at this
    exact (G_mono.le_iff_le ⟨by linarith, by linarith⟩ ⟨ht1, ht2⟩).mp this
  obtain ⟨n, hn⟩ := exists_nat_gt ((π / 2 - |φ| / 2) / 1e-6)
  rw [div_lt_iff₀ (by norm_num)] at hn
  obtain ⟨s, v, hw, hc, hs, v0, v1, g0, g1⟩ := loop_ends hε ht2 hG n { theta := φ / 2, costheta := 0, sintheta := 0, delta := 1 } (|φ| / 2)
    (by simp only; rw [← mul_div_assoc, ← hφ]) (by linarith) hst (by linarith) (by norm_num) hn.le
  refine ⟨s, ε * v, ?_, ?_, ?_, ?_, ?_, ?_⟩
  · rw [Loop, hsin]
    exact hw
  · rcases hε with rfl | rfl
    · rw [one_mul, hc]
    · rw [neg_one_mul, cos_neg, hc]
  · rcases hε with rfl | rfl
    · rw [one_mul, hs, one_mul]
    · rw [neg_one_mul, sin_neg, hs, neg_one_mul]
  · rcases hε with rfl | rfl <;> linarith
  · rcases hε with rfl | rfl <;> linarith
  · rw [hsin, abs_le]
    rcases hε with rfl | rfl
    · rw [one_mul, one_mul]
      constructor <;> linarith
    · rw [neg_one_mul, neg_one_mul, G_neg]
      constructor <;> linarith

end EckertIV

end Proj
end Coral
