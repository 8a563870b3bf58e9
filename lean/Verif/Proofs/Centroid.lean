import Verif.Model.Centroid
import Verif.Spec.Centroid
import Verif.Proofs.Azimuthal

/-!
# Lemmas on `geocentroid`
-/
namespace Coral
namespace Geoc
open Real Proj

theorem rotate_one {α : Type} (l : List α) : l.drop 1 ++ l.take 1 = l.rotate 1 := by
  cases l <;> simp [List.rotate_cons_succ]

/-- The sum of one side. -/
noncomputable def cross (s : (ℝ × ℝ) × (ℝ × ℝ)) : ℝ := s.1.1 * s.2.2 - s.2.1 * s.1.2

theorem sideSums_fold (l : List ((ℝ × ℝ) × (ℝ × ℝ))) (a b c : ℝ) :
    l.foldl (fun s ab =>
      let f := ab.1.1 * ab.2.2 - ab.2.1 * ab.1.2
      (s.1 + (ab.1.1 + ab.2.1) * f, s.2.1 + (ab.1.2 + ab.2.2) * f, s.2.2 + f)) (a, b, c) =
    (a + (l.map fun s => (s.1.1 + s.2.1) * cross s).sum, b + (l.map fun s => (s.1.2 + s.2.2) * cross s).sum, c + (l.map cross).sum) := by
  induction l generalizing a b c with
  | nil => simp
  | cons s l ih =>
    rw [List.foldl_cons, ih]
    simp only [List.map_cons, List.sum_cons, cross, add_assoc]

theorem sideSums_eq (xys : List (ℝ × ℝ)) : sideSums xys =
    (((sides xys).map fun s => (s.1.1 + s.2.1) * cross s).sum, ((sides xys).map fun s => (s.1.2 + s.2.2) * cross s).sum, ((sides xys).map cross).sum) := by
  rw [sideSums, rotate_one, sideSums_fold]
  simp [sides]

/-- Around a polygon, differences add up to nothing. -/
theorem sides_telescope (xys : List (ℝ × ℝ)) (g : ℝ × ℝ → ℝ) : ((sides xys).map fun s => g s.2 - g s.1).sum = 0 := by
  have h1 : ∀ l m : List (ℝ × ℝ), l.length = m.length → ((l.zip m).map fun s => g s.2 - g s.1).sum = (m.map g).sum - (l.map g).sum := by
    intro l
    induction l with
    | nil => intro m h; cases m <;> simp_all
    | cons a l ih =>
      intro m h
      cases m with
      | nil => simp at h
      | cons b m =>
        simp only [List.zip_cons_cons, List.map_cons, List.sum_cons]
        rw [ih m (by simpa using h)]
        ring
  rw [sides, h1 _ _ (by simp)]
  have : ((xys.rotate 1).map g).sum = (xys.map g).sum := ((List.rotate_perm xys 1).map g).sum_eq
  rw [this, sub_self]

theorem sum_map_add' {α : Type} (l : List α) (f g : α → ℝ) : (l.map fun x => f x + g x).sum = (l.map f).sum + (l.map g).sum := by
  induction l with
  | nil => simp
  | cons a l ih => simp only [List.map_cons, List.sum_cons, ih]; ring

theorem sum_map_mul' {α : Type} (l : List α) (f : α → ℝ) (k : ℝ) : (l.map fun x => k * f x).sum = k * (l.map f).sum := by
  induction l with
  | nil => simp
  | cons a l ih => simp only [List.map_cons, List.sum_cons, ih]; ring

theorem sides_area (o : ℝ × ℝ) (xys : List (ℝ × ℝ)) : ((sides xys).map fun s => triArea o s.1 s.2).sum = ((sides xys).map cross).sum / 2 := by
  have h := sides_telescope xys (fun p => (o.2 * p.1 - o.1 * p.2) / 2)
  have e : (fun s : (ℝ × ℝ) × (ℝ × ℝ) => triArea o s.1 s.2) =
      fun s => (1 / 2) * cross s + ((fun p : ℝ × ℝ => (o.2 * p.1 - o.1 * p.2) / 2) s.2 - (fun p : ℝ × ℝ => (o.2 * p.1 - o.1 * p.2) / 2) s.1) := by
    funext s
    simp only [triArea, cross]
    ring
  rw [e, sum_map_add', h, sum_map_mul']
  ring

theorem sides_moment1 (o : ℝ × ℝ) (xys : List (ℝ × ℝ)) :
    ((sides xys).map fun s => triArea o s.1 s.2 * ((o.1 + s.1.1 + s.2.1) / 3)).sum = ((sides xys).map fun s => (s.1.1 + s.2.1) * cross s).sum / 6 := by
  set g : ℝ × ℝ → ℝ := fun p => (-o.1 ^ 2 * p.2 - o.1 * p.1 * p.2 + o.1 * o.2 * p.1 + o.2 * p.1 ^ 2) / 6 with hg
  have h := sides_telescope xys g
  have e : (fun s : (ℝ × ℝ) × (ℝ × ℝ) => triArea o s.1 s.2 * ((o.1 + s.1.1 + s.2.1) / 3)) =
      fun s => (1 / 6) * ((s.1.1 + s.2.1) * cross s) + (g s.2 - g s.1) := by
    funext s
    simp only [triArea, cross, hg]
    ring
  rw [e, sum_map_add', h, sum_map_mul']
  ring

theorem sides_moment2 (o : ℝ × ℝ) (xys : List (ℝ × ℝ)) :
    ((sides xys).map fun s => triArea o s.1 s.2 * ((o.2 + s.1.2 + s.2.2) / 3)).sum = ((sides xys).map fun s => (s.1.2 + s.2.2) * cross s).sum / 6 := by
  set g : ℝ × ℝ → ℝ := fun p => (o.2 ^ 2 * p.1 + o.2 * p.1 * p.2 - o.1 * o.2 * p.2 - o.1 * p.2 ^ 2) / 6 with hg
  have h := sides_telescope xys g
  have e : (fun s : (ℝ × ℝ) × (ℝ × ℝ) => triArea o s.1 s.2 * ((o.2 + s.1.2 + s.2.2) / 3)) =
      fun s => (1 / 6) * ((s.1.2 + s.2.2) * cross s) + (g s.2 - g s.1) := by
    funext s
    simp only [triArea, cross, hg]
    ring
  rw [e, sum_map_add', h, sum_map_mul']
  ring

theorem polyCentroid_ok {xys : List (ℝ × ℝ)} {c : (ℝ × ℝ) × ℝ} (h : polyCentroid xys = .ok c) :
    c.2 = ((sides xys).map cross).sum ∧ c.2 ≠ 0 ∧
    c.1.1 * c.2 = ((sides xys).map fun s => (s.1.1 + s.2.1) * cross s).sum / 3 ∧ c.1.2 * c.2 = ((sides xys).map fun s => (s.1.2 + s.2.2) * cross s).sum / 3 := by
  simp only [polyCentroid, sideSums_eq, Py.bind_ok] at h
  obtain ⟨cx, h1, cy, h2, h3⟩ := h
  injection h3 with h3
  subst h3
  unfold rdiv at h1 h2
  split at h1
  · cases h1
  · rename_i hne
    rw [if_neg hne] at h2
    injection h1 with h1
    injection h2 with h2
    have hne' : ((sides xys).map cross).sum ≠ 0 := fun e => hne (by rw [e, mul_zero])
    refine ⟨rfl, hne', ?_, ?_⟩
    · simp only [← h1]
      field_simp
    · simp only [← h2]
      field_simp

theorem polyCentroid_zero {xys : List (ℝ × ℝ)} (h : ((sides xys).map cross).sum = 0) : polyCentroid xys = .error .zeroDivisionError := by
  simp only [polyCentroid, sideSums_eq, h, mul_zero, rdiv, if_true]
  rfl

theorem weighted_fold (cw : List ((ℝ × ℝ) × ℝ)) (a b c : ℝ) :
    cw.foldl (fun s c => (s.1 + c.1.1 * c.2, s.2.1 + c.1.2 * c.2, s.2.2 + c.2)) (a, b, c) =
      (a + (cw.map fun c => c.1.1 * c.2).sum, b + (cw.map fun c => c.1.2 * c.2).sum, c + (cw.map Prod.snd).sum) := by
  induction cw generalizing a b c with
  | nil => simp
  | cons x cw ih =>
    rw [List.foldl_cons, ih]
    simp only [List.map_cons, List.sum_cons, add_assoc]

theorem weighted_ok {cw : List ((ℝ × ℝ) × ℝ)} {c : ℝ × ℝ} : weighted cw = .ok c ↔
    (cw.map Prod.snd).sum ≠ 0 ∧ c.1 = (cw.map fun c => c.1.1 * c.2).sum / (cw.map Prod.snd).sum ∧ c.2 = (cw.map fun c => c.1.2 * c.2).sum / (cw.map Prod.snd).sum := by
  simp only [weighted, weighted_fold, zero_add, rdiv]
  by_cases h : (cw.map Prod.snd).sum = 0
  · rw [if_pos h]
    constructor
    · intro h'; cases h'
    · intro h'; exact absurd h h'.1
  · rw [if_neg h, if_neg h]
    constructor
    · intro h'
      injection h' with h'
      rw [← h']
      exact ⟨h, rfl, rfl⟩
    · rintro ⟨-, h1, h2⟩
      exact congrArg Except.ok (Prod.ext h1.symm h2.symm)

theorem centroid_of {polys : List (List (ℝ × ℝ))} {cw : List ((ℝ × ℝ) × ℝ)} {c : ℝ × ℝ}
    (h1 : List.Forall₂ (fun xys c => polyCentroid xys = .ok c) polys cw) (h2 : weighted cw = .ok c) : IsCentroid polys c := by
  rw [weighted_ok] at h2
  have key : ∀ o : ℝ × ℝ, fanArea o polys = (cw.map Prod.snd).sum / 2 ∧
      ((polys.flatMap sides).map fun s => triArea o s.1 s.2 * ((o.1 + s.1.1 + s.2.1) / 3)).sum = (cw.map fun c => c.1.1 * c.2).sum / 2 ∧
      ((polys.flatMap sides).map fun s => triArea o s.1 s.2 * ((o.2 + s.1.2 + s.2.2) / 3)).sum = (cw.map fun c => c.1.2 * c.2).sum / 2 := by
    intro o
    clear h2
    induction h1 with
    | nil => simp [fanArea]
    | cons h _ ih =>
      obtain ⟨e1, -, e2, e3⟩ := polyCentroid_ok h
      obtain ⟨i1, i2, i3⟩ := ih
      unfold fanArea at i1 ⊢
      simp only [List.flatMap_cons, List.map_append, List.sum_append, List.map_cons, List.sum_cons, i1, i2, i3, sides_area, sides_moment1, sides_moment2, e1, e2, e3]
      refine ⟨by ring, ?_, ?_⟩
      · rw [← e1, e2]; ring
      · rw [← e1, e3]; ring
  intro o
  obtain ⟨k1, k2, k3⟩ := key o
  obtain ⟨g0, g1, g2⟩ := h2
  rw [k1, k2, k3, g1, g2]
  refine ⟨by positivity, ?_, ?_⟩ <;> field_simp

/-- Away from the poles, going to the sphere and back. -/
theorem equalArea_back (p : Sphere) (hr : 0 < p.r) (hp : -(π / 2) ≤ p.lat0 ∧ p.lat0 ≤ π / 2) {x y lon lat : ℝ} (h : AzimuthalEqualArea.rect2geo p x y = .ok (lon, lat))
    (hn : 2 * arcsin (√(x * x + y * y) / (2 * p.r)) < π / 2 - |p.lat0|) : AzimuthalEqualArea.geo2rect p lon lat = .ok (x, y) := by
  have hpi := pi_pos
  set d := √(x * x + y * y) with hd
  have hd0 : 0 ≤ d := sqrt_nonneg _
  have hdd : d ^ 2 = x ^ 2 + y ^ 2 := by rw [hd, sq_sqrt (by nlinarith [sq_nonneg x, sq_nonneg y])]; ring
  simp only [AzimuthalEqualArea.rect2geo, ← hd, Py.bind_ok, azimuthal, azimuthalQuot] at h
  rw [rdiv_ok (by positivity)] at h
  obtain ⟨q, hq, c2, hc2, t, ht, s, hs, l, hl, h⟩ := h
  injection hq with hq
  subst hq
  have hdr : d / (2 * p.r) ≤ 1 := by
    unfold rasin at hc2
    split at hc2
    · cases hc2
    · rename_i hh; push Not at hh; exact hh.2
  have hdr0 : 0 ≤ d / (2 * p.r) := by positivity
  rw [rasin_ok (by linarith) hdr] at hc2
  injection hc2 with hc2
  subst hc2
  set c := 2 * arcsin (d / (2 * p.r)) with hc
  have hc0 : 0 ≤ c := by have := arcsin_nonneg.mpr hdr0; rw [hc]; linarith
  have habs := abs_nonneg p.lat0
  have hdne : d ≠ 0 := by
    intro e
    rw [e] at hs
    unfold rdiv at hs
    simp at hs
  have hdpos : 0 < d := lt_of_le_of_ne hd0 (Ne.symm hdne)
  have l1 : p.lat0 ≠ π / 2 := by
    intro e
    rw [e, abs_of_pos (by linarith)] at hn
    linarith
  have l2 : p.lat0 ≠ -π / 2 := by
    intro e
    rw [e, show |-π / 2| = π / 2 by rw [neg_div, abs_neg, abs_of_pos (by linarith)]] at hn
    linarith
  rw [if_neg l1, if_neg l2] at ht
  rw [rdiv_ok hdne] at hs
  injection hs with hs
  subst hs
  -- the direction
  set u := x / d with hu
  set v := y / d with hv
  have huv : u ^ 2 + v ^ 2 = 1 := by rw [hu, hv]; field_simp; linarith
  have hcs := sin_sq_add_cos_sq c
  have h00 := sin_sq_add_cos_sq p.lat0
  set S := cos c * sin p.lat0 + y * sin c * cos p.lat0 / d with hS
  have hS' : S = cos c * sin p.lat0 + v * sin c * cos p.lat0 := by rw [hS, hv]; ring
  set D := cos p.lat0 * cos c - v * sin p.lat0 * sin c with hD
  set N := u * sin c with hN
  have hsum : S ^ 2 + D ^ 2 + N ^ 2 = 1 := by
    rw [hS', hD, hN]
    linear_combination (cos c ^ 2 + v ^ 2 * sin c ^ 2) * h00 + hcs + sin c ^ 2 * huv
  have hsinc : 0 ≤ sin c := sin_nonneg_of_nonneg_of_le_pi hc0 (by linarith)
  have hDpos : 0 < D := by
    have h1 : 0 < cos (c + |p.lat0|) := cos_pos_of_mem_Ioo ⟨by linarith, by linarith⟩
    rw [cos_add, cos_abs] at h1
    have h2 : v * sin p.lat0 ≤ sin |p.lat0| := by
      have hv1 : |v| ≤ 1 := by rw [← sq_le_one_iff_abs_le_one]; nlinarith [sq_nonneg u]
      have hs1 : |sin p.lat0| ≤ sin |p.lat0| := by
        rcases abs_cases p.lat0 with ⟨e, g⟩ | ⟨e, g⟩
        · rw [e, abs_of_nonneg (sin_nonneg_of_nonneg_of_le_pi g (by linarith))]
        · rw [e, sin_neg, abs_of_nonpos]
          have := sin_nonneg_of_nonneg_of_le_pi (x := -p.lat0) (by linarith) (by linarith)
          rw [sin_neg] at this; linarith
      calc v * sin p.lat0 ≤ |v * sin p.lat0| := le_abs_self _
        _ = |v| * |sin p.lat0| := abs_mul _ _
        _ ≤ 1 * |sin p.lat0| := by gcongr
        _ ≤ _ := by linarith
    rw [hD]
    nlinarith
  have hden : d * cos p.lat0 * cos c - y * sin p.lat0 * sin c = d * D := by rw [hD, hv]; field_simp
  rw [hden, rdiv_ok (by positivity)] at ht
  injection ht with ht
  have htq : t = N / D := by rw [← ht, hN, hu]; field_simp
  unfold rasin at hl
  split at hl
  · cases hl
  · rename_i hSr
    push Not at hSr
    injection hl with hl
    injection h with h
    obtain ⟨e1, e2⟩ := Prod.mk.inj h
    have hlon : rad lon - p.lon0 = arctan (N / D) := by rw [← e1, rad_deg, htq]; ring
    have hlat : rad lat = arcsin S := by rw [← e2, rad_deg, ← hl]
    have hsl : sin (rad lat) = S := by rw [hlat, sin_arcsin hSr.1 hSr.2]
    have hR : 0 < D ^ 2 + N ^ 2 := by positivity
    have hcl : cos (rad lat) = √(D ^ 2 + N ^ 2) := by rw [hlat, cos_arcsin]; congr 1; linarith
    have hsq : √(1 + (N / D) ^ 2) = √(D ^ 2 + N ^ 2) / D := by
      rw [show 1 + (N / D) ^ 2 = (D ^ 2 + N ^ 2) / D ^ 2 by field_simp, sqrt_div hR.le, sqrt_sq hDpos.le]
    have hRp := sqrt_pos.mpr hR
    have hcd : cos (rad lat) * cos (rad lon - p.lon0) = D := by
      rw [hlon, hcl, cos_arctan, hsq]; field_simp
    have hcn : cos (rad lat) * sin (rad lon - p.lon0) = N := by
      rw [hlon, hcl, sin_arctan, hsq]; field_simp
    have hdist : cosDist p lon lat = cos c := by
      rw [cosDist, hsl, mul_assoc, hcd, hS', hD]
      linear_combination cos c * h00
    have hcc : c < π := by linarith
    have hhalf : 0 < cos (c / 2) := cos_pos_of_mem_Ioo ⟨by linarith, by linarith⟩
    have e := one_add_cos c
    have hne : cosDist p lon lat ≠ -1 := by
      rw [hdist]
      intro e'
      have := pow_pos hhalf 2
      linarith
    rw [AzimuthalEqualArea.fwd p lon lat hne, hdist]
    have hk : √(2 / (1 + cos c)) = (cos (c / 2))⁻¹ := by
      rw [e, sqrt_eq_iff_mul_self_eq (by positivity) (by positivity)]
      field_simp
    have hsc : sin c = 2 * (d / (2 * p.r)) * cos (c / 2) := by
      rw [sin_double_half]
      congr 2
      rw [hc, mul_div_cancel_left₀ _ two_ne_zero, sin_arcsin (by linarith) hdr]
    have heast : east p lon lat = N := hcn
    have hnorth : north p lon lat = v * sin c := by
      rw [north, mul_assoc (sin p.lat0), hcd, hsl, hS', hD]
      linear_combination v * sin c * h00
    rw [heast, hnorth, hk, hN, hsc, hu, hv]
    congr 2 <;> field_simp

end Geoc
end Coral
