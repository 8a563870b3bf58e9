import Verif.Props.Raster
import Mathlib.Tactic.Positivity
import Mathlib.Tactic.FieldSimp

/-!
# C50 for convex polygons
-/
set_option linter.unusedSectionVars false
namespace Coral
open scoped List

/-- Twice the area of the triangle `a b r`, positive if `r` is at the right of the way from `a` to `b` (on the screen, where rows go down). -/
def turnOf (a b r : Int × Int) : Int := (b.1 - a.1) * (r.2 - a.2) - (b.2 - a.2) * (r.1 - a.1)

/-- A convex polygon given clockwise (on the screen): no vertex is at the left of a side. -/
def ConvexClockwise (ps : List (Int × Int)) : Prop := ∀ s ∈ sidesOf ps, ∀ r ∈ ps, 0 ≤ turnOf s.1 s.2 r

instance (ps : List (Int × Int)) : Decidable (ConvexClockwise ps) := by unfold ConvexClockwise; infer_instance

/-- The side goes down, and meets row `y`. -/
def DownAt (y : Int) (s : (Int × Int) × (Int × Int)) : Prop := s.1.2 ≤ y ∧ y < s.2.2
/-- The side goes up, and meets row `y`. -/
def UpAt (y : Int) (s : (Int × Int) × (Int × Int)) : Prop := s.2.2 ≤ y ∧ y < s.1.2

instance (y : Int) (s : (Int × Int) × (Int × Int)) : Decidable (DownAt y s) := by unfold DownAt; infer_instance
instance (y : Int) (s : (Int × Int) × (Int × Int)) : Decidable (UpAt y s) := by unfold UpAt; infer_instance

theorem sides_mem {ps : List (Int × Int)} {s : (Int × Int) × (Int × Int)} (h : s ∈ sidesOf ps) : s.1 ∈ ps ∧ s.2 ∈ ps := by
  obtain ⟨h1, h2⟩ := List.of_mem_zip (a := s.1) (b := s.2) h
  exact ⟨h1, List.mem_rotate.mp h2⟩

theorem countP_split {α : Type} (l : List α) (p q : α → Bool) :
    l.countP p = l.countP (fun x => p x && q x) + l.countP (fun x => p x && !q x) := by
  induction l with
  | nil => rfl
  | cons a l ih =>
    simp only [List.countP_cons, ih]
    cases p a <;> cases q a <;> simp <;> omega

/-- A closed polygon crosses every row as often upwards as downwards. -/
theorem up_eq_down (ps : List (Int × Int)) (y : Int) :
    (sidesOf ps).countP (fun s => decide (UpAt y s)) = (sidesOf ps).countP (fun s => decide (DownAt y s)) := by
  have h1 : (sidesOf ps).countP (fun s => decide (s.1.2 ≤ y)) = ps.countP (fun p => decide (p.2 ≤ y)) := by
    have : (sidesOf ps).map Prod.fst = ps := List.map_fst_zip (by simp)
    conv => rhs; rw [← this, List.countP_map]
    rfl
  have h2 : (sidesOf ps).countP (fun s => decide (s.2.2 ≤ y)) = ps.countP (fun p => decide (p.2 ≤ y)) := by
    have : (sidesOf ps).map Prod.snd = ps.rotate 1 := List.map_snd_zip (by simp)
    rw [← (List.rotate_perm ps 1).countP_eq, ← this, List.countP_map]
    rfl
  have h3 := countP_split (sidesOf ps) (fun s => decide (s.1.2 ≤ y)) (fun s => decide (s.2.2 ≤ y))
  have h4 := countP_split (sidesOf ps) (fun s => decide (s.2.2 ≤ y)) (fun s => decide (s.1.2 ≤ y))
  have h5 : (sidesOf ps).countP (fun s => decide (s.2.2 ≤ y) && decide (s.1.2 ≤ y)) =
      (sidesOf ps).countP (fun s => decide (s.1.2 ≤ y) && decide (s.2.2 ≤ y)) := by
    congr 1; funext s; rw [Bool.and_comm]
  have h6 : (sidesOf ps).countP (fun s => decide (s.1.2 ≤ y) && !decide (s.2.2 ≤ y)) = (sidesOf ps).countP (fun s => decide (DownAt y s)) := by
    congr 1; funext s; rw [Bool.eq_iff_iff]; simp only [Bool.and_eq_true, decide_eq_true_eq, Bool.not_eq_true', decide_eq_false_iff_not, not_le]; exact Iff.rfl
  have h7 : (sidesOf ps).countP (fun s => decide (s.2.2 ≤ y) && !decide (s.1.2 ≤ y)) = (sidesOf ps).countP (fun s => decide (UpAt y s)) := by
    congr 1; funext s; rw [Bool.eq_iff_iff]; simp only [Bool.and_eq_true, decide_eq_true_eq, Bool.not_eq_true', decide_eq_false_iff_not, not_le]; exact Iff.rfl
  omega

theorem meets_iff (y : Int) (s : (Int × Int) × (Int × Int)) : MeetsRow y s.1 s.2 ↔ UpAt y s ∨ DownAt y s := by
  unfold MeetsRow UpAt DownAt
  omega

/-- The crossing lies between the ends of the side. -/
theorem crossing_comb {y : Int} {s : (Int × Int) × (Int × Int)} (h : MeetsRow y s.1 s.2) :
    ∃ t : ℚ, 0 ≤ t ∧ t ≤ 1 ∧ crossingAt y s.1 s.2 = (1 - t) * s.1.1 + t * s.2.1 ∧ (y : ℚ) = (1 - t) * s.1.2 + t * s.2.2 := by
  have hne : ((s.2.2 : ℚ) - s.1.2) ≠ 0 := by
    rw [meets_iff] at h
    have : s.2.2 - s.1.2 ≠ 0 := by unfold UpAt DownAt at h; omega
    exact_mod_cast this
  refine ⟨(y - s.1.2) / (s.2.2 - s.1.2), ?_, ?_, ?_, ?_⟩
  · rw [meets_iff] at h
    rcases h with ⟨h1, h2⟩ | ⟨h1, h2⟩
    · refine div_nonneg_of_nonpos ?_ ?_
      · have : (y : ℚ) ≤ s.1.2 := by exact_mod_cast h2.le
        linarith
      · have : (s.2.2 : ℚ) ≤ s.1.2 := by exact_mod_cast (h1.trans h2.le)
        linarith
    · refine div_nonneg ?_ ?_
      · have : (s.1.2 : ℚ) ≤ y := by exact_mod_cast h1
        linarith
      · have : (s.1.2 : ℚ) ≤ s.2.2 := by exact_mod_cast (h1.trans h2.le)
        linarith
  · rw [meets_iff] at h
    rcases h with ⟨h1, h2⟩ | ⟨h1, h2⟩
    · have h3 : (s.2.2 : ℚ) < s.1.2 := by exact_mod_cast (lt_of_le_of_lt h1 h2)
      rw [div_le_one_of_neg (by linarith)]
      have : (s.2.2 : ℚ) ≤ y := by exact_mod_cast h1
      linarith
    · have h3 : (s.1.2 : ℚ) < s.2.2 := by exact_mod_cast (lt_of_le_of_lt h1 h2)
      rw [div_le_one (by linarith)]
      have : (y : ℚ) ≤ s.2.2 := by exact_mod_cast h2.le
      linarith
  · unfold crossingAt
    field_simp
    ring
  · field_simp
    ring

/-- In a convex polygon, sides going up are at the left of sides going down. -/
theorem up_le_down {ps : List (Int × Int)} (hc : ConvexClockwise ps) {y : Int} {e f : (Int × Int) × (Int × Int)} (he : e ∈ sidesOf ps) (hf : f ∈ sidesOf ps)
    (hu : UpAt y e) (hd : DownAt y f) : crossingAt y e.1 e.2 ≤ crossingAt y f.1 f.2 := by
  obtain ⟨t, h0, h1, hx, hy⟩ := crossing_comb (s := f) ((meets_iff y f).mpr (.inr hd))
  have c1 : (0 : ℚ) ≤ turnOf e.1 e.2 f.1 := by exact_mod_cast hc e he f.1 (sides_mem hf).1
  have c2 : (0 : ℚ) ≤ turnOf e.1 e.2 f.2 := by exact_mod_cast hc e he f.2 (sides_mem hf).2
  have hlt : (e.2.2 : ℚ) - e.1.2 < 0 := by
    have : (e.2.2 : ℚ) < e.1.2 := by exact_mod_cast (lt_of_le_of_lt hu.1 hu.2)
    linarith
  have hsum : 0 ≤ ((e.2.1 : ℚ) - e.1.1) * (y - e.1.2) - (e.2.2 - e.1.2) * (crossingAt y f.1 f.2 - e.1.1) := by
    have := add_nonneg (mul_nonneg (sub_nonneg.mpr h1) c1) (mul_nonneg h0 c2)
    unfold turnOf at this
    push_cast at this
    rw [hx, hy]
    linarith
  have : crossingAt y e.1 e.2 - e.1.1 ≤ crossingAt y f.1 f.2 - e.1.1 := by
    unfold crossingAt
    rw [add_sub_cancel_left, mul_div_assoc', div_le_iff_of_neg hlt]
    unfold crossingAt at hsum
    linarith
  linarith

/-- The crossings of a row: those going up and those going down. -/
theorem crossings_perm (y : Int) (l : List ((Int × Int) × (Int × Int))) :
    crossings y l ~ (l.filter (fun s => decide (UpAt y s))).map (fun s => (pyRound (crossingAt y s.1 s.2), false)) ++
      (l.filter (fun s => decide (DownAt y s))).map (fun s => (pyRound (crossingAt y s.1 s.2), true)) := by
  induction l with
  | nil => exact .nil
  | cons s l ih =>
    unfold crossings at ih ⊢
    rw [List.filterMap_cons]
    by_cases hu : UpAt y s
    · have hnd : ¬ DownAt y s := by unfold UpAt at hu; unfold DownAt; omega
      have hd : ¬ s.1.2 < s.2.2 := by unfold UpAt at hu; omega
      rw [if_pos ((meets_iff y s).mpr (.inl hu)), List.filter_cons_of_pos (by simpa using hu), List.filter_cons_of_neg (by simpa using hnd)]
      simp only [hd, decide_false, List.map_cons, List.cons_append]
      exact ih.cons _
    · by_cases hd : DownAt y s
      · have hd' : s.1.2 < s.2.2 := by unfold DownAt at hd; omega
        rw [if_pos ((meets_iff y s).mpr (.inr hd)), List.filter_cons_of_neg (by simpa using hu), List.filter_cons_of_pos (by simpa using hd)]
        simp only [hd', decide_true, List.map_cons]
        exact (ih.cons _).trans List.perm_middle.symm
      · rw [if_neg (by rw [meets_iff]; tauto), List.filter_cons_of_neg (by simpa using hu), List.filter_cons_of_neg (by simpa using hd)]
        exact ih

/-- C50 for every convex polygon on the canvas, given clockwise, of which no row meets more than two sides: in every row, exactly the pixels are set that are from where the side going
up crosses the row (rounded) to before where the side going down does. -/
theorem C50_fill_convex_partial (width height : Nat) (ps : List (Int × Int)) (hc : ConvexClockwise ps)
    (hb : ∀ p ∈ ps, (0 ≤ p.1 ∧ p.1 < width) ∧ 0 ≤ p.2 ∧ p.2 ≤ height)
    (h2 : ∀ y, (sidesOf ps).countP (fun s => decide (MeetsRow y s.1 s.2)) ≤ 2) :
    ∃ pixels, fillPolygons width height [ps] = .ok pixels ∧
      ∀ x y, (x, y) ∈ pixels ↔ ∃ e ∈ sidesOf ps, ∃ f ∈ sidesOf ps, UpAt y e ∧ DownAt y f ∧
        pyRound (crossingAt y e.1 e.2) ≤ x ∧ x < pyRound (crossingAt y f.1 f.2) := by
  have hflat : [ps].flatMap sidesOf = sidesOf ps := by simp
  have hbound : ∀ y, ∀ s ∈ sidesOf ps, MeetsRow y s.1 s.2 → 0 ≤ pyRound (crossingAt y s.1 s.2) ∧ pyRound (crossingAt y s.1 s.2) < width := by
    intro y s hs hm
    obtain ⟨t, h0, h1, hx, -⟩ := crossing_comb hm
    obtain ⟨⟨a1, a2⟩, -⟩ := hb s.1 (sides_mem hs).1
    obtain ⟨⟨b1, b2⟩, -⟩ := hb s.2 (sides_mem hs).2
    have a1' : (0 : ℚ) ≤ s.1.1 := by exact_mod_cast a1
    have b1' : (0 : ℚ) ≤ s.2.1 := by exact_mod_cast b1
    have a2' : (s.1.1 : ℚ) ≤ ((width : Int) - 1 : Int) := by exact_mod_cast (by omega : s.1.1 ≤ (width : Int) - 1)
    have b2' : (s.2.1 : ℚ) ≤ ((width : Int) - 1 : Int) := by exact_mod_cast (by omega : s.2.1 ≤ (width : Int) - 1)
    constructor
    · apply le_pyRound_of_le
      rw [hx]
      push_cast
      exact add_nonneg (mul_nonneg (sub_nonneg.mpr h1) a1') (mul_nonneg h0 b1')
    · have : pyRound (crossingAt y s.1 s.2) ≤ (width : Int) - 1 := by
        apply pyRound_le_of_le
        rw [hx]
        nlinarith [mul_nonneg (sub_nonneg.mpr h1) (sub_nonneg.mpr a2'), mul_nonneg h0 (sub_nonneg.mpr b2')]
      omega
  -- one side up and one down, or none
  have hrow : ∀ y, ((sidesOf ps).filter (fun s => decide (UpAt y s)) = [] ∧ (sidesOf ps).filter (fun s => decide (DownAt y s)) = []) ∨
      ∃ e f, (sidesOf ps).filter (fun s => decide (UpAt y s)) = [e] ∧ (sidesOf ps).filter (fun s => decide (DownAt y s)) = [f] := by
    intro y
    have hsum : (sidesOf ps).countP (fun s => decide (MeetsRow y s.1 s.2)) =
        (sidesOf ps).countP (fun s => decide (UpAt y s)) + (sidesOf ps).countP (fun s => decide (DownAt y s)) := by
      rw [countP_split _ _ (fun s => decide (UpAt y s))]
      congr 1
      · congr 1; funext s
        rw [Bool.eq_iff_iff]
        simp only [Bool.and_eq_true, decide_eq_true_eq, meets_iff]
        tauto
      · congr 1; funext s
        rw [Bool.eq_iff_iff]
        simp only [Bool.and_eq_true, decide_eq_true_eq, meets_iff, Bool.not_eq_true', decide_eq_false_iff_not]
        have : UpAt y s → ¬ DownAt y s := by unfold UpAt DownAt; omega
        tauto
    have heq := up_eq_down ps y
    have hle := h2 y
    have hlenu := List.countP_eq_length_filter (p := fun s => decide (UpAt y s)) (l := sidesOf ps)
    have hlend := List.countP_eq_length_filter (p := fun s => decide (DownAt y s)) (l := sidesOf ps)
    have : (sidesOf ps).countP (fun s => decide (UpAt y s)) = 0 ∨ (sidesOf ps).countP (fun s => decide (UpAt y s)) = 1 := by omega
    rcases this with h | h
    · exact .inl ⟨List.length_eq_zero_iff.mp (by omega), List.length_eq_zero_iff.mp (by omega)⟩
    · obtain ⟨e, he⟩ := List.length_eq_one_iff.mp (by omega : ((sidesOf ps).filter (fun s => decide (UpAt y s))).length = 1)
      obtain ⟨f, hf⟩ := List.length_eq_one_iff.mp (by omega : ((sidesOf ps).filter (fun s => decide (DownAt y s))).length = 1)
      exact .inr ⟨e, f, he, hf⟩
  have hin : ∀ {y e}, (sidesOf ps).filter (fun s => decide (UpAt y s)) = [e] → e ∈ sidesOf ps ∧ UpAt y e := by
    intro y e he
    have : e ∈ (sidesOf ps).filter (fun s => decide (UpAt y s)) := by rw [he]; simp
    simpa using this
  have hin' : ∀ {y e}, (sidesOf ps).filter (fun s => decide (DownAt y s)) = [e] → e ∈ sidesOf ps ∧ DownAt y e := by
    intro y e he
    have : e ∈ (sidesOf ps).filter (fun s => decide (DownAt y s)) := by rw [he]; simp
    simpa using this
  obtain ⟨pixels, h3, h4⟩ := C50_fill_partial width height [ps] (by
      intro q hq p hp
      rw [List.mem_singleton.mp hq] at hp
      exact (hb p hp).2) (by
      intro y _ _
      rw [hflat]
      rcases hrow y with ⟨hu, hd⟩ | ⟨e, f, hu, hd⟩
      · refine ⟨[], ?_, .nil, by simp⟩
        have := crossings_perm y (sidesOf ps)
        rw [hu, hd] at this
        exact this.symm
      · obtain ⟨he, hue⟩ := hin hu
        obtain ⟨hf, hdf⟩ := hin' hd
        refine ⟨[(pyRound (crossingAt y e.1 e.2), false), (pyRound (crossingAt y f.1 f.2), true)], ?_, .pair ?_ ?_ .nil, ?_⟩
        · have := crossings_perm y (sidesOf ps)
          rw [hu, hd] at this
          exact this.symm
        · have := (hbound y e he ((meets_iff y e).mpr (.inl hue))).1
          omega
        · exact pyRound_mono (up_le_down hc he hf hue hdf)
        · intro m hm
          simp only [List.mem_cons, List.not_mem_nil, or_false] at hm
          rcases hm with rfl | rfl
          · exact (hbound y e he ((meets_iff y e).mpr (.inl hue))).2
          · exact (hbound y f hf ((meets_iff y f).mpr (.inr hdf))).2)
  refine ⟨pixels, h3, fun x y => ?_⟩
  rw [h4, EvenOddInside, hflat, (crossings_perm y (sidesOf ps)).countP_eq]
  rcases hrow y with ⟨hu, hd⟩ | ⟨e, f, hu, hd⟩
  · rw [hu, hd]
    constructor
    · rintro ⟨_, h⟩; simp at h
    · rintro ⟨e, he, f, hf, hue, -⟩
      have : e ∈ (sidesOf ps).filter (fun s => decide (UpAt y s)) := by simpa using ⟨he, hue⟩
      rw [hu] at this
      cases this
  · obtain ⟨he, hue⟩ := hin hu
    obtain ⟨hf, hdf⟩ := hin' hd
    have hmono := pyRound_mono (up_le_down hc he hf hue hdf)
    obtain ⟨l1, l2⟩ := hbound y e he ((meets_iff y e).mpr (.inl hue))
    obtain ⟨r1, r2⟩ := hbound y f hf ((meets_iff y f).mpr (.inr hdf))
    have hrange : (∃ e' ∈ sidesOf ps, ∃ f' ∈ sidesOf ps, UpAt y e' ∧ DownAt y f' ∧
        pyRound (crossingAt y e'.1 e'.2) ≤ x ∧ x < pyRound (crossingAt y f'.1 f'.2)) ↔
        (pyRound (crossingAt y e.1 e.2) ≤ x ∧ x < pyRound (crossingAt y f.1 f.2)) := by
      constructor
      · rintro ⟨e', he', f', hf', hue', hdf', h⟩
        have m1 : e' ∈ (sidesOf ps).filter (fun s => decide (UpAt y s)) := by simpa using ⟨he', hue'⟩
        have m2 : f' ∈ (sidesOf ps).filter (fun s => decide (DownAt y s)) := by simpa using ⟨hf', hdf'⟩
        rw [hu] at m1
        rw [hd] at m2
        rw [List.mem_singleton.mp m1, List.mem_singleton.mp m2] at h
        exact h
      · intro h
        exact ⟨e, he, f, hf, hue, hdf, h⟩
    rw [hrange, hu, hd]
    simp only [List.map_cons, List.map_nil, List.singleton_append, List.countP_cons, List.countP_nil, decide_eq_true_eq]
    have hyb : 0 ≤ y ∧ y < height := by
      have k1 := (hb e.2 (sides_mem he).2).2
      have k2 := (hb e.1 (sides_mem he).1).2
      unfold UpAt at hue
      omega
    unfold OnCanvas
    rcases lt_or_ge x (pyRound (crossingAt y e.1 e.2)) with hx | hx
    · rw [if_neg (by omega), if_neg (by omega)]
      constructor
      · rintro ⟨_, h⟩; simp at h
      · omega
    · rcases lt_or_ge x (pyRound (crossingAt y f.1 f.2)) with hx' | hx'
      · rw [if_neg (by omega), if_pos (by omega)]
        constructor
        · intro _; omega
        · intro _; exact ⟨by omega, by decide⟩
      · rw [if_pos (by omega), if_pos (by omega)]
        constructor
        · rintro ⟨_, h⟩; exact absurd h (by decide)
        · omega

/-- A hexagon: convex, and met by two sides in every row. -/
example : ConvexClockwise [(2, 0), (5, 0), (7, 3), (5, 6), (2, 6), (0, 3)] ∧
    fillPolygons 8 6 [[(2, 0), (5, 0), (7, 3), (5, 6), (2, 6), (0, 3)]] =
      .ok ([2, 3, 4].map (·, 0) ++ [1, 2, 3, 4, 5].map (·, 1) ++ [1, 2, 3, 4, 5].map (·, 2) ++ [0, 1, 2, 3, 4, 5, 6].map (·, 3) ++ [1, 2, 3, 4, 5].map (·, 4) ++ [1, 2, 3, 4, 5].map (·, 5)) := by
  decide +kernel

/-! ### Convex polygons with distinct vertices meet a row in two sides -/

theorem sides_fst_unique {ps : List (Int × Int)} (hn : ps.Nodup) {p q q' : Int × Int} (h : (p, q) ∈ sidesOf ps) (h' : (p, q') ∈ sidesOf ps) : q = q' := by
  obtain ⟨i, hi, e⟩ := List.mem_iff_getElem.mp h
  obtain ⟨j, hj, e'⟩ := List.mem_iff_getElem.mp h'
  simp only [sidesOf, List.length_zip, List.length_rotate] at hi hj
  simp only [sidesOf, List.getElem_zip, Prod.mk.injEq] at e e'
  have : i = j := hn.getElem_inj_iff.mp (e.1.trans e'.1.symm)
  subst this
  exact e.2.symm.trans e'.2

theorem sides_snd_unique {ps : List (Int × Int)} (hn : ps.Nodup) {p p' q : Int × Int} (h : (p, q) ∈ sidesOf ps) (h' : (p', q) ∈ sidesOf ps) : p = p' := by
  obtain ⟨i, hi, e⟩ := List.mem_iff_getElem.mp h
  obtain ⟨j, hj, e'⟩ := List.mem_iff_getElem.mp h'
  simp only [sidesOf, List.length_zip, List.length_rotate] at hi hj
  simp only [sidesOf, List.getElem_zip, Prod.mk.injEq] at e e'
  have hn' : (ps.rotate 1).Nodup := List.nodup_rotate.mpr hn
  have : i = j := hn'.getElem_inj_iff.mp (e.2.trans e'.2.symm)
  subst this
  exact e.1.symm.trans e'.1

theorem side_from {ps : List (Int × Int)} {p : Int × Int} (h : p ∈ ps) : ∃ q, (p, q) ∈ sidesOf ps := by
  have : (sidesOf ps).map Prod.fst = ps := List.map_fst_zip (by simp)
  rw [← this] at h
  obtain ⟨⟨a, q⟩, hq, rfl⟩ := List.mem_map.mp h
  exact ⟨q, hq⟩

section
variable {ps : List (Int × Int)} (hn : ps.Nodup) (hc : ConvexClockwise ps) {a b : Int × Int} (hv : a.2 < b.2)
  (hne : ∃ r ∈ ps, turnOf a b r ≠ 0) (hr : ∀ r ∈ ps, 0 ≤ turnOf a b r)
include hn hc hv hne hr

/-- On the line of a side going down, the sides go down. -/
theorem line_down {p q : Int × Int} (hs : (p, q) ∈ sidesOf ps) (hp : turnOf a b p = 0) (hq : turnOf a b q = 0) : p.2 ≤ q.2 := by
  by_contra hlt
  push Not at hlt
  obtain ⟨r, hrm, hr0⟩ := hne
  have h1 := hc _ hs r hrm
  have h2 := hr r hrm
  have key : (b.2 - a.2) * turnOf p q r = (q.2 - p.2) * turnOf a b r := by
    unfold turnOf at hp hq ⊢
    linear_combination (r.2 - p.2) * (hp - hq) - (q.2 - p.2) * hp
  have h3 : 0 < turnOf a b r := lt_of_le_of_ne h2 (Ne.symm hr0)
  have h4 := mul_nonneg (by omega : 0 ≤ b.2 - a.2) h1
  rw [key] at h4
  have h5 := mul_neg_of_neg_of_pos (by omega : q.2 - p.2 < 0) h3
  omega

/-- A vertex on the line, with another one further down: the next one is on the line, further down. -/
theorem line_next {p q t : Int × Int} (hs : (p, q) ∈ sidesOf ps) (hp : turnOf a b p = 0) (ht : t ∈ ps) (htl : turnOf a b t = 0) (hlt : p.2 < t.2) :
    turnOf a b q = 0 ∧ p.2 < q.2 := by
  have h1 := hc _ hs t ht
  have h2 := hr q (sides_mem hs).2
  have key : (b.2 - a.2) * turnOf p q t = -((t.2 - p.2) * turnOf a b q) := by
    unfold turnOf at hp htl ⊢
    linear_combination (q.2 - p.2) * (htl - hp) + (t.2 - p.2) * hp
  have h3 : turnOf a b q = 0 := by
    by_contra h0
    have h4 := mul_pos (by omega : 0 < t.2 - p.2) (lt_of_le_of_ne h2 (Ne.symm h0))
    have h5 := mul_nonneg (by omega : 0 ≤ b.2 - a.2) h1
    rw [key] at h5
    omega
  refine ⟨h3, lt_of_le_of_ne (line_down hn hc hv hne hr hs hp h3) fun he => ?_⟩
  -- the same row: the same point, so there is only one vertex
  have hpq : p = q := by
    have : (b.2 - a.2) * (p.1 - q.1) = 0 := by
      unfold turnOf at hp h3
      linear_combination h3 - hp + (b.1 - a.1) * he
    rcases mul_eq_zero.mp this with h | h
    · omega
    · exact Prod.ext (by omega) he
  subst hpq
  obtain ⟨i, hi, e⟩ := List.mem_iff_getElem.mp hs
  simp only [sidesOf, List.length_zip, List.length_rotate, min_self] at hi
  simp only [sidesOf, List.getElem_zip, Prod.mk.injEq, List.getElem_rotate] at e
  have := hn.getElem_inj_iff.mp (e.1.trans e.2.symm)
  have hlen : ps.length = 1 := by
    by_contra hne1
    have hl : 2 ≤ ps.length := by omega
    by_cases h : i + 1 = ps.length
    · rw [h, Nat.mod_self] at this; omega
    · rw [Nat.mod_eq_of_lt (by omega)] at this; omega
  obtain ⟨z, hz⟩ := List.length_eq_one_iff.mp hlen
  have hp' : p ∈ ps := (sides_mem hs).1
  rw [hz] at hp' ht
  rw [List.mem_singleton.mp hp', List.mem_singleton.mp ht] at hlt
  omega

/-- No vertex of the line is inside a side of the line. -/
theorem line_between {Y : Int} (hY : ∀ z ∈ ps, z.2 ≤ Y) (m : Nat) : ∀ p q w : Int × Int, (p, q) ∈ sidesOf ps → turnOf a b p = 0 → turnOf a b q = 0 →
    w ∈ ps → turnOf a b w = 0 → p.2 < w.2 → w.2 < q.2 → (2 * Y - p.2 - w.2).toNat ≤ m → False := by
  induction m with
  | zero =>
    intro p q w hs hp hq hw hwl h1 h2 hm
    have := hY q (sides_mem hs).2
    omega
  | succ m ih =>
    intro p q w hs hp hq hw hwl h1 h2 hm
    have hqm := (sides_mem hs).2
    have hYq := hY q hqm
    obtain ⟨w', hs'⟩ := side_from hw
    obtain ⟨hl', hlt'⟩ := line_next hn hc hv hne hr hs' hwl hqm hq h2
    have hw'm := (sides_mem hs').2
    have hYw' := hY w' hw'm
    rcases lt_trichotomy w'.2 q.2 with h | h | h
    · exact ih p q w' hs hp hq hw'm hl' (by omega) h (by omega)
    · have : w' = q := by
        have : (b.2 - a.2) * (w'.1 - q.1) = 0 := by
          unfold turnOf at hl' hq
          linear_combination hq - hl' + (b.1 - a.1) * h
        rcases mul_eq_zero.mp this with h' | h'
        · omega
        · exact Prod.ext (by omega) h
      subst this
      have := sides_snd_unique hn hs hs'
      subst this
      omega
    · exact ih w w' q hs' hwl hl' hqm hq h2 h (by omega)

end

theorem affine_le {α β p q y : ℚ} (h1 : p ≤ y) (h2 : y ≤ q) (hp : α + β * p ≤ 0) (hq : α + β * q ≤ 0) : α + β * y ≤ 0 := by
  rcases le_or_gt 0 β with h | h
  · have := mul_le_mul_of_nonneg_left h2 h; linarith
  · have := mul_le_mul_of_nonpos_left h1 h.le; linarith

/-- Two sides going down past the same row are on one line. -/
theorem same_line {ps : List (Int × Int)} (hc : ConvexClockwise ps) {e f : (Int × Int) × (Int × Int)} (he : e ∈ sidesOf ps) (hf : f ∈ sidesOf ps)
    {y : Int} (hde : DownAt y e) (hdf : DownAt y f) : turnOf e.1 e.2 f.1 = 0 ∧ turnOf e.1 e.2 f.2 = 0 := by
  obtain ⟨a, b⟩ := e
  obtain ⟨c, d⟩ := f
  obtain ⟨c1, c2⟩ := sides_mem hf
  obtain ⟨a1, a2⟩ := sides_mem he
  have t1 := hc _ he _ c1
  have t2 := hc _ he _ c2
  have t3 := hc _ hf _ a1
  have t4 := hc _ hf _ a2
  obtain ⟨y1, y2⟩ := hde
  obtain ⟨y3, y4⟩ := hdf
  simp only at *
  -- the distance of the lines in row `y`, times both heights
  obtain ⟨β, hβ⟩ : ∃ β : ℚ, β = (d.2 - c.2) * (b.1 - a.1) - (b.2 - a.2) * (d.1 - c.1) := ⟨_, rfl⟩
  obtain ⟨α, hα⟩ : ∃ α : ℚ, α = (d.2 - c.2) * ((b.2 - a.2) * a.1 - (b.1 - a.1) * a.2) - (b.2 - a.2) * ((d.2 - c.2) * c.1 - (d.1 - c.1) * c.2) := ⟨_, rfl⟩
  have hv : (0 : ℚ) < b.2 - a.2 := by
    have : a.2 < b.2 := by omega
    have : (a.2 : ℚ) < b.2 := by exact_mod_cast this
    linarith
  have hw : (0 : ℚ) < d.2 - c.2 := by
    have : c.2 < d.2 := by omega
    have : (c.2 : ℚ) < d.2 := by exact_mod_cast this
    linarith
  have e1 : α + β * c.2 = (d.2 - c.2) * turnOf a b c := by rw [hα, hβ]; unfold turnOf; push_cast; ring
  have e2 : α + β * d.2 = (d.2 - c.2) * turnOf a b d := by rw [hα, hβ]; unfold turnOf; push_cast; ring
  have e3 : α + β * a.2 = -((b.2 - a.2) * turnOf c d a) := by rw [hα, hβ]; unfold turnOf; push_cast; ring
  have e4 : α + β * b.2 = -((b.2 - a.2) * turnOf c d b) := by rw [hα, hβ]; unfold turnOf; push_cast; ring
  have p1 : 0 ≤ α + β * c.2 := by rw [e1]; exact mul_nonneg hw.le (by exact_mod_cast t1)
  have p2 : 0 ≤ α + β * d.2 := by rw [e2]; exact mul_nonneg hw.le (by exact_mod_cast t2)
  have p3 : α + β * a.2 ≤ 0 := by rw [e3]; exact neg_nonpos.mpr (mul_nonneg hv.le (by exact_mod_cast t3))
  have p4 : α + β * b.2 ≤ 0 := by rw [e4]; exact neg_nonpos.mpr (mul_nonneg hv.le (by exact_mod_cast t4))
  have zero : ∀ z : Int, a.2 ≤ z → z ≤ b.2 → c.2 ≤ z → z ≤ d.2 → α + β * z = 0 := by
    intro z z1 z2 z3 z4
    have h1 := affine_le (y := z) (by exact_mod_cast z1) (by exact_mod_cast z2) p3 p4
    have h2 := affine_le (α := -α) (β := -β) (y := z) (p := c.2) (q := d.2) (by exact_mod_cast z3) (by exact_mod_cast z4) (by linarith) (by linarith)
    linarith
  have z0 := zero y y1 (by omega) y3 (by omega)
  have z1 := zero (y + 1) (by omega) (by omega) (by omega) (by omega)
  push_cast at z1
  have hb0 : β = 0 := by linarith
  have ha0 : α = 0 := by rw [hb0] at z0; linarith
  rw [ha0, hb0] at e1 e2
  constructor
  · have : ((d.2 : ℚ) - c.2) * turnOf a b c = 0 := by linarith
    rcases mul_eq_zero.mp this with h | h
    · exact absurd h hw.ne'
    · exact_mod_cast h
  · have : ((d.2 : ℚ) - c.2) * turnOf a b d = 0 := by linarith
    rcases mul_eq_zero.mp this with h | h
    · exact absurd h hw.ne'
    · exact_mod_cast h

/-- In a convex polygon with distinct vertices, not all on one line, only one side goes down past a row. -/
theorem down_unique {ps : List (Int × Int)} (hn : ps.Nodup) (hc : ConvexClockwise ps) (hne : ∃ s ∈ sidesOf ps, ∃ r ∈ ps, turnOf s.1 s.2 r ≠ 0)
    {e f : (Int × Int) × (Int × Int)} (he : e ∈ sidesOf ps) (hf : f ∈ sidesOf ps) {y : Int} (hde : DownAt y e) (hdf : DownAt y f) : e = f := by
  obtain ⟨h1, h2⟩ := same_line hc he hf hde hdf
  obtain ⟨a, b⟩ := e
  obtain ⟨c, d⟩ := f
  obtain ⟨c1, c2⟩ := sides_mem hf
  obtain ⟨a1, a2⟩ := sides_mem he
  obtain ⟨y1, y2⟩ := hde
  obtain ⟨y3, y4⟩ := hdf
  simp only at *
  have hv : a.2 < b.2 := by omega
  -- not all vertices are on this line
  have hne' : ∃ r ∈ ps, turnOf a b r ≠ 0 := by
    by_contra hall
    push Not at hall
    obtain ⟨s, hs, r, hrm, hr0⟩ := hne
    apply hr0
    have k1 := hall _ (sides_mem hs).1
    have k2 := hall _ (sides_mem hs).2
    have k3 := hall _ hrm
    have : (b.2 - a.2) * turnOf s.1 s.2 r = 0 := by
      unfold turnOf at k1 k2 k3 ⊢
      linear_combination (r.2 - s.1.2) * (k1 - k2) - (s.2.2 - s.1.2) * (k1 - k3)
    rcases mul_eq_zero.mp this with h | h
    · omega
    · exact h
  have hr : ∀ r ∈ ps, 0 ≤ turnOf a b r := fun r hr => hc _ he r hr
  have ha0 : turnOf a b a = 0 := by unfold turnOf; ring
  have hb0 : turnOf a b b = 0 := by unfold turnOf; ring
  obtain ⟨Y, hY⟩ : ∃ Y : Int, ∀ z ∈ ps, z.2 ≤ Y := by
    clear * -
    induction ps with
    | nil => exact ⟨0, by simp⟩
    | cons p ps ih =>
      obtain ⟨Y, hY⟩ := ih
      refine ⟨max p.2 Y, fun z hz => ?_⟩
      rcases List.mem_cons.mp hz with rfl | hz
      · omega
      · have := hY z hz; omega
  rcases lt_trichotomy a.2 c.2 with h | h | h
  · exact absurd (line_between hn hc hv hne' hr hY _ a b c he ha0 hb0 c1 h1 h (by omega) le_rfl) id
  · have : a = c := by
      have : (b.2 - a.2) * (a.1 - c.1) = 0 := by
        unfold turnOf at h1
        linear_combination h1 + (b.1 - a.1) * h
      rcases mul_eq_zero.mp this with h' | h'
      · omega
      · exact Prod.ext (by omega) h
    subst this
    rw [sides_fst_unique hn he hf]
  · exact absurd (line_between hn hc hv hne' hr hY _ c d a hf h1 h2 a1 ha0 h (by omega) le_rfl) id

/-- C50 for every convex polygon on the canvas with distinct vertices that are not all on one line, given clockwise. -/
theorem C50_fill_all_convex_partial (width height : Nat) (ps : List (Int × Int)) (hn : ps.Nodup) (hc : ConvexClockwise ps)
    (hne : ∃ s ∈ sidesOf ps, ∃ r ∈ ps, turnOf s.1 s.2 r ≠ 0)
    (hb : ∀ p ∈ ps, (0 ≤ p.1 ∧ p.1 < width) ∧ 0 ≤ p.2 ∧ p.2 ≤ height) :
    ∃ pixels, fillPolygons width height [ps] = .ok pixels ∧
      ∀ x y, (x, y) ∈ pixels ↔ ∃ e ∈ sidesOf ps, ∃ f ∈ sidesOf ps, UpAt y e ∧ DownAt y f ∧
        pyRound (crossingAt y e.1 e.2) ≤ x ∧ x < pyRound (crossingAt y f.1 f.2) := by
  refine C50_fill_convex_partial width height ps hc hb fun y => ?_
  have hnd : (sidesOf ps).Nodup := by
    have : (sidesOf ps).map Prod.fst = ps := List.map_fst_zip (by simp)
    exact List.Nodup.of_map Prod.fst (by rw [this]; exact hn)
  have hd : (sidesOf ps).countP (fun s => decide (DownAt y s)) ≤ 1 := by
    rw [List.countP_eq_length_filter]
    have hnf := hnd.filter (fun s => decide (DownAt y s))
    have hall : ∀ e ∈ (sidesOf ps).filter (fun s => decide (DownAt y s)), ∀ f ∈ (sidesOf ps).filter (fun s => decide (DownAt y s)), e = f := by
      intro e he f hf
      rw [List.mem_filter, decide_eq_true_eq] at he hf
      exact down_unique hn hc hne he.1 hf.1 he.2 hf.2
    generalize (sidesOf ps).filter (fun s => decide (DownAt y s)) = l at *
    match l, hnf, hall with
    | [], _, _ => simp
    | [_], _, _ => simp
    | e :: f :: l, hnf, hall =>
      have := hall e (by simp) f (by simp)
      subst this
      simp at hnf
  have hu := up_eq_down ps y
  have hsum : (sidesOf ps).countP (fun s => decide (MeetsRow y s.1 s.2)) ≤
      (sidesOf ps).countP (fun s => decide (UpAt y s)) + (sidesOf ps).countP (fun s => decide (DownAt y s)) := by
    generalize sidesOf ps = l
    induction l with
    | nil => simp
    | cons s l ih =>
      simp only [List.countP_cons, decide_eq_true_eq]
      have := meets_iff y s
      by_cases h1 : UpAt y s <;> by_cases h2 : DownAt y s <;> simp only [this, h1, h2, or_true, true_or, or_self, if_true, if_false] <;> omega
  omega

/-- The hexagon, with a vertex in the middle of its top. -/
example : [(2, 0), (4, 0), (5, 0), (7, 3), (5, 6), (2, 6), (0, 3)].Nodup ∧ ConvexClockwise [(2, 0), (4, 0), (5, 0), (7, 3), (5, 6), (2, 6), (0, 3)] ∧
    ∃ s ∈ sidesOf [(2, 0), (4, 0), (5, 0), (7, 3), (5, 6), (2, 6), (0, 3)], ∃ r ∈ [(2, 0), (4, 0), (5, 0), (7, 3), (5, 6), (2, 6), (0, 3)], turnOf s.1 s.2 r ≠ 0 := by
  decide +kernel

end Coral
