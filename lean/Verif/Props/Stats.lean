import Verif.Proofs.Stats
import Mathlib.Analysis.Real.Sqrt
import Mathlib.Algebra.Order.Floor.Semiring
import Mathlib.Data.Rat.Floor
import Mathlib.Tactic.NormNum

/-! # Properties of `stats` -/
set_option linter.unusedSectionVars false
namespace Coral
namespace Stats
open scoped List

variable {K : Type} [Field K] [LinearOrder K] [IsStrictOrderedRing K] [FloorRing K]

/-! ### C62 and C67: the caches -/

/-- **C62.** Whatever has been called before, every answer is that of the function without its decorator; no cache is larger
than its maximum; and hits and misses add up to the calls since `cache_clear`. (Calls of `max` and `min` are counted from the
start, as `cache_clear` does not reach them.) -/
theorem C62_transparent (sqrt : K → K) (ops : List (Op K)) :
    (run sqrt .init ops).1 = bareRun sqrt ops ∧
    (∀ f, ((run sqrt .init ops).2.caches f).entries.length ≤ maxsize f) ∧
    (∀ f ∈ memos, ((run sqrt .init ops).2.caches f).hits + ((run sqrt .init ops).2.caches f).misses =
      callsSinceClear f (run sqrt .init ops).2.log) ∧
    ∀ f ∉ memos, ((run sqrt .init ops).2.caches f).hits + ((run sqrt .init ops).2.caches f).misses =
      callsEver f (run sqrt .init ops).2.log := by
  obtain ⟨h1, h2⟩ := run_spec sqrt ops .init (init_inv sqrt)
  refine ⟨h1, h2.size, ?_, ?_⟩
  · intro f hf
    have := h2.count f
    rwa [counted, if_pos hf] at this
  · intro f hf
    have := h2.count f
    rwa [counted, if_neg hf] at this

/-- `cache_info()` adds up the caches that `memos` lists: as many hits and misses as calls, and never more entries than room. -/
theorem C62_info (sqrt : K → K) (ops : List (Op K)) :
    (cacheInfo (run sqrt .init ops).2).hits + (cacheInfo (run sqrt .init ops).2).misses =
      (memos.map (fun f => callsSinceClear f (run sqrt .init ops).2.log)).sum ∧
    (cacheInfo (run sqrt .init ops).2).currsize ≤ (cacheInfo (run sqrt .init ops).2).maxsize := by
  obtain ⟨_, h2, h3, _⟩ := C62_transparent sqrt ops
  generalize (run sqrt .init ops).2 = st at *
  simp only [cacheInfo, memos, List.foldl_cons, List.foldl_nil, List.map_cons, List.map_nil, List.sum_cons, List.sum_nil]
  refine ⟨?_, ?_⟩
  · rw [← h3 .sum (by decide), ← h3 .len (by decide), ← h3 .avg (by decide), ← h3 .var (by decide), ← h3 .stdDev (by decide),
      ← h3 .covar (by decide), ← h3 .corr (by decide), ← h3 .giniKakwani (by decide), ← h3 .giniDeaton (by decide)]
    omega
  · have := h2 .sum; have := h2 .len; have := h2 .avg; have := h2 .var; have := h2 .stdDev; have := h2 .covar
    have := h2 .corr; have := h2 .giniKakwani; have := h2 .giniDeaton
    omega

example : (run (K := ℚ) id .init [.call .var [[1, 3]], .call .var [[1, 3]], .clear, .call .avg [[]]]).1 =
    [some (.ok 1), some (.ok 1), none, some (.error .zeroDivisionError)] := by decide +kernel
example : cacheInfo (run (K := ℚ) id .init [.call .var [[1, 3]], .call .var [[1, 3]]]).2 = ⟨2, 5, 592, 5⟩ := by decide +kernel

/-- **C67, violated.** After `cache_clear()`, `max` still answers from its cache. -/
theorem C67_clear_violated : ¬ ∀ (ops : List (Op ℚ)) (f : Fn), ((run id .init (ops ++ [.clear])).2.caches f).entries = [] := by
  intro h
  have := h [.call .max [[1, 2]]] .max
  revert this
  have e : (run (K := ℚ) id .init ([.call .max [[1, 2]]] ++ [.clear])).2.caches .max = ⟨[([.tuple [1, 2]], 2)], 0, 1⟩ := by
    have : pyMax [(1 : ℚ), 2] = .ok 2 := by decide +kernel
    simp only [List.cons_append, List.nil_append, run, step, List.map_cons, List.map_nil, clear_caches, if_neg (show ¬ Fn.max ∈ memos by decide),
      call, mMax, memo, State.init, List.find?_nil, SM.lift, this, State.setCache, if_true]
    rfl
  rw [e]
  simp

/-- **C67, partial.** All caches but those of `max` and `min` are empty, with their counters at zero. -/
theorem C67_clear_partial (sqrt : K → K) (ops : List (Op K)) (f : Fn) (hf : f ≠ .max ∧ f ≠ .min) :
    (run sqrt .init (ops ++ [.clear])).2.caches f = ⟨[], 0, 0⟩ := by
  have h : ∀ st : State K, (run sqrt st (ops ++ [.clear])).2 = cacheClear (run sqrt st ops).2 := by
    induction ops with
    | nil => intro st; rfl
    | cons op ops ih => intro st; simp only [List.cons_append, run]; exact ih _
  have hm : f ∈ memos := by
    cases f <;> simp_all [memos]
  rw [h, clear_caches, if_pos hm]

/-! ### C63: variance and covariance -/

/-- **C63.** The laws of the variance. -/
theorem C63_var (l : List K) (hl : l ≠ []) : ∃ u v, avg l = .ok u ∧ var l = .ok v ∧ u * (l.length : K) = l.sum ∧ 0 ≤ v ∧
    v = (l.map (fun x => x ^ 2)).sum / (l.length : K) - u ^ 2 ∧
    (v = 0 ↔ ∀ x ∈ l, ∀ y ∈ l, x = y) ∧
    (∀ c, var (l.map (· + c)) = .ok v) ∧ (∀ c, var (l.map (c * ·)) = .ok (c ^ 2 * v)) := by
  have hp := len_pos hl
  refine ⟨_, _, avg_ok hl, var_ok hl, div_mul_cancel₀ _ hp.ne', div_nonneg (sum_sq_nonneg _ _) hp.le, ?_, ?_, ?_, ?_⟩
  · rw [sum_sq]
    have := hp.ne'
    field_simp
    ring
  · constructor
    · intro h x hx y hy
      have h0 : (l.map (fun x => (x - l.sum / (l.length : K)) * (x - l.sum / (l.length : K)))).sum = 0 := by
        rcases div_eq_zero_iff.mp h with h | h
        · exact h
        · exact absurd h hp.ne'
      rw [sum_sq_zero h0 x hx, sum_sq_zero h0 y hy]
    · intro h
      obtain ⟨a, l', rfl⟩ := List.exists_cons_of_ne_nil hl
      have hs := sum_const (l := a :: l') (a := a) (fun x hx => h x hx a (by simp))
      have hu : (a :: l').sum / ((a :: l').length : K) = a := by rw [hs]; field_simp
      rw [hu]
      have : (a :: l').map (fun x => (x - a) * (x - a)) = (a :: l').map (fun _ => 0) := by
        apply List.map_congr_left
        intro x hx
        rw [h x hx a (by simp)]; simp
      rw [this]; simp
  · intro c
    have hne : l.map (· + c) ≠ [] := by simpa using hl
    rw [var_ok hne, List.length_map, sum_map_add, List.map_map]
    congr 3
    apply List.map_congr_left
    intro x _
    show (x + c - _) * (x + c - _) = _
    have : (l.sum + (l.length : K) * c) / (l.length : K) = l.sum / (l.length : K) + c := by
      have := hp.ne'; field_simp
    rw [this]; ring
  · intro c
    have hne : l.map (c * ·) ≠ [] := by simpa using hl
    rw [var_ok hne, List.length_map, sum_map_mul, List.map_map]
    congr 1
    rw [← mul_div_assoc, ← sum_map_mul']
    congr 2
    apply List.map_congr_left
    intro x _
    show (c * x - _) * (c * x - _) = _
    rw [mul_div_assoc]; ring

example : var [(1 : ℚ), 2, 3, 6] = .ok (7 / 2) := by decide +kernel

/-- **C63.** The covariance is the mean of the products less the product of the means, is symmetric, and is the variance of
a sequence with itself. -/
theorem C63_covar (x y : List K) (hl : x.length = y.length) (hx : x ≠ []) : ∃ c u v, covar x y = .ok c ∧ covar y x = .ok c ∧
    covar x x = var x ∧ avg x = .ok u ∧ avg y = .ok v ∧
    c = (∑ i ∈ Finset.range x.length, x.getD i 0 * y.getD i 0) / (x.length : K) - u * v := by
  have hy : y ≠ [] := by intro h; subst h; simp at hl; exact hx hl
  refine ⟨_, _, _, covar_ok hl hx, ?_, ?_, avg_ok hx, avg_ok hy, ?_⟩
  · rw [covar_ok hl.symm hy]
    congr 1
    rw [hl]
    congr 1
    apply Finset.sum_congr rfl
    intro i _
    ring
  · rw [covar_ok rfl hx, var_ok hx, sum_range]
  · have hp := (len_pos hx).ne'
    have h1 := sum_range_id x
    have h2 := sum_range_id y
    rw [← hl] at h2 ⊢
    have : ∑ i ∈ Finset.range x.length, (x.getD i 0 - x.sum / (x.length : K)) * (y.getD i 0 - y.sum / (x.length : K)) =
        ∑ i ∈ Finset.range x.length, x.getD i 0 * y.getD i 0 - (y.sum / (x.length : K)) * x.sum -
          (x.sum / (x.length : K)) * y.sum + (x.length : K) * ((x.sum / (x.length : K)) * (y.sum / (x.length : K))) := by
      generalize x.sum / (x.length : K) = u
      generalize y.sum / (x.length : K) = v
      rw [h1, h2, Finset.mul_sum, Finset.mul_sum, ← Finset.sum_sub_distrib, ← Finset.sum_sub_distrib]
      have hc : (x.length : K) * (u * v) = ∑ i ∈ Finset.range x.length, u * v := by simp
      rw [hc, ← Finset.sum_add_distrib]
      apply Finset.sum_congr rfl
      intro i _
      ring
    rw [this]
    field_simp
    ring

example : covar [(1 : ℚ), 2, 3] [3, 1, 2] = .ok (-1 / 3) := by decide +kernel

/-! ### C64: correlation -/

theorem covar_sq_le {x y : List ℝ} (hl : x.length = y.length) (hx : x ≠ []) {c v w : ℝ} (hc : covar x y = .ok c)
    (hv : var x = .ok v) (hw : var y = .ok w) : c ^ 2 ≤ v * w := by
  have hy : y ≠ [] := by intro h; subst h; simp at hl; exact hx hl
  rw [covar_ok hl hx] at hc
  rw [var_ok hx] at hv
  rw [var_ok hy] at hw
  cases hc; cases hv; cases hw
  rw [sum_range, sum_range, ← hl]
  have hp := len_pos hx
  rw [div_pow, div_mul_div_comm, ← pow_two]
  apply div_le_div_of_nonneg_right _ (by positivity)
  have := Finset.sum_mul_sq_le_sq_mul_sq (Finset.range x.length) (fun i => x.getD i 0 - x.sum / (x.length : ℝ))
    (fun i => y.getD i 0 - y.sum / (x.length : ℝ))
  simpa [pow_two] using this

/-- **C64.** Between -1 and 1, symmetric, and 1 for a sequence with itself. -/
theorem C64_corr (x y : List ℝ) (hl : x.length = y.length) (hx : ∃ a ∈ x, ∃ b ∈ x, a ≠ b) (hy : ∃ a ∈ y, ∃ b ∈ y, a ≠ b) :
    ∃ r, corr Real.sqrt x y = .ok r ∧ corr Real.sqrt y x = .ok r ∧ corr Real.sqrt x x = .ok 1 ∧ -1 ≤ r ∧ r ≤ 1 := by
  have hx0 : x ≠ [] := by rintro rfl; simp at hx
  have hy0 : y ≠ [] := by rintro rfl; simp at hy
  obtain ⟨_, v, _, ev, _, v0, _, vz, _, _⟩ := C63_var x hx0
  obtain ⟨_, w, _, ew, _, w0, _, wz, _, _⟩ := C63_var y hy0
  obtain ⟨c, _, _, ec, ec', exx, _, _, _⟩ := C63_covar x y hl hx0
  have hv : 0 < v := lt_of_le_of_ne v0 (fun h => by
    obtain ⟨a, ha, b, hb, hab⟩ := hx
    exact hab (vz.mp h.symm a ha b hb))
  have hw : 0 < w := lt_of_le_of_ne w0 (fun h => by
    obtain ⟨a, ha, b, hb, hab⟩ := hy
    exact hab (wz.mp h.symm a ha b hb))
  have sv := Real.sqrt_pos.mpr hv
  have sw := Real.sqrt_pos.mpr hw
  have hcs := covar_sq_le hl hx0 ec ev ew
  have hprod : 0 < Real.sqrt v * Real.sqrt w := mul_pos sv sw
  have habs : |c| ≤ Real.sqrt v * Real.sqrt w := by
    rw [← Real.sqrt_mul v0, ← Real.sqrt_sq_eq_abs]
    exact Real.sqrt_le_sqrt hcs
  have sx : stdDev Real.sqrt x = .ok (Real.sqrt v) := by
    simp only [stdDev, ev, bind, Except.bind, pySqrt, if_neg (not_lt.mpr v0)]
  have sy : stdDev Real.sqrt y = .ok (Real.sqrt w) := by
    simp only [stdDev, ew, bind, Except.bind, pySqrt, if_neg (not_lt.mpr w0)]
  refine ⟨c / (Real.sqrt v * Real.sqrt w), ?_, ?_, ?_, ?_, ?_⟩
  · simp only [corr, ec, sx, sy, bind, Except.bind, div, if_neg hprod.ne']
  · rw [mul_comm]
    simp only [corr, ec', sx, sy, bind, Except.bind, div, if_neg (mul_pos sw sv).ne']
  · rw [ev] at exx
    simp only [corr, exx, sx, bind, Except.bind, div, Real.mul_self_sqrt v0, if_neg hv.ne', div_self hv.ne']
  · rw [le_div_iff₀ hprod]
    have := (abs_le.mp habs).1
    linarith
  · rw [div_le_iff₀ hprod]
    have := (abs_le.mp habs).2
    linarith

example : ∃ r, corr Real.sqrt [1, 2, 4] [3, 5, 1] = .ok r ∧ -1 ≤ r ∧ r ≤ 1 := by
  obtain ⟨r, h, _, _, h1, h2⟩ := C64_corr [1, 2, 4] [3, 5, 1] rfl ⟨1, by simp, 2, by simp, by norm_num⟩
    ⟨3, by simp, 5, by simp, by norm_num⟩
  exact ⟨r, h, h1, h2⟩

/-! ### C65 and C66: the Gini coefficient -/

/-- **C65.** Both formulas give the same. -/
theorem C65_gini (l : List K) (hn : 2 ≤ l.length) (hs : l.sum ≠ 0) : ∃ g, giniKakwani l = .ok g ∧ giniDeaton l = .ok g := by
  refine ⟨_, giniKakwani_ok hn hs, ?_⟩
  rw [giniDeaton_ok hn hs, pairSum_eq]
  have h2 : (2 : K) ≤ (l.length : K) := by exact_mod_cast hn
  have h1 : (l.length : K) - 1 ≠ 0 := by intro h; linarith
  congr 1
  field_simp

example : giniKakwani [(1 : ℚ), 2, 0, 5] = .ok (2 / 3) ∧ giniDeaton [(1 : ℚ), 2, 0, 5] = .ok (2 / 3) := by decide +kernel

/-- With fewer than two values there is no result. -/
theorem C65_gini_short (l : List K) (hn : l.length < 2) :
    giniKakwani l = .error .zeroDivisionError ∧ giniDeaton l = .error .zeroDivisionError := by
  rcases l with _ | ⟨a, _ | ⟨b, l⟩⟩
  · simp [giniKakwani, giniDeaton, avg, div, bind, Except.bind]
  · have h1 : avg [a] = .ok a := by simp [avg, div]
    simp [giniKakwani, giniDeaton, h1, bind, Except.bind, kakwaniLoop, deatonLoop, div, sortBy, pure, Except.pure]
  · simp at hn

/-- **C66.** For values that are not negative and not all zero the coefficient is between 0 and 1, 0 only if all are equal,
and does not change when the values are reordered or scaled. -/
theorem C66_gini (l : List K) (hn : 2 ≤ l.length) (h0 : ∀ x ∈ l, 0 ≤ x) (hs : 0 < l.sum) : ∃ g,
    giniKakwani l = .ok g ∧ giniDeaton l = .ok g ∧ 0 ≤ g ∧ g ≤ 1 ∧ (g = 0 ↔ ∀ x ∈ l, ∀ y ∈ l, x = y) ∧
    (∀ l', l' ~ l → giniKakwani l' = .ok g ∧ giniDeaton l' = .ok g) ∧
    ∀ c > 0, giniKakwani (l.map (c * ·)) = .ok g ∧ giniDeaton (l.map (c * ·)) = .ok g := by
  have h2 : (2 : K) ≤ (l.length : K) := by exact_mod_cast hn
  have hd : 0 < ((l.length : K) - 1) * l.sum := mul_pos (by linarith) hs
  have both : ∀ (l' : List K) (g : K), 2 ≤ l'.length → l'.sum ≠ 0 → giniKakwani l' = .ok g →
      giniKakwani l' = .ok g ∧ giniDeaton l' = .ok g := by
    intro l' g h1 h2 h3
    obtain ⟨g', e1, e2⟩ := C65_gini l' h1 h2
    rw [h3] at e1
    cases e1
    exact ⟨h3, e2⟩
  have hk := giniKakwani_ok hn hs.ne'
  obtain ⟨hk1, hk2⟩ := both l _ hn hs.ne' hk
  refine ⟨_, hk1, hk2, div_nonneg (pairSum_nonneg l) hd.le, ?_, ?_, ?_, ?_⟩
  · rw [div_le_one hd, pairSum_eq]
    have : 0 ≤ wsum (sortBy (fun x => -x) l) :=
      wsum_nonneg (fun x hx => h0 x ((sortBy_perm (fun x : K => -x) l).mem_iff.mp hx))
    linarith
  · rw [← pairSum_zero, div_eq_zero_iff]
    constructor
    · rintro (h | h)
      · exact h
      · exact absurd h hd.ne'
    · exact Or.inl
  · intro l' hp
    have hs' : l'.sum = l.sum := hp.sum_eq
    have hn' : l'.length = l.length := hp.length_eq
    refine both l' _ (by omega) (by rw [hs']; exact hs.ne') ?_
    rw [giniKakwani_ok (by omega) (by rw [hs']; exact hs.ne'), pairSum_perm hp, hs', hn']
  · intro c hc
    have hs' : (l.map (c * ·)).sum = c * l.sum := sum_map_mul l c
    have hne : (l.map (c * ·)).sum ≠ 0 := by rw [hs']; exact (mul_pos hc hs).ne'
    refine both _ _ (by simpa using hn) hne ?_
    rw [giniKakwani_ok (by simpa using hn) hne, pairSum_scale l c hc, hs', List.length_map]
    congr 1
    have := hs.ne'
    have h1 : (l.length : K) - 1 ≠ 0 := by intro h; linarith
    field_simp

end Stats
end Coral
