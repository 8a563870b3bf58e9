import Verif.Model.Raster
import Verif.Spec.Raster
import Mathlib.Tactic.Linarith
import Mathlib.Tactic.Ring
import Mathlib.Tactic.LinearCombination
import Mathlib.Tactic.FieldSimp
import Mathlib.Tactic.Positivity
import Mathlib.Data.List.Nodup
import Mathlib.Data.List.Range

/-! # Proofs about `line` and `strokepolygon` -/
set_option linter.unusedSectionVars false
namespace Coral

/-- A run with a known sequence of states. -/
theorem loop_seq {S α : Type} {body : S → List α × Option S} (st : Nat → S) (f : Nat → α) (n : Nat)
    (hend : body (st n) = ([f n], none))
    (hstep : ∀ k, k < n → body (st k) = ([f k], some (st (k + 1))) ∨ (k + 1 = n ∧ body (st k) = ([f k, f n], none))) :
    Loop body (st 0) ((List.range (n + 1)).map f) := by
  suffices h : ∀ r k, k + r = n → Loop body (st k) ((List.range (r + 1)).map (fun j => f (k + j))) by
    simpa using h n 0 (by omega)
  intro r
  induction r with
  | zero =>
    intro k hk
    have : k = n := by omega
    subst this
    simpa using Loop.brk hend
  | succ r ih =>
    intro k hk
    have e : (List.range (r + 1 + 1)).map (fun j => f (k + j)) = [f k] ++ (List.range (r + 1)).map (fun j => f (k + 1 + j)) := by
      rw [List.range_succ_eq_map (n := r + 1), List.map_cons, List.map_map]
      simp only [List.cons_append, List.nil_append, add_zero]
      congr 1
      apply List.map_congr_left
      intro j _
      simp only [Function.comp, Nat.succ_eq_add_one]
      congr 1; omega
    rcases hstep k (by omega) with h | ⟨h1, h⟩
    · rw [e]; exact Loop.step h (ih (k + 1) (by omega))
    · have : r = 0 := by omega
      subst this
      have hl := Loop.brk h
      rw [e]
      simpa [h1] using hl

/-- The minor coordinate after `k` steps along the major axis. -/
def minor (p q k : Int) : Int := (2 * k * q + p - 1) / (2 * p)

theorem minor_window {p : Int} (hp : 0 < p) (q k : Int) :
    -p ≤ 2 * (minor p q k * p - k * q) ∧ 2 * (minor p q k * p - k * q) < p := by
  unfold minor
  have h1 := Int.ediv_mul_le (2 * k * q + p - 1) (b := 2 * p) (by omega)
  have h2 := Int.lt_ediv_add_one_mul_self (2 * k * q + p - 1) (b := 2 * p) (by omega)
  generalize (2 * k * q + p - 1) / (2 * p) = m at h1 h2
  constructor <;> nlinarith

theorem minor_unique {p : Int} (hp : 0 < p) {q k c : Int} (h1 : -p ≤ 2 * (c * p - k * q)) (h2 : 2 * (c * p - k * q) < p) :
    minor p q k = c := by
  obtain ⟨h3, h4⟩ := minor_window hp q k
  have h5 : (minor p q k - c) * p < 1 * p := by linarith
  have h6 : (c - minor p q k) * p < 1 * p := by linarith
  have := lt_of_mul_lt_mul_right h5 hp.le
  have := lt_of_mul_lt_mul_right h6 hp.le
  omega

theorem minor_zero {p : Int} (hp : 0 < p) (q : Int) : minor p q 0 = 0 := minor_unique hp (by linarith) (by linarith)

theorem minor_end {p : Int} (hp : 0 < p) (q : Int) : minor p q p = q :=
  minor_unique hp (by linarith [mul_comm p q]) (by linarith [mul_comm p q])

theorem minor_diag {p : Int} (hp : 0 < p) (k : Int) : minor p p k = k := minor_unique hp (by linarith) (by linarith)

theorem minor_succ {p q : Int} (hp : 0 < p) (hq : 0 ≤ q) (hqp : q ≤ p) (k : Int) :
    minor p q (k + 1) = minor p q k ∧ -p ≤ 2 * (minor p q k * p - k * q - q) ∨
    minor p q (k + 1) = minor p q k + 1 ∧ 2 * (minor p q k * p - k * q - q) < -p := by
  obtain ⟨h1, h2⟩ := minor_window hp q k
  rcases lt_or_ge (2 * (minor p q k * p - k * q - q)) (-p) with h | h
  · right
    refine ⟨minor_unique hp ?_ ?_, h⟩ <;> linarith
  · left
    refine ⟨minor_unique hp ?_ ?_, h⟩ <;> linarith

theorem minor_bounds {p q : Int} (hp : 0 < p) (hq : 0 ≤ q) (hqp : q ≤ p) {k : Int} (h0 : 0 ≤ k) (hk : k ≤ p) :
    0 ≤ minor p q k ∧ minor p q k ≤ q := by
  obtain ⟨h1, h2⟩ := minor_window hp q k
  have h3 : 0 ≤ k * q := mul_nonneg h0 hq
  have h4 : k * q ≤ q * p := by rw [mul_comm q p]; exact mul_le_mul_of_nonneg_right hk hq
  constructor
  · have : (-1) * p < minor p q k * p := by linarith
    have := lt_of_mul_lt_mul_right this hp.le
    omega
  · have : minor p q k * p < (q + 1) * p := by linarith
    have := lt_of_mul_lt_mul_right this hp.le
    omega

/-- A sign. -/
def IsSign (s : Int) : Prop := s = 1 ∨ s = -1

/-- Pixels of a line whose major axis is the first. -/
def alongX (a : Int × Int) (sx sy dx dy : Int) (k : Nat) : Int × Int := (a.1 + sx * k, a.2 + sy * minor dx dy k)

/-- Pixels of a line whose major axis is the second. -/
def alongY (a : Int × Int) (sx sy dx dy : Int) (k : Nat) : Int × Int := (a.1 + sx * minor dy dx k, a.2 + sy * k)

theorem sign_mul_inj {s : Int} (hs : IsSign s) {a x y : Int} : a + s * x = a + s * y ↔ x = y := by
  rcases hs with rfl | rfl <;> constructor <;> intro h <;> omega

theorem line_runs_x {a : Int × Int} {sx sy dx dy : Int} (hsx : IsSign sx) (hsy : IsSign sy) (hdy : 0 ≤ dy) (hdx : 0 < dx)
    (hle : dy ≤ dx) :
    Loop (lineBody (a.1 + sx * dx) (a.2 + sy * dy) dx dy sx sy) (a.1, a.2, dx - dy)
      ((List.range (dx.toNat + 1)).map (alongX a sx sy dx dy)) := by
  have key := loop_seq (body := lineBody (a.1 + sx * dx) (a.2 + sy * dy) dx dy sx sy)
    (fun k => ((alongX a sx sy dx dy k).1, (alongX a sx sy dx dy k).2, dx - dy + minor dx dy k * dx - k * dy))
    (alongX a sx sy dx dy) dx.toNat ?_ ?_
  · simpa [alongX, minor_zero hdx] using key
  · have e : ((dx.toNat : Nat) : Int) = dx := by omega
    simp [alongX, e, minor_end hdx, lineBody]
  · intro k hk
    have hkx : (k : Int) < dx := by omega
    obtain ⟨w1, w2⟩ := minor_window hdx dy k
    have hd : dy = dx → minor dx dy k = k := by intro h; rw [h]; exact minor_diag hdx k
    have hgt : 2 * (dx - dy + minor dx dy k * dx - k * dy) > -dy := by
      rcases lt_or_eq_of_le hle with h | h
      · linarith
      · rw [hd h, h]; linarith
    have hne : ¬ (a.1 + sx * k, a.2 + sy * minor dx dy k) = (a.1 + sx * dx, a.2 + sy * dy) := by
      rw [Prod.mk.injEq, sign_mul_inj hsx]; intro h; omega
    have ex : a.1 + sx * k + sx = a.1 + sx * ((k : Int) + 1) := by ring
    simp only [alongX, lineBody, if_neg hne, if_pos hgt, ex]
    by_cases hmid : (a.1 + sx * ((k : Int) + 1), a.2 + sy * minor dx dy k) = (a.1 + sx * dx, a.2 + sy * dy)
    · right
      rw [if_pos hmid]
      rw [Prod.mk.injEq, sign_mul_inj hsx, sign_mul_inj hsy] at hmid
      refine ⟨by omega, ?_⟩
      have e : ((dx.toNat : Nat) : Int) = dx := by omega
      rw [e, minor_end hdx, hmid.1, hmid.2]
    · left
      rw [if_neg hmid]
      push_cast
      rcases minor_succ hdx hdy hle k with ⟨h1, h2⟩ | ⟨h1, h2⟩
      · have hnot : ¬ 2 * (dx - dy + minor dx dy k * dx - k * dy) < dx := by linarith
        rw [if_neg hnot, if_neg hnot, h1]
        congr 4
        ring
      · have hyes : 2 * (dx - dy + minor dx dy k * dx - k * dy) < dx := by linarith
        rw [if_pos hyes, if_pos hyes, h1]
        congr 4
        · ring
        · ring

theorem line_runs_y {a : Int × Int} {sx sy dx dy : Int} (hsx : IsSign sx) (hsy : IsSign sy) (hdx : 0 ≤ dx)
    (hlt : dx < dy) :
    Loop (lineBody (a.1 + sx * dx) (a.2 + sy * dy) dx dy sx sy) (a.1, a.2, dx - dy)
      ((List.range (dy.toNat + 1)).map (alongY a sx sy dx dy)) := by
  have hdy : 0 < dy := by omega
  have key := loop_seq (body := lineBody (a.1 + sx * dx) (a.2 + sy * dy) dx dy sx sy)
    (fun k => ((alongY a sx sy dx dy k).1, (alongY a sx sy dx dy k).2, dx - dy - minor dy dx k * dy + k * dx))
    (alongY a sx sy dx dy) dy.toNat ?_ ?_
  · simpa [alongY, minor_zero hdy] using key
  · have e : ((dy.toNat : Nat) : Int) = dy := by omega
    simp [alongY, e, minor_end hdy, lineBody]
  · intro k hk
    have hky : (k : Int) < dy := by omega
    obtain ⟨w1, w2⟩ := minor_window hdy dx k
    have hlt' : 2 * (dx - dy - minor dy dx k * dy + k * dx) < dx := by linarith
    have hne : ∀ z, ¬ (z, a.2 + sy * (k : Int)) = (a.1 + sx * dx, a.2 + sy * dy) := by
      intro z; rw [Prod.mk.injEq, sign_mul_inj hsy]; intro h; omega
    left
    simp only [alongY, lineBody, if_neg (hne _), if_pos hlt']
    push_cast
    rcases minor_succ hdy hdx hlt.le k with ⟨h1, h2⟩ | ⟨h1, h2⟩
    · have hnot : ¬ 2 * (dx - dy - minor dy dx k * dy + k * dx) > -dy := by linarith
      rw [if_neg hnot, if_neg hnot, h1]
      congr 4
      · ring
      · ring
    · have hyes : 2 * (dx - dy - minor dy dx k * dy + k * dx) > -dy := by linarith
      rw [if_pos hyes, if_pos hyes, h1]
      congr 3
      · ring
      · congr 1
        · ring
        · ring

/-- What the sequence of pixels of a line satisfies. -/
structure GoodSeq (a b : Int × Int) (n : Nat) (f : Nat → Int × Int) : Prop where
  first : f 0 = a
  last : f n = b
  inj : ∀ j k, f j = f k → j = k
  step : ∀ k, k < n → |(f (k + 1)).1 - (f k).1| ≤ 1 ∧ |(f (k + 1)).2 - (f k).2| ≤ 1 ∧ f (k + 1) ≠ f k ∧
    |b.1 - (f (k + 1)).1| ≤ |b.1 - (f k).1| ∧ |b.2 - (f (k + 1)).2| ≤ |b.2 - (f k).2|
  near : ∀ k, k ≤ n → NearSegment a b (f k)

theorem goodSeq_x {a : Int × Int} {sx sy dx dy : Int} (hsx : IsSign sx) (hsy : IsSign sy) (hdy : 0 ≤ dy) (hdx : 0 < dx)
    (hle : dy ≤ dx) :
    GoodSeq a (a.1 + sx * dx, a.2 + sy * dy) dx.toNat (alongX a sx sy dx dy) := by
  have e : ((dx.toNat : Nat) : Int) = dx := by omega
  have hsx2 : |sx| = 1 := by rcases hsx with rfl | rfl <;> simp
  have hsy2 : |sy| = 1 := by rcases hsy with rfl | rfl <;> simp
  constructor
  · simp [alongX, minor_zero hdx]
  · simp [alongX, e, minor_end hdx]
  · intro j k h
    simp only [alongX, Prod.mk.injEq, sign_mul_inj hsx] at h
    omega
  · intro k hk
    have hkx : (k : Int) + 1 ≤ dx := by omega
    have b1 := minor_bounds hdx hdy hle (k := k) (by omega) (by omega)
    have b2 := minor_bounds hdx hdy hle (k := (k : Int) + 1) (by omega) (by omega)
    have e1 : a.1 + sx * ((k : Int) + 1) - (a.1 + sx * k) = sx := by ring
    have e2 : a.2 + sy * minor dx dy ((k : Int) + 1) - (a.2 + sy * minor dx dy k) =
        sy * (minor dx dy ((k : Int) + 1) - minor dx dy k) := by ring
    have e3 : ∀ z, a.1 + sx * dx - (a.1 + sx * z) = sx * (dx - z) := by intro z; ring
    have e4 : ∀ z, a.2 + sy * dy - (a.2 + sy * z) = sy * (dy - z) := by intro z; ring
    have hm : minor dx dy ((k : Int) + 1) = minor dx dy k ∨ minor dx dy ((k : Int) + 1) = minor dx dy k + 1 := by
      rcases minor_succ hdx hdy hle k with h | h
      · exact .inl h.1
      · exact .inr h.1
    simp only [alongX]
    push_cast
    rw [e1, e2, e3, e3, e4, e4]
    simp only [abs_mul, hsx2, hsy2, one_mul]
    refine ⟨le_refl _, ?_, ?_, ?_, ?_⟩
    · rcases hm with h | h <;> simp [h]
    · intro h
      rw [Prod.mk.injEq, sign_mul_inj hsx] at h
      omega
    · rw [abs_of_nonneg (by omega), abs_of_nonneg (by omega)]; omega
    · rw [abs_of_nonneg (by omega), abs_of_nonneg (by omega)]; omega
  · intro k hk
    have hkx : (k : Int) ≤ dx := by omega
    have b1 := minor_bounds hdx hdy hle (k := k) (by omega) (by omega)
    obtain ⟨w1, w2⟩ := minor_window hdx dy k
    have hdq : (0 : ℚ) < dx := by exact_mod_cast hdx
    have wq : |((minor dx dy k : Int) : ℚ) * dx - k * dy| ≤ dx / 2 := by
      have h1 : (-(dx : ℚ)) ≤ 2 * ((minor dx dy k : Int) * dx - k * dy) := by exact_mod_cast w1
      have h2 : 2 * (((minor dx dy k : Int) : ℚ) * dx - k * dy) < dx := by exact_mod_cast w2
      rw [abs_le]; constructor <;> linarith
    have hsxq : (sx : ℚ) ≠ 0 := by rcases hsx with rfl | rfl <;> norm_num
    have hsyq : (sy : ℚ) ≠ 0 := by rcases hsy with rfl | rfl <;> norm_num
    have hsya : |(sy : ℚ)| = 1 := by rcases hsy with rfl | rfl <;> simp
    refine ⟨?_, ?_, ?_, ?_, ?_, ?_⟩
    · simp only [alongX]; rcases hsx with rfl | rfl <;> simp only [min_def] <;> split <;> omega
    · simp only [alongX]; rcases hsx with rfl | rfl <;> simp only [max_def] <;> split <;> omega
    · simp only [alongX]; rcases hsy with rfl | rfl <;> simp only [min_def] <;> split <;> omega
    · simp only [alongX]; rcases hsy with rfl | rfl <;> simp only [max_def] <;> split <;> omega
    · intro _ _
      simp only [alongX]
      push_cast
      have : (a.2 : ℚ) + sy * (minor dx dy k : Int) - (a.2 + (a.1 + sx * k - a.1) * ((a.2 + sy * dy - a.2) / (a.1 + sx * dx - a.1)))
          = sy * ((((minor dx dy k : Int) : ℚ) * dx - k * dy) / dx) := by
        have h1 : (a.1 : ℚ) + sx * dx - a.1 = sx * dx := by ring
        have h2 : (a.2 : ℚ) + sy * dy - a.2 = sy * dy := by ring
        have h3 : (a.1 : ℚ) + sx * k - a.1 = sx * k := by ring
        rw [h1, h2, h3]
        field_simp
        ring
      rw [this, abs_mul, hsya, one_mul, abs_div, abs_of_pos hdq, div_le_iff₀ hdq]
      linarith
    · intro hle2 _
      have h1 : a.1 + sx * dx - a.1 = sx * dx := by ring
      have h2 : a.2 + sy * dy - a.2 = sy * dy := by ring
      simp only [h1, h2, abs_mul, hsx2, hsy2, one_mul, abs_of_nonneg hdx.le, abs_of_nonneg hdy] at hle2
      have : dy = dx := by omega
      subst this
      simp only [alongX, minor_diag hdx]
      push_cast
      have : (a.1 : ℚ) + sx * k - (a.1 + (a.2 + sy * k - a.2) * ((a.1 + sx * dy - a.1) / (a.2 + sy * dy - a.2))) = 0 := by
        have h1 : (a.1 : ℚ) + sx * dy - a.1 = sx * dy := by ring
        have h2 : (a.2 : ℚ) + sy * dy - a.2 = sy * dy := by ring
        have h3 : (a.2 : ℚ) + sy * k - a.2 = sy * k := by ring
        rw [h1, h2, h3]
        field_simp
        ring
      rw [this]; norm_num

theorem GoodSeq.swap {a b : Int × Int} {n : Nat} {f : Nat → Int × Int} (h : GoodSeq a b n f) :
    GoodSeq a.swap b.swap n (fun k => (f k).swap) := by
  constructor
  · simp [h.first]
  · simp [h.last]
  · intro j k e; exact h.inj j k (Prod.swap_injective e)
  · intro k hk
    obtain ⟨h1, h2, h3, h4, h5⟩ := h.step k hk
    exact ⟨h2, h1, fun e => h3 (Prod.swap_injective e), h5, h4⟩
  · intro k hk
    obtain ⟨h1, h2, h3, h4, h5, h6⟩ := h.near k hk
    exact ⟨h3, h4, h1, h2, h6, h5⟩

theorem goodSeq_y {a : Int × Int} {sx sy dx dy : Int} (hsx : IsSign sx) (hsy : IsSign sy) (hdx : 0 ≤ dx) (hlt : dx < dy) :
    GoodSeq a (a.1 + sx * dx, a.2 + sy * dy) dy.toNat (alongY a sx sy dx dy) :=
  (goodSeq_x (a := a.swap) hsy hsx hdx (by omega) hlt.le).swap

theorem walksTo_seq {b : Int × Int} {n : Nat} {f : Nat → Int × Int}
    (hs : ∀ k, k < n → |(f (k + 1)).1 - (f k).1| ≤ 1 ∧ |(f (k + 1)).2 - (f k).2| ≤ 1 ∧ f (k + 1) ≠ f k ∧
      |b.1 - (f (k + 1)).1| ≤ |b.1 - (f k).1| ∧ |b.2 - (f (k + 1)).2| ≤ |b.2 - (f k).2|) :
    WalksTo b ((List.range (n + 1)).map f) := by
  induction n generalizing f with
  | zero => simp [WalksTo]
  | succ n ih =>
    have h2 := @ih (fun k => f (k + 1)) (fun k hk => hs (k + 1) (by omega))
    have e : ∀ (g : Nat → Int × Int) (m : Nat), (List.range (m + 1)).map g = g 0 :: (List.range m).map (fun k => g (k + 1)) := by
      intro g m
      rw [List.range_succ_eq_map, List.map_cons, List.map_map]; rfl
    rw [e, e]
    rw [e] at h2
    exact ⟨hs 0 (by omega), h2⟩

/-- Everything about `line`. -/
theorem line_spec (a b : Int × Int) :
    ∃ pixels, LineDraws a b pixels ∧ pixels.head? = some a ∧ pixels.getLast? = some b ∧ WalksTo b pixels ∧
      (pixels.length : Int) = max |b.1 - a.1| |b.2 - a.2| + 1 ∧ pixels.Nodup ∧ ∀ p ∈ pixels, NearSegment a b p := by
  obtain ⟨n, f, hrun, hn, hg⟩ : ∃ n f, LineDraws a b ((List.range (n + 1)).map f) ∧
      (n : Int) = max |b.1 - a.1| |b.2 - a.2| ∧ GoodSeq a b n f := by
    have key : ∀ (u v : Int), ∃ s, IsSign s ∧ v = u + s * |v - u| ∧ (s = if u < v then 1 else -1) := by
      intro u v
      by_cases h : u < v
      · exact ⟨1, .inl rfl, by rw [abs_of_pos (by omega)]; omega, by simp [h]⟩
      · exact ⟨-1, .inr rfl, by rw [abs_of_nonpos (by omega)]; omega, by simp [h]⟩
    obtain ⟨sx, hsx, ex, ex'⟩ := key a.1 b.1
    obtain ⟨sy, hsy, ey, ey'⟩ := key a.2 b.2
    have hb : b = (a.1 + sx * |b.1 - a.1|, a.2 + sy * |b.2 - a.2|) := Prod.ext ex ey
    have h0x := abs_nonneg (b.1 - a.1)
    have h0y := abs_nonneg (b.2 - a.2)
    rcases lt_or_ge |b.1 - a.1| |b.2 - a.2| with h | h
    · refine ⟨(|b.2 - a.2|).toNat, alongY a sx sy |b.1 - a.1| |b.2 - a.2|, ?_, ?_, ?_⟩
      · have := line_runs_y (a := a) hsx hsy h0x h
        simp only [LineDraws, ← ex', ← ey']
        rw [← ex, ← ey] at this
        exact this
      · rw [max_eq_right h.le]; omega
      · have := goodSeq_y (a := a) hsx hsy h0x h
        rw [← hb] at this
        exact this
    · rcases lt_or_eq_of_le h0x with h1 | h1
      · refine ⟨(|b.1 - a.1|).toNat, alongX a sx sy |b.1 - a.1| |b.2 - a.2|, ?_, ?_, ?_⟩
        · have := line_runs_x (a := a) hsx hsy h0y h1 h
          simp only [LineDraws, ← ex', ← ey']
          rw [← ex, ← ey] at this
          exact this
        · rw [max_eq_left h]; omega
        · have := goodSeq_x (a := a) hsx hsy h0y h1 h
          rw [← hb] at this
          exact this
      · have e1 : b.1 = a.1 := by have := abs_eq_zero.mp h1.symm; omega
        have e2 : b.2 = a.2 := by have := abs_eq_zero.mp (show |b.2 - a.2| = 0 by omega); omega
        have e : b = a := Prod.ext e1 e2
        subst e
        refine ⟨0, fun k => (b.1 + k, b.2), ?_, ?_, ?_⟩
        · simp only [LineDraws]
          apply Loop.brk
          simp [lineBody]
        · simp
        · constructor
          · simp
          · simp
          · intro j k e; simpa using e
          · intro k hk; omega
          · intro k hk
            have : k = 0 := by omega
            subst this
            simp [NearSegment]
  refine ⟨_, hrun, ?_, ?_, walksTo_seq hg.step, ?_, ?_, ?_⟩
  · rw [List.range_succ_eq_map]; simp [hg.first]
  · rw [List.range_succ]; simp [hg.last]
  · simp [hn]
  · exact List.Nodup.map (fun j k e => hg.inj j k e) List.nodup_range
  · intro p hp
    simp only [List.mem_map, List.mem_range] at hp
    obtain ⟨k, hk, rfl⟩ := hp
    exact hg.near k (by omega)

theorem lineDraws_det {a b : Int × Int} {ps qs : List (Int × Int)} (h1 : LineDraws a b ps) (h2 : LineDraws a b qs) :
    ps = qs := Loop.det h1 h2

theorem mem_closedEdges {α : Type} {points : List α} {a b : α} :
    (a, b) ∈ closedEdges points ↔
      (∃ i : Nat, points[i]? = some a ∧ points[i + 1]? = some b) ∨ (points.getLast? = some a ∧ points.head? = some b) := by
  unfold closedEdges
  rw [List.mem_iff_getElem?]
  have hz : ∀ i : Nat, (points.zip (points.drop 1 ++ points.take 1))[i]? = some (a, b) ↔
      points[i]? = some a ∧ (points.drop 1 ++ points.take 1)[i]? = some b := by
    intro i; rw [List.getElem?_zip_eq_some]
  simp only [hz]
  constructor
  · rintro ⟨i, h1, h2⟩
    have hi : i < points.length := (List.getElem?_eq_some_iff.mp h1).1
    rcases lt_or_ge i (points.length - 1) with h | h
    · left
      refine ⟨i, h1, ?_⟩
      rw [List.getElem?_append_left (by simpa using h), List.getElem?_drop] at h2
      rwa [add_comm] at h2
    · right
      have : i = points.length - 1 := by omega
      subst this
      refine ⟨by rw [List.getLast?_eq_getElem?]; exact h1, ?_⟩
      rw [List.getElem?_append_right (by simp)] at h2
      cases points with
      | nil => simp at h1
      | cons p ps => simpa using h2
  · rintro (⟨i, h1, h2⟩ | ⟨h1, h2⟩)
    · refine ⟨i, h1, ?_⟩
      have hi : i + 1 < points.length := (List.getElem?_eq_some_iff.mp h2).1
      rw [List.getElem?_append_left (by simp; omega), List.getElem?_drop, add_comm]
      exact h2
    · refine ⟨points.length - 1, by rw [← List.getLast?_eq_getElem?]; exact h1, ?_⟩
      rw [List.getElem?_append_right (by simp)]
      cases points with
      | nil => simp at h2
      | cons p ps => simpa using h2

theorem stroke_exists (es : List ((Int × Int) × (Int × Int))) : ∃ ps, StrokeDraws es ps := by
  induction es with
  | nil => exact ⟨[], .nil⟩
  | cons e es ih =>
    obtain ⟨qs, hq⟩ := ih
    obtain ⟨ps, hp, _⟩ := line_spec e.1 e.2
    exact ⟨ps ++ qs, .cons hp hq⟩

theorem stroke_mem {es : List ((Int × Int) × (Int × Int))} {ps : List (Int × Int)} (h : StrokeDraws es ps) (p : Int × Int) :
    p ∈ ps ↔ ∃ e ∈ es, ∃ qs, LineDraws e.1 e.2 qs ∧ p ∈ qs := by
  induction h with
  | nil => simp
  | cons hl hs ih =>
    simp only [List.mem_append, ih, List.mem_cons, exists_eq_or_imp]
    constructor
    · rintro (h | h)
      · exact .inl ⟨_, hl, h⟩
      · exact .inr h
    · rintro (⟨qs, h1, h2⟩ | h)
      · rw [lineDraws_det hl h1]; exact .inl h2
      · exact .inr h

theorem stroke_det {es : List ((Int × Int) × (Int × Int))} {ps qs : List (Int × Int)} (h : StrokeDraws es ps)
    (h' : StrokeDraws es qs) : ps = qs := by
  induction h generalizing qs with
  | nil => cases h'; rfl
  | cons hl _ ih => cases h' with
    | cons hl' hs' => rw [lineDraws_det hl hl', ih hs']

end Coral
