import Verif.Model.AALine
import Verif.Spec.AALine
import Verif.Proofs.Coord
import Verif.Proofs.Raster
import Verif.Proofs.Fill

set_option linter.unusedSectionVars false
namespace Coral

section
variable {K : Type} [Field K] [LinearOrder K] [FloorRing K] [IsStrictOrderedRing K]

theorem fpart_nonneg {x : K} (h : 0 ≤ x) : fpart x = Int.fract x := by
  rw [fpart, pyTrunc, if_pos h, Int.self_sub_floor]

theorem aaPut_eq (steep : Bool) (x : Int) {y : K} (h : 0 ≤ y) (w : K) :
    aaPut steep x y ((1 - fpart y) * w) (fpart y * w) = twoPixels steep x y w := by
  rw [aaPut, twoPixels, fpart_nonneg h, pyTrunc, if_pos h]
  cases steep <;> rfl

theorem gap_eq {x : K} (h : 0 ≤ x) : 1 - fpart (x + 1 / 2) = (nearest x : K) + 1 / 2 - x := by
  rw [fpart_nonneg (by linarith), nearest_nonneg h, ← Int.self_sub_floor]
  ring

theorem aaEnd_eq (steep : Bool) (g : K) {p : K × K} (h0 : 0 ≤ p.1) (h : 0 ≤ p.2 + g * ((nearest p.1 : K) - p.1)) :
    aaEnd steep g p = twoPixels steep (nearest p.1) (p.2 + g * ((nearest p.1 : K) - p.1)) ((nearest p.1 : K) + 1 / 2 - p.1) := by
  rw [aaEnd]
  rw [gap_eq h0, aaPut_eq steep _ h]

theorem aaInner_eq (steep : Bool) (g : K) (n : Nat) (x : Int) (y : K) (h : ∀ i : Nat, i < n → 0 ≤ y + g * i) :
    aaInner steep g n x y = (List.range n).flatMap fun i : Nat => twoPixels steep (x + i) (y + g * i) 1 := by
  induction n generalizing x y with
  | zero => rfl
  | succ n ih =>
    have h0 := h 0 (by omega)
    simp only [Nat.cast_zero, mul_zero, add_zero] at h0
    rw [aaInner, ih, List.range_succ_eq_map, List.flatMap_cons, List.flatMap_map]
    · have e := aaPut_eq steep x h0 1
      rw [mul_one, mul_one] at e
      rw [e]
      simp only [Nat.cast_zero, mul_zero, add_zero]
      congr 2
      funext i
      have e1 : x + 1 + (i : Int) = x + ((i.succ : Nat) : Int) := by push_cast; ring
      have e2 : y + g + g * (i : K) = y + g * ((i.succ : Nat) : K) := by push_cast; ring
      rw [e1, e2]
    · intro i hi
      have := h (i + 1) (by omega)
      push_cast at this
      linarith

/-- Between the ends, the line stays above zero. -/
theorem heightAt_nonneg {p q : K × K} (h : p.1 < q.1) (hp : 0 ≤ p.2) (hq : 0 ≤ q.2) {x : K} (h1 : p.1 ≤ x) (h2 : x ≤ q.1) : 0 ≤ heightAt p q x := by
  have hd : 0 < q.1 - p.1 := by linarith
  have : heightAt p q x = (p.2 * (q.1 - x) + q.2 * (x - p.1)) / (q.1 - p.1) := by
    rw [heightAt]
    field_simp
    ring
  rw [this]
  have := mul_nonneg hp (sub_nonneg.mpr h2)
  have := mul_nonneg hq (sub_nonneg.mpr h1)
  positivity

theorem heightAt_far {p q : K × K} (h : p.1 < q.1) (x : K) : heightAt p q x = q.2 + (q.2 - p.2) / (q.1 - p.1) * (x - q.1) := by
  have hd : q.1 - p.1 ≠ 0 := by linarith
  rw [heightAt]
  field_simp
  ring

theorem aaDraw_eq (steep : Bool) {p q : K × K} (h : p.1 < q.1) (hp : 0 ≤ p.1 ∧ 0 ≤ p.2) (hq : 0 ≤ q.2)
    (e1 : 0 ≤ heightAt p q (nearest p.1)) (e2 : 0 ≤ heightAt p q (nearest q.1)) :
    aaDraw steep p q = .ok (twoPixels steep (nearest p.1) (heightAt p q (nearest p.1)) ((nearest p.1 : K) + 1 / 2 - p.1) ++
      twoPixels steep (nearest q.1) (heightAt p q (nearest q.1)) ((nearest q.1 : K) + 1 / 2 - q.1) ++
      (columnsBetween (nearest p.1) (nearest q.1)).flatMap fun x => twoPixels steep x (heightAt p q x) 1) := by
  have hd : q.1 - p.1 ≠ 0 := by linarith
  have hq1 : 0 ≤ q.1 := by linarith
  rw [aaDraw, if_neg hd]
  simp only
  congr 1
  have e2' := e2
  rw [heightAt_far h] at e2'
  rw [aaEnd_eq steep _ hp.1 e1, aaEnd_eq steep _ hq1 e2', aaInner_eq]
  · congr 1
    · congr 1
      rw [heightAt_far h (nearest q.1 : K)]
    · rw [columnsBetween, List.flatMap_map]
      congr 1
      funext i
      congr 1
      rw [heightAt]
      push_cast
      ring
  · intro i hi
    have hb := nearest_bounds_nonneg hp.1
    have hb' := nearest_bounds_nonneg hq1
    have hlt : ((nearest p.1 + 1 + (i : Int) : Int) : K) + 1 ≤ nearest q.1 := by
      have : nearest p.1 + 1 + (i : Int) + 1 ≤ nearest q.1 := by omega
      exact_mod_cast this
    push_cast at hlt
    have hi0 : (0 : K) ≤ i := Nat.cast_nonneg i
    have := heightAt_nonneg h hp.2 hq (x := (nearest p.1 : K) + 1 + i) (by linarith) (by linarith)
    rw [heightAt] at this
    linarith

theorem aaline_flat {p q : K × K} (h : p.1 < q.1) (hs : |q.2 - p.2| ≤ q.1 - p.1) : aaline p q = aaDraw false p q := by
  have hd : 0 < q.1 - p.1 := by linarith
  have : ¬ |q.2 - p.2| > |q.1 - p.1| := by rw [abs_of_pos hd]; exact not_lt.mpr hs
  simp only [aaline, this, decide_false, Bool.false_eq_true, if_false]
  rw [if_neg (not_lt.mpr h.le)]

theorem aaline_steep {p q : K × K} (h : p.1 < q.1) (hs : |q.2 - p.2| < q.1 - p.1) : aaline (p.2, p.1) (q.2, q.1) = aaDraw true p q := by
  have hd : 0 < q.1 - p.1 := by linarith
  have : |q.1 - p.1| > |q.2 - p.2| := by rw [abs_of_pos hd]; exact hs
  simp only [aaline, this, decide_true, if_true]
  rw [if_neg (not_lt.mpr h.le)]

theorem aaline_comm (a b : K × K) : aaline a b = aaline b a := by
  have h1 : |b.2 - a.2| = |a.2 - b.2| := abs_sub_comm _ _
  have h2 : |b.1 - a.1| = |a.1 - b.1| := abs_sub_comm _ _
  simp only [aaline, h1, h2]
  by_cases hs : |a.2 - b.2| > |a.1 - b.1|
  · simp only [hs, decide_true, if_true]
    rcases lt_trichotomy a.2 b.2 with h | h | h
    · rw [if_neg (not_lt.mpr h.le), if_pos h]
    · exfalso
      rw [h, sub_self, abs_zero] at hs
      exact absurd hs (not_lt.mpr (abs_nonneg _))
    · rw [if_pos h, if_neg (not_lt.mpr h.le)]
  · simp only [hs, decide_false, Bool.false_eq_true, if_false]
    rcases lt_trichotomy a.1 b.1 with h | h | h
    · rw [if_neg (not_lt.mpr h.le), if_pos h]
    · rw [h, sub_self, abs_zero, not_lt] at hs
      have : a.2 = b.2 := sub_eq_zero.mp (abs_eq_zero.mp (le_antisymm hs (abs_nonneg _)))
      rw [Prod.ext h this]
    · rw [if_pos h, if_neg (not_lt.mpr h.le)]

theorem aaline_raises {a b : K × K} : (∃ e, aaline a b = .error e) ↔ a = b := by
  constructor
  · rintro ⟨e, he⟩
    by_contra hne
    have key : ∀ (s : Bool) (p q : K × K), p.1 ≠ q.1 → ∃ ws, aaDraw s p q = .ok ws := by
      intro s p q h
      exact ⟨_, if_neg (sub_ne_zero.mpr h.symm)⟩
    have fin : ∃ ws, aaline a b = .ok ws := by
      simp only [aaline]
      by_cases hs : |b.2 - a.2| > |b.1 - a.1|
      · simp only [hs, decide_true, if_true]
        have : a.2 ≠ b.2 := by
          intro h
          rw [h, sub_self, abs_zero] at hs
          exact absurd hs (not_lt.mpr (abs_nonneg _))
        split_ifs
        · exact key _ _ _ this.symm
        · exact key _ _ _ this
      · simp only [hs, decide_false, Bool.false_eq_true, if_false]
        have : a.1 ≠ b.1 := by
          intro h
          rw [h, sub_self, abs_zero, not_lt] at hs
          exact hne (Prod.ext h (sub_eq_zero.mp (abs_eq_zero.mp (le_antisymm hs (abs_nonneg _)))).symm)
        split_ifs
        · exact key _ _ _ this.symm
        · exact key _ _ _ this
    obtain ⟨ws, hw⟩ := fin
    rw [hw] at he
    cases he
  · rintro rfl
    refine ⟨.zeroDivisionError, ?_⟩
    simp only [aaline]
    rw [if_neg (lt_irrefl _), aaDraw, if_pos (sub_self _)]

/-! ### What is left on the canvas -/

theorem cellAfter_append {P V W : Type} [DecidableEq P] (apply : V → W → V) (init : V) (a b : List (P × W)) (p : P) :
    cellAfter apply init (a ++ b) p = cellAfter apply (cellAfter apply init a p) b p := by
  simp only [cellAfter, List.filter_append, List.foldl_append]

/-- One less the distance, but not negative. -/
def hat (d : K) : K := max 0 (1 - |d|)

theorem hat_floor (y : K) : hat ((⌊y⌋ : K) - y) = 1 - Int.fract y := by
  have h0 := Int.fract_nonneg y
  have h1 := Int.fract_lt_one y
  have e : (⌊y⌋ : K) - y = -Int.fract y := by rw [← Int.self_sub_floor]; ring
  rw [hat, e, abs_neg, abs_of_nonneg h0, max_eq_right (by linarith)]

theorem hat_ceil (y : K) : hat (((⌊y⌋ + 1 : Int) : K) - y) = Int.fract y := by
  have h0 := Int.fract_nonneg y
  have h1 := Int.fract_lt_one y
  have e : ((⌊y⌋ + 1 : Int) : K) - y = 1 - Int.fract y := by rw [← Int.self_sub_floor]; push_cast; ring
  rw [hat, e, abs_of_nonneg (by linarith), max_eq_right (by linarith)]
  ring

theorem hat_far {y : K} {n : Int} (h1 : n ≠ ⌊y⌋) (h2 : n ≠ ⌊y⌋ + 1) : hat ((n : K) - y) = 0 := by
  have a := Int.floor_le y
  have b := Int.lt_floor_add_one y
  rw [hat, max_eq_left]
  rw [sub_nonpos, le_abs]
  rcases lt_or_ge n ⌊y⌋ with h | h
  · right
    have : (n : K) + 1 ≤ ⌊y⌋ := by exact_mod_cast h
    linarith
  · left
    have : (⌊y⌋ : K) + 1 + 1 ≤ n := by
      have : ⌊y⌋ + 1 + 1 ≤ n := by omega
      exact_mod_cast this
    linarith

theorem pixelAt_inj {α : Type} {flip : Bool} {a b c d : α} : pixelAt flip a b = pixelAt flip c d ↔ a = c ∧ b = d := by
  cases flip <;> simp [pixelAt, and_comm]

theorem twoPixels_cell {V : Type} (ap : V → K → V) (h0 : ∀ v, ap v 0 = v) (v : V) (flip : Bool) (c : Int) (y w : K) (X Y : Int) :
    cellAfter ap v (twoPixels flip c y w) (pixelAt flip X Y) = if X = c then ap v (hat ((Y : K) - y) * w) else v := by
  simp only [twoPixels, cellAfter_cons, cellAfter_nil]
  simp only [pixelAt_inj]
  by_cases hX : X = c
  · subst hX
    simp only [true_and, if_true]
    by_cases h1 : ⌊y⌋ = Y
    · subst h1
      rw [if_pos rfl, if_neg (by omega), hat_floor]
    · rw [if_neg h1]
      by_cases h2 : ⌊y⌋ + 1 = Y
      · subst h2
        rw [if_pos rfl, hat_ceil]
      · rw [if_neg h2, hat_far (Ne.symm h1) (Ne.symm h2), zero_mul, h0]
  · rw [if_neg hX, if_neg (fun h => hX h.1.symm), if_neg (fun h => hX h.1.symm)]

theorem flatMap_cell {V : Type} (ap : V → K → V) (h0 : ∀ v, ap v 0 = v) (v : V) (flip : Bool) (f : Int → K) (cs : List Int) (hn : cs.Nodup) (X Y : Int) :
    cellAfter ap v (cs.flatMap fun x => twoPixels flip x (f x) 1) (pixelAt flip X Y) = if X ∈ cs then ap v (hat ((Y : K) - f X)) else v := by
  induction cs generalizing v with
  | nil => rfl
  | cons c cs ih =>
    rw [List.nodup_cons] at hn
    rw [List.flatMap_cons, cellAfter_append, twoPixels_cell ap h0, ih _ hn.2]
    by_cases hX : X = c
    · subst hX
      rw [if_neg hn.1, if_pos rfl, if_pos (List.mem_cons_self ..), mul_one]
    · rw [if_neg hX]
      simp only [List.mem_cons, hX, false_or]

theorem nodup_intRange (a b : Int) : (intRange a b).Nodup := by
  refine List.Nodup.map ?_ List.nodup_range
  intro i j h
  simp only at h
  omega

/-- The assignments for a line between two pixels. -/
theorem aaDraw_int (steep : Bool) {a b : Int × Int} (h : a.1 < b.1) (ha : 0 ≤ a.1 ∧ 0 ≤ a.2) (hb : 0 ≤ b.2) :
    aaDraw steep (ptOf a : K × K) (ptOf b) = .ok (twoPixels steep a.1 (heightAt (ptOf a : K × K) (ptOf b) (a.1 : K)) (1 / 2) ++
      twoPixels steep b.1 (heightAt (ptOf a : K × K) (ptOf b) (b.1 : K)) (1 / 2) ++
      (intRange (a.1 + 1) b.1).flatMap fun x => twoPixels steep x (heightAt (ptOf a : K × K) (ptOf b) x) 1) := by
  have h' : ((ptOf a : K × K)).1 < (ptOf b : K × K).1 := by simp only [ptOf]; exact_mod_cast h
  have ha1 : (0 : K) ≤ (ptOf a : K × K).1 := by simp only [ptOf]; exact_mod_cast ha.1
  have ha2 : (0 : K) ≤ (ptOf a : K × K).2 := by simp only [ptOf]; exact_mod_cast ha.2
  have hb2 : (0 : K) ≤ (ptOf b : K × K).2 := by simp only [ptOf]; exact_mod_cast hb
  have n1 : nearest (ptOf a : K × K).1 = a.1 := nearest_intCast _
  have n2 : nearest (ptOf b : K × K).1 = b.1 := nearest_intCast _
  rw [aaDraw_eq steep h' ⟨ha1, ha2⟩ hb2]
  · rw [n1, n2]
    simp only [ptOf]
    congr 3 <;> ring_nf
  · rw [n1]
    exact heightAt_nonneg h' ha2 hb2 le_rfl h'.le
  · rw [n2]
    exact heightAt_nonneg h' ha2 hb2 h'.le le_rfl

theorem aaDraw_cell {V : Type} (ap : V → K → V) (h0 : ∀ v, ap v 0 = v) (steep : Bool) {a b : Int × Int} (h : a.1 < b.1) (ha : 0 ≤ a.1 ∧ 0 ≤ a.2)
    (hb : 0 ≤ b.2) {ws : List ((Int × Int) × K)} (hw : aaDraw steep (ptOf a : K × K) (ptOf b) = .ok ws) (v : V) (X Y : Int) :
    cellAfter ap v ws (pixelAt steep X Y) = ap v (flatWeight a b X Y) := by
  rw [aaDraw_int steep h ha hb] at hw
  cases hw
  rw [cellAfter_append, cellAfter_append, twoPixels_cell ap h0, twoPixels_cell ap h0, flatMap_cell ap h0 _ _ _ _ (nodup_intRange _ _), flatWeight,
    min_eq_left h.le, max_eq_right h.le]
  simp only [mem_intRange]
  by_cases e1 : X = a.1
  · subst e1
    rw [if_neg (by omega), if_neg (by omega), if_pos rfl, if_pos ⟨le_rfl, h.le⟩, if_pos (Or.inl rfl)]
    rfl
  · by_cases e2 : X = b.1
    · subst e2
      rw [if_neg (by omega), if_pos rfl, if_neg e1, if_pos ⟨h.le, le_rfl⟩, if_pos (Or.inr rfl)]
      rfl
    · rw [if_neg e2, if_neg e1]
      by_cases e3 : a.1 + 1 ≤ X ∧ X < b.1
      · rw [if_pos e3, if_pos (by omega), if_neg (by tauto), mul_one]
        rfl
      · rw [if_neg e3, if_neg (by omega), h0]

theorem flatWeight_comm {a b : Int × Int} (h : a.1 ≠ b.1) (x y : Int) : (flatWeight a b x y : K) = flatWeight b a x y := by
  have e : heightAt (ptOf a : K × K) (ptOf b) (x : K) = heightAt (ptOf b : K × K) (ptOf a) (x : K) := by
    have h1 : (b.1 : K) - a.1 ≠ 0 := by
      rw [sub_ne_zero]
      exact_mod_cast h.symm
    have h2 : (a.1 : K) - b.1 ≠ 0 := by
      rw [sub_ne_zero]
      exact_mod_cast h
    simp only [heightAt, ptOf]
    have h3 : ((a.2 : K) - b.2) / ((a.1 : K) - b.1) = ((b.2 : K) - a.2) / ((b.1 : K) - a.1) := by
      rw [← neg_sub, ← neg_sub (b.1 : K), neg_div_neg_eq]
    rw [h3]
    field_simp
    ring
  simp only [ptOf] at e
  simp only [flatWeight, e, min_comm a.1, max_comm a.1, or_comm (a := x = a.1)]

theorem heightAt_between {p q : K × K} (h : p.1 < q.1) {x : K} (h1 : p.1 ≤ x) (h2 : x ≤ q.1) {lo hi : K} (hp : lo ≤ p.2 ∧ p.2 ≤ hi) (hq : lo ≤ q.2 ∧ q.2 ≤ hi) :
    lo ≤ heightAt p q x ∧ heightAt p q x ≤ hi := by
  have hd : 0 < q.1 - p.1 := by linarith
  have e : heightAt p q x = (p.2 * (q.1 - x) + q.2 * (x - p.1)) / (q.1 - p.1) := by
    rw [heightAt]
    field_simp
    ring
  have a1 := sub_nonneg.mpr h2
  have a2 := sub_nonneg.mpr h1
  rw [e, le_div_iff₀ hd, div_le_iff₀ hd]
  constructor
  · nlinarith [mul_le_mul_of_nonneg_right hp.1 a1, mul_le_mul_of_nonneg_right hq.1 a2]
  · nlinarith [mul_le_mul_of_nonneg_right hp.2 a1, mul_le_mul_of_nonneg_right hq.2 a2]

/-- The pixel is on the lattice rectangle from `lo` to `hi`, both included. -/
def InBox (lo hi : Int × Int) (x y : Int) : Prop := lo.1 ≤ x ∧ x ≤ hi.1 ∧ lo.2 ≤ y ∧ y ≤ hi.2

theorem twoPixels_mem {flip : Bool} {c lo hi : Int} {y w : K} (hy : (lo : K) ≤ y ∧ y ≤ hi) (hw : 0 ≤ w ∧ w ≤ 1) {z : (Int × Int) × K}
    (hz : z ∈ twoPixels flip c y w) : ∃ r, z.1 = pixelAt flip c r ∧ lo ≤ r ∧ r ≤ hi + 1 ∧ (0 ≤ z.2 ∧ z.2 ≤ 1) ∧ (r = hi + 1 → z.2 = 0 ∧ y = hi) := by
  have f0 := Int.fract_nonneg y
  have f1 := (Int.fract_lt_one y).le
  have l : lo ≤ ⌊y⌋ := Int.le_floor.mpr hy.1
  have u : ⌊y⌋ ≤ hi := by
    have : (⌊y⌋ : K) ≤ hi := le_trans (Int.floor_le y) hy.2
    exact_mod_cast this
  simp only [twoPixels, List.mem_cons, List.not_mem_nil, or_false] at hz
  rcases hz with rfl | rfl
  · refine ⟨⌊y⌋, rfl, l, by omega, ⟨mul_nonneg (by linarith) hw.1, ?_⟩, by omega⟩
    exact mul_le_one₀ (by linarith) hw.1 hw.2
  · refine ⟨⌊y⌋ + 1, rfl, by omega, by omega, ⟨mul_nonneg f0 hw.1, ?_⟩, fun h => ?_⟩
    · exact mul_le_one₀ f1 hw.1 hw.2
    · have e : ⌊y⌋ = hi := by omega
      have hyi : y = hi := le_antisymm hy.2 (by rw [← e]; exact Int.floor_le y)
      refine ⟨?_, hyi⟩
      dsimp only
      rw [hyi, Int.fract_intCast, zero_mul]

theorem aaDraw_mem (steep : Bool) {a b : Int × Int} (h : a.1 < b.1) (ha : 0 ≤ a.1 ∧ 0 ≤ a.2) (hb : 0 ≤ b.2) {hi : Int} (ma : a.2 ≤ hi) (mb : b.2 ≤ hi)
    {ws : List ((Int × Int) × K)} (hw : aaDraw steep (ptOf a : K × K) (ptOf b) = .ok ws) :
    ∀ z ∈ ws, ∃ c r, z.1 = pixelAt steep c r ∧ a.1 ≤ c ∧ c ≤ b.1 ∧ 0 ≤ r ∧ r ≤ hi + 1 ∧ (0 ≤ z.2 ∧ z.2 ≤ 1) ∧
      (r = hi + 1 → z.2 = 0 ∧ (c = b.1 → b.2 = hi)) := by
  rw [aaDraw_int steep h ha hb] at hw
  cases hw
  have key : ∀ c : Int, a.1 ≤ c → c ≤ b.1 → ((0 : Int) : K) ≤ heightAt (ptOf a : K × K) (ptOf b) c ∧ heightAt (ptOf a : K × K) (ptOf b) c ≤ (hi : K) := by
    intro c h1 h2
    apply heightAt_between
    · simp only [ptOf]; exact_mod_cast h
    · simp only [ptOf]; exact_mod_cast h1
    · simp only [ptOf]; exact_mod_cast h2
    · simp only [ptOf]; exact ⟨by exact_mod_cast ha.2, by exact_mod_cast ma⟩
    · simp only [ptOf]; exact ⟨by exact_mod_cast hb, by exact_mod_cast mb⟩
  have hend : ∀ c : Int, heightAt (ptOf a : K × K) (ptOf b) c = (hi : K) → c = b.1 → b.2 = hi := by
    intro c hh hc
    rw [hc, heightAt_far (by simp only [ptOf]; exact_mod_cast h)] at hh
    simp only [ptOf, sub_self, mul_zero, add_zero] at hh
    exact_mod_cast hh
  have half : (0 : K) ≤ 1 / 2 ∧ (1 / 2 : K) ≤ 1 := by constructor <;> norm_num
  intro z hz
  simp only [List.mem_append, List.mem_flatMap, mem_intRange] at hz
  rcases hz with (hz | hz) | ⟨c, hc, hz⟩
  · obtain ⟨r, e, h1, h2, h3, h4⟩ := twoPixels_mem (key a.1 le_rfl h.le) half hz
    exact ⟨_, r, e, le_rfl, h.le, h1, h2, h3, fun hr => ⟨(h4 hr).1, hend _ (h4 hr).2⟩⟩
  · obtain ⟨r, e, h1, h2, h3, h4⟩ := twoPixels_mem (key b.1 h.le le_rfl) half hz
    exact ⟨_, r, e, h.le, le_rfl, h1, h2, h3, fun hr => ⟨(h4 hr).1, hend _ (h4 hr).2⟩⟩
  · obtain ⟨r, e, h1, h2, h3, h4⟩ := twoPixels_mem (key c (by omega) (by omega)) ⟨zero_le_one, le_rfl⟩ hz
    exact ⟨_, r, e, by omega, by omega, h1, h2, h3, fun hr => ⟨(h4 hr).1, hend _ (h4 hr).2⟩⟩

theorem abs_int_lt {a b c d : Int} : |(b : K) - a| > |(d : K) - c| ↔ |b - a| > |d - c| := by
  constructor
  · intro h
    have : ((|b - a| : Int) : K) > ((|d - c| : Int) : K) := by push_cast; exact h
    exact_mod_cast this
  · intro h
    have : ((|b - a| : Int) : K) > ((|d - c| : Int) : K) := by exact_mod_cast h
    push_cast at this
    exact this

/-- The assignment is to a pixel of the canvas, or to the place after the end of a row that is not the last, with no weight. -/
def AlmostOn (w h : Nat) (z : (Int × Int) × K) : Prop := OnCanvas w h z.1.1 z.1.2 ∨ (z.1.1 = w ∧ 0 ≤ z.1.2 ∧ z.1.2 + 1 < h ∧ z.2 = 0)

/-- The assignments of a line between two different pixels: where they are, and what they leave. -/
theorem aaline_int {a b : Int × Int} (hne : a ≠ b) {w h : Nat} (hab : LineFits w h a b) :
    ∃ ws, aaline (ptOf a : K × K) (ptOf b) = .ok ws ∧ (∀ z ∈ ws, AlmostOn w h z ∧ 0 ≤ z.2 ∧ z.2 ≤ 1) ∧
      ∀ (V : Type) (ap : V → K → V), (∀ v, ap v 0 = v) → ∀ v X Y, cellAfter ap v ws (X, Y) = ap v (lineWeight a b X Y) := by
  obtain ⟨⟨a1, a2, a3, a4⟩, ⟨b1, b2, b3, b4⟩, hflat, hsteep⟩ := hab
  -- one of the two orders
  have flat : ∀ p q : Int × Int, p.1 < q.1 → (0 ≤ p.1 ∧ p.1 < w ∧ 0 ≤ p.2 ∧ p.2 + 1 < h) → (0 ≤ q.1 ∧ q.1 < w ∧ 0 ≤ q.2 ∧ q.2 + 1 < h) →
      ∃ ws, aaDraw false (ptOf p : K × K) (ptOf q) = .ok ws ∧ (∀ z ∈ ws, AlmostOn w h z ∧ 0 ≤ z.2 ∧ z.2 ≤ 1) ∧
      ∀ (V : Type) (ap : V → K → V), (∀ v, ap v 0 = v) → ∀ v X Y, cellAfter ap v ws (X, Y) = ap v (flatWeight p q X Y) := by
    intro p q hlt hp hq
    have hw := aaDraw_int (K := K) false hlt ⟨hp.1, hp.2.2.1⟩ hq.2.2.1
    refine ⟨_, hw, ?_, ?_⟩
    · intro z hz
      obtain ⟨c, r, e, h1, h2, h3, h4, h5, h6⟩ := aaDraw_mem false hlt ⟨hp.1, hp.2.2.1⟩ hq.2.2.1 (hi := (h : Int) - 2) (by omega) (by omega) hw z hz
      refine ⟨.inl ?_, h5⟩
      rw [e]
      refine ⟨?_, ?_, ?_, ?_⟩ <;> simp only [pixelAt, Bool.false_eq_true, if_false] <;> omega
    · intro V ap h0 v X Y
      exact aaDraw_cell ap h0 false hlt ⟨hp.1, hp.2.2.1⟩ hq.2.2.1 hw v X Y
  have steep : ∀ p q : Int × Int, p.1 < q.1 → (0 ≤ p.1 ∧ p.1 < h ∧ 0 ≤ p.2 ∧ p.2 < w) → (0 ≤ q.1 ∧ q.1 < h ∧ 0 ≤ q.2 ∧ q.2 < w ∧ ¬ (q.1 + 1 = h ∧ q.2 + 1 = w)) →
      ∃ ws, aaDraw true (ptOf p : K × K) (ptOf q) = .ok ws ∧ (∀ z ∈ ws, AlmostOn w h z ∧ 0 ≤ z.2 ∧ z.2 ≤ 1) ∧
      ∀ (V : Type) (ap : V → K → V), (∀ v, ap v 0 = v) → ∀ v X Y, cellAfter ap v ws (X, Y) = ap v (flatWeight p q Y X) := by
    intro p q hlt hp hq
    have hw := aaDraw_int (K := K) true hlt ⟨hp.1, hp.2.2.1⟩ hq.2.2.1
    refine ⟨_, hw, ?_, ?_⟩
    · intro z hz
      obtain ⟨c, r, e, h1, h2, h3, h4, h5, h6⟩ := aaDraw_mem true hlt ⟨hp.1, hp.2.2.1⟩ hq.2.2.1 (hi := (w : Int) - 1) (by omega) (by omega) hw z hz
      refine ⟨?_, h5⟩
      by_cases hr : r = (w : Int) - 1 + 1
      · obtain ⟨z0, hc⟩ := h6 hr
        refine .inr ⟨?_, ?_, ?_, z0⟩ <;> rw [e] <;> simp only [pixelAt, if_true]
        · omega
        · omega
        · by_cases hcb : c = q.1
          · have := hc hcb
            omega
          · omega
      · refine .inl ?_
        rw [e]
        refine ⟨?_, ?_, ?_, ?_⟩ <;> simp only [pixelAt, if_true] <;> omega
    · intro V ap h0 v X Y
      exact aaDraw_cell ap h0 true hlt ⟨hp.1, hp.2.2.1⟩ hq.2.2.1 hw v Y X
  by_cases hs : |b.2 - a.2| > |b.1 - a.1|
  · have hsK : |(ptOf b : K × K).2 - (ptOf a : K × K).2| > |(ptOf b : K × K).1 - (ptOf a : K × K).1| := abs_int_lt.mpr hs
    have hne2 : a.2 ≠ b.2 := by
      intro e
      rw [e, sub_self, abs_zero] at hs
      exact absurd hs (not_lt.mpr (abs_nonneg _))
    simp only [aaline, hsK, decide_true, if_true]
    simp only [lineWeight, if_pos hs]
    rcases lt_or_gt_of_ne hne2 with hlt | hlt
    · rw [if_neg (by simp only [ptOf]; exact not_lt.mpr (by exact_mod_cast hlt.le))]
      exact steep (a.2, a.1) (b.2, b.1) hlt ⟨a3, a4, a1, a2⟩ ⟨b3, b4, b1, b2, fun e => (hsteep hs).2 ⟨e.2, e.1⟩⟩
    · rw [if_pos (by simp only [ptOf]; exact_mod_cast hlt)]
      obtain ⟨ws, e1, e2, e3⟩ := steep (b.2, b.1) (a.2, a.1) hlt ⟨b3, b4, b1, b2⟩ ⟨a3, a4, a1, a2, fun e => (hsteep hs).1 ⟨e.2, e.1⟩⟩
      refine ⟨ws, e1, e2, fun V ap h0 v X Y => ?_⟩
      rw [e3 V ap h0 v X Y, flatWeight_comm (by exact hlt.ne)]
  · have hsK : ¬ |(ptOf b : K × K).2 - (ptOf a : K × K).2| > |(ptOf b : K × K).1 - (ptOf a : K × K).1| := fun e => hs (abs_int_lt.mp e)
    have hne1 : a.1 ≠ b.1 := by
      intro e
      rw [e, sub_self, abs_zero, not_lt] at hs
      exact hne (Prod.ext e (sub_eq_zero.mp (abs_eq_zero.mp (le_antisymm hs (abs_nonneg _)))).symm)
    simp only [aaline, hsK, decide_false, Bool.false_eq_true, if_false]
    simp only [lineWeight, if_neg hs]
    rcases lt_or_gt_of_ne hne1 with hlt | hlt
    · rw [if_neg (by simp only [ptOf]; exact not_lt.mpr (by exact_mod_cast hlt.le))]
      exact flat a b hlt ⟨a1, a2, a3, (hflat hs).1⟩ ⟨b1, b2, b3, (hflat hs).2⟩
    · rw [if_pos (by simp only [ptOf]; exact_mod_cast hlt)]
      obtain ⟨ws, e1, e2, e3⟩ := flat b a hlt ⟨b1, b2, b3, (hflat hs).2⟩ ⟨a1, a2, a3, (hflat hs).1⟩
      refine ⟨ws, e1, e2, fun V ap h0 v X Y => ?_⟩
      rw [e3 V ap h0 v X Y, flatWeight_comm hlt.ne]

/-- The place after the end of a row is the start of the next one. -/
def wrapPix (w : Nat) (z : Int × Int) : Int × Int := if z.1 = w then (0, z.2 + 1) else z

theorem wrapPix_on {w h : Nat} {z : (Int × Int) × K} (hz : AlmostOn w h z) (hw : 0 < w) : OnCanvas w h (wrapPix w z.1).1 (wrapPix w z.1).2 := by
  rcases hz with h1 | ⟨h1, h2, h3, -⟩
  · have : z.1.1 ≠ w := by have := h1.2.1; omega
    rw [wrapPix, if_neg this]
    exact h1
  · rw [wrapPix, if_pos h1]
    exact ⟨le_rfl, by dsimp only; omega, by dsimp only; omega, h3⟩

theorem wrap_cell {V : Type} (ap : V → K → V) (h0 : ∀ v, ap v 0 = v) {w h : Nat} (ws : List ((Int × Int) × K)) (hws : ∀ z ∈ ws, AlmostOn w h z) {x y : Int} (hx : x < w) (v : V) :
    cellAfter ap v (ws.map fun z => (wrapPix w z.1, z.2)) (x, y) = cellAfter ap v ws (x, y) := by
  induction ws generalizing v with
  | nil => rfl
  | cons z ws ih =>
    have hz := hws z (by simp)
    have ih' := ih (fun z hz => hws z (by simp [hz]))
    have step : ∀ (q : (Int × Int) × K) (l : List ((Int × Int) × K)) (v : V), cellAfter ap v (q :: l) (x, y) = cellAfter ap (if q.1 = (x, y) then ap v q.2 else v) l (x, y) := by
      intro q l v
      unfold cellAfter
      by_cases hq : q.1 = (x, y)
      · rw [List.filter_cons_of_pos (by simpa using hq), if_pos hq, List.foldl_cons]
      · rw [List.filter_cons_of_neg (by simpa using hq), if_neg hq]
    rw [List.map_cons, step, step, ih']
    congr 1
    by_cases hw : z.1.1 = w
    · have z0 : z.2 = 0 := by
        rcases hz with h1 | h1
        · exact absurd hw (by have := h1.2.1; omega)
        · exact h1.2.2.2
      have hn : z.1 ≠ (x, y) := by
        intro e
        rw [e] at hw
        dsimp only at hw
        omega
      rw [if_neg hn]
      dsimp only
      rw [z0, h0, ite_self]
    · dsimp only
      rw [wrapPix, if_neg hw]

theorem gray_wrap {c : Gray} {w : Nat} (hc : c.width = w) (ws : List ((Int × Int) × GrayVal K)) :
    c.writes ws = c.writes (ws.map fun z => (wrapPix w z.1, z.2)) := by
  induction ws generalizing c with
  | nil => rfl
  | cons z ws ih =>
    have hset : c.set z.1.1 z.1.2 z.2 = c.set (wrapPix w z.1).1 (wrapPix w z.1).2 z.2 := by
      unfold wrapPix
      split
      · rename_i hz
        unfold Gray.set
        have : z.1.2 * (c.width : Int) + z.1.1 = (z.1.2 + 1) * (c.width : Int) + 0 := by
          rw [hz, hc]
          ring
        simp only [this]
      · rfl
    unfold Gray.writes at ih ⊢
    rw [List.map_cons, List.foldlM_cons, List.foldlM_cons, hset]
    cases hs : c.set (wrapPix w z.1).1 (wrapPix w z.1).2 z.2 with
    | error e => rfl
    | ok c1 =>
      have hc1 : c1.width = w := by
        obtain ⟨_, _, hs⟩ := Py.bind_ok.mp hs
        obtain ⟨_, _, hs⟩ := Py.bind_ok.mp hs
        obtain ⟨_, _, hs⟩ := Py.bind_ok.mp hs
        cases hs
        exact hc
      exact ih hc1

theorem colour_wrap {c : Colour} {w : Nat} (hc : c.width = w) (ws : List ((Int × Int) × ColourVal K)) :
    c.writes ws = c.writes (ws.map fun z => (wrapPix w z.1, z.2)) := by
  induction ws generalizing c with
  | nil => rfl
  | cons z ws ih =>
    have hset : c.set z.1.1 z.1.2 z.2 = c.set (wrapPix w z.1).1 (wrapPix w z.1).2 z.2 := by
      unfold wrapPix
      split
      · rename_i hz
        unfold Colour.set
        have : z.1.2 * (c.width : Int) + z.1.1 = (z.1.2 + 1) * (c.width : Int) + 0 := by
          rw [hz, hc]
          ring
        simp only [this]
      · rfl
    unfold Colour.writes at ih ⊢
    rw [List.map_cons, List.foldlM_cons, List.foldlM_cons, hset]
    cases hs : c.set (wrapPix w z.1).1 (wrapPix w z.1).2 z.2 with
    | error e => rfl
    | ok c1 =>
      have hc1 : c1.width = w := by
        obtain ⟨_, _, hs⟩ := Py.bind_ok.mp hs
        obtain ⟨_, _, hs⟩ := Py.bind_ok.mp hs
        cases hs
        exact hc
      exact ih hc1

theorem mix_zero (bg : Nat) (fg : K) : (Mix (bg : K) fg 0).toNat = bg := by
  have : ⌊(bg : K) + (fg - bg) * 0 + 1 / 2⌋ = (bg : Int) := by
    rw [Int.floor_eq_iff]
    push_cast
    constructor <;> linarith
  rw [Mix, this]
  rfl

/-- A line between two different pixels on a gray canvas. -/
theorem gray_aaline {c : Gray} (hc : c.WF) {a b : Int × Int} (hne : a ≠ b) (hab : LineFits c.width c.height a b) {fg : K} (hfg : 0 ≤ fg ∧ fg ≤ 255) :
    ∃ c', c.aaline (ptOf a : K × K) (ptOf b) (.tuple fg) = .ok c' ∧ c'.WF ∧ c'.width = c.width ∧ c'.height = c.height ∧
      ∀ x y v, OnCanvas c.width c.height x y → c.get x y = .ok v → c'.get x y = .ok (Mix (v : K) fg (lineWeight a b x y)).toNat := by
  obtain ⟨ws, e1, e2, e3⟩ := aaline_int (K := K) hne hab
  have hwpos : 0 < c.width := by have := hab.1; unfold OnCanvas at this; omega
  obtain ⟨c', h1, h2, h3, h4, h5⟩ := gray_writes hc ((ws.map fun z => (wrapPix c.width z.1, z.2)).map fun z => (z.1, GrayVal.va fg z.2)) (by
    intro z hz
    rw [List.map_map, List.mem_map] at hz
    obtain ⟨z, hz, rfl⟩ := hz
    exact ⟨wrapPix_on (e2 z hz).1 hwpos, hfg.1, hfg.2, (e2 z hz).2⟩)
  refine ⟨c', ?_, h2, h3, h4, fun x y v hxy hv => ?_⟩
  · rw [Gray.aaline, e1]
    change c.writes (ws.map fun z => (z.1, GrayVal.va fg z.2)) = _
    rw [gray_wrap rfl, List.map_map, ← h1, List.map_map]
    rfl
  · rw [h5 x y v hxy hv, ← cellAfter_map (fun (v : Nat) (z : K) => (Mix (v : K) fg z).toNat) GrayVal.over (fun z => GrayVal.va fg z) (fun _ _ => rfl)]
    rw [wrap_cell _ (fun v => mix_zero v fg) ws (fun z hz => (e2 z hz).1) hxy.2.1, e3 Nat _ (fun v => mix_zero v fg)]

/-- A line between two different pixels on a colour canvas. -/
theorem colour_aaline {c : Colour} (hc : c.WF) {a b : Int × Int} (hne : a ≠ b) (hab : LineFits c.width c.height a b) {r g bl : K}
    (hr : 0 ≤ r ∧ r ≤ 255) (hg : 0 ≤ g ∧ g ≤ 255) (hbl : 0 ≤ bl ∧ bl ≤ 255) :
    ∃ c', c.aaline (ptOf a : K × K) (ptOf b) (r, g, bl) = .ok c' ∧ c'.WF ∧ c'.width = c.width ∧ c'.height = c.height ∧
      ∀ x y v, OnCanvas c.width c.height x y → c.get x y = .ok v → c'.get x y = .ok ((Mix (v.1 : K) r (lineWeight a b x y)).toNat,
        (Mix (v.2.1 : K) g (lineWeight a b x y)).toNat, (Mix (v.2.2 : K) bl (lineWeight a b x y)).toNat) := by
  obtain ⟨ws, e1, e2, e3⟩ := aaline_int (K := K) hne hab
  have hwpos : 0 < c.width := by have := hab.1; unfold OnCanvas at this; omega
  obtain ⟨c', h1, h2, h3, h4, h5⟩ := colour_writes hc ((ws.map fun z => (wrapPix c.width z.1, z.2)).map fun z => (z.1, ColourVal.rgba r g bl z.2)) (by
    intro z hz
    rw [List.map_map, List.mem_map] at hz
    obtain ⟨z, hz, rfl⟩ := hz
    exact ⟨wrapPix_on (e2 z hz).1 hwpos, hr, hg, hbl, (e2 z hz).2⟩)
  refine ⟨c', ?_, h2, h3, h4, fun x y v hxy hv => ?_⟩
  · rw [Colour.aaline, e1]
    change c.writes (ws.map fun z => (z.1, ColourVal.rgba r g bl z.2)) = _
    rw [colour_wrap rfl, List.map_map, ← h1, List.map_map]
    rfl
  · rw [h5 x y v hxy hv, ← cellAfter_map (fun (v : Nat × Nat × Nat) (z : K) => ((Mix (v.1 : K) r z).toNat, (Mix (v.2.1 : K) g z).toNat, (Mix (v.2.2 : K) bl z).toNat))
      ColourVal.over (fun z => ColourVal.rgba r g bl z) (fun _ _ => rfl)]
    rw [wrap_cell _ (fun v => by simp only [mix_zero]) ws (fun z hz => (e2 z hz).1) hxy.2.1, e3 (Nat × Nat × Nat) _ (fun v => by simp only [mix_zero])]

/-- Lines between different pixels, one after the other. -/
theorem gray_aalines {c : Gray} (hc : c.WF) (es : List ((Int × Int) × (Int × Int)))
    (hes : ∀ e ∈ es, e.1 ≠ e.2 ∧ LineFits c.width c.height e.1 e.2) {fg : K} (hfg : 0 ≤ fg ∧ fg ≤ 255) :
    ∃ c', es.foldlM (fun c e => c.aaline (ptOf e.1 : K × K) (ptOf e.2) (.tuple fg)) c = .ok c' ∧ c'.width = c.width ∧ c'.height = c.height ∧
      ∀ x y v, OnCanvas c.width c.height x y → c.get x y = .ok v →
        c'.get x y = .ok (es.foldl (fun (v : Nat) e => (Mix (v : K) fg (lineWeight e.1 e.2 x y)).toNat) v) := by
  induction es generalizing c with
  | nil => exact ⟨c, rfl, rfl, rfl, fun _ _ _ _ h => h⟩
  | cons e es ih =>
    have he := hes e (List.mem_cons_self ..)
    obtain ⟨c1, h1, h2, h3, h4, h5⟩ := gray_aaline hc he.1 he.2 hfg
    obtain ⟨c', k1, k2, k3, k4⟩ := ih h2 (by rw [h3, h4]; exact fun e he => hes e (List.mem_cons_of_mem _ he))
    refine ⟨c', ?_, k2.trans h3, k3.trans h4, fun x y v hxy hv => ?_⟩
    · rw [List.foldlM_cons, h1]
      exact k1
    · rw [List.foldl_cons]
      exact k4 x y _ (by rw [h3, h4]; exact hxy) (h5 x y v hxy hv)

/-- Lines between different pixels, one after the other. -/
theorem colour_aalines {c : Colour} (hc : c.WF) (es : List ((Int × Int) × (Int × Int)))
    (hes : ∀ e ∈ es, e.1 ≠ e.2 ∧ LineFits c.width c.height e.1 e.2) {r g bl : K}
    (hr : 0 ≤ r ∧ r ≤ 255) (hg : 0 ≤ g ∧ g ≤ 255) (hbl : 0 ≤ bl ∧ bl ≤ 255) :
    ∃ c', es.foldlM (fun c e => c.aaline (ptOf e.1 : K × K) (ptOf e.2) (r, g, bl)) c = .ok c' ∧ c'.width = c.width ∧ c'.height = c.height ∧
      ∀ x y v, OnCanvas c.width c.height x y → c.get x y = .ok v →
        c'.get x y = .ok (es.foldl (fun (v : Nat × Nat × Nat) e => ((Mix (v.1 : K) r (lineWeight e.1 e.2 x y)).toNat,
          (Mix (v.2.1 : K) g (lineWeight e.1 e.2 x y)).toNat, (Mix (v.2.2 : K) bl (lineWeight e.1 e.2 x y)).toNat)) v) := by
  induction es generalizing c with
  | nil => exact ⟨c, rfl, rfl, rfl, fun _ _ _ _ h => h⟩
  | cons e es ih =>
    have he := hes e (List.mem_cons_self ..)
    obtain ⟨c1, h1, h2, h3, h4, h5⟩ := colour_aaline hc he.1 he.2 hr hg hbl
    obtain ⟨c', k1, k2, k3, k4⟩ := ih h2 (by rw [h3, h4]; exact fun e he => hes e (List.mem_cons_of_mem _ he))
    refine ⟨c', ?_, k2.trans h3, k3.trans h4, fun x y v hxy hv => ?_⟩
    · rw [List.foldlM_cons, h1]
      exact k1
    · rw [List.foldl_cons]
      exact k4 x y _ (by rw [h3, h4]; exact hxy) (h5 x y v hxy hv)

/-! ### Lines that do not fit -/

theorem twoPixels_at (flip : Bool) (c y : Int) (w : K) {v : K} (hv : v = y) : ∃ α, (pixelAt flip c (y + 1), α) ∈ twoPixels flip c v w := by
  refine ⟨Int.fract v * w, ?_⟩
  rw [twoPixels, hv, Int.floor_intCast]
  simp

/-- The pixels below the ends (for steep lines: at the right of the ends) are assigned to. -/
theorem aaline_ends {a b : Int × Int} (hne : a ≠ b) (ha : 0 ≤ a.1 ∧ 0 ≤ a.2) (hb : 0 ≤ b.1 ∧ 0 ≤ b.2) :
    ∃ ws, aaline (ptOf a : K × K) (ptOf b) = .ok ws ∧ ∀ e, e = a ∨ e = b →
      ∃ α, ((if |b.2 - a.2| > |b.1 - a.1| then (e.1 + 1, e.2) else (e.1, e.2 + 1)), α) ∈ ws := by
  have draw : ∀ (steep : Bool) (p q : Int × Int), p.1 < q.1 → (0 ≤ p.1 ∧ 0 ≤ p.2) → 0 ≤ q.2 →
      ∃ ws, aaDraw steep (ptOf p : K × K) (ptOf q) = .ok ws ∧ ∀ e, e = p ∨ e = q → ∃ α, (pixelAt steep e.1 (e.2 + 1), α) ∈ ws := by
    intro steep p q hlt hp hq
    refine ⟨_, aaDraw_int steep hlt hp hq, fun e he => ?_⟩
    have hlt' : (ptOf p : K × K).1 < (ptOf q : K × K).1 := by simp only [ptOf]; exact_mod_cast hlt
    rcases he with rfl | rfl
    · obtain ⟨α, h⟩ := twoPixels_at steep e.1 e.2 (1 / 2 : K) (v := heightAt (ptOf e : K × K) (ptOf q) (e.1 : K)) (by simp [heightAt, ptOf])
      exact ⟨α, List.mem_append_left _ (List.mem_append_left _ h)⟩
    · obtain ⟨α, h⟩ := twoPixels_at steep e.1 e.2 (1 / 2 : K) (v := heightAt (ptOf p : K × K) (ptOf e) (e.1 : K)) (by rw [heightAt_far hlt']; simp [ptOf])
      exact ⟨α, List.mem_append_left _ (List.mem_append_right _ h)⟩
  by_cases hs : |b.2 - a.2| > |b.1 - a.1|
  · have hsK : |(ptOf b : K × K).2 - (ptOf a : K × K).2| > |(ptOf b : K × K).1 - (ptOf a : K × K).1| := abs_int_lt.mpr hs
    have hne2 : a.2 ≠ b.2 := by
      intro e
      rw [e, sub_self, abs_zero] at hs
      exact absurd hs (not_lt.mpr (abs_nonneg _))
    simp only [aaline, hsK, decide_true, if_true, if_pos hs]
    rcases lt_or_gt_of_ne hne2 with hlt | hlt
    · rw [if_neg (by simp only [ptOf]; exact not_lt.mpr (by exact_mod_cast hlt.le))]
      obtain ⟨ws, h1, h2⟩ := draw true (a.2, a.1) (b.2, b.1) hlt ⟨ha.2, ha.1⟩ hb.1
      refine ⟨ws, h1, fun e he => ?_⟩
      exact h2 (e.2, e.1) (by rcases he with rfl | rfl <;> simp)
    · rw [if_pos (by simp only [ptOf]; exact_mod_cast hlt)]
      obtain ⟨ws, h1, h2⟩ := draw true (b.2, b.1) (a.2, a.1) hlt ⟨hb.2, hb.1⟩ ha.1
      refine ⟨ws, h1, fun e he => ?_⟩
      exact h2 (e.2, e.1) (by rcases he with rfl | rfl <;> simp)
  · have hsK : ¬ |(ptOf b : K × K).2 - (ptOf a : K × K).2| > |(ptOf b : K × K).1 - (ptOf a : K × K).1| := fun e => hs (abs_int_lt.mp e)
    have hne1 : a.1 ≠ b.1 := by
      intro e
      rw [e, sub_self, abs_zero, not_lt] at hs
      exact hne (Prod.ext e (sub_eq_zero.mp (abs_eq_zero.mp (le_antisymm hs (abs_nonneg _)))).symm)
    simp only [aaline, hsK, decide_false, Bool.false_eq_true, if_false, if_neg hs]
    rcases lt_or_gt_of_ne hne1 with hlt | hlt
    · rw [if_neg (by simp only [ptOf]; exact not_lt.mpr (by exact_mod_cast hlt.le))]
      obtain ⟨ws, h1, h2⟩ := draw false a b hlt ha hb.2
      exact ⟨ws, h1, fun e he => h2 e he⟩
    · rw [if_pos (by simp only [ptOf]; exact_mod_cast hlt)]
      obtain ⟨ws, h1, h2⟩ := draw false b a hlt hb ha.2
      exact ⟨ws, h1, fun e he => h2 e he.symm⟩

/-- If a step raises in every state that can be reached, so does the loop. -/
theorem foldlM_raises_inv {α σ : Type} (f : σ → α → Py σ) (Inv : σ → Prop) (l : List α) (a : α) (ha : a ∈ l) (hk : ∀ s b s', Inv s → b ∈ l → f s b = .ok s' → Inv s')
    (h : ∀ s, Inv s → ∃ e, f s a = .error e) (s : σ) (hs : Inv s) : ∃ e, l.foldlM f s = .error e := by
  induction l generalizing s with
  | nil => exact absurd ha List.not_mem_nil
  | cons b l ih =>
    rw [List.foldlM_cons]
    rcases List.mem_cons.mp ha with rfl | ha
    · obtain ⟨e, he⟩ := h s hs
      exact ⟨e, by rw [he]; rfl⟩
    · cases hb : f s b with
      | error e => exact ⟨e, rfl⟩
      | ok s' => exact ih ha (fun s b s' h1 h2 => hk s b s' h1 (by simp [h2])) s' (hk s b s' hs (by simp) hb)

theorem gray_set_length {c c' : Gray} {x y : Int} {v : GrayVal K} (h : c.set x y v = .ok c') : c'.width = c.width ∧ c'.height = c.height ∧ c'.data.length = c.data.length := by
  obtain ⟨_, _, h⟩ := Py.bind_ok.mp h
  obtain ⟨_, _, h⟩ := Py.bind_ok.mp h
  obtain ⟨d, h1, h⟩ := Py.bind_ok.mp h
  cases h
  refine ⟨rfl, rfl, ?_⟩
  unfold pySetItem at h1
  dsimp only at h1
  generalize (if y * (c.width : Int) + x < 0 then y * (c.width : Int) + x + c.data.length else y * (c.width : Int) + x) = j at h1
  split at h1
  · split at h1
    · cases h1
      simp
    · cases h1
  · cases h1

theorem colour_set_length {c c' : Colour} {x y : Int} {r g b a : K} (h : c.set x y (.rgba r g b a) = .ok c') : c'.width = c.width ∧ c'.height = c.height ∧ c'.data.length = c.data.length := by
  obtain ⟨v, h1, h⟩ := Py.bind_ok.mp h
  obtain ⟨bs, h2, h⟩ := Py.bind_ok.mp h
  cases h
  refine ⟨rfl, rfl, ?_⟩
  generalize 3 * (y * (c.width : Int) + x) = i at h1 h2 ⊢
  obtain ⟨⟨r0, g0, b0⟩, h3, h1⟩ := Py.bind_ok.mp h1
  cases h1
  have hbs : bs.length = 3 := by
    rw [Py.mapM_ok] at h2
    rw [← h2.length_eq]
    rfl
  have hsl : (pySlice c.data i (i + 3)).length = 3 := by
    unfold unpack3 at h3
    split at h3
    · rename_i heq
      rw [heq]
      rfl
    · cases h3
  have hle' : ∀ (n : Nat) (j : Int), sliceBound n j ≤ n := by
    intro n j
    unfold sliceBound
    split <;> omega
  unfold pySlice at hsl
  rw [List.length_take, List.length_drop] at hsl
  have k1 := hle' c.data.length i
  have k2 := hle' c.data.length (i + 3)
  unfold pySetSlice
  simp only [List.length_append, List.length_take, List.length_drop, hbs]
  omega

/-- An end for which the assignment is after the last pixel. -/
theorem not_fits {w h : Nat} {a b : Int × Int} (ha : OnCanvas w h a.1 a.2) (hb : OnCanvas w h b.1 b.2) (hab : ¬ LineFits w h a b) :
    ∃ e, (e = a ∨ e = b) ∧ (h * w : Int) ≤ (if |b.2 - a.2| > |b.1 - a.1| then (e.1 + 1, e.2) else (e.1, e.2 + 1)).2 * w +
      (if |b.2 - a.2| > |b.1 - a.1| then (e.1 + 1, e.2) else (e.1, e.2 + 1)).1 := by
  have ha' := ha
  have hb' := hb
  unfold OnCanvas at ha' hb'
  by_cases hs : |b.2 - a.2| > |b.1 - a.1|
  · simp only [if_pos hs]
    have last : ∀ e : Int × Int, e.1 + 1 = w → e.2 + 1 = h → (h * w : Int) ≤ e.2 * w + (e.1 + 1) := by
      intro e h1 h2
      rw [h1, ← h2]
      linarith
    by_cases h1 : a.1 + 1 = w ∧ a.2 + 1 = h
    · exact ⟨a, .inl rfl, last a h1.1 h1.2⟩
    · by_cases h2 : b.1 + 1 = w ∧ b.2 + 1 = h
      · exact ⟨b, .inr rfl, last b h2.1 h2.2⟩
      · exact absurd ⟨ha, hb, fun h => absurd hs h, fun _ => ⟨h1, h2⟩⟩ hab
  · simp only [if_neg hs]
    have last : ∀ e : Int × Int, 0 ≤ e.1 → e.2 < h → ¬ e.2 + 1 < h → (h * w : Int) ≤ (e.2 + 1) * w + e.1 := by
      intro e h0 h1 h2
      have : e.2 + 1 = h := by omega
      rw [this]
      linarith
    by_cases h1 : a.2 + 1 < h
    · by_cases h2 : b.2 + 1 < h
      · exact absurd ⟨ha, hb, fun _ => ⟨h1, h2⟩, fun h => absurd h hs⟩ hab
      · exact ⟨b, .inr rfl, last b hb'.1 hb'.2.2.2 h2⟩
    · exact ⟨a, .inl rfl, last a ha'.1 ha'.2.2.2 h1⟩

/-- Lines that do not fit raise. -/
theorem gray_aaline_raises {c : Gray} (hc : c.data.length = c.width * c.height) {a b : Int × Int} (hne : a ≠ b) (ha : OnCanvas c.width c.height a.1 a.2) (hb : OnCanvas c.width c.height b.1 b.2)
    (hab : ¬ LineFits c.width c.height a b) (ink : GrayInk K) : ∃ e, c.aaline (ptOf a : K × K) (ptOf b) ink = .error e := by
  obtain ⟨ws, h1, h2⟩ := aaline_ends (K := K) hne ⟨ha.1, ha.2.2.1⟩ ⟨hb.1, hb.2.2.1⟩
  obtain ⟨e, he, hidx⟩ := not_fits ha hb hab
  obtain ⟨α, hm⟩ := h2 e he
  generalize (if |b.2 - a.2| > |b.1 - a.1| then (e.1 + 1, e.2) else (e.1, e.2 + 1)) = z at hm hidx
  unfold Gray.aaline
  rw [h1]
  cases ink with
  | num v => exact ⟨_, rfl⟩
  | tuple fg =>
    change ∃ e, c.writes (ws.map fun w => (w.1, GrayVal.va fg w.2)) = .error e
    refine foldlM_raises_inv _ (fun s => s.width = c.width ∧ s.data.length = c.data.length) _ (z, GrayVal.va fg α) (List.mem_map.mpr ⟨_, hm, rfl⟩) ?_ ?_ c ⟨rfl, rfl⟩
    · intro s b s' hs _ h
      have := gray_set_length h
      exact ⟨this.1.trans hs.1, this.2.2.trans hs.2⟩
    · intro s hs
      refine ⟨.indexError, ?_⟩
      have hi : pyIndex s.data (z.2 * s.width + z.1) = .error .indexError := by
        have hlen : (s.data.length : Int) ≤ z.2 * s.width + z.1 := by
          rw [hs.1, hs.2, hc]
          push_cast
          linarith
        generalize z.2 * (s.width : Int) + z.1 = i at hlen ⊢
        have hneg : ¬ i < 0 := by omega
        unfold pyIndex
        simp only [if_neg hneg]
        rw [if_pos (by omega), List.getElem?_eq_none (by omega)]
      unfold Gray.set Gray.newValue
      simp only [hi]
      rfl

theorem colour_aaline_raises {c : Colour} (hc : c.data.length = 3 * (c.width * c.height)) {a b : Int × Int} (hne : a ≠ b) (ha : OnCanvas c.width c.height a.1 a.2) (hb : OnCanvas c.width c.height b.1 b.2)
    (hab : ¬ LineFits c.width c.height a b) (color : K × K × K) : ∃ e, c.aaline (ptOf a : K × K) (ptOf b) color = .error e := by
  obtain ⟨ws, h1, h2⟩ := aaline_ends (K := K) hne ⟨ha.1, ha.2.2.1⟩ ⟨hb.1, hb.2.2.1⟩
  obtain ⟨e, he, hidx⟩ := not_fits ha hb hab
  obtain ⟨α, hm⟩ := h2 e he
  generalize (if |b.2 - a.2| > |b.1 - a.1| then (e.1 + 1, e.2) else (e.1, e.2 + 1)) = z at hm hidx
  unfold Colour.aaline
  rw [h1]
  change ∃ e, c.writes (ws.map fun w => (w.1, ColourVal.rgba color.1 color.2.1 color.2.2 w.2)) = .error e
  refine foldlM_raises_inv _ (fun s => s.width = c.width ∧ s.data.length = c.data.length) _ (z, ColourVal.rgba color.1 color.2.1 color.2.2 α) (List.mem_map.mpr ⟨_, hm, rfl⟩) ?_ ?_ c ⟨rfl, rfl⟩
  · intro s b s' hs hb h
    obtain ⟨q, _, rfl⟩ := List.mem_map.mp hb
    have := colour_set_length h
    exact ⟨this.1.trans hs.1, this.2.2.trans hs.2⟩
  · intro s hs
    refine ⟨.valueError, ?_⟩
    have hi : pySlice s.data (3 * (z.2 * s.width + z.1)) (3 * (z.2 * s.width + z.1) + 3) = [] := by
      have hlen : (s.data.length : Int) ≤ 3 * (z.2 * s.width + z.1) := by
        rw [hs.1, hs.2, hc]
        push_cast
        linarith
      unfold pySlice
      have k1 : sliceBound s.data.length (3 * (z.2 * s.width + z.1)) = s.data.length := by
        unfold sliceBound
        rw [if_neg (by omega)]
        omega
      rw [k1]
      simp
    unfold Colour.set Colour.newValue
    simp only [hi]
    rfl

theorem foldlM_keeps {α σ : Type} (f : σ → α → Py σ) (Inv : σ → Prop) (l : List α) (hk : ∀ s b s', Inv s → b ∈ l → f s b = .ok s' → Inv s') {s s' : σ} (hs : Inv s)
    (h : l.foldlM f s = .ok s') : Inv s' := by
  induction l generalizing s with
  | nil =>
    cases h
    exact hs
  | cons b l ih =>
    rw [List.foldlM_cons] at h
    obtain ⟨s1, h1, h⟩ := Py.bind_ok.mp h
    exact ih (fun s b s' k1 k2 => hk s b s' k1 (by simp [k2])) (hk s b s1 hs (by simp) h1) h

theorem gray_aaline_length {c c' : Gray} {p q : K × K} {ink : GrayInk K} (h : c.aaline p q ink = .ok c') : c'.width = c.width ∧ c'.height = c.height ∧ c'.data.length = c.data.length := by
  obtain ⟨ws, _, h⟩ := Py.bind_ok.mp h
  cases ink with
  | num v => cases h
  | tuple v =>
    refine foldlM_keeps _ (fun s => s.width = c.width ∧ s.height = c.height ∧ s.data.length = c.data.length) _ ?_ ⟨rfl, rfl, rfl⟩ h
    intro s b s' hs _ h
    have := gray_set_length h
    exact ⟨this.1.trans hs.1, this.2.1.trans hs.2.1, this.2.2.trans hs.2.2⟩

theorem colour_aaline_length {c c' : Colour} {p q : K × K} {color : K × K × K} (h : c.aaline p q color = .ok c') :
    c'.width = c.width ∧ c'.height = c.height ∧ c'.data.length = c.data.length := by
  obtain ⟨ws, _, h⟩ := Py.bind_ok.mp h
  refine foldlM_keeps _ (fun s => s.width = c.width ∧ s.height = c.height ∧ s.data.length = c.data.length) _ ?_ ⟨rfl, rfl, rfl⟩ h
  intro s b s' hs hb h
  obtain ⟨q, _, rfl⟩ := List.mem_map.mp hb
  have := colour_set_length h
  exact ⟨this.1.trans hs.1, this.2.1.trans hs.2.1, this.2.2.trans hs.2.2⟩

end
end Coral
