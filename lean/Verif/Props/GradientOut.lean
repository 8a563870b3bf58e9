import Verif.Props.Gradient
import Mathlib.Tactic.NormNum

/-! # Gradients: positions outside [0, 1], and the predefined gradients: C118, C119 -/
set_option linter.unusedSectionVars false
namespace Coral
section
variable {K : Type} [Field K] [LinearOrder K] [IsStrictOrderedRing K]

/-- The extended list runs from 0 to 1. -/
theorem extendStops_ends {l : List (K × List K)} (hne : l ≠ []) (h01 : ∀ q ∈ l, 0 ≤ q.1 ∧ q.1 ≤ 1) :
    ∃ e c m d, extendStops l = .ok e ∧ (e = (0, c) :: m) ∧ (∃ m', e = m' ++ [(1, d)]) ∧ (∀ q ∈ e, 0 ≤ q.1 ∧ q.1 ≤ 1) ∧
      (∃ p, l.head? = some (p, c)) ∧ (∃ p, l.getLast? = some (p, d)) := by
  obtain ⟨⟨p, c⟩, m, rfl⟩ := List.exists_cons_of_ne_nil hne
  have hp := h01 (p, c) (by simp)
  -- extension at the left
  obtain ⟨l1, m1, h1, h2, h3, h4⟩ : ∃ l1 m1, (if 0 < p then (0, c) :: (p, c) :: m else (p, c) :: m) = l1 ∧ l1 = (0, c) :: m1 ∧ (∀ q ∈ l1, 0 ≤ q.1 ∧ q.1 ≤ 1) ∧
      l1.getLast? = ((p, c) :: m).getLast? := by
    by_cases h : 0 < p
    · refine ⟨_, _, rfl, by rw [if_pos h], ?_, by rw [if_pos h]; simp⟩
      rw [if_pos h]
      intro q hq
      rcases List.mem_cons.mp hq with rfl | hq
      · exact ⟨le_refl _, zero_le_one⟩
      · exact h01 q hq
    · have : p = 0 := le_antisymm (not_lt.mp h) hp.1
      refine ⟨_, m, rfl, by rw [if_neg h, this], ?_, by rw [if_neg h]⟩
      rw [if_neg h]
      exact h01
  obtain ⟨i, ⟨q, d⟩, hlast⟩ : ∃ i x, l1 = i ++ [x] := ⟨l1.dropLast, l1.getLast (by rw [h2]; simp), (List.dropLast_append_getLast _).symm⟩
  have hq := h3 (q, d) (by rw [hlast]; simp)
  have hidx : pyIndex l1 (-1) = .ok (q, d) := by rw [hlast]; exact pyIndex_last _ _
  have hl : ((p, c) :: m).getLast? = some (q, d) := by rw [← h4, hlast]; simp
  have hres : extendStops ((p, c) :: m) = .ok (if q < 1 then l1 ++ [(1, d)] else l1) := by
    change (pyIndex (if 0 < p then (0, c) :: (p, c) :: m else (p, c) :: m) (-1) >>= fun last =>
      (Except.ok (if last.1 < 1 then (if 0 < p then (0, c) :: (p, c) :: m else (p, c) :: m) ++ [(1, last.2)] else (if 0 < p then (0, c) :: (p, c) :: m else (p, c) :: m)))) = _
    rw [h1, hidx]
    rfl
  by_cases h : q < 1
  · rw [if_pos h] at hres
    refine ⟨_, c, m1 ++ [(1, d)], d, hres, by rw [h2]; rfl, ⟨l1, rfl⟩, ?_, ⟨p, rfl⟩, ⟨q, hl⟩⟩
    intro x hx
    rcases List.mem_append.mp hx with hx | hx
    · exact h3 x hx
    · simp at hx; subst hx; exact ⟨zero_le_one, le_refl _⟩
  · rw [if_neg h] at hres
    have : q = 1 := le_antisymm hq.2 (not_lt.mp h)
    exact ⟨_, c, m1, d, hres, h2, ⟨i, by rw [hlast, this]⟩, h3, ⟨p, rfl⟩, ⟨q, hl⟩⟩

theorem lowEnd_sorted {stops : List (K × List K)} {p : K} {c : List K} (h : (sortStops stops).head? = some (p, c)) :
    LowEnd stops c := by
  obtain ⟨m, hm⟩ : ∃ m, sortStops stops = (p, c) :: m := by
    cases hs : sortStops stops with
    | nil => rw [hs] at h; simp at h
    | cons a m => rw [hs] at h; simp at h; exact ⟨m, by rw [h]⟩
  refine ⟨p, ?_, stopAt_of_sorted (A := []) (B := m) hm (by simp)⟩
  intro q hq
  have h1 := sorted_sortStops stops
  rw [hm, List.pairwise_cons] at h1
  have h2 := mem_sortStops.mpr hq
  rw [hm] at h2
  rcases List.mem_cons.mp h2 with rfl | h2
  · exact le_refl _
  · exact h1.1 q h2

theorem highEnd_sorted {stops : List (K × List K)} {p : K} {c : List K} (h : (sortStops stops).getLast? = some (p, c)) :
    HighEnd stops c := by
  obtain ⟨m, hm⟩ := List.getLast?_eq_some_iff.mp h
  refine ⟨p, ?_, stopLast_of_sorted (A := m) (B := []) hm (by simp)⟩
  intro q hq
  have h1 := sorted_sortStops stops
  rw [hm, List.pairwise_append] at h1
  have h2 := mem_sortStops.mpr hq
  rw [hm] at h2
  rcases List.mem_append.mp h2 with h2 | h2
  · exact h1.2.2 q h2 (p, c) (by simp)
  · simp at h2; rw [h2]

theorem init_ends (stops : List (K × List K)) (hne : stops ≠ []) (h01 : ∀ q ∈ stops, 0 ≤ q.1 ∧ q.1 ≤ 1) :
    ∃ e c m d, Gradient.init stops = .ok ⟨e.map Prod.fst, e.map Prod.snd⟩ ∧ e = (0, c) :: m ∧ (∃ m', e = m' ++ [(1, d)]) ∧
      (∀ q ∈ e, 0 ≤ q.1 ∧ q.1 ≤ 1) ∧ LowEnd stops c ∧ HighEnd stops d := by
  have hne' : sortStops stops ≠ [] := by
    obtain ⟨a, t, rfl⟩ := List.exists_cons_of_ne_nil hne
    intro h
    have : a ∈ sortStops (a :: t) := mem_sortStops.mpr (by simp)
    rw [h] at this
    simp at this
  obtain ⟨e, c, m, d, h1, h2, h3, h4, ⟨p, h5⟩, ⟨q, h6⟩⟩ := extendStops_ends hne' (fun q hq => h01 q (mem_sortStops.mp hq))
  refine ⟨e, c, m, d, ?_, h2, h3, h4, lowEnd_sorted h5, highEnd_sorted h6⟩
  change (extendStops (sortStops stops) >>= _) = _
  rw [h1]
  rfl

/-- **C118**, the part that holds: above 1 both accessors raise an `IndexError`, for every gradient with stops in `[0, 1]`.
Missing: below 0 nothing is raised, see `C118_below_violated`. -/
theorem C118_above_partial [FloorRing K] (stops : List (K × List K)) (hne : stops ≠ []) (h01 : ∀ q ∈ stops, 0 ≤ q.1 ∧ q.1 ≤ 1) :
    ∃ g, Gradient.init stops = .ok g ∧ ∀ x, 1 < x → g.get x = .error .indexError ∧ g.getHex x = .error .indexError := by
  obtain ⟨e, c, m, d, h1, h2, h3, h4, h5, h6⟩ := init_ends stops hne h01
  refine ⟨_, h1, fun x hx => ?_⟩
  have hb : bisectLeft (e.map Prod.fst) x = (e.map Prod.fst).length := by
    have h := List.takeWhile_append_of_pos (p := fun q => decide (q < x)) (l₁ := e.map Prod.fst) (l₂ := []) (by
      intro q hq
      obtain ⟨y, hy, rfl⟩ := List.mem_map.mp hq
      simpa using lt_of_le_of_lt (h4 y hy).2 hx)
    simp only [List.append_nil, List.takeWhile_nil] at h
    rw [bisectLeft, h]
  have hg : (⟨e.map Prod.fst, e.map Prod.snd⟩ : Gradient K).get x = .error .indexError := by
    change (pyIndex (e.map Prod.fst) (bisectLeft (e.map Prod.fst) x : Nat) >>= _) = _
    have : pyIndex (e.map Prod.fst) (((e.map Prod.fst).length : Nat) : Int) = .error .indexError := by
      have : ¬ (((e.map Prod.fst).length : Int) < 0) := by omega
      simp only [pyIndex, if_neg this]
      simp
    rw [hb, this]
    rfl
  refine ⟨hg, ?_⟩
  change ((⟨e.map Prod.fst, e.map Prod.snd⟩ : Gradient K).get x >>= _) = _
  rw [hg]
  rfl

/-- **C118**, refuted below 0: no gradient with stops in `[0, 1]` refuses a negative position. The index before the first
wraps to the last stop, and `get(x)` is the point at `x` of the line from the colour at the low end (at 0) to the colour
at the high end (at 1), whatever lies between. -/
theorem C118_below_violated (stops : List (K × List K)) (hne : stops ≠ []) (h01 : ∀ q ∈ stops, 0 ≤ q.1 ∧ q.1 ≤ 1) :
    ∃ g c d, Gradient.init stops = .ok g ∧ LowEnd stops c ∧ HighEnd stops d ∧
      ∀ x, x < 0 → g.get x = .ok (List.zipWith (fun u v => lerp 0 u 1 v x) c d) := by
  obtain ⟨e, c, m, d, h1, h2, ⟨m', h3⟩, h4, h5, h6⟩ := init_ends stops hne h01
  refine ⟨_, c, d, h1, h5, h6, fun x hx => ?_⟩
  have hb : bisectLeft (e.map Prod.fst) x = 0 := by
    rw [bisectLeft, h2, List.map_cons, List.takeWhile_cons_of_neg (by simpa using hx.le)]
    rfl
  have i1 : pyIndex (e.map Prod.fst) ((0 : Nat) : Int) = .ok 0 := by rw [h2]; rfl
  have i2 : pyIndex (e.map Prod.fst) (((0 : Nat) : Int) - 1) = .ok 1 := by
    rw [h3, List.map_append]; exact pyIndex_last _ _
  have i3 : pyIndex (e.map Prod.snd) ((0 : Nat) : Int) = .ok c := by rw [h2]; rfl
  have i4 : pyIndex (e.map Prod.snd) (((0 : Nat) : Int) - 1) = .ok d := by
    rw [h3, List.map_append]; exact pyIndex_last _ _
  have hz : ¬ ((0 : K) - 1 = 0) := by norm_num
  simp only [Gradient.get, hb, i1, i2, i3, i4, bind, Except.bind, if_neg hx.ne', if_neg hz, pure, Except.pure]
  congr 1
  rw [List.zipWith_comm]
  congr 1
  funext u v
  unfold lerp
  simp only [zero_sub, sub_zero, div_neg, div_one]
  ring

-- For instance gray at -1/10: the colour has negative channels, and its hexadecimal form is no colour at all.
example : (do
    let g ← Gradient.init (grayStops : List (ℚ × List ℚ))
    let a ← g.get (-1/10)
    let h ← g.getHex (-1/10)
    return (a, h)) = .ok ([-1/10, -1/10, -1/10], ['#', 'x', 'x', 'x']) := by decide +kernel

/-! ## The predefined gradients -/

/-- A number brought into `[0, 1]`. -/
def clamp01 (y : K) : K := max 0 (min 1 y)

theorem init_sorted {e m m' : List (K × List K)} {c d : List K} (hs : e.Pairwise (fun p q => p.1 ≤ q.1)) (h1 : e = (0, c) :: m)
    (h2 : e = m' ++ [(1, d)]) : Gradient.init e = .ok ⟨e.map Prod.fst, e.map Prod.snd⟩ := by
  have hsort : sortStops e = e := List.Pairwise.insertionSort_eq hs
  have hx : extendStops e = .ok e := by
    have i1 : pyIndex e 0 = .ok (0, c) := by rw [h1]; rfl
    have i2 : pyIndex e (-1) = .ok (1, d) := by rw [h2]; exact pyIndex_last _ _
    simp only [extendStops, i1, i2, bind, Except.bind, if_neg (lt_irrefl (0 : K)), if_neg (lt_irrefl (1 : K)), pure, Except.pure]
  change (extendStops (sortStops e) >>= _) = _
  rw [hsort, hx]
  rfl

/-- `get` between two consecutive stops. -/
theorem get_seg {e B : List (K × List K)} {pa pb x : K} {ca cb : List K} (A : List (K × List K)) (he : e = A ++ (pa, ca) :: (pb, cb) :: B)
    (hA : ∀ q ∈ A, q.1 < x) (ha : pa < x) (hb : x ≤ pb) (hl : ca.length = cb.length := by rfl) :
    (⟨e.map Prod.fst, e.map Prod.snd⟩ : Gradient K).get x = .ok (List.zipWith (fun u v => lerp pa u pb v x) ca cb) := by
  subst he
  have h := get_split (A ++ [(pa, ca)]) B x (pb, cb) (by
    intro q hq
    rcases List.mem_append.mp hq with hq | hq
    · exact hA q hq
    · simp at hq; rw [hq]; exact ha) hb (Or.inr (by simp))
  simp only [List.append_assoc, List.singleton_append] at h
  rw [h]
  by_cases hx : pb = x
  · subst hx
    rw [if_pos rfl]
    congr 1
    have h1 : ∀ u v : K, lerp pa u pb v pb = v := by
      intro u v
      rw [lerp, div_self (by linarith [sub_pos.mpr ha] : pb - pa ≠ 0)]; ring
    simp only [h1]
    clear h
    induction ca generalizing cb with
    | nil => cases cb with
      | nil => rfl
      | cons => simp at hl
    | cons a ca ih => cases cb with
      | nil => simp at hl
      | cons b cb => simp at hl; rw [List.zipWith_cons_cons, ← ih hl]
  · rw [if_neg hx]
    simp

theorem get_first (B : List (K × List K)) (c : List K) :
    (⟨((0, c) :: B).map Prod.fst, ((0, c) :: B).map Prod.snd⟩ : Gradient K).get 0 = .ok c :=
  (get_split [] B 0 (0, c) (by simp) (le_refl _) (Or.inl rfl)).trans (by simp)

/-- **C119.** `gray`: three channels equal to the position. -/
theorem C119_gray : ∃ g : Gradient K, Gradient.init grayStops = .ok g ∧ ∀ x, 0 ≤ x → x ≤ 1 → g.get x = .ok [x, x, x] := by
  refine ⟨_, init_sorted (m' := [_]) (by simp [grayStops]) rfl rfl, fun x h0 h1 => ?_⟩
  rcases h0.eq_or_lt with rfl | h
  · exact get_first _ _
  · refine (get_seg (e := grayStops) [] rfl (by simp) h h1).trans ?_
    simp [lerp]

/-- **C119.** `bwr`: blue through white at the middle to red. -/
theorem C119_bwr : ∃ g : Gradient K, Gradient.init bwrStops = .ok g ∧ ∀ x, 0 ≤ x → x ≤ 1 →
    g.get x = .ok (if x ≤ 1 / 2 then [2 * x, 2 * x, 1] else [1, 2 - 2 * x, 2 - 2 * x]) := by
  refine ⟨_, init_sorted (m' := [_, _]) (by simp [bwrStops]; norm_num) rfl rfl, fun x h0 h1 => ?_⟩
  rcases h0.eq_or_lt with rfl | h
  · refine (get_first _ _).trans ?_
    norm_num
  by_cases h2 : x ≤ 1 / 2
  · refine (get_seg (e := bwrStops) [] rfl (by simp) h h2).trans ?_
    simp only [if_pos h2, List.zipWith_cons_cons, List.zipWith_nil_left, lerp]
    congr 3 <;> ring_nf
  · refine (get_seg (e := bwrStops) [_] rfl (by simpa using h) (not_le.mp h2) h1).trans ?_
    simp only [if_neg h2, List.zipWith_cons_cons, List.zipWith_nil_left, lerp]
    norm_num
    ring

/-- **C119.** `heat`: blue, cyan, green, yellow, red; each channel a trapezium. -/
theorem C119_heat : ∃ g : Gradient K, Gradient.init heatStops = .ok g ∧ ∀ x, 0 ≤ x → x ≤ 1 →
    g.get x = .ok [clamp01 (4 * x - 2), clamp01 (min (4 * x) (4 - 4 * x)), clamp01 (2 - 4 * x)] := by
  refine ⟨_, init_sorted (m' := [_, _, _, _]) (by simp [heatStops]; norm_num) rfl rfl, fun x h0 h1 => ?_⟩
  rcases h0.eq_or_lt with rfl | h
  · refine (get_first _ _).trans ?_
    norm_num [clamp01]
  have c0 : ∀ y : K, y ≤ 0 → clamp01 y = 0 := fun y h => by rw [clamp01, max_eq_left]; exact le_trans (min_le_right _ _) h
  have c1 : ∀ y : K, 1 ≤ y → clamp01 y = 1 := fun y h => by rw [clamp01, min_eq_left h, max_eq_right zero_le_one]
  have cm : ∀ y : K, 0 ≤ y → y ≤ 1 → clamp01 y = y := fun y h h' => by rw [clamp01, min_eq_right h', max_eq_right h]
  by_cases h2 : x ≤ 1 / 4
  · refine (get_seg (e := heatStops) [] rfl (by simp) h h2).trans ?_
    rw [min_eq_left (by linarith), c0 _ (by linarith), cm _ (by linarith) (by linarith), c1 _ (by linarith)]
    simp only [List.zipWith_cons_cons, List.zipWith_nil_left, lerp]
    norm_num
    ring
  by_cases h3 : x ≤ 1 / 2
  · refine (get_seg (e := heatStops) [_] rfl (by simpa using h) (not_le.mp h2) h3).trans ?_
    rw [c0 _ (by linarith), c1 _ (le_min (by linarith) (by linarith)), cm _ (by linarith) (by linarith)]
    simp only [List.zipWith_cons_cons, List.zipWith_nil_left, lerp]
    norm_num
    ring
  by_cases h4 : x ≤ 3 / 4
  · refine (get_seg (e := heatStops) [_, _] rfl (by simpa using ⟨h, by linarith⟩) (not_le.mp h3) h4).trans ?_
    rw [c1 (min _ _) (le_min (by linarith) (by linarith)), c0 (2 - 4 * x) (by linarith), cm _ (by linarith) (by linarith)]
    simp only [List.zipWith_cons_cons, List.zipWith_nil_left, lerp]
    norm_num
    ring
  · refine (get_seg (e := heatStops) [_, _, _] rfl (by simpa using ⟨h, by linarith, by linarith⟩) (not_le.mp h4) h1).trans ?_
    rw [min_eq_right (by linarith), c1 _ (by linarith), c0 (2 - 4 * x) (by linarith), cm _ (by linarith) (by linarith)]
    simp only [List.zipWith_cons_cons, List.zipWith_nil_left, lerp]
    norm_num
    ring

/-- **C119.** `height`: three affine pieces. -/
theorem C119_height : ∃ g : Gradient K, Gradient.init heightStops = .ok g ∧ ∀ x, 0 ≤ x → x ≤ 1 →
    g.get x = .ok (if x ≤ 25 / 100 then [336 / 100 * x, 36 / 100 + 192 / 100 * x, 18 / 100 + 84 / 100 * x]
      else if x ≤ 57 / 100 then [84 / 100 - 21 / 32 * (x - 1 / 4), 84 / 100 - 45 / 32 * (x - 1 / 4), 39 / 100 - 39 / 32 * (x - 1 / 4)]
      else [1 - 37 / 43 * (1 - x), 1 - 61 / 43 * (1 - x), 1 - 100 / 43 * (1 - x)]) := by
  refine ⟨_, init_sorted (m' := [_, _, _]) (by simp [heightStops]; norm_num) rfl rfl, fun x h0 h1 => ?_⟩
  rcases h0.eq_or_lt with rfl | h
  · refine (get_first _ _).trans ?_
    norm_num
  by_cases h2 : x ≤ 25 / 100
  · refine (get_seg (e := heightStops) [] rfl (by simp) h h2).trans ?_
    simp only [if_pos h2, List.zipWith_cons_cons, List.zipWith_nil_left, lerp]
    congr 3 <;> ring_nf
  by_cases h3 : x ≤ 57 / 100
  · refine (get_seg (e := heightStops) [_] rfl (by simpa using h) (not_le.mp h2) h3).trans ?_
    simp only [if_neg h2, if_pos h3, List.zipWith_cons_cons, List.zipWith_nil_left, lerp]
    congr 3 <;> ring_nf
  · refine (get_seg (e := heightStops) [_, _] rfl (by simpa using ⟨h, by linarith⟩) (not_le.mp h3) h1).trans ?_
    simp only [if_neg h2, if_neg h3, List.zipWith_cons_cons, List.zipWith_nil_left, lerp]
    congr 3 <;> ring_nf

/-- **C119.** All four give a hexadecimal colour `#` and three digits on all of `[0, 1]`. -/
theorem C119_hex [FloorRing K] (stops : List (K × List K)) (h : stops ∈ [grayStops, bwrStops, heatStops, heightStops]) (x : K)
    (h0 : 0 ≤ x) (h1 : x ≤ 1) : ∃ g a b c, Gradient.init stops = .ok g ∧ g.getHex x = .ok ['#', a, b, c] ∧
      ∀ d ∈ [a, b, c], d ∈ "0123456789abcdef".toList := by
  have hlen : ∃ g u v w, Gradient.init stops = .ok g ∧ g.get x = .ok [u, v, w] := by
    simp only [List.mem_cons, List.not_mem_nil, or_false] at h
    rcases h with rfl | rfl | rfl | rfl
    · obtain ⟨g, h, h'⟩ := C119_gray (K := K)
      exact ⟨g, _, _, _, h, h' x h0 h1⟩
    · obtain ⟨g, h, h'⟩ := C119_bwr (K := K)
      have := h' x h0 h1
      split at this
      · exact ⟨g, _, _, _, h, this⟩
      · exact ⟨g, _, _, _, h, this⟩
    · obtain ⟨g, h, h'⟩ := C119_heat (K := K)
      exact ⟨g, _, _, _, h, h' x h0 h1⟩
    · obtain ⟨g, h, h'⟩ := C119_height (K := K)
      have := h' x h0 h1
      split at this
      · exact ⟨g, _, _, _, h, this⟩
      · split at this
        · exact ⟨g, _, _, _, h, this⟩
        · exact ⟨g, _, _, _, h, this⟩
  have hr : stops ≠ [] ∧ (∀ q ∈ stops, 0 ≤ q.1 ∧ q.1 ≤ 1) ∧ ∀ q ∈ stops, ∀ c ∈ q.2, 0 ≤ c ∧ c ≤ 1 := by
    simp only [List.mem_cons, List.not_mem_nil, or_false] at h
    rcases h with rfl | rfl | rfl | rfl <;>
      refine ⟨List.cons_ne_nil _ _, ?_, ?_⟩ <;> simp [grayStops, bwrStops, heatStops, heightStops] <;> norm_num
  obtain ⟨g, u, v, w, hg, hx⟩ := hlen
  obtain ⟨g', cs, ds, hg', hx', hf, hh⟩ := C54_get_hex stops hr.1 hr.2.1 hr.2.2 x h0 h1
  rw [hg] at hg'
  injection hg' with hg'
  subst hg'
  rw [hx] at hx'
  injection hx' with hx'
  subst hx'
  have dig : ∀ d : Nat, d < 16 → "0123456789abcdef".toList.getD d '?' ∈ "0123456789abcdef".toList := by decide +kernel
  obtain _ | ⟨k1, hf⟩ := hf
  obtain _ | ⟨k2, hf⟩ := hf
  obtain _ | ⟨k3, hf⟩ := hf
  cases hf
  refine ⟨g, _, _, _, hg, hh, ?_⟩
  simp only [List.mem_cons, List.not_mem_nil, or_false, forall_eq_or_imp, forall_eq]
  exact ⟨dig _ k1.1, dig _ k2.1, dig _ k3.1⟩

-- For instance.
example : (do
    let g ← Gradient.init (heatStops : List (ℚ × List ℚ))
    let a ← g.get (1/8)
    let h ← g.getHex (1/8)
    return (a, h)) = .ok ([0, 1/2, 1], ['#', '0', '7', 'f']) := by decide +kernel

end
end Coral
