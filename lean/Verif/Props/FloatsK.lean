import Verif.Model.FloatsJ
import Verif.Props.FloatsJ
import Verif.Props.Names

/-!
# Likeness of names on floats (C176, C177)
-/
namespace Coral
namespace Flt

/-! ### `mapping` -/

/-- An error of names with fewer than 2²⁵ letters together. -/
def Frac (d : ℚ) : Prop := ∃ n L : ℕ, 0 < L ∧ L < 2 ^ 25 ∧ n ≤ L ∧ d = (n : ℚ) * 2 / L

theorem Frac.bounds {d : ℚ} (h : Frac d) : 0 ≤ d ∧ d ≤ 2 := by
  obtain ⟨n, L, h1, -, h2, rfl⟩ := h
  have h1' : (0 : ℚ) < L := by exact_mod_cast h1
  have h2' : (n : ℚ) ≤ L := by exact_mod_cast h2
  refine ⟨by positivity, ?_⟩
  rw [div_le_iff₀ h1']
  linarith

theorem Frac.apart {d e : ℚ} (h : Frac d) (h' : Frac e) (hlt : d < e) : d + 2 ^ (-49 : ℤ) ≤ e := by
  obtain ⟨n, L, h1, h2, -, rfl⟩ := h
  obtain ⟨n', L', h1', h2', -, rfl⟩ := h'
  have p1 : (0 : ℚ) < L := by exact_mod_cast h1
  have p2 : (0 : ℚ) < L' := by exact_mod_cast h1'
  have b1 : (L : ℚ) ≤ 2 ^ (25 : ℤ) := by exact_mod_cast h2.le
  have b2 : (L' : ℚ) ≤ 2 ^ (25 : ℤ) := by exact_mod_cast h2'.le
  rw [div_lt_div_iff₀ p1 p2] at hlt
  have k : (n * L' + 1 : ℚ) ≤ n' * L := by
    have : n * L' < n' * L := by
      have : (n * L' : ℚ) < n' * L := by linarith
      exact_mod_cast this
    exact_mod_cast this
  have hLL : (L : ℚ) * L' ≤ 2 ^ (50 : ℤ) := by
    calc (L : ℚ) * L' ≤ 2 ^ (25 : ℤ) * 2 ^ (25 : ℤ) := mul_le_mul b1 b2 p2.le (by positivity)
      _ = 2 ^ (50 : ℤ) := by norm_num
  have e : (n' : ℚ) * 2 / L' - n * 2 / L = 2 * (n' * L - n * L') / (L * L') := by field_simp
  have : (2 : ℚ) ^ (-49 : ℤ) ≤ 2 * (n' * L - n * L') / (L * L') := by
    rw [le_div_iff₀ (mul_pos p1 p2)]
    calc (2 : ℚ) ^ (-49 : ℤ) * (L * L') ≤ 2 ^ (-49 : ℤ) * 2 ^ (50 : ℤ) := mul_le_mul_of_nonneg_left hLL (by positivity)
      _ = 2 := by norm_num
      _ ≤ _ := by linarith
  linarith

theorem two_double : IsDouble 2 := by simpa using double_int (n := 2) (by norm_num)

/-- The score of a name with the error `d`. -/
def scoreF (d : ℚ) : ℚ := fl (1 - fl d)

theorem Frac.errors {d : ℚ} (h : Frac d) : |fl d - d| ≤ 2 ^ (-51 : ℤ) ∧ |scoreF d - (1 - d)| ≤ 2 ^ (-51 : ℤ) := by
  obtain ⟨h0, h2⟩ := h.bounds
  have e1 := fl_error d
  have b0 : 0 ≤ fl d := le_fl (by simpa using double_int (n := 0) (by norm_num)) h0
  have b2 : fl d ≤ 2 := fl_le two_double h2
  have e2 := fl_error (1 - fl d)
  have b3 : |1 - fl d| ≤ 1 := abs_le.mpr ⟨by linarith, by linarith⟩
  rw [abs_of_nonneg h0] at e1
  have hη : (2 : ℚ) ^ (-1075 : ℤ) ≤ 2 ^ (-60 : ℤ) := zpow_le_zpow_right₀ (by norm_num) (by norm_num)
  have e60 : (2 : ℚ) ^ (-53 : ℤ) = 128 * 2 ^ (-60 : ℤ) := by norm_num
  have e51 : (2 : ℚ) ^ (-51 : ℤ) = 512 * 2 ^ (-60 : ℤ) := by norm_num
  have p : (0 : ℚ) < 2 ^ (-60 : ℤ) := by positivity
  rw [e60] at e1 e2
  rw [e51]
  generalize (2 : ℚ) ^ (-60 : ℤ) = w at *
  generalize (2 : ℚ) ^ (-1075 : ℤ) = η at *
  have e1' : |fl d - d| ≤ 257 * w := by nlinarith
  have e2' : |scoreF d - (1 - fl d)| ≤ 129 * w := by
    refine e2.trans ?_
    nlinarith
  refine ⟨by linarith, ?_⟩
  have := abs_add_le (scoreF d - (1 - fl d)) (d - fl d)
  rw [show scoreF d - (1 - fl d) + (d - fl d) = scoreF d - (1 - d) by ring, abs_sub_comm d] at this
  linarith

theorem Frac.lt_iff {d e : ℚ} (h : Frac d) (h' : Frac e) : (fl d < fl e ↔ d < e) ∧ (scoreF d ≤ scoreF e ↔ e ≤ d) := by
  have key : ∀ {d e : ℚ}, Frac d → Frac e → d < e → fl d < fl e ∧ scoreF e < scoreF d := by
    intro d e h h' hlt
    have := h.apart h' hlt
    obtain ⟨a1, a2⟩ := h.errors
    obtain ⟨b1, b2⟩ := h'.errors
    rw [abs_le] at a1 a2 b1 b2
    have e49 : (2 : ℚ) ^ (-49 : ℤ) = 4 * 2 ^ (-51 : ℤ) := by norm_num
    have p : (0 : ℚ) < 2 ^ (-51 : ℤ) := by positivity
    rw [e49] at this
    generalize (2 : ℚ) ^ (-51 : ℤ) = w at *
    constructor <;> linarith
  constructor
  · refine ⟨fun hl => ?_, fun hl => (key h h' hl).1⟩
    by_contra hc
    rcases (not_lt.mp hc).eq_or_lt with e | e
    · rw [e] at hl; exact lt_irrefl _ hl
    · exact lt_asymm hl (key h' h e).1
  · refine ⟨fun hl => ?_, fun hl => ?_⟩
    · by_contra hc
      exact absurd (key h h' (not_le.mp hc)).2 (not_lt.mpr hl)
    · rcases hl.eq_or_lt with e | e
      · rw [e]
      · exact (key h' h e).2.le

/-- The names have fewer than 2²⁵ letters together. -/
theorem strerr_frac {s t : List Char} (h : t ≠ []) (hl : s.length + t.length < 2 ^ 25) : ∃ d, Coral.strerr s t = .ok d ∧ Frac d ∧ strerr s t = .ok (fl d) := by
  obtain ⟨n, hn, hle⟩ := damlev_least s t
  have hp : 0 < s.length + t.length := by have := List.length_pos_of_ne_nil h; omega
  have hm := hle.2 _ (edits_max s t)
  have hne : ((s.length + t.length : ℕ) : ℚ) ≠ 0 := by exact_mod_cast hp.ne'
  refine ⟨(n : ℚ) * 2 / ((s.length + t.length : ℕ) : ℚ), ?_, ⟨n, _, hp, hl, by omega, rfl⟩, ?_⟩
  · simp only [Coral.strerr, hn, bind, Except.bind, if_neg hp.ne']
    rfl
  · simp only [strerr, hn, bind, Except.bind]
    exact div_ok hne

theorem argminLoop_map {f : ℚ → ℚ} (best : ℚ) (bi i : Nat) (xs : List ℚ) (h : ∀ a ∈ best :: xs, ∀ b ∈ best :: xs, (f a < f b ↔ a < b)) :
    argminLoop (f best) bi i (xs.map f) = argminLoop best bi i xs := by
  induction xs generalizing best bi i with
  | nil => rfl
  | cons x xs ih =>
    simp only [List.map_cons, argminLoop]
    by_cases hx : x < best
    · rw [if_pos hx, if_pos ((h x (by simp) best (by simp)).mpr hx)]
      exact ih x i (i + 1) (fun a ha b hb => h a (List.mem_cons_of_mem _ ha) b (List.mem_cons_of_mem _ hb))
    · rw [if_neg hx, if_neg (fun k => hx ((h x (by simp) best (by simp)).mp k))]
      refine ih best bi (i + 1) (fun a ha b hb => h a ?_ b ?_)
      · rcases List.mem_cons.mp ha with rfl | ha <;> simp [*]
      · rcases List.mem_cons.mp hb with rfl | hb <;> simp [*]

theorem argmin_map {f : ℚ → ℚ} (xs : List ℚ) (h : ∀ a ∈ xs, ∀ b ∈ xs, (f a < f b ↔ a < b)) : argmin (xs.map f) = argmin xs := by
  cases xs with
  | nil => rfl
  | cons x xs => simp only [List.map_cons, argmin, argminLoop_map x 0 1 xs h]

/-- A match with the score that floats give. -/
def onFloats (m : Match) : Match := ⟨m.key, m.value, scoreF (1 - m.score)⟩

theorem bestMatch_float {values : List (List Char)} {key : List Char} (hv : values ≠ []) (hne : ∀ v ∈ values, v ≠ []) (hl : ∀ v ∈ values, key.length + v.length < 2 ^ 25) :
    ∃ m, Coral.bestMatch values key = .ok m ∧ Frac (1 - m.score) ∧ bestMatch values key = .ok (onFloats m) := by
  obtain ⟨ds, e1, e2⟩ : ∃ ds, values.mapM (fun v => Coral.strerr key v) = .ok ds ∧ (∀ d ∈ ds, Frac d) ∧ values.mapM (fun v => strerr key v) = .ok (ds.map fl) := by
    clear hv
    induction values with
    | nil => exact ⟨[], rfl, by simp, rfl⟩
    | cons v vs ih =>
      obtain ⟨ds, k1, k2, k3⟩ := ih (fun v hv => hne v (by simp [hv])) (fun v hv => hl v (by simp [hv]))
      obtain ⟨d, c1, c2, c3⟩ := strerr_frac (s := key) (t := v) (hne v (by simp)) (hl v (by simp))
      refine ⟨d :: ds, by rw [List.mapM_cons, c1, k1]; rfl, ?_, by rw [List.mapM_cons, c3, k3]; rfl⟩
      intro x hx
      rcases List.mem_cons.mp hx with rfl | hx
      · exact c2
      · exact k2 x hx
  obtain ⟨e2, e3⟩ := e2
  obtain ⟨m, hm, -⟩ := bestMatch_ok (key := key) hv hne
  simp only [Coral.bestMatch, e1, bind, Except.bind] at hm
  have am : argmin (ds.map fl) = argmin ds := argmin_map ds (fun a ha b hb => ((e2 a ha).lt_iff (e2 b hb)).1)
  refine ⟨m, by simp only [Coral.bestMatch, e1, bind, Except.bind]; exact hm, ?_⟩
  simp only [bestMatch, e3, bind, Except.bind, am]
  cases hi : argmin ds with
  | error e => rw [hi] at hm; cases hm
  | ok i =>
    rw [hi] at hm
    simp only at hm ⊢
    cases hval : pyIndex values (i : Int) with
    | error e => rw [hval] at hm; cases hm
    | ok v =>
      rw [hval] at hm
      simp only at hm ⊢
      cases hd : pyIndex ds (i : Int) with
      | error e => rw [hd] at hm; cases hm
      | ok d =>
        rw [hd] at hm
        cases hm
        have hdm : ds[i]? = some d := pyIndex_nat_ok hd
        have : pyIndex (ds.map fl) (i : Int) = .ok (fl d) := Buffer.pyIndex_nat _ _ _ (by rw [List.getElem?_map, hdm]; rfl)
        rw [this]
        simp only [sub_sub_cancel, pure, Except.pure, onFloats]
        exact ⟨e2 d (List.mem_of_getElem? hdm), rfl⟩

/-- C176: on floats `mapping` gives the matches that exact numbers give, in the same order, and with scores that are right to 2⁻⁵¹. -/
theorem C176_mapping (keys values : List (List Char)) (hv : values ≠ []) (hne : ∀ v ∈ values, v ≠ []) (hl : ∀ k ∈ keys, ∀ v ∈ values, k.length + v.length < 2 ^ 25) :
    ∃ ms ms', Coral.mapping keys values = .ok ms ∧ mapping keys values = .ok ms' ∧
      List.Forall₂ (fun m m' => m'.key = m.key ∧ m'.value = m.value ∧ |m'.score - m.score| ≤ 2 ^ (-51 : ℤ)) ms ms' := by
  obtain ⟨l, e1, e2, e3⟩ : ∃ l, keys.mapM (Coral.bestMatch values) = .ok l ∧ (∀ m ∈ l, Frac (1 - m.score)) ∧ keys.mapM (bestMatch values) = .ok (l.map onFloats) := by
    induction keys with
    | nil => exact ⟨[], rfl, by simp, rfl⟩
    | cons k ks ih =>
      obtain ⟨l, k1, k2, k3⟩ := ih (fun k hk => hl k (by simp [hk]))
      obtain ⟨m, c1, c2, c3⟩ := bestMatch_float (key := k) hv hne (hl k (by simp))
      refine ⟨m :: l, by rw [List.mapM_cons, c1, k1]; rfl, ?_, by rw [List.mapM_cons, c3, k3]; rfl⟩
      intro x hx
      rcases List.mem_cons.mp hx with rfl | hx
      · exact c2
      · exact k2 x hx
  have es : sortBy (fun m : Match => -m.score) (l.map onFloats) = (sortBy (fun m : Match => -m.score) l).map onFloats := by
    refine (List.map_insertionSort (r := fun a b : Match => -a.score ≤ -b.score) (s := fun a b : Match => -a.score ≤ -b.score) onFloats l ?_).symm
    intro a ha b hb
    have := ((e2 b hb).lt_iff (e2 a ha)).2
    simp only [neg_le_neg_iff, onFloats]
    rw [this]
    constructor <;> intro h <;> linarith
  refine ⟨sortBy (fun m => -m.score) l, (sortBy (fun m => -m.score) l).map onFloats, ?_, ?_, ?_⟩
  · simp only [Coral.mapping, e1, bind, Except.bind, pure, Except.pure]
  · simp only [mapping, e3, bind, Except.bind, pure, Except.pure, es]
  · rw [List.forall₂_map_right_iff, List.forall₂_same]
    intro m hm
    have hm' : m ∈ l := (sortBy_perm _ _).mem_iff.mp hm
    refine ⟨rfl, rfl, ?_⟩
    have := (e2 m hm').errors.2
    rwa [sub_sub_cancel] at this

/-- Names for which the theorem holds, with a score that is not exact. -/
example : mapping ["abc".toList] ["ac".toList, "def".toList] = .ok [⟨"abc".toList, "ac".toList, fl (3 / 5)⟩] := by decide +kernel

/-! ### `jaro` and `jaro_winkler` -/

/-- What both calculations share: the matches `m` and the transpositions `t`. -/
theorem jaro_forms {s t : List Char} (hs : s ≠ []) (ht : t ≠ []) :
    (Coral.jaro s t = .ok 0 ∧ jaro s t = .ok 0) ∨ ∃ m k : ℕ, 0 < m ∧ m ≤ max s.length t.length ∧ k ≤ m ∧ (s = t → m = s.length ∧ k = 0) ∧
      Coral.jaro s t = .ok (((m : ℚ) / s.length + m / t.length + ((m : ℚ) - k) / m) / 3) ∧
      jaro s t = .ok (fl (fl (fl (fl ((m : ℚ) / s.length) + fl ((m : ℚ) / t.length)) + fl (((m : ℚ) - k) / m)) / 3)) := by
  have hs' : 0 < s.length := List.length_pos_of_ne_nil hs
  have ht' : 0 < t.length := List.length_pos_of_ne_nil ht
  have hsq : (s.length : ℚ) ≠ 0 := by exact_mod_cast hs'.ne'
  have htq : (t.length : ℚ) ≠ 0 := by exact_mod_cast ht'.ne'
  obtain ⟨m, p, e, hm, hp⟩ := jaroScan_ok (padStars_length (s := s) (n := max s.length t.length) (le_max_left _ _))
    (padStars_length (s := t) (n := max s.length t.length) (le_max_right _ _)) (List.range (max s.length t.length)) (by simp) 0 []
  rw [Nat.zero_add, List.nil_append] at e
  rw [List.length_range] at hm
  by_cases h0 : m = 0
  · left
    subst h0
    simp only [Coral.jaro, jaro, e, bind, Except.bind, if_true, pure, Except.pure, and_self]
  · right
    have hmq : (m : ℚ) ≠ 0 := by exact_mod_cast h0
    refine ⟨m, jaroTranspositions p, Nat.pos_of_ne_zero h0, hm, (jaroTranspositions_le p).trans hp, ?_, ?_, ?_⟩
    · rintro rfl
      have hp : padStars s s.length = s := by simp [padStars]
      have := jaroScan_same (s := s) rfl (List.range s.length) (by simp) 0 []
      rw [max_self, hp, this] at e
      injection e with e
      injection e with e1 e2
      refine ⟨by simpa using e1.symm, by rw [← e2]; rfl⟩
    · simp only [Coral.jaro, e, bind, Except.bind, if_neg h0, pyDiv, if_neg hsq, if_neg htq, if_neg hmq, pure, Except.pure]
    · simp only [jaro, e, bind, Except.bind, if_neg h0, div_ok hsq, div_ok htq, div_ok hmq, pure, Except.pure]

theorem sum_rel_fl {j k : ℕ} {x y X Y : ℚ} (hx : IsDouble x) (hy : IsDouble y) (h : Rel j x X) (h' : Rel k y Y) : Rel (max j k + 1) (fl (x + y)) (X + Y) := by
  have a := h.mono (le_max_left j k)
  have b := h'.mono (le_max_right j k)
  have c : Rel (max j k) (x + y) (X + Y) := ⟨add_nonneg a.left b.left, add_nonneg a.right b.right, by rw [mul_add]; exact add_le_add a.le b.le,
    by rw [mul_add]; exact add_le_add a.ge b.ge⟩
  obtain ⟨h1, h2, h3⟩ := sum_g hx hy
  have h3 := h3 c.left
  rw [abs_of_nonneg h3, abs_of_nonneg c.left] at h1 h2
  have d : Rel 1 (fl (x + y)) (x + y) := ⟨h3, c.left, by simpa using h1, by simpa using h2⟩
  have := d.trans c
  rwa [add_comm] at this

theorem jaro_rel {s t : List Char} (hs : s ≠ []) (ht : t ≠ []) (hl : s.length < 2 ^ 50) (hl' : t.length < 2 ^ 50) :
    ∃ j J, jaro s t = .ok j ∧ Coral.jaro s t = .ok J ∧ IsDouble j ∧ Rel 4 j J ∧ (s.length = t.length → j ≤ 1) ∧ (s = t → j = 1) := by
  have hs' : 0 < s.length := List.length_pos_of_ne_nil hs
  have ht' : 0 < t.length := List.length_pos_of_ne_nil ht
  rcases jaro_forms hs ht with ⟨e1, e2⟩ | ⟨m, k, hm0, hm, hk, hst, e1, e2⟩
  · refine ⟨0, 0, e2, e1, double_zero, (Rel.refl le_rfl).mono (by omega), fun _ => by norm_num, ?_⟩
    rintro rfl
    rw [jaro_same hs] at e1
    injection e1 with e1
    norm_num at e1
  refine ⟨_, _, e2, e1, fl_double _, ?_, ?_, ?_⟩
  · have hmq : (1 : ℚ) ≤ m := by exact_mod_cast hm0
    have q : ∀ {n : ℕ}, 0 < n → n < 2 ^ 50 → Rel 1 (fl ((m : ℚ) / n)) (m / n) := by
      intro n hn hn'
      have h1 : (0 : ℚ) < n := by exact_mod_cast hn
      have h2 : (n : ℚ) ≤ 2 ^ (50 : ℤ) := by exact_mod_cast hn'.le
      refine Rel.fl (by positivity) (Far.mono (Far.div_le (k := 0) (Or.inr ?_) h1 h2) (by norm_num))
      rw [zpow_zero, abs_of_pos (by linarith)]
      exact hmq
    have r1 := q hs' hl
    have r2 := q ht' hl'
    have r3 : Rel 1 (fl (((m : ℚ) - k) / m)) (((m : ℚ) - k) / m) := by
      have hk' : (k : ℚ) ≤ m := by exact_mod_cast hk
      have hmN : (m : ℚ) ≤ 2 ^ (50 : ℤ) := by
        have : m ≤ 2 ^ 50 := hm.trans (by rw [max_le_iff]; omega)
        exact_mod_cast this
      refine Rel.fl (div_nonneg (by linarith) (by linarith)) (Far.mono (Far.div_le (k := 0) ?_ (by linarith) hmN) (by norm_num))
      rcases hk.eq_or_lt with h | h
      · left; rw [h, sub_self]
      · right
        have : (k : ℚ) + 1 ≤ m := by exact_mod_cast h
        rw [zpow_zero, abs_of_pos (by linarith)]
        linarith
    have r4 := sum_rel_fl (fl_double _) (fl_double _) (sum_rel_fl (fl_double _) (fl_double _) r1 r2) r3
    have r5 := r4.div (Rel.refl (x := 3) (by norm_num))
    have far : Far (-60) (((m : ℚ) / s.length + m / t.length + ((m : ℚ) - k) / m) / 3) := by
      right
      have hk' : (k : ℚ) ≤ m := by exact_mod_cast hk
      have h1 : (0 : ℚ) < s.length := by exact_mod_cast hs'
      have h2 : (s.length : ℚ) ≤ 2 ^ (50 : ℤ) := by exact_mod_cast hl.le
      have a : 2 ^ (-50 : ℤ) ≤ (m : ℚ) / s.length := by
        rw [le_div_iff₀ h1]
        calc (2 : ℚ) ^ (-50 : ℤ) * s.length ≤ 2 ^ (-50 : ℤ) * 2 ^ (50 : ℤ) := mul_le_mul_of_nonneg_left h2 (by positivity)
          _ = 1 := by norm_num
          _ ≤ m := hmq
      have b : (0 : ℚ) ≤ (m : ℚ) / t.length := by positivity
      have c : 0 ≤ ((m : ℚ) - k) / m := div_nonneg (by linarith) (by linarith)
      rw [abs_of_nonneg (by positivity)]
      have e : (2 : ℚ) ^ (-50 : ℤ) = 1024 * 2 ^ (-60 : ℤ) := by norm_num
      have p : (0 : ℚ) < 2 ^ (-60 : ℤ) := by positivity
      rw [e] at a
      generalize (2 : ℚ) ^ (-60 : ℤ) = w at *
      linarith
    have r6 := Rel.fl r5.left ((r5.far (pow_two_le (by norm_num)).1 far).mono (by norm_num))
    exact (r6.trans r5).mono (by norm_num)
  · intro heq
    rw [← heq, max_self] at hm
    have h1 : (0 : ℚ) < s.length := by exact_mod_cast hs'
    have d1 : IsDouble 1 := by simpa using double_int (n := 1) (by norm_num)
    have d3 : IsDouble 3 := by simpa using double_int (n := 3) (by norm_num)
    have a : fl ((m : ℚ) / s.length) ≤ 1 := fl_le d1 (by rw [div_le_iff₀ h1, one_mul]; exact_mod_cast hm)
    have b : fl (((m : ℚ) - k) / m) ≤ 1 := fl_le d1 (by
      have hmq : (0 : ℚ) < m := by exact_mod_cast hm0
      rw [div_le_iff₀ hmq, one_mul]
      linarith [show (0 : ℚ) ≤ k by positivity])
    rw [← heq]
    have c : fl (fl ((m : ℚ) / s.length) + fl ((m : ℚ) / s.length)) ≤ 2 := fl_le two_double (by linarith)
    have d := fl_le d3 (show fl (fl ((m : ℚ) / s.length) + fl ((m : ℚ) / s.length)) + fl (((m : ℚ) - k) / m) ≤ 3 by linarith)
    exact fl_le d1 (by linarith)
  · intro heq
    obtain ⟨rfl, rfl⟩ := hst heq
    subst heq
    have h1 : (s.length : ℚ) ≠ 0 := by exact_mod_cast hs'.ne'
    rw [Nat.cast_zero, sub_zero, div_self h1]
    decide +kernel

theorem winkler_le {a j : ℚ} (hj : IsDouble j) (h0 : 0 ≤ j) (h1 : j ≤ 1) (ha0 : 0 ≤ a) (ha : a ≤ 1 / 2) : fl (j + fl (a * fl (1 - j))) ≤ 1 := by
  have d1 : IsDouble 1 := by simpa using double_int (n := 1) (by norm_num)
  have dh : IsDouble (1 / 2) := by simpa using double_pow (e := -1) (by norm_num)
  have b0 : 0 ≤ fl (1 - j) := le_fl double_zero (by linarith)
  have b1 : fl (1 - j) ≤ 1 := fl_le d1 (by linarith)
  refine fl_le d1 ?_
  rcases le_total j (1 / 2) with h | h
  · have := fl_le (x := a * fl (1 - j)) dh (by nlinarith)
    linarith
  · have hd : IsDouble (1 - j) := by
      obtain ⟨m, e, hm, -, hje⟩ := hj
      obtain ⟨i, hi⟩ := double_grid (E := -53) hm hje (Or.inr (by rw [abs_of_nonneg h0]; norm_num; linarith))
      have : 1 - j = ((2 ^ 53 - i : ℤ) : ℚ) * 2 ^ (-53 : ℤ) := by rw [hi]; push_cast; norm_num; ring
      rw [this]
      refine double_mk ?_ (by norm_num)
      have p : (0 : ℚ) < 2 ^ (-53 : ℤ) := by positivity
      have e53 : (2 : ℚ) ^ 53 * 2 ^ (-53 : ℤ) = 1 := by norm_num
      have i1 : (i : ℚ) ≤ 2 ^ 53 := by
        by_contra hc
        have := mul_lt_mul_of_pos_right (not_le.mp hc) p
        rw [e53, ← hi] at this
        linarith
      have i0 : (0 : ℚ) ≤ i := by
        by_contra hc
        have := mul_neg_of_neg_of_pos (not_le.mp hc) p
        rw [← hi] at this
        linarith
      have i1' : i ≤ 2 ^ 53 := by exact_mod_cast i1
      have i0' : 0 ≤ i := by exact_mod_cast i0
      rw [abs_of_nonneg (by omega)]
      omega
    rw [fl_id hd]
    have := fl_le (x := a * (1 - j)) hd (by nlinarith)
    linarith

theorem tenth_le {L : ℕ} (h : L ≤ 4) : 0 ≤ fl ((L : ℚ) * fl (1 / 10)) ∧ fl ((L : ℚ) * fl (1 / 10)) ≤ 1 / 2 ∧ |fl ((L : ℚ) * fl (1 / 10)) - L * (1 / 10)| ≤ 2 ^ (-53 : ℤ) := by
  interval_cases L <;> decide +kernel

/-- The last steps of the estimate for `jaro_winkler`. -/
theorem winkler_close {w η j J a A b c d : ℚ} (hw : 0 < w) (hw1 : w ≤ 1 / 1000) (hη : η ≤ w / 100) (hJ : 0 ≤ J) (ha0 : 0 ≤ a) (ha : a ≤ 1 / 2) (hj : |j - J| ≤ J * (16 * w))
    (hA : |a - A| ≤ w) (hb : |b - (1 - j)| ≤ |1 - j| * w + η) (hc : |c - a * b| ≤ |a * b| * w + η) (hd : |d - (j + c)| ≤ |j + c| * w + η) :
    |d - (J + A * (1 - J))| ≤ (1 + J) * (64 * w) := by
  have k1 : |1 - j| ≤ 1 + 3 / 2 * J := by
    have := abs_le.mp hj
    rw [abs_le]
    constructor <;> nlinarith
  have hb1 : |b - (1 - j)| ≤ (1 + 3 / 2 * J) * w + η := hb.trans (by nlinarith)
  have hb2 : |b| ≤ 2 * (1 + J) := by
    have := abs_add_le (b - (1 - j)) (1 - j)
    rw [sub_add_cancel] at this
    nlinarith
  have hab : |a * b| ≤ 1 + J := by
    rw [abs_mul, abs_of_nonneg ha0]
    nlinarith [abs_nonneg b]
  have hc1 : |c - a * b| ≤ (1 + J) * w + η := hc.trans (by nlinarith)
  have e1 : |a * b - A * (1 - J)| ≤ |a| * |b - (1 - j)| + |a| * |j - J| + |a - A| * |1 - J| := by
    have h1 := abs_add_le (a * (b - (1 - j)) - a * (j - J)) ((a - A) * (1 - J))
    have h2 := abs_sub (a * (b - (1 - j))) (a * (j - J))
    rw [show a * (b - (1 - j)) - a * (j - J) + (a - A) * (1 - J) = a * b - A * (1 - J) by ring] at h1
    rw [abs_mul, abs_mul] at h2
    rw [abs_mul (a - A)] at h1
    linarith
  have hJ1 : |1 - J| ≤ 1 + J := by rw [abs_le]; constructor <;> linarith
  have e2 : |a - A| * |1 - J| ≤ w * (1 + J) := mul_le_mul hA hJ1 (abs_nonneg _) hw.le
  have e3 : |a| * |b - (1 - j)| ≤ 1 * |b - (1 - j)| := mul_le_mul_of_nonneg_right (by rw [abs_of_nonneg ha0]; linarith) (abs_nonneg _)
  have e4 : |a| * |j - J| ≤ 1 * |j - J| := mul_le_mul_of_nonneg_right (by rw [abs_of_nonneg ha0]; linarith) (abs_nonneg _)
  have hJw : 0 ≤ J * w := mul_nonneg hJ hw.le
  have e5 : |j + c| ≤ 4 * (1 + J) := by
    have h1 := abs_add_le (j - J) J
    rw [sub_add_cancel, abs_of_nonneg hJ] at h1
    have h2 := abs_add_le (c - a * b) (a * b)
    rw [sub_add_cancel] at h2
    have h3 := abs_add_le j c
    nlinarith
  have e6 : |j + c| * w ≤ 4 * (1 + J) * w := mul_le_mul_of_nonneg_right e5 hw.le
  have t : |d - (J + A * (1 - J))| ≤ |d - (j + c)| + |j - J| + |c - a * b| + |a * b - A * (1 - J)| := by
    have h1 := abs_add_le (d - (j + c)) (j - J)
    have h2 := abs_add_le (d - (j + c) + (j - J)) (c - a * b)
    have h3 := abs_add_le (d - (j + c) + (j - J) + (c - a * b)) (a * b - A * (1 - J))
    rw [show d - (j + c) + (j - J) + (c - a * b) + (a * b - A * (1 - J)) = d - (J + A * (1 - J)) by ring] at h3
    linarith
  linarith

/-- C177: `jaro` and `jaro_winkler` are close to the exact numbers; for names of equal length they are between 0 and 1, for equal names they are 1, and the common
prefix does not lower the likeness. -/
theorem C177_jaro (s t : List Char) (hs : s ≠ []) (ht : t ≠ []) (hl : s.length < 2 ^ 50) (hl' : t.length < 2 ^ 50) :
    ∃ j w J W, jaro s t = .ok j ∧ jaroWinkler s t = .ok w ∧ Coral.jaro s t = .ok J ∧ Coral.jaroWinkler s t = .ok W ∧
      |j - J| ≤ J * 2 ^ (-49 : ℤ) ∧ |w - W| ≤ (1 + J) * 2 ^ (-47 : ℤ) ∧ 0 ≤ j ∧
      (s.length = t.length → j ≤ w ∧ w ≤ 1) ∧ (s = t → j = 1 ∧ w = 1) := by
  obtain ⟨j, J, e1, e2, hd, hr, h1, h2⟩ := jaro_rel hs ht hl hl'
  have e3 := jaroWinkler_of e2
  have hc := commonPrefix_le s t
  obtain ⟨t1, t2, t3⟩ := tenth_le hc
  refine ⟨j, _, J, _, e1, (by simp only [jaroWinkler, e1, bind, Except.bind, pure, Except.pure]; rfl), e2, e3, ?_, ?_, hr.left, ?_, ?_⟩
  · have := hr.close (by norm_num)
    refine this.trans (mul_le_mul_of_nonneg_left ?_ hr.right)
    norm_num
  · have hj : |j - J| ≤ J * (16 * 2 ^ (-53 : ℤ)) := (hr.close (by norm_num)).trans (mul_le_mul_of_nonneg_left (by norm_num) hr.right)
    have hη : (2 : ℚ) ^ (-1075 : ℤ) ≤ 2 ^ (-53 : ℤ) / 100 :=
      le_trans (zpow_le_zpow_right₀ (by norm_num) (by norm_num : (-1075 : ℤ) ≤ -60)) (by norm_num)
    have := winkler_close (by positivity) (by norm_num) hη hr.right t1 t2 hj t3 (fl_close rfl rfl) (fl_close rfl rfl) (fl_close rfl rfl)
    rwa [show 64 * (2 : ℚ) ^ (-53 : ℤ) = 2 ^ (-47 : ℤ) by norm_num] at this
  · intro heq
    have hj1 := h1 heq
    refine ⟨?_, winkler_le hd hr.left hj1 t1 t2⟩
    refine le_fl hd ?_
    have b0 : 0 ≤ fl (1 - j) := le_fl double_zero (by linarith)
    have := le_fl double_zero (mul_nonneg t1 b0)
    linarith
  · intro heq
    have := h2 heq
    subst this
    refine ⟨rfl, ?_⟩
    have z : fl 0 = 0 := fl_id double_zero
    rw [sub_self, z, mul_zero, z, add_zero]
    exact fl_id (by simpa using double_int (n := 1) (by norm_num))

/-- Names that are alike, and not equal. -/
example : jaro ['a', 'b', 'c'] ['a', 'b', 'd'] = .ok (fl (7 / 9) - 2 ^ (-53 : ℤ)) ∧ jaroWinkler ['a', 'b', 'c'] ['a', 'b', 'd'] = .ok (fl (37 / 45)) := by decide +kernel

end Flt
end Coral
