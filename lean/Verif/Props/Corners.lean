import Verif.Props.Rg
import Verif.Props.PF
import Verif.Props.Names
import Verif.Props.Stats
import Verif.Props.Shapefile
import Verif.Props.Dbf

/-!
# Corner cases that callers meet (C194–C198, and more of C62, C97 and C98)

Indices counted from the end, empty names, columns of equal numbers, carriage returns in ids, and missing values in real columns.
-/
namespace Coral

/-! ### C194: indices from the end -/

namespace PF
section
variable {K : Type} [Field K] [LinearOrder K] [IsStrictOrderedRing K] [FloorRing K]

theorem index_neg {α : Type} (l : List α) {k : Nat} (h0 : 0 < k) (hk : k ≤ l.length) : pyIndex l (-(k : Int)) = pyIndex l ((l.length - k : Nat) : Int) := by
  have h1 : (-(k : Int)) < 0 := by omega
  have h2 : ¬ (((l.length - k : Nat) : Int) < 0) := by omega
  simp only [pyIndex, if_pos h1, if_neg h2]
  rw [show -(k : Int) + l.length = ((l.length - k : Nat) : Int) by omega]

theorem take_neg {α : Type} (l : List α) {k : Nat} (h0 : 0 < k) (hk : k ≤ l.length) : pyTake l (-(k : Int)) = pyTake l ((l.length - k : Nat) : Int) := by
  have h1 : ¬ (0 ≤ -(k : Int)) := by omega
  have h2 : (0 : Int) ≤ ((l.length - k : Nat) : Int) := by omega
  simp only [pyTake, if_neg h1, if_pos h2, neg_neg, Int.toNat_natCast]

theorem open_lengths {file : List Byte} {r : PReader K} (h : PReader.open file = .ok r) : r.bboxes.length = r.partlens.length ∧ r.names.length = r.partlens.length := by
  simp only [PReader.open, Res.bind_ok] at h
  obtain ⟨⟨⟨_, _⟩, _⟩, _, ⟨_, _⟩, _, _, _, h⟩ := h
  cases h
  simp

/-- **C194**: `read` takes indices from the end, as sequences do; indices outside raise `IndexError`. -/
theorem C194_from_end {file : List Byte} {r : PReader K} (h : PReader.open file = .ok r) (pos k : Nat) (h0 : 0 < k) :
    (k ≤ r.names.length → r.read pos (-(k : Int)) = r.read pos ((r.names.length - k : Nat) : Int)) ∧
      (r.names.length < k → r.read pos (-(k : Int)) = .error .indexError) ∧ r.read pos (r.names.length + k - 1 : Nat) = .error .indexError := by
  obtain ⟨e1, e2⟩ := open_lengths h
  have e3 : r.names.length = r.bboxes.length := by rw [e1, e2]
  refine ⟨?_, ?_, ?_⟩
  · intro hk
    have a := index_neg r.bboxes h0 (e3 ▸ hk)
    have b := index_neg r.partlens h0 (e2 ▸ hk)
    have c := take_neg r.partlens h0 (e2 ▸ hk)
    rw [← e3] at a
    rw [← e2] at b c
    simp only [PReader.read, a, b, c]
  · intro hk
    have h1 : (-(k : Int)) < 0 := by omega
    have h2 : ¬ (0 ≤ -(k : Int) + r.bboxes.length) := by omega
    simp only [PReader.read, pyIndex, if_pos h1, if_neg h2]
    rfl
  · have h1 : ¬ (((r.names.length + k - 1 : Nat) : Int) < 0) := by omega
    have h2 : (0 : Int) ≤ ((r.names.length + k - 1 : Nat) : Int) := by omega
    have h3 : r.bboxes[((r.names.length + k - 1 : Nat) : Int).toNat]? = none := by
      rw [List.getElem?_eq_none_iff, Int.toNat_natCast]
      omega
    simp only [PReader.read, pyIndex, if_neg h1, if_pos h2, h3]
    rfl

/-- The last and the first of two entities, and one before the first. -/
example : (do
    let w0 ← Res.lift (PWriter.init 2)
    let w ← w0.writeAll [([65, 66], [[((10 : ℚ), 20), (190, 30), (40, 50), (10, 20)]]), ([67], [[(0, 0), (1, 1), (1, 0)]])]
    let file ← Res.lift w.close
    let r ← (PReader.open file : Res (PReader ℚ))
    return (decide ((r.read 0 (-1)) = r.read 0 1), decide ((r.read 0 (-2)) = r.read 0 0), decide ((r.read 0 (-3)).toOption = none),
      decide (r.read 0 0 = r.read 0 1))) = .ok (true, true, true, false) := by
  decide +kernel

end
end PF

/-! ### C195: names -/

/-- The character at a place, the pad beyond the end. -/
def charAt (s : List Char) (i : Nat) : Char := s.getD i '*'

/-- The place `i` of `s` has a partner in `t`: the same place, or one less than half the length away. -/
def Partner (s t : List Char) (n i : Nat) : Prop :=
  charAt s i = charAt t i ∨ ∃ j < n, |(i : Int) - j| ≤ (n : Int) / 2 - 1 ∧ charAt s i = charAt t j

theorem pad_get {s : List Char} {n i : Nat} (hs : s.length ≤ n) (h : i < n) : (padStars s n)[i]? = some (charAt s i) := by
  rw [padStars, charAt, List.getD_eq_getElem?_getD]
  rcases lt_or_ge i s.length with k | k
  · rw [List.getElem?_append_left k, List.getElem?_eq_getElem k]
    rfl
  · rw [List.getElem?_append_right k, List.getElem?_eq_none k, List.getElem?_replicate, if_pos (by omega)]
    rfl

theorem index_some {l : List Char} {i : Nat} {c : Char} (h : l[i]? = some c) : pyIndex l (i : Int) = .ok c := by
  have h1 : ¬ ((i : Int) < 0) := by omega
  have h2 : (0 : Int) ≤ i := by omega
  simp only [pyIndex, if_neg h1, if_pos h2, Int.toNat_natCast, h]

theorem find_nonneg (s : List Char) (c : Char) (i0 i1 : Int) : 0 ≤ pyFind s c i0 i1 ↔ ∃ k < s.length, i0 ≤ k ∧ (k : Int) < i1 ∧ s[k]? = some c := by
  rw [pyFind]
  constructor
  · intro h
    split at h
    · rename_i k hk
      have := List.mem_of_mem_head? hk
      simp only [List.mem_filter, List.mem_range, decide_eq_true_eq] at this
      exact ⟨k, this⟩
    · omega
  · rintro ⟨k, hk, h⟩
    split
    · omega
    · rename_i hn
      have hm : k ∈ (List.range s.length).filter (fun (k : Nat) => decide (i0 ≤ k ∧ (k : Int) < i1 ∧ s[k]? = some c)) := by
        simp only [List.mem_filter, List.mem_range, decide_eq_true_eq]
        exact ⟨hk, h⟩
      rw [List.head?_eq_none_iff] at hn
      rw [hn] at hm
      cases hm

open Classical in
theorem scan_count {s t : List Char} {n : Nat} (hs : s.length ≤ n) (ht : t.length ≤ n) (is : List Nat) (his : ∀ i ∈ is, i < n) (m : Nat) (p : List Int) :
    ∃ p', jaroScan (padStars s n) (padStars t n) n is m p = .ok (m + (is.filter (fun i => decide (Partner s t n i))).length, p') := by
  induction is generalizing m p with
  | nil => exact ⟨p, by simp [jaroScan]⟩
  | cons i is ih =>
    have hi := his i (by simp)
    have ih := fun m p => ih (fun j hj => his j (by simp [hj])) m p
    have hl : (padStars t n).length = n := by rw [padStars, List.length_append, List.length_replicate]; omega
    have ea := index_some (pad_get hs hi)
    have eb := index_some (pad_get ht hi)
    simp only [jaroScan, ea, eb, bind, Except.bind]
    split
    · rename_i h
      obtain ⟨p', e⟩ := ih (m + 1) p
      refine ⟨p', ?_⟩
      rw [e, List.filter_cons_of_pos (by simpa using (show Partner s t n i from .inl h)), List.length_cons, show m + 1 + (is.filter (fun i => decide (Partner s t n i))).length =
        m + ((is.filter (fun i => decide (Partner s t n i))).length + 1) by omega]
    · rename_i h
      split
      · rename_i f
        obtain ⟨p', e⟩ := ih (m + 1) (p ++ [_])
        refine ⟨p', ?_⟩
        have g : Partner s t n i := by
          obtain ⟨k, k1, k2, k3, k4⟩ := (find_nonneg _ _ _ _).mp f
          rw [hl] at k1
          rw [pad_get ht k1, Option.some.injEq] at k4
          exact .inr ⟨k, k1, by rw [abs_le]; omega, k4.symm⟩
        rw [e, List.filter_cons_of_pos (by simpa using g), List.length_cons, show m + 1 + (is.filter (fun i => decide (Partner s t n i))).length =
          m + ((is.filter (fun i => decide (Partner s t n i))).length + 1) by omega]
      · rename_i f
        obtain ⟨p', e⟩ := ih m p
        refine ⟨p', ?_⟩
        have g : ¬ Partner s t n i := by
          rintro (g | ⟨k, k1, k2, k3⟩)
          · exact h g
          · refine f ((find_nonneg _ _ _ _).mpr ⟨k, by rw [hl]; exact k1, ?_, ?_, by rw [pad_get ht k1, k3]⟩) <;> rw [abs_le] at k2 <;> omega
        rw [e, List.filter_cons_of_neg (by simpa using g)]

/-- How many places have a partner. -/
noncomputable def partners (s t : List Char) : Nat := by
  classical exact ((Finset.range (max s.length t.length)).filter (Partner s t (max s.length t.length))).card

open Classical in
theorem partners_eq (s t : List Char) : partners s t = ((List.range (max s.length t.length)).filter (fun i => decide (Partner s t (max s.length t.length) i))).length := by
  rw [partners]
  rfl

/-- **C195**: the number of partners decides `jaro`, but for transpositions. -/
theorem C195_value (s t : List Char) (hs : s ≠ []) (ht : t ≠ []) : ∃ tr : Nat, tr ≤ partners s t ∧
    jaro s t = .ok (if partners s t = 0 then 0 else ((partners s t : ℚ) / s.length + (partners s t : ℚ) / t.length + ((partners s t : ℚ) - tr) / partners s t) / 3) := by
  classical
  have hs' : (s.length : ℚ) ≠ 0 := by exact_mod_cast (List.length_pos_of_ne_nil hs).ne'
  have ht' : (t.length : ℚ) ≠ 0 := by exact_mod_cast (List.length_pos_of_ne_nil ht).ne'
  obtain ⟨p, e⟩ := scan_count (s := s) (t := t) (le_max_left _ _) (le_max_right _ _) (List.range (max s.length t.length)) (by simp) 0 []
  obtain ⟨m', p', e', -, hp⟩ := jaroScan_ok (padStars_length (s := s) (n := max s.length t.length) (le_max_left _ _))
    (padStars_length (s := t) (n := max s.length t.length) (le_max_right _ _)) (List.range (max s.length t.length)) (by simp) 0 []
  rw [← partners_eq, Nat.zero_add] at e
  rw [e, Nat.zero_add, List.nil_append] at e'
  simp only [Except.ok.injEq, Prod.mk.injEq] at e'
  refine ⟨jaroTranspositions p, ?_, ?_⟩
  · rw [e'.1, e'.2]
    exact (jaroTranspositions_le _).trans hp
  · simp only [jaro, e, bind, Except.bind]
    split
    · rfl
    · rename_i h
      have hm : (partners s t : ℚ) ≠ 0 := by exact_mod_cast h
      simp only [pyDiv, if_neg hs', if_neg ht', if_neg hm]
      rfl

/-- **C195**: an empty name and one with a star, which stands for padding, raise `ZeroDivisionError`; without stars an empty name is like nothing. -/
theorem C195_empty (t : List Char) : jaro [] t = (if '*' ∈ t then .error .zeroDivisionError else .ok 0) ∧ jaro t [] = (if '*' ∈ t then .error .zeroDivisionError else .ok 0) := by
  classical
  have star : ∀ i, charAt [] i = '*' := fun i => by simp [charAt]
  have inn : ∀ {i}, i < t.length → (charAt t i = '*' → '*' ∈ t) := by
    intro i hi h
    rw [charAt, List.getD_eq_getElem _ _ hi] at h
    exact h ▸ List.getElem_mem hi
  have hit : '*' ∈ t → ∃ i < t.length, charAt t i = '*' := by
    intro h
    obtain ⟨i, hi, h⟩ := List.getElem_of_mem h
    exact ⟨i, hi, by rw [charAt, List.getD_eq_getElem _ _ hi, h]⟩
  have k1 : partners [] t = 0 ↔ '*' ∉ t := by
    rw [partners, Finset.card_eq_zero, Finset.filter_eq_empty_iff]
    simp only [List.length_nil, Nat.zero_max, Finset.mem_range, Partner, star]
    constructor
    · intro h g
      obtain ⟨i, hi, e⟩ := hit g
      exact h hi (.inl e.symm)
    · rintro g i hi (e | ⟨j, hj, -, e⟩)
      · exact g (inn hi e.symm)
      · exact g (inn hj e.symm)
  have k2 : partners t [] = 0 ↔ '*' ∉ t := by
    rw [partners, Finset.card_eq_zero, Finset.filter_eq_empty_iff]
    simp only [List.length_nil, Nat.max_zero, Finset.mem_range, Partner, star]
    constructor
    · intro h g
      obtain ⟨i, hi, e⟩ := hit g
      exact h hi (.inl e)
    · rintro g i hi (e | ⟨j, hj, -, e⟩) <;> exact g (inn hi e)
  have scan : ∀ s t' : List Char, ∃ p, jaroScan (padStars s (max s.length t'.length)) (padStars t' (max s.length t'.length)) (max s.length t'.length)
      (List.range (max s.length t'.length)) 0 [] = .ok (partners s t', p) := by
    intro s t'
    obtain ⟨p, e⟩ := scan_count (s := s) (t := t') (le_max_left _ _) (le_max_right _ _) (List.range (max s.length t'.length)) (by simp) 0 []
    exact ⟨p, by rw [partners_eq, e, Nat.zero_add]⟩
  constructor
  · obtain ⟨p, e⟩ := scan [] t
    simp only [jaro, e, bind, Except.bind]
    by_cases g : '*' ∈ t
    · rw [if_pos g, if_neg (by rw [k1]; simpa using g)]
      simp [pyDiv]
    · rw [if_neg g, if_pos (k1.mpr g)]
      rfl
  · obtain ⟨p, e⟩ := scan t []
    simp only [jaro, e, bind, Except.bind]
    by_cases g : '*' ∈ t
    · have : (t.length : ℚ) ≠ 0 := by exact_mod_cast (List.length_pos_of_mem g).ne'
      rw [if_pos g, if_neg (by rw [k2]; simpa using g)]
      simp only [pyDiv, if_neg this]
      simp
    · rw [if_neg g, if_pos (k2.mpr g)]
      rfl

/-- An empty name in the table makes the name `*` unusable. -/
example : jaro [] ['*'] = .error .zeroDivisionError := (C195_empty ['*']).1

/-- Two places have partners: the first letters, and the `b` next to the other `b`. -/
example : ∃ tr : Nat, jaro "abcd".toList "acxb".toList = .ok ((partners "abcd".toList "acxb".toList / 4 + partners "abcd".toList "acxb".toList / 4 +
    (partners "abcd".toList "acxb".toList - tr) / partners "abcd".toList "acxb".toList) / 3) ∧ 0 < partners "abcd".toList "acxb".toList := by
  classical
  have h : 0 < partners "abcd".toList "acxb".toList := by
    rw [partners, Finset.card_pos]
    exact ⟨0, by simp [Partner, charAt]⟩
  obtain ⟨tr, -, e⟩ := C195_value "abcd".toList "acxb".toList (by decide) (by decide)
  refine ⟨tr, ?_, h⟩
  rw [e, if_neg h.ne']
  rfl

/-! ### C196: columns of equal numbers -/

namespace Stats

theorem dev_zero {l : List ℝ} (hl : l ≠ []) (h : ∀ x ∈ l, ∀ y ∈ l, x = y) : stdDev Real.sqrt l = .ok 0 := by
  obtain ⟨_, v, _, ev, _, _, _, vz, _⟩ := C63_var l hl
  rw [stdDev, ev, vz.mpr h]
  change pySqrt Real.sqrt 0 = _
  rw [pySqrt, if_neg (lt_irrefl _), Real.sqrt_zero]

theorem dev_ok (l : List ℝ) (hl : l ≠ []) : ∃ d, stdDev Real.sqrt l = .ok d ∧ 0 ≤ d := by
  obtain ⟨_, v, _, ev, _, v0, _⟩ := C63_var l hl
  refine ⟨√v, ?_, Real.sqrt_nonneg v⟩
  rw [stdDev, ev]
  change pySqrt Real.sqrt v = _
  rw [pySqrt, if_neg (not_lt.mpr v0)]

/-- **C196**: equal numbers deviate by zero from their average, and numbers deviate by zero only if they are equal. -/
theorem C196_deviation (l : List ℝ) (hl : l ≠ []) : ∃ d, stdDev Real.sqrt l = .ok d ∧ 0 ≤ d ∧ (d = 0 ↔ ∀ x ∈ l, ∀ y ∈ l, x = y) := by
  obtain ⟨_, v, _, ev, _, v0, _, vz, _⟩ := C63_var l hl
  refine ⟨√v, ?_, Real.sqrt_nonneg v, by rw [Real.sqrt_eq_zero v0, vz]⟩
  rw [stdDev, ev]
  change pySqrt Real.sqrt v = _
  rw [pySqrt, if_neg (not_lt.mpr v0)]

/-- **C196**: the correlation with equal numbers is not defined, `ZeroDivisionError` is raised; and so is it for no numbers at all. -/
theorem C196_undefined (x y : List ℝ) (hl : x.length = y.length) (h : (∀ a ∈ x, ∀ b ∈ x, a = b) ∨ ∀ a ∈ y, ∀ b ∈ y, a = b) :
    corr Real.sqrt x y = .error .zeroDivisionError := by
  rcases eq_or_ne x [] with rfl | hx
  · simp [corr, covar, avg, div, bind, Except.bind]
  · have hy : y ≠ [] := by rintro rfl; simp at hl; exact hx hl
    obtain ⟨d, ed, -⟩ := dev_ok x hx
    obtain ⟨d', ed', -⟩ := dev_ok y hy
    simp only [corr, covar_ok hl hx, ed, ed', bind, Except.bind]
    have : d * d' = 0 := by
      rcases h with h | h
      · rw [dev_zero hx h, Except.ok.injEq] at ed
        rw [← ed, zero_mul]
      · rw [dev_zero hy h, Except.ok.injEq] at ed'
        rw [← ed', mul_zero]
    rw [div, if_pos this]

example : corr Real.sqrt [1, 2, 3] [5, 5, 5] = .error .zeroDivisionError := C196_undefined _ _ rfl (.inr (by simp))

section
variable {K : Type} [Field K] [LinearOrder K] [IsStrictOrderedRing K] [FloorRing K]

theorem foldl_max (l : List K) (x : K) : l.foldl max x ∈ x :: l ∧ ∀ y ∈ x :: l, y ≤ l.foldl max x := by
  induction l generalizing x with
  | nil => simp
  | cons a l ih =>
    obtain ⟨h1, h2⟩ := ih (max x a)
    rw [List.foldl_cons]
    refine ⟨?_, ?_⟩
    · rcases List.mem_cons.mp h1 with h | h
      · rw [h]
        rcases max_choice x a with e | e <;> rw [e] <;> simp
      · simp [h]
    · intro y hy
      have h3 := h2 (max x a) (by simp)
      rcases List.mem_cons.mp hy with rfl | hy
      · exact (le_max_left _ _).trans h3
      · rcases List.mem_cons.mp hy with rfl | hy
        · exact (le_max_right _ _).trans h3
        · exact h2 y (by simp [hy])

theorem foldl_min (l : List K) (x : K) : l.foldl min x ∈ x :: l ∧ ∀ y ∈ x :: l, l.foldl min x ≤ y := by
  induction l generalizing x with
  | nil => simp
  | cons a l ih =>
    obtain ⟨h1, h2⟩ := ih (min x a)
    rw [List.foldl_cons]
    refine ⟨?_, ?_⟩
    · rcases List.mem_cons.mp h1 with h | h
      · rw [h]
        rcases min_choice x a with e | e <;> rw [e] <;> simp
      · simp [h]
    · intro y hy
      have h3 := h2 (min x a) (by simp)
      rcases List.mem_cons.mp hy with rfl | hy
      · exact h3.trans (min_le_left _ _)
      · rcases List.mem_cons.mp hy with rfl | hy
        · exact h3.trans (min_le_right _ _)
        · exact h2 y (by simp [hy])

/-- C62, the values: after any calls `max` and `min` of some numbers give the greatest and the least of them, and of none raise `ValueError`. -/
theorem C62_extremes (sqrt : K → K) (ops : List (Op K)) (l : List K) :
    (l ≠ [] → ∃ a b, (run sqrt .init (ops ++ [.call .max [l], .call .min [l]])).1 = (run sqrt .init ops).1 ++ [some (.ok a), some (.ok b)] ∧
      a ∈ l ∧ b ∈ l ∧ ∀ x ∈ l, b ≤ x ∧ x ≤ a) ∧
    (run sqrt .init (ops ++ [.call .max [[]], .call .min [[]]])).1 = (run sqrt .init ops).1 ++ [some (.error .valueError), some (.error .valueError)] := by
  have e : ∀ ops ops' : List (Op K), bareRun sqrt (ops ++ ops') = bareRun sqrt ops ++ bareRun sqrt ops' := by
    intro ops ops'
    induction ops with
    | nil => rfl
    | cons o ops ih => cases o <;> simp [bareRun, ih]
  have r : ∀ ops : List (Op K), (run sqrt .init ops).1 = bareRun sqrt ops := fun ops => (C62_transparent sqrt ops).1
  simp only [r, e]
  refine ⟨?_, rfl⟩
  intro hl
  match l, hl with
  | x :: l, _ =>
    refine ⟨l.foldl max x, l.foldl min x, rfl, (foldl_max l x).1, (foldl_min l x).1, fun y hy => ⟨(foldl_min l x).2 y hy, (foldl_max l x).2 y hy⟩⟩

end

example (sqrt : ℚ → ℚ) : (run sqrt .init [.call .max [[1, 3, 2]], .call .min [[1, 3, 2]]]).1 = [some (.ok 3), some (.ok 1)] := by
  rw [(C62_transparent sqrt _).1]
  simp only [bareRun, bare, pyMax, pyMin]
  decide +kernel

end Stats

/-! ### C97, C98: the regular grid files -/

namespace Rg

/-- C97, missing values: what is written for one depends on the kind of the column and if it was declared to have missing values. -/
theorem C97_none {K : Type} [Field K] [LinearOrder K] [IsStrictOrderedRing K] [FloorRing K] {k : Kind} {col : Column K} (h : k.make = .ok col) :
    col.encode .none = match k with
      | .ivar _ _ _ => .error .attributeError
      | .fvar _ _ _ n => .error (if n then .structError else .assertionError)
      | .svar size n => if n then .ok (List.replicate size 0xff) else .error .assertionError := by
  cases k with
  | ivar a b n =>
    simp only [Kind.make, Py.bind_ok] at h
    obtain ⟨v, hv, h⟩ := h
    cases h
    simp only [IVar.init, Py.bind_ok] at hv
    obtain ⟨_, _, _, _, hv⟩ := hv
    cases hv
    rfl
  | fvar a b size n =>
    simp only [Kind.make, Py.bind_ok] at h
    obtain ⟨v, hv, h⟩ := h
    cases h
    simp only [FVar.init, Py.bind_ok] at hv
    obtain ⟨_, _, _, _, hv⟩ := hv
    cases hv
    cases n
    · rfl
    · simp [Column.encode, FVar.encode, FVar.index, pyAssert, bind, Except.bind, pure, Except.pure, packU, sizeSpan]
  | svar size n =>
    cases h
    cases n <;> rfl

theorem newlines_append {a : Str} (h : '\r' ∉ a) (s : Str) : newlines (a ++ s) = a ++ newlines s := by
  induction a with
  | nil => rfl
  | cons c a ih =>
    have hc : c ≠ '\r' := fun e => h (by simp [e])
    have : newlines (c :: (a ++ s)) = c :: newlines (a ++ s) := by
      rw [newlines]
      · rintro s' rfl
        exact fun e => absurd rfl hc
      · rintro rfl
        exact absurd rfl hc
    rw [List.cons_append, this, ih (fun e => h (by simp [e])), List.cons_append]

/-- C98, the limits: so does an id with a carriage return, which is read as the end of a line. -/
theorem C98_return {before after : List (Str × List Nat)} {u v : Str} {ns : List Nat} (h : ∀ e ∈ before, IdOk e.1 ∧ e.2 ≠ []) (hu : IdOk u) :
    readIndex (writeIndex (before ++ (u ++ '\r' :: v, ns) :: after)) = .error .valueError := by
  have h1 : '\n' ∉ decNat (before ++ (u ++ '\r' :: v, ns) :: after).length := decNat_not_mem (by decide)
  have h1' : '\r' ∉ decNat (before ++ (u ++ '\r' :: v, ns) :: after).length := decNat_not_mem (by decide)
  have h2 : '\r' ∉ (before.map writeEntry).flatten := by
    intro hm
    obtain ⟨l, hl, hc⟩ := List.mem_flatten.mp hm
    obtain ⟨e, he, rfl⟩ := List.mem_map.mp hl
    exact writeEntry_not_mem (h e he).1.2.2 hc
  obtain ⟨s, hs⟩ : ∃ s, ((((u ++ '\r' :: v, ns) :: after).map writeEntry).flatten) = u ++ '\r' :: s := ⟨_, by simp [writeEntry]; rfl⟩
  obtain ⟨s', hs'⟩ : ∃ s', newlines ('\r' :: s) = '\n' :: s' := by
    match s with
    | [] => exact ⟨_, rfl⟩
    | c :: s => by_cases hc : c = '\n'
                · subst hc; exact ⟨_, rfl⟩
                · refine ⟨newlines (c :: s), ?_⟩
                  rw [newlines]
                  rintro s' e
                  exact hc (List.cons.inj e).1
  have h3 : newlines (writeIndex (before ++ (u ++ '\r' :: v, ns) :: after)) =
      decNat (before ++ (u ++ '\r' :: v, ns) :: after).length ++ '\n' :: ((before.map writeEntry).flatten ++ (u ++ '\n' :: s')) := by
    rw [writeIndex, newlines_append h1', List.map_append, List.flatten_append, hs, ← List.singleton_append (x := '\n'), newlines_append (by simp), newlines_append h2,
      newlines_append hu.2.2, hs', List.singleton_append]
  rw [readIndex, h3, readline_line h1]
  simp only [pyIntOf_line, ok_bind, Int.toNat_natCast]
  rw [List.length_append, List.length_cons]
  refine readEntries_error h ?_ _
  have hl := pySplit_length ' ' (u ++ ['\n'])
  rw [List.count_append, List.count_eq_zero.mpr hu.1] at hl
  rw [readEntry, readline_line hu.2.1]
  generalize pySplit ' ' (u ++ ['\n']) = l at hl ⊢
  match l, hl with
  | [], _ => rfl
  | [_], _ => rfl
  | _ :: _ :: _, hl => simp at hl

example : readIndex (writeIndex [("a".toList, [2]), ("b\rc".toList, [1])]) = .error .valueError :=
  C98_return (before := [("a".toList, [2])]) (u := "b".toList) (v := "c".toList) (after := []) (by simp [IdOk]) (by simp [IdOk])

/-- C98, the limits: so does an entity whose number of segments is not a number, `int` of it raises `ValueError`. -/
theorem C98_count {before : List (Str × List Nat)} {id x rest : Str} {n : Nat} (h : ∀ e ∈ before, IdOk e.1 ∧ e.2 ≠ []) (hid : IdOk id) (hx : IdOk x)
    (hc : pyIntOf (x ++ ['\n']) = .error .valueError) (hn : before.length < n) :
    readIndex (decNat n ++ '\n' :: ((before.map writeEntry).flatten ++ (id ++ ' ' :: (x ++ '\n' :: rest)))) = .error .valueError := by
  have h1 : '\n' ∉ decNat n := decNat_not_mem (by decide)
  have h1' : '\r' ∉ decNat n := decNat_not_mem (by decide)
  have h2 : '\r' ∉ (before.map writeEntry).flatten := by
    intro hm
    obtain ⟨l, hl, hc⟩ := List.mem_flatten.mp hm
    obtain ⟨e, he, rfl⟩ := List.mem_map.mp hl
    exact writeEntry_not_mem (h e he).1.2.2 hc
  have h3 : newlines (decNat n ++ '\n' :: ((before.map writeEntry).flatten ++ (id ++ ' ' :: (x ++ '\n' :: rest)))) =
      decNat n ++ '\n' :: ((before.map writeEntry).flatten ++ (id ++ ' ' :: (x ++ '\n' :: newlines rest))) := by
    rw [newlines_append h1', ← List.singleton_append (x := '\n'), newlines_append (by simp), newlines_append h2, newlines_append hid.2.2, ← List.singleton_append (x := ' '),
      newlines_append (by simp), newlines_append hx.2.2, ← List.singleton_append (x := '\n') (l := rest), newlines_append (by simp)]
    rfl
  rw [readIndex, h3, readline_line h1]
  simp only [pyIntOf_line, ok_bind, Int.toNat_natCast]
  obtain ⟨k, rfl⟩ : ∃ k, n = before.length + (k + 1) := ⟨n - before.length - 1, by omega⟩
  refine readEntries_error h ?_ _
  have h4 : '\n' ∉ id ++ ' ' :: x := by
    simp only [List.mem_append, List.mem_cons, not_or]
    exact ⟨hid.2.1, by decide, hx.2.1⟩
  have h5 : id ++ ' ' :: (x ++ '\n' :: newlines rest) = (id ++ ' ' :: x) ++ '\n' :: newlines rest := by simp
  have h6 : pySplit ' ' ((id ++ ' ' :: x) ++ ['\n']) = [id, x ++ ['\n']] := by
    rw [List.append_assoc, List.cons_append, pySplit_append hid.1, pySplit_of_not_mem (by simpa using hx.1)]
  rw [readEntry, h5, readline_line h4, h6]
  simp only [hc]
  rfl

example : readIndex "1\na x\n3\n".toList = .error .valueError :=
  C98_count (before := []) (id := ['a']) (x := ['x']) (n := 1) (rest := "3\n".toList) (by simp) (by simp [IdOk]) (by simp [IdOk]) (by decide) (by decide)

end Rg

/-! ### C197: blank numbers in attribute files -/

namespace Dbf
variable {F : Type} (pyFloat : List Byte → Py F)

/-- A number was read. -/
def Value.isNumber : Value F → Prop
  | .int _ | .float _ => True
  | _ => False

theorem drop_all {bs : List Byte} (h : ∀ b ∈ bs, byteSpace b = true) : bs.dropWhile byteSpace = [] := by
  induction bs with
  | nil => rfl
  | cons b bs ih => rw [List.dropWhile_cons_of_pos (h b (by simp)), ih (fun b hb => h b (by simp [hb]))]

/-- **C197 fails**: a number that was left blank is not read as 0 but as the blanks. -/
theorem C197_blank_violated (f : Field) (value : List Byte) (h : ∀ b ∈ value, byteSpace b = true) :
    parseValue pyFloat f value = .ok (.raw value) ∧ ¬ (Value.raw value : Value F).isNumber := by
  have : bstrip value = [] := by
    have : value.dropWhile byteSpace = [] := drop_all h
    rw [bstrip, this]
    rfl
  exact ⟨by rw [parseValue, if_pos this], id⟩

/-- **C197**, what holds: filled with NULs, or with NULs and blanks, it is read as 0; and anything that is read but blanks is a number. -/
theorem C197_zero_partial (f : Field) (hf : f.type = ['N']) (value : List Byte) (h0 : ∃ b ∈ value, byteSpace b = false) :
    ((∀ b ∈ value, b = 0 ∨ byteSpace b = true) → parseValue pyFloat f value = .ok (.int 0)) ∧ ∀ x, parseValue pyFloat f value = .ok x → x.isNumber := by
  have hne : bstrip value ≠ [] := by
    intro e
    obtain ⟨b, hb, h0⟩ := h0
    rw [bstrip_nil e b hb] at h0
    cases h0
  constructor
  · intro h
    have : bstrip (value.filter (· ≠ 0)) = [] := by
      have : (value.filter (· ≠ 0)).dropWhile byteSpace = [] := by
        refine drop_all fun b hb => ?_
        simp only [List.mem_filter, decide_eq_true_eq] at hb
        exact (h b hb.1).resolve_left hb.2
      rw [bstrip, this]
      rfl
    rw [parseValue, if_neg hne, if_pos hf, parseNumber, if_pos this]
  · intro x hx
    rw [parseValue, if_neg hne, if_pos hf, parseNumber] at hx
    split at hx
    · cases hx; trivial
    · split at hx <;>
      · simp only [Py.bind_ok] at hx
        obtain ⟨_, _, hx⟩ := hx
        cases hx
        trivial

/-- Three blanks, and three NULs. -/
example (f : Field) (hf : f.type = ['N']) : parseValue pyFloat f [32, 32, 32] = .ok (.raw [32, 32, 32]) ∧ parseValue pyFloat f [0, 0, 0] = .ok (.int 0) :=
  ⟨(C197_blank_violated pyFloat f _ (by decide)).1, (C197_zero_partial pyFloat f hf _ ⟨0, by decide, by decide⟩).1 (by decide)⟩

end Dbf

/-! ### C198: points among lines -/

namespace Shapefile
variable {D : Type} [Double D]

/-- **C198**: a file of lines or polygons that begins with a shape without parts, such as `point` adds, cannot be saved, `UnboundLocalError` is raised. -/
theorem C198_first {w : Writer D} {t : Int} (ht : w.shapeType = some t) (hp : t ∈ parted) {s : Shape D} {ss : List (Shape D)} (hs : w.shapes = s :: ss) (hn : s.parts = none) :
    w.saveShp = .error .unboundLocalError := by
  have ht0 : t ≠ 0 := by rintro rfl; revert hp; decide
  have e0 : w.withType = .ok w := by
    rw [Writer.withType, if_neg (by rw [ht]; simp [ht0])]
  have e1 : shpFileLength t w.shapes = .error .unboundLocalError := by
    rw [shpFileLength, hs, sizesOf, sizeOf, lastParts, hn]
    simp only [partsSize, if_pos hp]
    rfl
  rw [Writer.saveShp, e0]
  simp only [ok_bind, ht, number, e1, header]
  rfl

theorem records_parts {t : Int} (hp : t ∈ parted) (h31 : t ≠ 31) {n : Nat} {f : File} {offs lens : List Nat} {ss : List (Shape D)} {res}
    (h : recordsLoop (some t) n f offs lens ss = .ok res) : ∀ s ∈ ss, s.parts ≠ none := by
  induction ss generalizing n f offs lens res with
  | nil => simp
  | cons s ss ih =>
    simp only [recordsLoop, Py.bind_ok] at h
    obtain ⟨_, _, _, _, t', ht', ⟨c, s'⟩, hc, _, _, r, hr, h⟩ := h
    have e : t' = t := by
      rw [retype, if_pos (by simpa using h31)] at ht'
      cases ht'
      rfl
    subst e
    intro x hx
    rcases List.mem_cons.mp hx with rfl | hx
    · intro hn
      simp only [content, Py.bind_ok] at hc
      obtain ⟨_, _, _, hb, _⟩ := hc
      simp only [body, Py.bind_ok] at hb
      obtain ⟨_, _, _, hb, _⟩ := hb
      have : (retype (some t') x).parts = none := by
        rw [retype, if_pos (by simpa using h31)]
        exact hn
      rw [writeIf, if_pos hp, this] at hb
      cases hb
    · exact ih hr x hx

/-- **C198**: and no such shape can be anywhere in a file that is saved, but for multipatches. -/
theorem C198_anywhere {w : Writer D} {t : Int} (ht : w.shapeType = some t) (hp : t ∈ parted) (h31 : t ≠ 31) (h : ∃ s ∈ w.shapes, s.parts = none) :
    ∃ e, w.saveShp = .error e := by
  rcases hr : w.saveShp with e | r
  · exact ⟨e, rfl⟩
  · exfalso
    have ht0 : t ≠ 0 := by rintro rfl; revert hp; decide
    have e0 : w.withType = .ok w := by
      rw [Writer.withType, if_neg (by rw [ht]; simp [ht0])]
    simp only [Writer.saveShp, e0, ok_bind, Py.bind_ok] at hr
    obtain ⟨_, _, _, _, ⟨_, _, _, _⟩, hr, _⟩ := hr
    rw [ht] at hr
    obtain ⟨s, hs, hn⟩ := h
    exact records_parts hp h31 hr s hs hn

/-- `x` does not raise `UnboundLocalError`. -/
def Bound {α : Type} (x : Py α) : Prop := x ≠ .error .unboundLocalError

theorem Bound.bind {α β : Type} {x : Py α} {f : α → Py β} (hx : Bound x) (hf : ∀ a, x = .ok a → Bound (f a)) : Bound (x >>= f) := by
  cases x with
  | error e => exact fun h => hx (by cases h; rfl)
  | ok a => exact hf a rfl

theorem Bound.ok {α : Type} (a : α) : Bound (.ok a : Py α) := fun h => by cases h

theorem Bound.pure {α : Type} (a : α) : Bound (Pure.pure a : Py α) := fun h => by cases h

theorem Bound.mapM {α β : Type} {f : α → Py β} (hf : ∀ a, Bound (f a)) (l : List α) : Bound (l.mapM f) := by
  induction l with
  | nil => exact Bound.pure _
  | cons a l ih =>
    rw [List.mapM_cons]
    exact (hf a).bind fun _ _ => ih.bind fun _ _ => Bound.pure _

theorem bound_packI (v : Int) : Bound (packI v) := by
  unfold packI; split <;> exact fun h => by cases h

theorem bound_packBI (v : Int) : Bound (packBI v) := (bound_packI v).bind fun _ _ => Bound.pure _

theorem bound_packAll (l : List Int) : Bound (packAll l) := (Bound.mapM bound_packI l).bind fun _ _ => Bound.pure _

theorem bound_minOf (l : List D) : Bound (minOf l) := by cases l <;> exact fun h => by cases h

theorem bound_maxOf (l : List D) : Bound (maxOf l) := by cases l <;> exact fun h => by cases h

theorem bound_attr {α : Type} (o : Option α) : Bound (attr o) := by cases o <;> exact fun h => by cases h

theorem bound_number (o : Option Int) : Bound (number o) := by cases o <;> exact fun h => by cases h

theorem bound_bboxOf (ss : List (Shape D)) : Bound (bboxOf ss) :=
  (Bound.mapM (fun s => by unfold columns; split <;> exact fun h => by cases h) ss).bind fun _ _ => (bound_minOf _).bind fun _ _ =>
    (bound_minOf _).bind fun _ _ => (bound_maxOf _).bind fun _ _ => (bound_maxOf _).bind fun _ _ => Bound.pure _

theorem bound_zboxOf (ss : List (Shape D)) : Bound (zboxOf ss) := (bound_minOf _).bind fun _ _ => (bound_maxOf _).bind fun _ _ => Bound.pure _

theorem bound_mboxOf (ss : List (Shape D)) : Bound (mboxOf ss) := (bound_minOf _).bind fun _ _ => (bound_maxOf _).bind fun _ _ => Bound.pure _

theorem bound_writeIf {c : Prop} [Decidable c] {x : Py (List Byte)} (h : Bound x) : Bound (writeIf c x) := by
  unfold writeIf; split
  · exact h
  · exact Bound.ok _

theorem bound_changeIf {c : Prop} [Decidable c] {x : Shape D → Py (List Byte × Shape D)} {s : Shape D} (h : Bound (x s)) : Bound (changeIf c x s) := by
  unfold changeIf; split
  · exact h
  · exact Bound.ok _

theorem bound_pointZ (s : Shape D) : Bound (pointZ s) := by
  unfold pointZ
  split
  · exact Bound.ok _
  · exact Bound.ok _
  · split
    · exact fun h => by cases h
    · dsimp only; split <;> exact fun h => by cases h

theorem bound_pointM (s : Shape D) : Bound (pointM s) := by
  unfold pointM
  split
  · exact Bound.ok _
  · exact Bound.ok _
  · exact fun h => by cases h
  · split
    · exact fun h => by cases h
    · dsimp only; split <;> exact fun h => by cases h

theorem bound_body (s : Shape D) (t : Int) : Bound (body s t) := by
  refine (bound_writeIf ((bound_bboxOf _).bind fun _ _ => Bound.pure _)).bind fun _ _ => ?_
  refine (bound_writeIf ((bound_attr _).bind fun _ _ => bound_packI _)).bind fun _ _ => ?_
  refine (bound_writeIf (bound_packI _)).bind fun _ _ => ?_
  refine (bound_writeIf ((bound_attr _).bind fun _ _ => bound_packAll _)).bind fun _ _ => ?_
  refine (bound_writeIf ((bound_attr _).bind fun _ _ => bound_packAll _)).bind fun _ _ => ?_
  refine (bound_writeIf ((Bound.mapM (fun p => by unfold packPoint; split <;> exact fun h => by cases h) _).bind fun _ _ => Bound.pure _)).bind fun _ _ => ?_
  refine (bound_writeIf ((bound_zboxOf _).bind fun _ _ => (bound_attr _).bind fun _ _ => Bound.pure _)).bind fun _ _ => ?_
  refine (bound_writeIf ((bound_mboxOf _).bind fun _ _ =>
    (Bound.mapM (fun p => by unfold packM; split <;> exact fun h => by cases h) _).bind fun _ _ => Bound.pure _)).bind fun _ _ => ?_
  exact (bound_writeIf (by unfold packFirst; split <;> exact fun h => by cases h)).bind fun _ _ => Bound.pure _

theorem bound_content (s : Shape D) (t : Int) : Bound (content s t) :=
  (bound_packI _).bind fun _ _ => (bound_body _ _).bind fun _ _ => (bound_changeIf (bound_pointZ _)).bind fun _ _ =>
    (bound_changeIf (bound_pointM _)).bind fun _ _ => Bound.pure _

theorem bound_records (w : Option Int) (n : Nat) (f : File) (offs lens : List Nat) (ss : List (Shape D)) : Bound (recordsLoop w n f offs lens ss) := by
  induction ss generalizing n f offs lens with
  | nil => exact Bound.ok _
  | cons s ss ih =>
    simp only [recordsLoop]
    exact (bound_packBI _).bind fun _ _ => (bound_packBI _).bind fun _ _ => (bound_number _).bind fun _ _ => (bound_content _ _).bind fun _ _ =>
      (bound_packBI _).bind fun _ _ => (ih _ _ _ _).bind fun _ _ => Bound.pure _

theorem bound_partsSize (c : Prop) [Decidable c] (n : Nat) (k : Nat → Nat) : Bound (partsSize c (some n) k) := by
  unfold partsSize; split <;> exact Bound.ok _

/-- Once there was a shape with parts, the size of every shape is known. -/
theorem bound_sizesOf (t : Int) (n : Nat) (ss : List (Shape D)) : Bound (sizesOf t (some n) ss) := by
  induction ss generalizing n with
  | nil => exact Bound.ok _
  | cons s ss ih =>
    obtain ⟨m, hm⟩ : ∃ m, lastParts (some n) s = some m := by
      unfold lastParts; split <;> exact ⟨_, rfl⟩
    have hs : Bound (sizeOf t (some n) s) := by
      unfold sizeOf; simp only [hm]
      exact (bound_partsSize _ _ _).bind fun _ _ => (bound_partsSize _ _ _).bind fun _ _ => Bound.pure _
    refine hs.bind fun r hr => ?_
    have : r.2 = some m := by
      unfold sizeOf at hr; simp only [hm, Py.bind_ok] at hr
      obtain ⟨_, _, _, _, hr⟩ := hr
      cases hr; rfl
    obtain ⟨k, n'⟩ := r
    cases this
    exact (ih m).bind fun _ _ => Bound.pure _

/-- **C198**: `UnboundLocalError` is raised for no other reason than a first shape without parts. -/
theorem C198_only_first {w : Writer D} {t : Int} (ht : w.shapeType = some t) (hp : t ∈ parted) :
    w.saveShp = .error .unboundLocalError ↔ ∃ s ss, w.shapes = s :: ss ∧ s.parts = none := by
  constructor
  · intro h
    by_contra hno
    have ht0 : t ≠ 0 := by rintro rfl; revert hp; decide
    have e0 : w.withType = .ok w := by
      rw [Writer.withType, if_neg (by rw [ht]; simp [ht0])]
    have hl : Bound (shpFileLength t w.shapes) := by
      refine Bound.bind ?_ fun _ _ => Bound.pure _
      cases hw : w.shapes with
      | nil => exact Bound.ok _
      | cons s ss =>
        cases hs : s.parts with
        | none => exact absurd ⟨s, ss, hw, hs⟩ hno
        | some ps =>
          have hlp : lastParts none s = some ps.length := by unfold lastParts; rw [hs]
          have hso : Bound (sizeOf t none s) := by
            unfold sizeOf; simp only [hlp]
            exact (bound_partsSize _ _ _).bind fun _ _ => (bound_partsSize _ _ _).bind fun _ _ => Bound.pure _
          refine hso.bind fun r hr => ?_
          have : r.2 = some ps.length := by
            unfold sizeOf at hr; simp only [hlp, Py.bind_ok] at hr
            obtain ⟨_, _, _, _, hr⟩ := hr
            cases hr; rfl
          obtain ⟨k, n'⟩ := r
          cases this
          exact (bound_sizesOf _ _ _).bind fun _ _ => Bound.pure _
    have hh : Bound (header (shpFileLength t w.shapes) t w.shapes) := by
      refine (Bound.mapM bound_packBI _).bind fun _ _ => hl.bind fun _ _ => (bound_packBI _).bind fun _ _ => (bound_packI _).bind fun _ _ =>
        (bound_packI _).bind fun _ _ => Bound.bind ?_ fun _ _ => (bound_zboxOf _).bind fun _ _ => (bound_mboxOf _).bind fun _ _ => Bound.pure _
      rw [headerBox, if_pos ht0]
      exact bound_bboxOf _
    refine absurd h ?_
    rw [Writer.saveShp, e0]
    exact (bound_number _).bind fun t' ht' => by
      rw [ht] at ht'
      cases ht'
      exact hh.bind fun _ _ => (bound_records _ _ _ _ _ _).bind fun _ _ => Bound.pure _
  · rintro ⟨s, ss, hs, hn⟩
    exact C198_first ht hp hs hn

/-- A line and then a shape without parts: another error. -/
example : (({ shapeType := some 3, shapes := [{ shapeType := some 3, points := [[0, 0], [toy 1, 0]], parts := some [0] },
    { shapeType := some 3, points := [[0, 0]] }] } : Writer Toy).saveShp.map fun _ => ()) = .error .attributeError := by decide +kernel

/-- A point in a file of lines. -/
example (x y : D) : (Writer.point ({ shapeType := some 3 } : Writer D) x y 0 0).saveShp = .error .unboundLocalError :=
  C198_first rfl (by decide) rfl rfl

end Shapefile
end Coral
