import Verif.Proofs.Names
import Verif.Proofs.Triangle
import Mathlib.Tactic.Linarith
import Mathlib.Tactic.NormNum

/-! # Properties of `names` -/
set_option linter.unusedSectionVars false
namespace Coral
open scoped List

/-! ### C55-C57: `damlev` -/

/-- **C55.** `damlev` returns the least number of edits. -/
theorem C55_damlev {α : Type} [DecidableEq α] (s t : List α) : ∃ n, damlev s t = .ok n ∧ LeastEdits s t n := damlev_least s t

example : damlev "ca".toList "ac".toList = .ok 1 := by decide +kernel
example : damlev "kitten".toList "sitting".toList = .ok 3 := by decide +kernel
example : damlev ("" : String).toList "abc".toList = .ok 3 := by decide +kernel

/-- **C56.** Symmetric, zero only for equal strings, and between the difference and the maximum of the lengths. -/
theorem C56_damlev {α : Type} [DecidableEq α] (s t : List α) : ∃ n, damlev s t = .ok n ∧ damlev t s = .ok n ∧ (n = 0 ↔ s = t) ∧
    s.length - t.length ≤ n ∧ t.length - s.length ≤ n ∧ n ≤ max s.length t.length := by
  obtain ⟨n, e, hn⟩ := damlev_least s t
  obtain ⟨n', e', hn'⟩ := damlev_least t s
  have := hn'.unique hn.symm
  subst this
  have hl := edits_length hn.1
  refine ⟨_, e, e', ⟨fun h => edits_zero hn.1 h, fun h => ?_⟩, by omega, by omega, hn.2 _ (edits_max s t)⟩
  subst h
  have := hn.2 0 (edits_refl s)
  omega

/-- **C57, violated.** The triangle inequality fails: ca → ac → abc are two edits, but `damlev("ca", "abc")` is 3. -/
theorem C57_triangle_violated : ¬ ∀ s t u : List Char, ∀ a b c, damlev s t = .ok a → damlev t u = .ok b → damlev s u = .ok c →
    c ≤ a + b := by
  intro h
  have := h "ca".toList "ac".toList "abc".toList 1 1 3 (by decide +kernel) (by decide +kernel) (by decide +kernel)
  omega

/-- **C57, partial.** It holds up to a factor of 3/2, which the strings above reach. -/
theorem C57_triangle_partial {α : Type} [DecidableEq α] (s t u : List α) (a b c : Nat) (h1 : damlev s t = .ok a)
    (h2 : damlev t u = .ok b) (h3 : damlev s u = .ok c) : 2 * c ≤ 3 * (a + b) := by
  obtain ⟨a', e1, l1⟩ := damlev_least s t
  obtain ⟨b', e2, l2⟩ := damlev_least t u
  obtain ⟨c', e3, l3⟩ := damlev_least s u
  rw [h1] at e1; rw [h2] at e2; rw [h3] at e3
  cases e1; cases e2; cases e3
  obtain ⟨m, hm, k⟩ := (l1.1.chain.trans l2.1.chain).edits
  have := l3.2 _ k
  omega

/-- **C57, partial.** However many intermediate strings there are: any `n` edits one after the other, which may edit a place more than once, are
at least two thirds of `damlev`, and `damlev` edits suffice. The least such `n` is the Damerau-Levenshtein distance, for which the triangle
inequality does hold. -/
theorem C57_chain_partial {α : Type} [DecidableEq α] (s t : List α) (a : Nat) (h : damlev s t = .ok a) :
    Chain s t a ∧ ∀ n, Chain s t n → 2 * a ≤ 3 * n := by
  obtain ⟨a', e, l⟩ := damlev_least s t
  rw [h] at e
  cases e
  refine ⟨l.1.chain, fun n hn => ?_⟩
  obtain ⟨m, hm, k⟩ := hn.edits
  have := l.2 _ k
  omega

example : Chain "ca".toList "abc".toList 2 ∧ damlev "ca".toList "abc".toList = .ok 3 :=
  ⟨.cons .exchange (.cons (.later .insert) .nil), by decide +kernel⟩

/-! ### C58: `jaro` -/

/-- **C58, violated.** `jaro("aaaa", "a")` is 7/6. -/
theorem C58_jaro_violated : ¬ ∀ s t : List Char, s ≠ [] → t ≠ [] → ∀ j, jaro s t = .ok j → 0 ≤ j ∧ j ≤ 1 := by
  intro h
  have := h "aaaa".toList "a".toList (by decide) (by decide) (7 / 6) (by decide +kernel)
  norm_num at this

/-- **C58, violated.** The bound of `C58_jaro_partial` is reached: a string with stars after it, which stand for padding, is more than equal to the
string itself, without limit. -/
theorem C58_stars_violated (s : List Char) (hs : s ≠ []) (n : Nat) :
    jaro (s ++ List.replicate n '*') s = .ok ((2 + ((s.length + n : Nat) : ℚ) / s.length) / 3) := by
  have hs' : 0 < s.length := List.length_pos_of_ne_nil hs
  have hsq : (s.length : ℚ) ≠ 0 := by exact_mod_cast hs'.ne'
  have hnq : ((s.length + n : Nat) : ℚ) ≠ 0 := by exact_mod_cast (by omega : s.length + n ≠ 0)
  have hl : max (s.length + n) s.length = s.length + n := by simp
  have h1 : padStars (s ++ List.replicate n '*') (s.length + n) = s ++ List.replicate n '*' := by simp [padStars]
  have h2 : padStars s (s.length + n) = s ++ List.replicate n '*' := by simp [padStars]
  have h3 : (s ++ List.replicate n '*').length = s.length + n := by simp
  have : jaroTranspositions [] = 0 := rfl
  simp only [jaro, hl, h1, h2, jaroScan_same h3 (List.range (s.length + n)) (by simp), bind, Except.bind, List.length_range, Nat.zero_add, h3,
    if_neg (show s.length + n ≠ 0 by omega), pyDiv, if_neg hsq, if_neg hnq, this, pure, Except.pure, Nat.cast_zero, sub_zero, div_self hnq]
  congr 1
  ring

/-- **C58, partial.** Never negative and at most (2 + longer / shorter) / 3, so within bounds for equal lengths; 1 for equal
strings. -/
theorem C58_jaro_partial (s t : List Char) (hs : s ≠ []) (ht : t ≠ []) : ∃ j w, jaro s t = .ok j ∧ jaroWinkler s t = .ok w ∧
    0 ≤ j ∧ 0 ≤ w ∧ j ≤ (2 + (max s.length t.length : ℚ) / (min s.length t.length : ℚ)) / 3 ∧
    (s.length = t.length → j ≤ 1 ∧ w ≤ 1) ∧ (s = t → j = 1 ∧ w = 1) := by
  obtain ⟨j, e, h0, h1⟩ := jaro_bounds hs ht
  have h4 : (commonPrefix s t : ℚ) ≤ 4 := by exact_mod_cast commonPrefix_le s t
  have h40 : (0 : ℚ) ≤ commonPrefix s t := by positivity
  refine ⟨j, _, e, jaroWinkler_of e, h0, ?_, h1, ?_, ?_⟩
  · nlinarith
  · intro hl
    have hj : j ≤ 1 := by
      have hp : (0 : ℚ) < t.length := by exact_mod_cast List.length_pos_of_ne_nil ht
      rw [hl, max_self, min_self, div_self hp.ne'] at h1
      linarith
    exact ⟨hj, by nlinarith⟩
  · intro hst
    subst hst
    rw [jaro_same hs] at e
    cases e
    exact ⟨rfl, by ring⟩

example : jaro "martha".toList "marhta".toList = .ok (17 / 18) := by decide +kernel
example : jaroWinkler "martha".toList "marhta".toList = .ok (173 / 180) := by decide +kernel

/-! ### C59: `mapping` -/

/-- **C59.** One match for every key, with the first value of least error and the complement of that error, between -1 and
1; the best come first, and equally good ones in the order of their keys. -/
theorem C59_mapping (keys values : List (List Char)) (hv : values ≠ []) (hne : ∀ v ∈ values, v ≠ []) :
    ∃ ms l, mapping keys values = .ok ms ∧
      List.Forall₂ (fun k m => m.key = k ∧ FirstBest values k m.value ∧ StrErr k m.value (1 - m.score) ∧
        -1 ≤ m.score ∧ m.score ≤ 1) keys l ∧
      ms ~ l ∧ ms.Pairwise (fun m m' => m'.score ≤ m.score) ∧
      ∀ q : ℚ, ms.filter (fun m => m.score = q) = l.filter (fun m => m.score = q) := by
  obtain ⟨l, e, hl⟩ := mapM_exists_such (f := bestMatch values) (P := fun k m => m.key = k ∧ FirstBest values k m.value ∧
    StrErr k m.value (1 - m.score) ∧ -1 ≤ m.score ∧ m.score ≤ 1) keys (by
      intro k _
      obtain ⟨m, e, h1, h2, h3⟩ := bestMatch_ok (key := k) hv hne
      have := h3.bounds
      exact ⟨m, e, h1, h2, h3, by linarith, by linarith⟩)
  refine ⟨sortBy (fun m => -m.score) l, l, ?_, hl, sortBy_perm _ _, ?_, ?_⟩
  · simp only [mapping, e, bind, Except.bind, pure, Except.pure]
  · refine (sortBy_sorted (fun m : Match => -m.score) l).imp ?_
    intro a b h
    linarith
  · intro q
    have := sortBy_stable (fun m : Match => -m.score) (-q) l
    simpa using this

example : mapping ["abc".toList, "ghi".toList, "def".toList] ["ac".toList, "def".toList, "gh".toList] = .ok
    [⟨"def".toList, "def".toList, 1⟩, ⟨"abc".toList, "ac".toList, 3 / 5⟩, ⟨"ghi".toList, "gh".toList, 3 / 5⟩] := by
  decide +kernel

/-! ### C60: `ascii` -/

/-- **C60.** The length stays, accented letters become plain, others are untouched, no accented letter is left, and a second
application changes nothing. -/
theorem C60_ascii (s : List Char) : (asciiStr s).length = s.length ∧
    (∀ (i : Nat) c, s[i]? = some c → ∀ g ∈ accentGroups, c ∈ g.2 → (asciiStr s)[i]? = some g.1) ∧
    (∀ (i : Nat) c, s[i]? = some c → ¬ IsAccented c → (asciiStr s)[i]? = some c) ∧
    (∀ c ∈ asciiStr s, ¬ IsAccented c) ∧ asciiStr (asciiStr s) = asciiStr s := by
  have h1 : ∀ g ∈ accentGroups, ∀ c ∈ g.2, translateChar c = g.1 := by decide +kernel
  have h2 : ∀ c, ¬ IsAccented c → translateChar c = c := by
    intro c hc
    unfold translateChar
    have hall : ∀ p ∈ accented.zip unaccented, IsAccented p.1 := by decide +kernel
    have : (accented.zip unaccented).lookup c = none := by
      rw [List.lookup_eq_none_iff]
      intro p hp
      simp only [beq_eq_false_iff_ne, ne_eq, bne_iff_ne]
      intro e
      exact hc (e ▸ hall p hp)
    rw [this]
  have h3 : ∀ c, ¬ IsAccented (translateChar c) := by
    intro c
    by_cases hc : IsAccented c
    · obtain ⟨g, hg, hcg⟩ := hc
      rw [h1 g hg c hcg]
      exact (by decide +kernel : ∀ g ∈ accentGroups, ¬ IsAccented g.1) g hg
    · rw [h2 c hc]; exact hc
  refine ⟨by simp [asciiStr], ?_, ?_, ?_, ?_⟩
  · intro i c hi g hg hc
    simp [asciiStr, hi, h1 g hg c hc]
  · intro i c hi hc
    simp [asciiStr, hi, h2 c hc]
  · intro c hc
    simp only [asciiStr, List.mem_map] at hc
    obtain ⟨d, _, rfl⟩ := hc
    exact h3 d
  · simp only [asciiStr, List.map_map]
    apply List.map_congr_left
    intro c _
    exact h2 _ (h3 c)

example : asciiStr "São Tomé".toList = "Sao Tome".toList := by decide +kernel

end Coral
