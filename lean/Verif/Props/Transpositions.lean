import Verif.Props.Corners

/-!
# The transpositions that `jaro` counts (C195)

With the number of partners (`C195_value`) this determines the similarity of any two names that are not empty.
-/
namespace Coral

/-- The place `i` of `s` has another character in `t`, and the first place in the window that has the character of `s` is `j`. -/
def FirstPartner (s t : List Char) (n i j : Nat) : Prop :=
  charAt s i ≠ charAt t i ∧ (j < n ∧ |(i : Int) - j| ≤ (n : Int) / 2 - 1 ∧ charAt s i = charAt t j) ∧
  ∀ k < j, |(i : Int) - k| ≤ (n : Int) / 2 - 1 → charAt s i ≠ charAt t k

/-- The partner of the place `i` comes before the partner of an earlier place. -/
def Crossed (s t : List Char) (n i : Nat) : Prop :=
  ∃ j, FirstPartner s t n i j ∧ ∃ i' < i, ∃ j', FirstPartner s t n i' j' ∧ j < j'

/-- How many places are crossed. -/
noncomputable def crossedPlaces (s t : List Char) : Nat := by
  classical exact ((Finset.range (max s.length t.length)).filter (Crossed s t (max s.length t.length))).card

theorem head_filter_range {P : Nat → Bool} {n k : Nat} : ((List.range n).filter P).head? = some k ↔ k < n ∧ P k = true ∧ ∀ j < k, P j = false := by
  rw [List.head?_filter, List.find?_range_eq_some]
  simp only [Bool.not_eq_true', List.mem_range]
  tauto

theorem find_eq (s : List Char) (c : Char) (i0 i1 : Int) (k : Nat) : pyFind s c i0 i1 = k ↔
    (k < s.length ∧ i0 ≤ k ∧ (k : Int) < i1 ∧ s[k]? = some c) ∧ ∀ j < k, ¬ (i0 ≤ j ∧ (j : Int) < i1 ∧ s[j]? = some c) := by
  have := head_filter_range (P := fun (k : Nat) => decide (i0 ≤ k ∧ (k : Int) < i1 ∧ s[k]? = some c)) (n := s.length) (k := k)
  simp only [decide_eq_true_eq, decide_eq_false_iff_not] at this
  rw [and_assoc, ← this, pyFind]
  split
  · rename_i k' h
    rw [h, Option.some.injEq, Int.natCast_inj]
  · rename_i h
    rw [h]
    constructor
    · intro h; omega
    · intro h; cases h

/-- The partner of a place as the loop finds it. -/
def loopPartner (s t : List Char) (n i : Nat) : Option Int :=
  if charAt s i = charAt t i then none else
    let f := pyFind (padStars t n) (charAt s i) (max 0 (i - ((n : Int) / 2 - 1))) (min n (i + ((n : Int) / 2 - 1) + 1))
    if f ≥ 0 then some f else none

theorem scan_partners {s t : List Char} {n : Nat} (hs : s.length ≤ n) (ht : t.length ≤ n) (is : List Nat) (his : ∀ i ∈ is, i < n) (m : Nat) (p : List Int) :
    ∃ m', jaroScan (padStars s n) (padStars t n) n is m p = .ok (m', p ++ is.filterMap (loopPartner s t n)) := by
  induction is generalizing m p with
  | nil => exact ⟨m, by simp [jaroScan]⟩
  | cons i is ih =>
    have hi := his i (by simp)
    have ih := fun m p => ih (fun j hj => his j (by simp [hj])) m p
    have ea := index_some (pad_get hs hi)
    have eb := index_some (pad_get ht hi)
    simp only [jaroScan, ea, eb, bind, Except.bind]
    split
    · rename_i h
      obtain ⟨m', e⟩ := ih (m + 1) p
      exact ⟨m', by rw [e, List.filterMap_cons_none (by rw [loopPartner, if_pos h])]⟩
    · rename_i h
      split
      · rename_i f
        obtain ⟨m', e⟩ := ih (m + 1) (p ++ [_])
        refine ⟨m', ?_⟩
        rw [e, List.filterMap_cons_some (by rw [loopPartner, if_neg h]; exact if_pos f), List.append_assoc]
        rfl
      · rename_i f
        obtain ⟨m', e⟩ := ih m p
        exact ⟨m', by rw [e, List.filterMap_cons_none (by rw [loopPartner, if_neg h]; exact if_neg f)]⟩

theorem loopPartner_iff {s t : List Char} {n i : Nat} (ht : t.length ≤ n) (f : Int) :
    loopPartner s t n i = some f ↔ ∃ j : Nat, f = j ∧ FirstPartner s t n i j := by
  have hl : (padStars t n).length = n := by rw [padStars, List.length_append, List.length_replicate]; omega
  have key : ∀ j : Nat, pyFind (padStars t n) (charAt s i) (max 0 (i - ((n : Int) / 2 - 1))) (min n (i + ((n : Int) / 2 - 1) + 1)) = j ↔
      (j < n ∧ |(i : Int) - j| ≤ (n : Int) / 2 - 1 ∧ charAt s i = charAt t j) ∧
        ∀ k < j, |(i : Int) - k| ≤ (n : Int) / 2 - 1 → charAt s i ≠ charAt t k := by
    intro j
    rw [find_eq, hl]
    constructor
    · rintro ⟨⟨h1, h2, h3, h4⟩, h5⟩
      rw [pad_get ht h1, Option.some.injEq] at h4
      refine ⟨⟨h1, by rw [abs_le]; omega, h4.symm⟩, fun k hk ha he => h5 k hk ⟨?_, ?_, ?_⟩⟩
      · rw [abs_le] at ha; omega
      · rw [abs_le] at ha; omega
      · rw [pad_get ht (hk.trans h1), he]
    · rintro ⟨⟨h1, h2, h3⟩, h4⟩
      rw [abs_le] at h2
      refine ⟨⟨h1, by omega, by omega, by rw [pad_get ht h1, h3]⟩, ?_⟩
      rintro k hk ⟨h5, h6, h7⟩
      rw [pad_get ht (hk.trans h1), Option.some.injEq] at h7
      exact h4 k hk (by rw [abs_le]; omega) h7.symm
  rw [loopPartner]
  constructor
  · intro h
    split at h
    · cases h
    · rename_i hne
      simp only at h
      split at h
      · rename_i h0
        injection h with h
        obtain ⟨j, hj⟩ := Int.eq_ofNat_of_zero_le h0
        exact ⟨j, by rw [← h, hj], hne, (key j).mp hj⟩
      · cases h
  · rintro ⟨j, rfl, hne, h⟩
    rw [if_neg hne]
    simp only [(key j).mpr h]
    exact if_pos (by omega)

open Classical in
theorem fold_crossed {s t : List Char} {n : Nat} (ht : t.length ≤ n) (k : Nat) :
    ∃ x : Int, ((List.range k).filterMap (loopPartner s t n)).foldl (fun (s : Nat × Int) f => if f < s.2 then (s.1 + 1, s.2) else (s.1, f)) (0, 0) =
      (((Finset.range k).filter (Crossed s t n)).card, x) ∧ (∀ i < k, ∀ j, FirstPartner s t n i j → (j : Int) ≤ x) ∧
      (x = 0 ∨ ∃ i < k, ∃ j : Nat, FirstPartner s t n i j ∧ x = j) := by
  induction k with
  | zero => exact ⟨0, by simp, by simp, .inl rfl⟩
  | succ k ih =>
    obtain ⟨x, e, h1, h2⟩ := ih
    rw [List.range_succ, List.filterMap_append, List.foldl_append, e, Finset.range_add_one, Finset.filter_insert]
    cases hp : loopPartner s t n k with
    | none =>
      have hno : ∀ j, ¬ FirstPartner s t n k j := by
        intro j hj
        rw [(loopPartner_iff ht (j : Int)).mpr ⟨j, rfl, hj⟩] at hp
        cases hp
      have hc : ¬ Crossed s t n k := fun ⟨j, hj, _⟩ => hno j hj
      rw [List.filterMap_cons_none hp, if_neg hc]
      refine ⟨x, rfl, ?_, ?_⟩
      · intro i hi j hj
        rcases Nat.lt_succ_iff_lt_or_eq.mp hi with hi | rfl
        · exact h1 i hi j hj
        · exact absurd hj (hno j)
      · rcases h2 with h2 | ⟨i, hi, h2⟩
        · exact .inl h2
        · exact .inr ⟨i, by omega, h2⟩
    | some f =>
      obtain ⟨j, rfl, hj⟩ := (loopPartner_iff ht f).mp hp
      have uniq : ∀ j', FirstPartner s t n k j' → j' = j := by
        intro j' h'
        have := (loopPartner_iff ht (j' : Int)).mpr ⟨j', rfl, h'⟩
        rw [hp, Option.some.injEq] at this
        omega
      rw [List.filterMap_cons_some hp]
      simp only [List.filterMap_nil, List.foldl_cons, List.foldl_nil]
      by_cases hx : (j : Int) < x
      · have hc : Crossed s t n k := by
          rcases h2 with h2 | ⟨i, hi, j', hj', h2⟩
          · omega
          · exact ⟨j, hj, i, hi, j', hj', by omega⟩
        rw [if_pos hx, if_pos hc, Finset.card_insert_of_notMem (by simp)]
        refine ⟨x, rfl, ?_, ?_⟩
        · intro i hi j' hj'
          rcases Nat.lt_succ_iff_lt_or_eq.mp hi with hi | rfl
          · exact h1 i hi j' hj'
          · rw [uniq j' hj']; omega
        · rcases h2 with h2 | ⟨i, hi, h2⟩
          · exact .inl h2
          · exact .inr ⟨i, by omega, h2⟩
      · have hc : ¬ Crossed s t n k := by
          rintro ⟨j1, hj1, i, hi, j', hj', hlt⟩
          have := h1 i hi j' hj'
          rw [uniq j1 hj1] at hlt
          omega
        rw [if_neg hx, if_neg hc]
        refine ⟨j, rfl, ?_, .inr ⟨k, by omega, j, hj, rfl⟩⟩
        intro i hi j' hj'
        rcases Nat.lt_succ_iff_lt_or_eq.mp hi with hi | rfl
        · have := h1 i hi j' hj'; omega
        · rw [uniq j' hj']

/-- **C195**: the value of `jaro` for any two names that are not empty. -/
theorem C195_exact (s t : List Char) (hs : s ≠ []) (ht : t ≠ []) : jaro s t = .ok (if partners s t = 0 then 0 else
    ((partners s t : ℚ) / s.length + (partners s t : ℚ) / t.length + ((partners s t : ℚ) - crossedPlaces s t) / partners s t) / 3) := by
  classical
  have hs' : (s.length : ℚ) ≠ 0 := by exact_mod_cast (List.length_pos_of_ne_nil hs).ne'
  have ht' : (t.length : ℚ) ≠ 0 := by exact_mod_cast (List.length_pos_of_ne_nil ht).ne'
  obtain ⟨p, e⟩ := scan_count (s := s) (t := t) (le_max_left _ _) (le_max_right _ _) (List.range (max s.length t.length)) (by simp) 0 []
  obtain ⟨m', e'⟩ := scan_partners (s := s) (t := t) (le_max_left _ _) (le_max_right _ _) (List.range (max s.length t.length)) (by simp) 0 []
  obtain ⟨x, ex, -, -⟩ := fold_crossed (s := s) (t := t) (n := max s.length t.length) (le_max_right _ _) (max s.length t.length)
  rw [← partners_eq, Nat.zero_add] at e
  rw [e, List.nil_append] at e'
  simp only [Except.ok.injEq, Prod.mk.injEq] at e'
  have hcr : jaroTranspositions p = crossedPlaces s t := by
    rw [jaroTranspositions, e'.2, ex, crossedPlaces]
  simp only [jaro, e, bind, Except.bind]
  split
  · rfl
  · rename_i h
    have hm : (partners s t : ℚ) ≠ 0 := by exact_mod_cast h
    simp only [pyDiv, if_neg hs', if_neg ht', if_neg hm, hcr]
    rfl

/-- The `c` of the first name finds its partner before that of the `b`. -/
example : Crossed "abcd".toList "acbd".toList 4 2 := by
  refine ⟨1, ⟨by decide, ⟨by decide, by decide, by decide⟩, by decide⟩, 1, by decide, 2, ⟨by decide, ⟨by decide, by decide, by decide⟩, by decide⟩, by decide⟩

end Coral
