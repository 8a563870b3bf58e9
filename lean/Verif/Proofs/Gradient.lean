import Verif.Model.Gradient
import Verif.Spec.Gradient
import Mathlib.Tactic.Ring
import Mathlib.Tactic.Linarith
import Mathlib.Tactic.FieldSimp

set_option linter.unusedSectionVars false
namespace Coral
section
variable {K : Type} [Field K] [LinearOrder K]

theorem filter_orderedInsert (v : K) (a : K × List K) (l : List (K × List K)) :
    (l.orderedInsert (fun p q => p.1 ≤ q.1) a).filter (fun p => decide (p.1 = v)) =
      (a :: l).filter (fun p => decide (p.1 = v)) := by
  induction l with
  | nil => rfl
  | cons b l ih =>
    simp only [List.orderedInsert]
    split
    · rfl
    · rename_i h
      rw [List.filter_cons, ih]
      by_cases ha : a.1 = v
      · have hb : b.1 ≠ v := by rintro rfl; exact h (le_of_eq ha)
        simp [ha, hb]
      · by_cases hb : b.1 = v <;> simp [ha, hb]

/-- Sorting is stable. -/
theorem filter_sortStops (v : K) (l : List (K × List K)) :
    (sortStops l).filter (fun p => decide (p.1 = v)) = l.filter (fun p => decide (p.1 = v)) := by
  induction l with
  | nil => rfl
  | cons a l ih =>
    show ((sortStops l).orderedInsert _ a).filter _ = _
    rw [filter_orderedInsert, List.filter_cons, ih, List.filter_cons]

theorem mem_sortStops {l : List (K × List K)} {p : K × List K} : p ∈ sortStops l ↔ p ∈ l :=
  (List.perm_insertionSort _ l).mem_iff

theorem sorted_sortStops (l : List (K × List K)) : (sortStops l).Pairwise (fun p q => p.1 ≤ q.1) := by
  haveI : Std.Total (fun p q : K × List K => p.1 ≤ q.1) := ⟨fun a b => le_total a.1 b.1⟩
  haveI : IsTrans (K × List K) (fun p q => p.1 ≤ q.1) := ⟨fun a b c h h' => le_trans h h'⟩
  exact List.pairwise_insertionSort _ l

theorem stopAt_of_sorted {l A B : List (K × List K)} {x : K} {c : List K} (h : sortStops l = A ++ (x, c) :: B)
    (hA : ∀ q ∈ A, q.1 ≠ x) : ∃ l1 r, l = l1 ++ (x, c) :: r ∧ ∀ q ∈ l1, q.1 ≠ x := by
  have h1 := filter_sortStops x l
  rw [h, List.filter_append, List.filter_eq_nil_iff.mpr (by simpa using hA), List.nil_append, List.filter_cons,
    if_pos (by simp)] at h1
  obtain ⟨l1, l2, e, h2, _⟩ := List.filter_eq_cons_iff.mp h1.symm
  exact ⟨l1, l2, e, by simpa using h2⟩

theorem stopLast_of_sorted {l A B : List (K × List K)} {x : K} {c : List K} (h : sortStops l = A ++ (x, c) :: B)
    (hB : ∀ q ∈ B, q.1 ≠ x) : ∃ l1 r, l = l1 ++ (x, c) :: r ∧ ∀ q ∈ r, q.1 ≠ x := by
  have h1 := filter_sortStops x l
  rw [h, List.filter_append, List.filter_cons, if_pos (by simp),
    (List.filter_eq_nil_iff (l := B)).mpr (by simpa using hB)] at h1
  have h2 : (l.reverse).filter (fun p => decide (p.1 = x)) = (x, c) :: (A.filter (fun p => decide (p.1 = x))).reverse := by
    rw [List.filter_reverse, ← h1]; simp
  obtain ⟨l1, l2, e, h2, _⟩ := List.filter_eq_cons_iff.mp h2
  refine ⟨l2.reverse, l1.reverse, ?_, by simpa using h2⟩
  have := congrArg List.reverse e
  simpa using this

variable [IsStrictOrderedRing K]

theorem takeWhile_split (s : List (K × List K)) (x : K) (hs : s.Pairwise (fun p q => p.1 ≤ q.1)) :
    ∃ A B, s = A ++ B ∧ (∀ q ∈ A, q.1 < x) ∧ (∀ q ∈ B, x ≤ q.1) ∧ bisectLeft (s.map Prod.fst) x = A.length := by
  refine ⟨s.takeWhile (fun q => q.1 < x), s.dropWhile (fun q => q.1 < x), (List.takeWhile_append_dropWhile).symm, ?_, ?_, ?_⟩
  · intro q hq
    have := List.all_takeWhile (p := fun q : K × List K => decide (q.1 < x)) (l := s)
    simpa using (List.all_eq_true.mp this) q hq
  · intro q hq
    cases hB : s.dropWhile (fun q => q.1 < x) with
    | nil => rw [hB] at hq; simp at hq
    | cons b B =>
      have hb := List.head?_dropWhile_not (fun q : K × List K => decide (q.1 < x)) s
      rw [hB] at hb hq
      have hb' : x ≤ b.1 := by simpa using hb
      have hsub : (b :: B).Pairwise (fun p q => p.1 ≤ q.1) := by
        rw [← hB]; exact hs.sublist (List.dropWhile_sublist _)
      rcases List.mem_cons.mp hq with rfl | hq
      · exact hb'
      · exact le_trans hb' ((List.pairwise_cons.mp hsub).1 q hq)
  · simp only [bisectLeft, List.takeWhile_map, List.length_map]
    rfl

theorem lerp_eq {pa pb a b x : K} (h : pb - pa ≠ 0) :
    a * ((pb - x) / (pb - pa)) + b * ((x - pa) / (pb - pa)) = lerp pa a pb b x := by
  unfold lerp; field_simp; ring

theorem lerp_same {pa pb a x : K} : lerp pa a pb a x = a := by simp [lerp]

theorem zipWith_lerp_same (pa pb x : K) (c : List K) :
    List.zipWith (fun a b => lerp pa a pb b x) c c = c := by
  induction c with
  | nil => rfl
  | cons a c ih => simp [lerp_same, ih]

theorem pyIndex_at {α : Type} (A : List α) (a : α) (B : List α) :
    pyIndex (A ++ a :: B) (A.length : Int) = .ok a := by
  have : ¬ ((A.length : Int) < 0) := by omega
  simp [pyIndex, this]

theorem pyIndex_last {α : Type} (A : List α) (a : α) : pyIndex (A ++ [a]) (-1) = .ok a := by
  have h1 : (-1 : Int) + ((A ++ [a]).length : Int) = (A.length : Int) := by simp
  simp only [pyIndex, h1, if_pos (show (-1 : Int) < 0 by decide)]
  simp

/-- `get` on the extended list. -/
theorem get_split (A B : List (K × List K)) (x : K) (b : K × List K)
    (hA : ∀ q ∈ A, q.1 < x) (hb : x ≤ b.1) (hne : b.1 = x ∨ A ≠ []) :
    (⟨(A ++ b :: B).map Prod.fst, (A ++ b :: B).map Prod.snd⟩ : Gradient K).get x =
      if b.1 = x then .ok b.2 else
        match A.getLast? with
        | some a => .ok (List.zipWith (fun u v => lerp a.1 u b.1 v x) a.2 b.2)
        | none => .error .indexError := by
  have hbis : bisectLeft ((A ++ b :: B).map Prod.fst) x = A.length := by
    simp only [bisectLeft, List.map_append, List.map_cons]
    have hA' : ∀ q ∈ A.map Prod.fst, decide (q < x) = true := by
      intro q hq
      obtain ⟨p, hp, rfl⟩ := List.mem_map.mp hq
      simpa using hA p hp
    rw [List.takeWhile_append_of_pos hA', List.takeWhile_cons_of_neg (by simpa using hb)]
    simp
  have i1 : pyIndex ((A ++ b :: B).map Prod.fst) (A.length : Int) = .ok b.1 := by
    have := pyIndex_at (A.map Prod.fst) b.1 (B.map Prod.fst)
    simpa using this
  have i2 : pyIndex ((A ++ b :: B).map Prod.snd) (A.length : Int) = .ok b.2 := by
    have := pyIndex_at (A.map Prod.snd) b.2 (B.map Prod.snd)
    simpa using this
  simp only [Gradient.get, hbis, i1, bind, Except.bind]
  split
  · exact i2
  · rename_i h
    have hAne : A ≠ [] := hne.resolve_left h
    obtain ⟨A', a, rfl⟩ : ∃ A' a, A = A' ++ [a] := ⟨_, _, (List.dropLast_append_getLast hAne).symm⟩
    have j : (((A' ++ [a]).length : Nat) : Int) - 1 = (A'.length : Int) := by simp
    have i3 : pyIndex ((A' ++ [a] ++ b :: B).map Prod.fst) (A'.length : Int) = .ok a.1 := by
      have := pyIndex_at (A'.map Prod.fst) a.1 (b.1 :: B.map Prod.fst)
      simpa using this
    have i4 : pyIndex ((A' ++ [a] ++ b :: B).map Prod.snd) (A'.length : Int) = .ok a.2 := by
      have := pyIndex_at (A'.map Prod.snd) a.2 (b.2 :: B.map Prod.snd)
      simpa using this
    have ha : a.1 < x := hA a (by simp)
    have hd : b.1 - a.1 ≠ 0 := by
      have : a.1 < b.1 := lt_of_lt_of_le ha hb
      exact sub_ne_zero.mpr this.ne'
    rw [j, i3]
    simp only [i4, i2, if_neg hd, List.getLast?_append, List.getLast?_singleton, Option.some_or, pure, Except.pure]
    congr 2
    funext u v
    rw [lerp_eq hd]

theorem init_get (stops : List (K × List K)) (hne : stops ≠ []) (h01 : ∀ q ∈ stops, 0 ≤ q.1 ∧ q.1 ≤ 1) (x : K)
    (hx0 : 0 ≤ x) (hx1 : x ≤ 1) :
    ∃ g c, Gradient.init stops = .ok g ∧ g.get x = .ok c ∧ Prescribes stops x c := by
  have hsorted := sorted_sortStops stops
  obtain ⟨A, B, hs, hA, hB, _⟩ := takeWhile_split (sortStops stops) x hsorted
  have hmem : ∀ q, q ∈ stops ↔ q ∈ A ∨ q ∈ B := by
    intro q; rw [← mem_sortStops, hs, List.mem_append]
  have hsne : sortStops stops ≠ [] := by
    intro h0
    obtain ⟨q, hq⟩ := List.exists_mem_of_ne_nil _ hne
    rw [← mem_sortStops, h0] at hq
    simp at hq
  -- the extended list, split at x
  have hinit : ∀ f t l (la : List (K × List K)) , sortStops stops = f :: t → sortStops stops = la ++ [l] →
      Gradient.init stops = .ok ⟨((if 0 < f.1 then [(0, f.2)] else []) ++ sortStops stops ++
        (if l.1 < 1 then [(1, l.2)] else [])).map Prod.fst, ((if 0 < f.1 then [(0, f.2)] else []) ++ sortStops stops ++
        (if l.1 < 1 then [(1, l.2)] else [])).map Prod.snd⟩ := by
    intro f t l la e1 e2
    have k1 : pyIndex (sortStops stops) 0 = .ok f := by
      rw [e1]; simp [pyIndex]
    have k2 : ∀ pre : List (K × List K), pyIndex (pre ++ sortStops stops) (-1) = .ok l := by
      intro pre
      rw [e2, ← List.append_assoc]
      exact pyIndex_last _ _
    have k2' := k2 [(0, f.2)]
    have k2'' := k2 []
    simp only [List.cons_append, List.nil_append] at k2' k2''
    simp only [Gradient.init, extendStops, k1, bind, Except.bind, pure, Except.pure]
    by_cases hf : 0 < f.1
    · simp only [if_pos hf, k2', List.cons_append, List.nil_append]
      split <;> simp
    · simp only [if_neg hf, k2'', List.nil_append]
      split <;> simp
  obtain ⟨f, t, ef⟩ := List.exists_cons_of_ne_nil hsne
  obtain ⟨la, l, el⟩ : ∃ la l, sortStops stops = la ++ [l] := ⟨_, _, (List.dropLast_append_getLast hsne).symm⟩
  have hi := hinit f t l la ef el
  set pre := (if 0 < f.1 then [(0, f.2)] else [] : List (K × List K)) with hpre
  set suf := (if l.1 < 1 then [(1, l.2)] else [] : List (K × List K)) with hsuf
  have hpx : 0 < x → ∀ q ∈ pre, q.1 < x := by
    intro h q hq
    rw [hpre] at hq
    split at hq
    · simp only [List.mem_singleton] at hq; rw [hq]; exact h
    · simp at hq
  have hfmin : ∀ q ∈ stops, f.1 ≤ q.1 := by
    intro q hq
    rw [← mem_sortStops, ef] at hq
    rcases List.mem_cons.mp hq with rfl | hq
    · exact le_refl _
    · rw [ef] at hsorted; exact (List.pairwise_cons.mp hsorted).1 q hq
  have hlmax : ∀ q ∈ stops, q.1 ≤ l.1 := by
    intro q hq
    rw [← mem_sortStops, el] at hq
    rw [el] at hsorted
    rcases List.mem_append.mp hq with hq | hq
    · exact (List.pairwise_append.mp hsorted).2.2 q hq l (by simp)
    · simp only [List.mem_singleton] at hq; rw [hq]
  have hfm : f ∈ stops := by rw [← mem_sortStops, ef]; simp
  have hlm : l ∈ stops := by rw [← mem_sortStops, el]; simp
  have hp0 : 0 < f.1 → pre = [(0, f.2)] := fun h => by rw [hpre, if_pos h]
  have hp1 : ¬ 0 < f.1 → pre = [] := fun h => by rw [hpre, if_neg h]
  have hpA : ∀ b ∈ stops, b.1 = x → ∀ q ∈ pre, q.1 < x := by
    intro b hb hbx
    by_cases hf : 0 < f.1
    · exact hpx (lt_of_lt_of_le hf (hbx ▸ hfmin b hb))
    · rw [hp1 hf]; simp
  cases B with
  | cons b B =>
    have hbm : b ∈ stops := (hmem b).mpr (Or.inr (by simp))
    have hbx : x ≤ b.1 := hB b (by simp)
    by_cases hb : b.1 = x
    · have key := get_split (pre ++ A) (B ++ suf) x b (by
        intro q hq
        rcases List.mem_append.mp hq with hq | hq
        · exact hpA b hbm hb q hq
        · exact hA q hq) hbx (Or.inl hb)
      refine ⟨_, b.2, hi, ?_, Or.inl ?_⟩
      · rw [if_pos hb] at key
        rw [← key, hs]; simp
      · refine stopAt_of_sorted (A := A) (B := B) ?_ (fun q hq => (hA q hq).ne)
        rw [hs, ← hb]
    · have hbl : x < b.1 := lt_of_le_of_ne hbx (Ne.symm hb)
      have hno : ∀ q ∈ stops, q.1 ≠ x := by
        intro q hq
        rcases (hmem q).mp hq with hq | hq
        · exact (hA q hq).ne
        · rw [hs] at hsorted
          have h2 := (List.pairwise_append.mp hsorted).2.1
          rcases List.mem_cons.mp hq with rfl | hq
          · exact hbl.ne'
          · exact (lt_of_lt_of_le hbl ((List.pairwise_cons.mp h2).1 q hq)).ne'
      have habove : StopAbove stops x b.1 b.2 := by
        refine ⟨hbl, ?_, ?_⟩
        · intro q hq hxq
          rcases (hmem q).mp hq with hq | hq
          · exact absurd hxq (not_lt.mpr (hA q hq).le)
          · rw [hs] at hsorted
            have h2 := (List.pairwise_append.mp hsorted).2.1
            rcases List.mem_cons.mp hq with rfl | hq
            · exact le_refl _
            · exact (List.pairwise_cons.mp h2).1 q hq
        · exact stopAt_of_sorted hs (fun q hq => (lt_trans (hA q hq) hbl).ne)
      by_cases hAne : A = []
      · subst hAne
        have hfb : f = b := by rw [hs] at ef; simp at ef; exact ef.1.symm
        have hf0 : 0 < f.1 := by rw [hfb]; exact lt_of_le_of_lt hx0 hbl
        have hall : ∀ q ∈ stops, x < q.1 := by
          intro q hq
          have := hfmin q hq
          rw [hfb] at this
          exact lt_of_lt_of_le hbl this
        refine ⟨_, b.2, hi, ?_, Or.inr (Or.inr (Or.inl ⟨hall, b.1, habove⟩))⟩
        rcases hx0.eq_or_lt with h0 | h0
        · have key := get_split [] (b :: B ++ suf) x (0, f.2) (by simp) (h0 ▸ le_refl _) (Or.inl h0)
          rw [if_pos h0] at key
          rw [hp0 hf0, hs]
          simp only [List.nil_append, List.cons_append, List.append_assoc] at key ⊢
          rw [key, hfb]
        · have key := get_split pre (B ++ suf) x b (hpx h0) hbx (Or.inr (by rw [hp0 hf0]; simp))
          rw [if_neg hb, hp0 hf0] at key
          simp only [List.getLast?_singleton, hfb, zipWith_lerp_same] at key
          rw [hp0 hf0, hs, hfb]
          simp only [List.nil_append, List.cons_append, List.append_assoc] at key ⊢
          exact key
      · obtain ⟨A', a, rfl⟩ : ∃ A' a, A = A' ++ [a] := ⟨_, _, (List.dropLast_append_getLast hAne).symm⟩
        have ham : a ∈ stops := (hmem a).mpr (Or.inl (by simp))
        have hax : a.1 < x := hA a (by simp)
        have hx0' : 0 < x := lt_of_le_of_lt (h01 a ham).1 hax
        have key := get_split (pre ++ (A' ++ [a])) (B ++ suf) x b (by
          intro q hq
          rcases List.mem_append.mp hq with hq | hq
          · exact hpx hx0' q hq
          · exact hA q hq) hbx (Or.inr (by simp))
        rw [if_neg hb] at key
        refine ⟨_, _, hi, ?_, Or.inr (Or.inl ⟨hno, a.1, a.2, b.1, b.2, ?_, habove, rfl⟩)⟩
        · have : (pre ++ (A' ++ [a])).getLast? = some a := by simp
          rw [this] at key
          simp only at key
          rw [← key, hs]; simp
        · refine ⟨hax, ?_, ?_⟩
          · intro q hq hqx
            rcases (hmem q).mp hq with hq | hq
            · rw [hs] at hsorted
              have h2 := (List.pairwise_append.mp hsorted).1
              rcases List.mem_append.mp hq with hq | hq
              · exact (List.pairwise_append.mp h2).2.2 q hq a (by simp)
              · simp only [List.mem_singleton] at hq; rw [hq]
            · exact absurd hqx (not_lt.mpr (hB q hq))
          · refine stopLast_of_sorted (A := A') (B := b :: B) ?_ ?_
            · rw [hs]; simp
            · intro q hq
              exact (lt_of_lt_of_le hax (hB q hq)).ne'
  | nil =>
    rw [List.append_nil] at hs
    have hall : ∀ q ∈ stops, q.1 < x := by
      intro q hq
      rcases (hmem q).mp hq with hq | hq
      · exact hA q hq
      · simp at hq
    have hx0' : 0 < x := lt_of_le_of_lt (h01 l hlm).1 (hall l hlm)
    have hl1 : l.1 < 1 := lt_of_lt_of_le (hall l hlm) hx1
    have hsf : suf = [(1, l.2)] := by rw [hsuf, if_pos hl1]
    have key := get_split (pre ++ sortStops stops) [] x (1, l.2) (by
      intro q hq
      rcases List.mem_append.mp hq with hq | hq
      · exact hpx hx0' q hq
      · exact hall q (mem_sortStops.mp hq)) hx1 (Or.inr (by simp [hsne]))
    refine ⟨_, l.2, hi, ?_, Or.inr (Or.inr (Or.inr ⟨hall, l.1, hall l hlm, fun q hq _ => hlmax q hq, ?_⟩))⟩
    · rw [hsf, key]
      split
      · rfl
      · have : (pre ++ sortStops stops).getLast? = some l := by rw [el]; simp
        rw [this]
        simp only [zipWith_lerp_same]
    · exact stopLast_of_sorted (A := la) (B := []) el (by simp)

end
end Coral
