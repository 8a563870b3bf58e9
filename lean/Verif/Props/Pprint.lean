import Verif.Model.Pprint
import Verif.Spec.Pprint
import Verif.Proofs.Table

/-! # Printing tables: C117 -/
namespace Coral
namespace Table

theorem longest_spec (m : Str) (l : List Str) : IsWidth (longest m l).length (m :: l) := by
  induction l generalizing m with
  | nil => exact ⟨by simp [longest], m, by simp, rfl⟩
  | cons s l ih =>
    rw [longest]
    split
    · rename_i h
      obtain ⟨h1, x, hx, h2⟩ := ih s
      refine ⟨fun y hy => ?_, x, List.mem_cons_of_mem _ hx, h2⟩
      rcases List.mem_cons.mp hy with rfl | hy
      · exact le_trans h.le (h1 s (by simp))
      · exact h1 y hy
    · rename_i h
      obtain ⟨h1, x, hx, h2⟩ := ih m
      refine ⟨fun y hy => ?_, x, ?_, h2⟩
      · rcases List.mem_cons.mp hy with rfl | hy
        · exact h1 y (by simp)
        · rcases List.mem_cons.mp hy with rfl | hy
          · exact le_trans (not_lt.mp h) (h1 m (by simp))
          · exact h1 y (by simp [hy])
      · rcases List.mem_cons.mp hx with rfl | hx <;> simp_all

theorem colWidth_ok {t : List Row} {k : Str} {w : Nat} (h : colWidth t k = .ok w) :
    ∃ cells, List.Forall₂ (fun r c => Row.get r k = .ok c) t cells ∧ IsWidth w (k :: cells) := by
  simp only [colWidth, Py.bind_ok] at h
  obtain ⟨cells, h1, h2⟩ := h
  rw [Py.mapM_ok] at h1
  refine ⟨cells, h1, ?_⟩
  split at h2
  · cases h2
  · rename_i s l hs
    injection h2 with h2
    obtain ⟨g1, x, hx, g2⟩ := longest_spec s l
    rw [← hs] at g1 hx
    rw [← h2]
    refine ⟨fun y hy => g1 y ?_, x, ?_, g2⟩
    · simp at hy ⊢; tauto
    · simp at hx ⊢; tauto

theorem colWidth_get {t : List Row} {k : Str} (h : ∀ r ∈ t, ∃ c, Row.get r k = .ok c) : ∃ w, colWidth t k = .ok w := by
  obtain ⟨cells, hc⟩ : ∃ cells, t.mapM (fun x => x.get k) = .ok cells := by
    induction t with
    | nil => exact ⟨[], rfl⟩
    | cons r t ih =>
      obtain ⟨c, h1⟩ := h r (by simp)
      obtain ⟨cs, h2⟩ := ih (fun r hr => h r (by simp [hr]))
      exact ⟨c :: cs, by rw [List.mapM_cons, h1, h2]; rfl⟩
  have hl : ∃ s l, cells ++ [k] = s :: l := by cases cells <;> simp
  obtain ⟨s, l, hl⟩ := hl
  refine ⟨(longest s l).length, ?_⟩
  change (List.mapM _ t >>= _) = _
  rw [hc]
  change (match cells ++ [k] with
    | [] => Except.error PyErr.valueError
    | s :: l => pure (longest s l).length) = _
  rw [hl]
  rfl

/-- Joining texts of given widths. -/
theorem shows_join (bar : Str) (hb : bar.length = 3) (fill : Char) (ws : List Nat) (cells texts : List Str) (h : List.Forall₂ (fun w s => s.length = w) ws texts)
    (hc : List.Forall₂ (fun c s => ∃ n, s = c ++ List.replicate n fill) cells texts) : Shows ws bar fill cells (joinWith bar texts) := by
  induction h generalizing cells with
  | nil =>
    cases hc
    exact ⟨.inr ⟨rfl, rfl⟩, by simp, by simp⟩
  | @cons w s ws texts hw ht ih =>
    cases hc with
    | @cons c _ cells _ hcs hct =>
    obtain ⟨n, hn⟩ := hcs
    have ih := ih cells hct
    cases ht with
    | nil =>
      cases hct
      refine ⟨.inl (by simp [joinWith, hw]), ?_, ?_⟩
      · intro j w' s' h1 h2
        cases j with
        | zero =>
          simp at h1 h2
          subst h1 h2
          exact ⟨n, by rw [joinWith, ← hn]; simp [colStart, ← hw]⟩
        | succ j => simp at h1
      · intro j h1 h2; simp at h2; omega
    | @cons w2 s2 ws texts hw2 ht2 =>
      have hlen : s.length = w := hw
      have hj : joinWith bar (s :: s2 :: texts) = s ++ bar ++ joinWith bar (s2 :: texts) := rfl
      have hdrop : ∀ m, (joinWith bar (s :: s2 :: texts)).drop (w + 3 + m) = (joinWith bar (s2 :: texts)).drop m := by
        intro m
        rw [hj, ← List.drop_drop, List.drop_left' (by simp [hlen, hb])]
      have hstart : ∀ j, colStart (w :: w2 :: ws) (j + 1) = w + 3 + colStart (w2 :: ws) j := by
        intro j; simp [colStart]
      refine ⟨.inl ?_, ?_, ?_⟩
      · rcases ih.length with e | ⟨e, _⟩
        · rw [hj]; simp only [List.length_append, hlen, hb, List.map_cons, List.sum_cons] at e ⊢; omega
        · cases e
      · intro j w' s' h1 h2
        cases j with
        | zero =>
          simp at h1 h2
          subst h1 h2
          refine ⟨n, ?_⟩
          rw [← hn]
          simp only [colStart, List.take_zero, List.map_nil, List.sum_nil, List.drop_zero]
          rw [hj, List.append_assoc, List.take_left' hlen]
        | succ j =>
          rw [hstart, hdrop]
          exact ih.cell j w' s' (by simpa using h1) (by simpa using h2)
      · intro j h1 h2
        obtain ⟨j, rfl⟩ : ∃ i, j = i + 1 := ⟨j - 1, by omega⟩
        cases j with
        | zero =>
          rw [hstart]
          have : w + 3 + colStart (w2 :: ws) 0 - 3 = w := by simp [colStart]
          rw [this, hj, List.append_assoc, List.drop_left' hlen, List.take_left' hb]
        | succ j =>
          have h3 : 3 ≤ colStart (w2 :: ws) (j + 1) := by simp [colStart]; omega
          rw [hstart, show w + 3 + colStart (w2 :: ws) (j + 1) - 3 = w + 3 + (colStart (w2 :: ws) (j + 1) - 3) by omega, hdrop]
          exact ih.bars (j + 1) (by omega) (by simpa using h2)

theorem shows_format (ws : List Nat) (cells : List Str) (h : List.Forall₂ (fun w s => s.length ≤ w) ws cells) :
    Shows ws " | ".toList ' ' cells (formatLine ws cells) := by
  refine shows_join _ rfl _ _ _ _ ?_ ?_
  · induction h with
    | nil => exact .nil
    | cons h _ ih => exact .cons (by simp [ljust]; omega) ih
  · induction h with
    | nil => exact .nil
    | cons h _ ih => exact .cons ⟨_, rfl⟩ ih

theorem shows_separator (ws : List Nat) : Shows ws "-+-".toList '-' (ws.map fun _ => []) (joinWith "-+-".toList (ws.map fun n => List.replicate n '-')) := by
  refine shows_join _ rfl _ _ _ _ ?_ ?_
  · rw [List.forall₂_map_right_iff, List.forall₂_same]; simp
  · rw [List.forall₂_map_right_iff, List.forall₂_map_left_iff, List.forall₂_same]
    intro n _
    exact ⟨n, rfl⟩

/-- C117: what `pprint` prints, for any table whose rows have the columns asked for: a line with the names, a ruler, and a line for each row in order, all in the same
columns, each as wide as its longest text. -/
theorem C117_columns (t : List Row) (keys : List Str) (h : ∀ r ∈ t, ∀ k ∈ keys, ∃ c, Row.get r k = .ok c) :
    ∃ (ws : List Nat) (cells : List (List Str)) (lines : List Str), pprint t (some keys) = .ok lines ∧
      List.Forall₂ (fun r cs => List.Forall₂ (fun k c => Row.get r k = .ok c) keys cs) t cells ∧
      (∃ head ruler rows, lines = head :: ruler :: rows ∧ Shows ws " | ".toList ' ' keys head ∧ Shows ws "-+-".toList '-' (ws.map fun _ => []) ruler ∧
        List.Forall₂ (Shows ws " | ".toList ' ') cells rows) ∧
      ws.length = keys.length ∧
      ∀ (j : Nat) (k : Str) (w : Nat), keys[j]? = some k → ws[j]? = some w → IsWidth w (k :: cells.filterMap fun cs => cs[j]?) := by
  have hws : ∃ ws, keys.mapM (colWidth t) = .ok ws := by
    clear *- h
    induction keys with
    | nil => exact ⟨[], rfl⟩
    | cons k keys ih =>
      obtain ⟨w, h1⟩ := colWidth_get (t := t) (k := k) (fun r hr => h r hr k (by simp))
      obtain ⟨ws, h2⟩ := ih (fun r hr k hk => h r hr k (by simp [hk]))
      exact ⟨w :: ws, by rw [List.mapM_cons, h1, h2]; rfl⟩
  obtain ⟨ws, hws⟩ := hws
  have hrow : ∀ r ∈ t, ∃ cs, keys.mapM (Row.get r) = .ok cs := by
    intro r hr
    have h := h r hr
    clear hws
    rename_i h'
    clear h'
    induction keys with
    | nil => exact ⟨[], rfl⟩
    | cons k keys ih =>
      obtain ⟨c, h1⟩ := h k (by simp)
      obtain ⟨cs, h2⟩ := ih (fun k hk => h k (by simp [hk]))
      exact ⟨c :: cs, by rw [List.mapM_cons, h1, h2]; rfl⟩
  obtain ⟨cells, hcells⟩ : ∃ cells, List.Forall₂ (fun r cs => keys.mapM (Row.get r) = .ok cs) t cells := by
    clear hws h
    induction t with
    | nil => exact ⟨[], .nil⟩
    | cons r t ih =>
      obtain ⟨cs, h1⟩ := hrow r (by simp)
      obtain ⟨l, h2⟩ := ih (fun r hr => hrow r (by simp [hr]))
      exact ⟨cs :: l, .cons h1 h2⟩
  have hcells' : List.Forall₂ (fun r cs => List.Forall₂ (fun k c => Row.get r k = .ok c) keys cs) t cells :=
    hcells.imp fun r cs h => by rwa [Py.mapM_ok] at h
  have hw := hws
  rw [Py.mapM_ok] at hw
  have hwidth : ∀ (j : Nat) (k : Str) (w : Nat), keys[j]? = some k → ws[j]? = some w → IsWidth w (k :: cells.filterMap fun cs => cs[j]?) := by
    intro j k w hk hwj
    obtain ⟨hj, rfl⟩ := List.getElem?_eq_some_iff.mp hk
    obtain ⟨hj', rfl⟩ := List.getElem?_eq_some_iff.mp hwj
    have := hw.get hj hj'
    simp only [List.get_eq_getElem] at this
    obtain ⟨col, h1, h2⟩ := colWidth_ok this
    have : cells.filterMap (fun cs => cs[j]?) = col := by
      clear hcells hws hw h hrow h2 hwj hj' this
      induction hcells' generalizing col with
      | nil => cases h1; rfl
      | cons g _ ih =>
        cases h1 with
        | cons g1 g2 =>
          have hl := g.length_eq
          have := g.get hj (by rw [← hl]; exact hj)
          simp only [List.get_eq_getElem] at this
          rw [g1] at this
          injection this with this
          rw [List.filterMap_cons, List.getElem?_eq_getElem (by rw [← hl]; exact hj), ← this, ih _ g2]
    rw [this]
    exact h2
  have hrows : ∀ cs ∈ cells, List.Forall₂ (fun w s => s.length ≤ w) ws cs := by
    intro cs hcs
    have hl : cs.length = keys.length := by
      obtain ⟨i, hi, rfl⟩ := List.getElem_of_mem hcs
      have := hcells'.get (by rw [hcells'.length_eq]; exact hi) hi
      exact this.length_eq.symm
    rw [List.forall₂_iff_get]
    refine ⟨by rw [hl, hw.length_eq], fun i h1 h2 => ?_⟩
    simp only [List.get_eq_getElem]
    refine (hwidth i keys[i] ws[i] (by simp) (by simp)).1 _ (List.mem_cons_of_mem _ ?_)
    rw [List.mem_filterMap]
    exact ⟨cs, hcs, by simp⟩
  refine ⟨ws, cells, formatLine ws keys :: joinWith "-+-".toList (ws.map fun n => List.replicate n '-') :: cells.map (formatLine ws), ?_, hcells', ⟨_, _, _, rfl, ?_, shows_separator ws, ?_⟩, hw.length_eq.symm, hwidth⟩
  · have hl : t.mapM (fun line => do
        let cells ← keys.mapM line.get
        return formatLine ws cells) = .ok (cells.map (formatLine ws)) := by
      clear hwidth hrows hcells' hrow h hws hw
      induction hcells with
      | nil => rfl
      | cons h _ ih =>
        rw [List.mapM_cons, ih, h]
        rfl
    change (keys.mapM (colWidth t) >>= _) = _
    rw [hws]
    change (t.mapM (fun line => do
        let cells ← keys.mapM line.get
        return formatLine ws cells) >>= fun lines => pure (formatLine ws keys :: joinWith "-+-".toList (ws.map fun n => List.replicate n '-') :: lines)) = _
    rw [hl]
    rfl
  · apply shows_format
    rw [List.forall₂_iff_get]
    refine ⟨hw.length_eq.symm, fun i h1 h2 => ?_⟩
    simp only [List.get_eq_getElem]
    exact (hwidth i keys[i] ws[i] (by simp) (by simp)).1 _ (by simp)
  · rw [List.forall₂_map_right_iff, List.forall₂_same]
    exact fun cs hcs => shows_format ws cs (hrows cs hcs)

/-- C117: without keys the columns are those of the first row, in order; an empty table raises then. A column that some row does not have raises before anything is
printed. -/
theorem C117_keys (t : List Row) : (∀ r rs, t = r :: rs → pprint t none = pprint t (some r.fields)) ∧ pprint [] none = .error .indexError ∧
    ∀ keys, (∃ r ∈ t, ∃ k ∈ keys, k ∉ r.fields) → pprint t (some keys) = .error .keyError := by
  refine ⟨fun r rs h => by subst h; rfl, rfl, fun keys h => ?_⟩
  obtain ⟨r, hr, k, hk, hf⟩ := h
  have hget : ∀ (r : Row) (k : Str) (e : PyErr), Row.get r k = .error e → e = .keyError := by
    intro r k e h
    unfold Row.get dictGet at h
    split at h
    · cases h
    · injection h with h; exact h.symm
  have hbad : ∀ e, r.get k ≠ .ok e := by
    intro e h
    unfold Row.get dictGet at h
    split at h
    · rename_i v hv
      apply hf
      unfold Row.asdict at hv
      have : ∀ (l m : List Str), (l.zip m).lookup k = some v → k ∈ l := by
        intro l
        induction l with
        | nil => intro m h; simp at h
        | cons a l ih =>
          intro m h
          cases m with
          | nil => simp at h
          | cons b m =>
            rw [List.zip_cons_cons, List.lookup_cons] at h
            split at h
            · rename_i e; simp at e; simp [e]
            · exact List.mem_cons_of_mem _ (ih m h)
      exact this _ _ hv
    · cases h
  have gen : ∀ {α β : Type} (f : α → Py β) (l : List α), (∀ a e, f a = .error e → e = .keyError) → (∃ a ∈ l, ∀ b, f a ≠ .ok b) → l.mapM f = .error .keyError := by
    intro α β f l h1 h2
    induction l with
    | nil => obtain ⟨a, ha, _⟩ := h2; cases ha
    | cons x l ih =>
      rw [List.mapM_cons]
      cases hx : f x with
      | error e => rw [h1 x e hx]; rfl
      | ok b =>
        obtain ⟨a, ha, hab⟩ := h2
        rcases List.mem_cons.mp ha with rfl | ha
        · exact absurd hx (hab b)
        · rw [ih ⟨a, ha, hab⟩]; rfl
  have hcol : colWidth t k = .error .keyError := by
    have : t.mapM (fun x => x.get k) = .error .keyError := gen _ _ (fun a e => hget a k e) ⟨r, hr, hbad⟩
    change (List.mapM _ t >>= _) = _
    rw [this]
    rfl
  have hcole : ∀ k e, colWidth t k = .error e → e = .keyError := by
    intro k e h
    unfold colWidth at h
    by_cases hall : ∃ r ∈ t, ∀ b, Row.get r k ≠ .ok b
    · have : t.mapM (fun x => x.get k) = .error .keyError := gen _ _ (fun a e => hget a k e) hall
      change (List.mapM _ t >>= _) = _ at h
      rw [this] at h
      injection h with h
      exact h.symm
    · push Not at hall
      obtain ⟨w, hw⟩ := colWidth_get hall
      unfold colWidth at hw
      rw [hw] at h
      cases h
  have : keys.mapM (colWidth t) = .error .keyError := gen _ _ hcole ⟨k, hk, fun b hb => by rw [hcol] at hb; cases hb⟩
  change (keys.mapM (colWidth t) >>= _) = _
  rw [this]
  rfl

/-- A case. -/
example : pprint [⟨["id".toList, "name".toList], ["1".toList, "Rio".toList]⟩, ⟨["id".toList, "name".toList], ["200".toList, "Recife".toList]⟩] =
    .ok ["id  | name  ".toList, "----+-------".toList, "1   | Rio   ".toList, "200 | Recife".toList] := by decide +kernel

end Table
end Coral
