import Verif.Proofs.Table

/-! # Properties of `table` -/
set_option linter.unusedSectionVars false
namespace Coral
namespace Table
open scoped List

/-- For the examples: letters only. -/
def sampleName (s : Str) : Bool := s ≠ [] ∧ s.all (fun c => c.isAlpha)

/-- For the examples: two columns. -/
def sample : List Row :=
  [⟨["id".toList, "name".toList], ["1".toList, "Acre".toList]⟩, ⟨["id".toList, "name".toList], ["2".toList, "Rio Branco".toList]⟩,
   ⟨["id".toList, "name".toList], ["1".toList, "".toList]⟩]

theorem sample_table : IsTable sampleName ["id".toList, "name".toList] sample :=
  ⟨by decide, by decide, by decide, by decide⟩

/-! ### C68: files -/

/-- **C68.** What `writefile` writes, `readfile` reads back: the same names and the same rows. -/
theorem C68_roundtrip (okName : Str → Bool) (sep comm : Char) (hsc : sep ≠ comm) (hc : comm ≠ '\n') (hs : isBreak sep = false)
    (F : List Str) (t : List Row) (hne : t ≠ []) (ht : IsTable okName F t) (hF : PlainLine sep comm F)
    (hr : ∀ r ∈ t, PlainLine sep comm r.values) :
    ∃ text, writefile t none sep = .ok text ∧ readfile okName text none sep comm = .ok t := by
  have hm : t.mapM (fun row => do
      let vals ← F.mapM row.get
      return pyJoin sep vals ++ ['\n']) = (.ok (t.map (fun r => pyJoin sep r.values ++ ['\n'])) : Py (List Str)) := by
    clear hne hr
    induction t with
    | nil => rfl
    | cons r t ih =>
      have hg := ht.good (r := r) (by simp)
      have := proj_self hg
      rw [ht.fields r (by simp)] at this
      rw [List.mapM_cons, this, ih ht.tail]
      rfl
  refine ⟨pyJoin sep F ++ ['\n'] ++ (t.map (fun r => pyJoin sep r.values ++ ['\n'])).flatten, ?_, ?_⟩
  · simp only [writefile, fieldsOf_ok ht hne, bind, Except.bind] at hm ⊢
    rw [hm]
    rfl
  · have := read_plain (okName := okName) hsc hc hs (keys := F) (rows := t.map (·.values)) hF
      (by intro r h; obtain ⟨r', h', rfl⟩ := List.mem_map.mp h; exact hr r' h')
      (by intro r h; obtain ⟨r', h', rfl⟩ := List.mem_map.mp h; exact ht.values r' h') ht.names ht.distinct
    rw [List.flatMap_cons, List.flatMap_map, List.map_map] at this
    rw [List.flatMap_def] at this
    rw [this]
    congr 1
    conv_rhs => rw [← List.map_id t]
    apply List.map_congr_left
    intro r h
    show (⟨F, r.values⟩ : Row) = r
    rw [← ht.fields r h]

example : ∃ text, writefile sample = .ok text ∧ text = "id,name\n1,Acre\n2,Rio Branco\n1,\n".toList ∧
    readfile sampleName text = .ok sample := by
  have pt : ∀ s : Str, (',' ∉ s ∧ '#' ∉ s ∧ (∀ c ∈ s, isBreak c = false) ∧ NoOuterSpace s) → PlainText ',' '#' s :=
    fun s h => ⟨h.1, h.2.1, h.2.2.1, h.2.2.2⟩
  obtain ⟨text, h1, h2⟩ := C68_roundtrip sampleName ',' '#' (by decide) (by decide) (by decide) ["id".toList, "name".toList] sample
    (by decide) sample_table
    ⟨by intro s hs; apply pt; revert s; decide, by decide, by decide⟩
    (by
      intro r hr
      refine ⟨?_, ?_, fun h => absurd h (by decide)⟩
      · intro s hs; apply pt; revert s r; decide
      · revert r; decide)
  have h3 : writefile sample = .ok "id,name\n1,Acre\n2,Rio Branco\n1,\n".toList := by decide +kernel
  have h3' : writefile sample = .ok text := h1
  rw [h3] at h3'
  injection h3' with e
  exact ⟨text, h1, e.symm, h2⟩

/-- A file without any content keeps `readfile` reading for ever. -/
theorem C68_empty_file (okName : Str → Bool) (text : Str) (keys : Option (List Str)) (sep comm : Char)
    (h : contentLines comm text = []) : readfile okName text keys sep comm = .hang := by
  have := header_spec comm (splitlines text)
  have e : contentLines comm text = ((splitlines text).map (cut comm)).filter (fun l => decide (l ≠ [])) := rfl
  rw [e] at h
  simp only [readfile, bind, Res.bind]
  cases hh : header comm (splitlines text) with
  | hang => rfl
  | raise e => rw [hh] at this; exact this.elim
  | ok p =>
    obtain ⟨a, b⟩ := p
    rw [hh, h] at this
    cases this

example : contentLines '#' "# nothing\n\n".toList = [] := by decide +kernel

/-! ### C69: choosing columns -/

/-- **C69, violated.** With the keys in another order than in the file, the cells get the wrong names. -/
theorem C69_columns_violated : ¬ ∀ (text : Str) (keys : List Str) (rows : List Row), readfile sampleName text (some keys) = .ok rows →
    ∃ fkeys cells, (contentLines '#' text).map (pySplit ',') = fkeys :: cells ∧
      List.Forall₂ (fun (c : List Str) (r : Row) => r.fields = keys ∧
        ∀ k ∈ keys, ∀ i : Nat, fkeys[i]? = some k → ∃ v, c[i]? = some v ∧ r.At k v) cells rows := by
  intro h
  obtain ⟨fkeys, cells, e, hf⟩ := h "a,b\n1,2\n".toList ["b".toList, "a".toList] [⟨["b".toList, "a".toList], ["1".toList, "2".toList]⟩]
    (by decide +kernel)
  have e' : (contentLines '#' "a,b\n1,2\n".toList).map (pySplit ',') = [["a".toList, "b".toList], ["1".toList, "2".toList]] := by
    decide +kernel
  rw [e'] at e
  injection e with e1 e2
  subst e1 e2
  cases hf with
  | cons h1 _ =>
    obtain ⟨v, hv, i, hi, hvi⟩ := h1.2 "a".toList (by simp) 0 rfl
    simp only [List.getElem?_cons_zero, Option.some.injEq] at hv
    subst hv
    match i, hi, hvi with
    | 0, hi, _ => exact absurd hi (by decide)
    | 1, _, hvi => exact absurd hvi (by decide)
    | i + 2, hi, _ => simp at hi

/-- **C69, partial.** If the keys are in the order of the file, every cell has the name of
its column. -/
theorem C69_columns_partial (okName : Str → Bool) (text : Str) (keys : List Str) (sep comm : Char) (rows : List Row)
    (h : readfile okName text (some keys) sep comm = .ok rows) :
    ∃ fkeys cells, (contentLines comm text).map (pySplit sep) = fkeys :: cells ∧
      (keys = fkeys.filter (fun k => decide (k ∈ keys)) →
      List.Forall₂ (fun (c : List Str) (r : Row) => r.fields = keys ∧
        ∀ k ∈ keys, ∀ i : Nat, fkeys[i]? = some k → ∃ v, c[i]? = some v ∧ r.At k v) cells rows) := by
  have hs := header_spec comm (splitlines text)
  obtain ⟨⟨line, lines⟩, eh, h⟩ := Res.bind_ok.mp h
  rw [eh] at hs
  simp only at hs
  obtain ⟨_, e1, h⟩ := Res.bind_ok.mp h
  rw [Res.lift_ok] at h
  refine ⟨pySplit sep line, ((lines.map (cut comm)).filter (fun l => decide (l ≠ []))).map (pySplit sep), ?_, ?_⟩
  · have e : contentLines comm text = ((splitlines text).map (cut comm)).filter (fun l => decide (l ≠ [])) := rfl
    rw [e, hs, List.map_cons]
  · intro hord
    have hr := readRows_ok h
    rw [List.forall₂_map_left_iff]
    refine hr.imp ?_
    rintro l r ⟨h1, h2, h3⟩
    refine ⟨h1, ?_⟩
    intro k hk i hi
    simp only [Option.getD_some] at h3
    generalize hfk : pySplit sep line = fkeys at *
    have hf := Py.mapM_ok.mp h3
    -- the position of `i` among the chosen indices is the position of `k` among the keys
    have hmap : ((List.range fkeys.length).filter (fun (i : Nat) => decide (∃ k ∈ keys, fkeys[i]? = some k))).map
        (fun (i : Nat) => fkeys[i]?.getD []) = keys := by
      conv_rhs => rw [hord]
      have : fkeys = (List.range fkeys.length).map (fun (i : Nat) => fkeys[i]?.getD []) := by
        apply List.ext_getElem
        · simp
        · intro j h1 h2
          simp [List.getElem?_eq_getElem h1]
      conv_rhs => rw [this, List.filter_map]
      congr 1
      apply List.filter_congr
      intro j hj
      have hj : j < fkeys.length := by simpa using hj
      simp [List.getElem?_eq_getElem hj]
    have him : i ∈ (List.range fkeys.length).filter (fun (i : Nat) => decide (∃ k ∈ keys, fkeys[i]? = some k)) := by
      rw [List.mem_filter]
      refine ⟨by simpa using (List.getElem?_eq_some_iff.mp hi).1, ?_⟩
      simp only [decide_eq_true_eq]
      exact ⟨k, hk, hi⟩
    obtain ⟨p, hp⟩ := List.mem_iff_getElem?.mp him
    obtain ⟨l1, e1⟩ := List.getElem?_eq_some_iff.mp hp
    have l2 : p < r.values.length := by rw [← hf.length_eq]; exact l1
    have hv := (List.forall₂_iff_get.mp hf).2 p l1 l2
    simp only [List.get_eq_getElem, e1] at hv
    refine ⟨r.values[p], ?_, p, ?_, List.getElem?_eq_getElem l2⟩
    · by_cases hil : i < (pySplit sep l).length
      · rw [Buffer.pyIndex_nat _ i _ (List.getElem?_eq_getElem hil)] at hv
        injection hv with hv
        rw [List.getElem?_eq_getElem hil, hv]
      · exfalso
        have hno : (pySplit sep l)[i]? = none := List.getElem?_eq_none (by omega)
        have hlt : ¬ ((i : Int) < 0) := by omega
        simp [pyIndex, hlt, hno] at hv
    · have h1' : r.fields = keys := h1
      rw [h1', ← hmap, List.getElem?_map, hp]
      simp [hi]

example : readfile sampleName "a,b,c\n1,2,3\n4,5,6 # last\n".toList (some ["a".toList, "c".toList]) = .ok
    [⟨["a".toList, "c".toList], ["1".toList, "3".toList]⟩, ⟨["a".toList, "c".toList], ["4".toList, "6".toList]⟩] := by decide +kernel

/-! ### C70: `join` -/

/-- **C70.** One row for every row of `t1`, in order, with every cell as `JoinCell` says, in whatever order sets are listed. -/
theorem C70_join (okName : Str → Bool) (order : List Str → List Str) (horder : ∀ l, order l ~ l) (F1 F2 : List Str)
    (t1 t2 : List Row) (h1 : IsTable okName F1 t1) (h2 : IsTable okName F2 t2) (hn1 : t1 ≠ []) (hn2 : t2 ≠ [])
    (pivots keys : Option (List Str)) (hk : ∀ ks, keys = some ks → (∀ k ∈ ks, okName k = true) ∧ ks.Nodup) :
    ∃ rows P Q, join okName order t1 t2 pivots keys = .ok rows ∧
      (∀ p, pivots = some p → P = p) ∧ (pivots = none → ∀ k, k ∈ P ↔ k ∈ F1 ∧ k ∈ F2) ∧
      (∀ q, keys = some q → Q = q) ∧ (keys = none → ∀ k, k ∈ Q ↔ k ∈ F1 ∨ k ∈ F2) ∧
      List.Forall₂ (fun (r1 r : Row) => r.fields = Q ∧ r.values.length = Q.length ∧ Q.Nodup ∧
        ∀ k v, r.At k v → JoinCell P t2 r1 k v) t1 rows := by
  have hQ : (∀ k ∈ keys.getD (order (F1 ++ F2.filter (fun k => decide (k ∉ F1)))), okName k = true) ∧
      (keys.getD (order (F1 ++ F2.filter (fun k => decide (k ∉ F1))))).Nodup := by
    cases keys with
    | some ks => exact hk ks rfl
    | none =>
      have hp := horder (F1 ++ F2.filter (fun k => decide (k ∉ F1)))
      constructor
      · intro k hk
        have := hp.mem_iff.mp hk
        rcases List.mem_append.mp this with h | h
        · exact h1.names k h
        · exact h2.names k (List.mem_filter.mp h).1
      · refine hp.nodup_iff.mpr (List.nodup_append.mpr ⟨h1.distinct, h2.distinct.filter _, ?_⟩)
        intro a ha b hb hab
        subst hab
        have := (List.mem_filter.mp hb).2
        simp only [decide_eq_true_eq] at this
        exact this ha
  obtain ⟨rows, e, hf⟩ := mapM_exists
    (f := fun r1 => mkRow (keys.getD (order (F1 ++ F2.filter (fun k => decide (k ∉ F1)))))
      ((keys.getD (order (F1 ++ F2.filter (fun k => decide (k ∉ F1))))).map (fun k => ((joinDict (pivots.getD
        (order (F1.filter (fun k => decide (k ∈ F2))))) t2 r1).lookup k).getD [])))
    (P := fun (r1 r : Row) => r.fields = keys.getD (order (F1 ++ F2.filter (fun k => decide (k ∉ F1)))) ∧
      r.values.length = (keys.getD (order (F1 ++ F2.filter (fun k => decide (k ∉ F1))))).length ∧
      (keys.getD (order (F1 ++ F2.filter (fun k => decide (k ∉ F1))))).Nodup ∧
        ∀ k v, r.At k v → JoinCell (pivots.getD (order (F1.filter (fun k => decide (k ∈ F2))))) t2 r1 k v)
    t1 (by
      intro r1 hr1
      refine ⟨_, by rw [mkRow, if_pos (by simp)], rfl, by simp, hQ.2, ?_⟩
      rintro k v ⟨i, hi, hv⟩
      rw [List.getElem?_map] at hv
      simp only at hi
      rw [hi] at hv
      simp only [Option.map_some, Option.some.injEq] at hv
      subst hv
      exact joinDict_lookup (h1.good hr1) (fun r hr => h2.good hr) k)
  refine ⟨rows, _, _, ?_, ?_, ?_, ?_, ?_, hf⟩
  · simp only [join, fieldsOf_ok h1 hn1, fieldsOf_ok h2 hn2, bind, Except.bind, mkClass_ok hQ.1 hQ.2]
    exact e
  · rintro p rfl; rfl
  · rintro rfl k
    simp only [Option.getD_none]
    rw [(horder _).mem_iff, List.mem_filter]
    simp
  · rintro p rfl; rfl
  · rintro rfl k
    simp only [Option.getD_none]
    rw [(horder _).mem_iff, List.mem_append, List.mem_filter]
    simp only [decide_eq_true_eq]
    constructor
    · rintro (h | h)
      · exact Or.inl h
      · exact Or.inr h.1
    · rintro (h | h)
      · exact Or.inl h
      · by_cases h' : k ∈ F1
        · exact Or.inl h'
        · exact Or.inr ⟨h, h'⟩

example : join sampleName id sample [⟨["id".toList, "uf".toList], ["2".toList, "AC".toList]⟩] = .ok
    [⟨["id".toList, "name".toList, "uf".toList], ["1".toList, "Acre".toList, "".toList]⟩,
     ⟨["id".toList, "name".toList, "uf".toList], ["2".toList, "Rio Branco".toList, "AC".toList]⟩,
     ⟨["id".toList, "name".toList, "uf".toList], ["1".toList, "".toList, "".toList]⟩] := by decide +kernel

/-! ### C71: selecting rows -/

open Classical in
/-- **C71.** `getall` yields the rows with the query in the column, in order, and `getone` the first of them, if any. -/
theorem C71_get (okName : Str → Bool) (F : List Str) (t : List Row) (ht : IsTable okName F t) (key query : Str) (hk : key ∈ F) :
    getall t key query = (t.filter (fun r => decide (r.At key query)), none) ∧
    getone t key query = .ok (t.filter (fun r => decide (r.At key query))).head? := by
  induction t with
  | nil => exact ⟨rfl, rfl⟩
  | cons r t ih =>
    obtain ⟨i1, i2⟩ := ih ht.tail
    have hg := ht.good (r := r) (by simp)
    obtain ⟨v, hv⟩ := exists_at hg (k := key) (by rw [ht.fields r (by simp)]; exact hk)
    have hget := (get_ok hg key v).mpr hv
    rw [getall, getone, hget]
    simp only [bind, Except.bind]
    by_cases hq : v = query
    · subst hq
      rw [if_pos rfl, if_pos rfl, i1, List.filter_cons, if_pos (by simpa using hv)]
      exact ⟨rfl, rfl⟩
    · have hn : ¬ r.At key query := fun h => hq (at_unique hg hv h)
      rw [if_neg hq, if_neg hq, i1, i2, List.filter_cons, if_neg (by simpa using hn)]
      exact ⟨rfl, rfl⟩

example : getall sample "id".toList "1".toList = ([⟨["id".toList, "name".toList], ["1".toList, "Acre".toList]⟩,
    ⟨["id".toList, "name".toList], ["1".toList, "".toList]⟩], none) := by decide +kernel

/-- **C71.** `indexby` maps exactly the values of the key column, each to the last row with that value, without the column. -/
theorem C71_indexby (okName : Str → Bool) (F : List Str) (t : List Row) (ht : IsTable okName F t) (hne : t ≠ []) (key : Str)
    (hk : key ∈ F) : ∃ d, indexby okName t key = .ok d ∧ (d.map (·.1)).Nodup ∧
      ∀ q row, d.lookup q = some row ↔ ∃ l1 r l2, t = l1 ++ r :: l2 ∧ r.At key q ∧ (∀ r' ∈ l2, ¬ r'.At key q) ∧
        row.fields = F.filter (fun k => decide (k ≠ key)) ∧ row.values.length = row.fields.length ∧
        ∀ k ∈ row.fields, ∀ v, row.At k v ↔ r.At k v := by
  have hKn : (F.filter (fun k => decide (k ≠ key))).Nodup := ht.distinct.filter _
  have hKs : ∀ k ∈ F.filter (fun k => decide (k ≠ key)), k ∈ F := fun k hk => (List.mem_filter.mp hk).1
  have hcls : mkClass okName (F.filter (fun k => decide (k ≠ key))) = .ok () :=
    mkClass_ok (fun k hk => ht.names k (hKs k hk)) hKn
  have hi : indexby okName t key = t.foldlM (fun indexed row => do
      let vals ← (F.filter (fun k => decide (k ≠ key))).mapM row.get
      let newrow ← mkRow (F.filter (fun k => decide (k ≠ key))) vals
      let v ← row.get key
      return dictSet indexed v newrow) [] := by
    simp only [indexby, fieldsOf_ok ht hne, bind, Except.bind, hcls]
  rw [hi]
  clear hne hi
  generalize hK : F.filter (fun k => decide (k ≠ key)) = Kl at *
  -- from any dictionary on
  suffices H : ∀ (t : List Row), IsTable okName F t → ∀ (d0 : List (Str × Row)), (d0.map (·.1)).Nodup →
      ∃ d, t.foldlM (fun indexed row => do
          let vals ← Kl.mapM row.get
          let newrow ← mkRow Kl vals
          let v ← row.get key
          return dictSet indexed v newrow) d0 = (.ok d : Py _) ∧ (d.map (·.1)).Nodup ∧
        ∀ q row, d.lookup q = some row ↔ (∃ l1 r l2, t = l1 ++ r :: l2 ∧ r.At key q ∧ (∀ r' ∈ l2, ¬ r'.At key q) ∧
          row.fields = Kl ∧ row.values.length = row.fields.length ∧ ∀ k ∈ row.fields, ∀ v, row.At k v ↔ r.At k v) ∨
          ((∀ r ∈ t, ¬ r.At key q) ∧ d0.lookup q = some row) by
    obtain ⟨d, e, hnd, hd⟩ := H t ht [] (by simp)
    refine ⟨d, e, hnd, ?_⟩
    intro q row
    rw [hd]
    simp
  intro t ht
  induction t with
  | nil =>
    intro d0 hnd
    exact ⟨d0, rfl, hnd, by simp⟩
  | cons r t ih =>
    intro d0 hnd
    have hg := ht.good (r := r) (by simp)
    obtain ⟨vals, e1, hl, hat⟩ := proj_ok hg (keys := Kl) (fun k hk => by rw [ht.fields r (by simp)]; exact hKs k hk)
    obtain ⟨w, hw⟩ := exists_at hg (k := key) (by rw [ht.fields r (by simp)]; exact hk)
    have hget := (get_ok hg key w).mpr hw
    obtain ⟨d, e, hnd', hd⟩ := ih ht.tail (dictSet d0 w ⟨Kl, vals⟩) (nodup_dictSet hnd _ _)
    refine ⟨d, ?_, hnd', ?_⟩
    · rw [List.foldlM_cons]
      simp only [e1, mkRow, if_pos hl, hget, bind, Except.bind, pure, Except.pure] at e ⊢
      exact e
    · intro q row
      rw [hd, lookup_dictSet]
      constructor
      · rintro (⟨l1, r', l2, e', h⟩ | ⟨h1, h2⟩)
        · exact Or.inl ⟨r :: l1, r', l2, by rw [e']; rfl, h⟩
        · split at h2
          · rename_i hq
            injection h2 with h2
            subst h2 hq
            exact Or.inl ⟨[], r, t, rfl, hw, h1, rfl, hl, fun k hk v => proj_at hg hKn hl hat k hk v⟩
          · rename_i hq
            refine Or.inr ⟨?_, h2⟩
            intro r' hr'
            rcases List.mem_cons.mp hr' with rfl | hr'
            · exact fun h => hq (at_unique hg h hw)
            · exact h1 r' hr'
      · rintro (⟨l1, r', l2, e', h3, h4, h5, h6, h7⟩ | ⟨h1, h2⟩)
        · cases l1 with
          | nil =>
            simp only [List.nil_append, List.cons.injEq] at e'
            obtain ⟨rfl, rfl⟩ := e'
            refine Or.inr ⟨h4, ?_⟩
            rw [if_pos (at_unique hg h3 hw)]
            congr 1
            have hr1 : GoodRow row := ⟨by rw [h5]; exact hKn, h6⟩
            obtain ⟨rf, rv⟩ := row
            simp only at h5 h6 h7
            subst h5
            congr 1
            apply List.ext_getElem?
            intro i
            by_cases hi : i < rf.length
            · have f1 : rf[i]? = some rf[i] := List.getElem?_eq_getElem hi
              have v1 : vals[i]? = some (vals[i]'(by omega)) := List.getElem?_eq_getElem _
              have v2 : rv[i]? = some (rv[i]'(by omega)) := List.getElem?_eq_getElem _
              have a1 := hat i _ _ f1 v1
              have a2 := (h7 _ (List.getElem_mem hi) _).mp ⟨i, f1, v2⟩
              rw [v1, v2, at_unique hg a1 a2]
            · rw [List.getElem?_eq_none (by omega), List.getElem?_eq_none (by omega)]
          | cons a l1 =>
            simp only [List.cons_append, List.cons.injEq] at e'
            exact Or.inl ⟨l1, r', l2, e'.2, h3, h4, h5, h6, h7⟩
        · refine Or.inr ⟨fun r' hr' => h1 r' (by simp [hr']), ?_⟩
          rw [if_neg]
          · exact h2
          · rintro rfl
            exact h1 r (by simp) hw

example : indexby sampleName sample "id".toList = .ok
    [("1".toList, ⟨["name".toList], ["".toList]⟩), ("2".toList, ⟨["name".toList], ["Rio Branco".toList]⟩)] := by decide +kernel

/-! ### C72: columns -/

theorem genMap_ok {f : Row → Py Row} {P : Row → Row → Prop} (t : List Row) (h : ∀ r ∈ t, ∃ r', f r = .ok r' ∧ P r r') :
    ∃ l, genMap f t = (l, none) ∧ List.Forall₂ P t l := by
  induction t with
  | nil => exact ⟨[], rfl, .nil⟩
  | cons r t ih =>
    obtain ⟨r', e, hp⟩ := h r (by simp)
    obtain ⟨l, e', hl⟩ := ih (fun r hr => h r (by simp [hr]))
    refine ⟨r' :: l, ?_, .cons hp hl⟩
    rw [genMap, e, e']
    rfl

/-- **C72.** `addkey` puts the computed cell after the others. -/
theorem C72_addkey (okName : Str → Bool) (F : List Str) (t : List Row) (ht : IsTable okName F t) (hne : t ≠ []) (key : Str)
    (hk : key ∉ F) (hok : okName key = true) (func : Row → Py Str) (hf : ∀ r ∈ t, ∃ v, func r = .ok v) :
    ∃ l, addkey okName t key func = (l, none) ∧
      List.Forall₂ (fun (r r' : Row) => ∃ v, func r = .ok v ∧ r'.fields = F ++ [key] ∧ r'.values = r.values ++ [v]) t l := by
  have hnames : ∀ k ∈ F ++ [key], okName k = true := by
    intro k h
    rcases List.mem_append.mp h with h | h
    · exact ht.names k h
    · rw [List.mem_singleton.mp h]; exact hok
  have hnd : (F ++ [key]).Nodup := List.nodup_append.mpr ⟨ht.distinct, by simp, by
    intro a ha b hb hab
    rw [List.mem_singleton.mp hb] at hab
    exact hk (hab ▸ ha)⟩
  simp only [addkey, fieldsOf_ok ht hne, mkClass_ok hnames hnd]
  refine genMap_ok t ?_
  intro r hr
  obtain ⟨v, hv⟩ := hf r hr
  have hg := ht.good hr
  have hmap : (F ++ [key]).mapM (dictGet ((key, v) :: r.asdict)) = .ok (r.values ++ [v]) := by
    have h1 : F.mapM (dictGet ((key, v) :: r.asdict)) = .ok r.values := by
      rw [← proj_self hg, ht.fields r hr]
      apply Py.mapM_congr
      intro k hk'
      have : (k == key) = false := by
        simp only [beq_eq_false_iff_ne, ne_eq]
        rintro rfl; exact hk hk'
      simp only [dictGet, Row.get, List.lookup_cons, this]
    have h2 : [key].mapM (dictGet ((key, v) :: r.asdict)) = .ok [v] := by
      simp [dictGet]
    rw [List.mapM_append, h1, h2]
    rfl
  refine ⟨⟨F ++ [key], r.values ++ [v]⟩, ?_, v, hv, rfl, rfl⟩
  simp only [hv, bind, Except.bind, hmap, mkRow]
  rw [if_pos (by simp [ht.values r hr])]

/-- **C72.** `delkeys` keeps exactly the other columns. -/
theorem C72_delkeys (okName : Str → Bool) (F : List Str) (t : List Row) (ht : IsTable okName F t) (hne : t ≠ []) (del : List Str) :
    ∃ l, delkeys okName t del = (l, none) ∧
      List.Forall₂ (fun (r r' : Row) => r'.fields = F.filter (fun k => decide (k ∉ del)) ∧ r'.values.length = r'.fields.length ∧
        ∀ k ∈ F, k ∉ del → ∀ v, r'.At k v ↔ r.At k v) t l := by
  have hnd : (F.filter (fun k => decide (k ∉ del))).Nodup := ht.distinct.filter _
  have hs : ∀ k ∈ F.filter (fun k => decide (k ∉ del)), k ∈ F := fun k hk => (List.mem_filter.mp hk).1
  simp only [delkeys, fieldsOf_ok ht hne, mkClass_ok (fun k hk => ht.names k (hs k hk)) hnd]
  refine genMap_ok t ?_
  intro r hr
  have hg := ht.good hr
  obtain ⟨vals, e, hl, hat⟩ := proj_ok hg (keys := F.filter (fun k => decide (k ∉ del))) (fun k hk => by
    rw [ht.fields r hr]; exact hs k hk)
  refine ⟨⟨_, vals⟩, ?_, rfl, hl, ?_⟩
  · simp only [e, bind, Except.bind, mkRow, if_pos hl]
  · intro k hkF hkd v
    exact proj_at hg hnd hl hat k (by rw [List.mem_filter]; exact ⟨hkF, by simpa using hkd⟩) v

/-- **C72.** Deleting the added column restores the table. -/
theorem C72_undo (okName : Str → Bool) (F : List Str) (t : List Row) (ht : IsTable okName F t) (hne : t ≠ []) (key : Str)
    (hk : key ∉ F) (hok : okName key = true) (func : Row → Py Str) (hf : ∀ r ∈ t, ∃ v, func r = .ok v) :
    ∃ l, addkey okName t key func = (l, none) ∧ delkeys okName l [key] = (t, none) := by
  obtain ⟨l, e, hl⟩ := C72_addkey okName F t ht hne key hk hok func hf
  refine ⟨l, e, ?_⟩
  have hnd : (F ++ [key]).Nodup := List.nodup_append.mpr ⟨ht.distinct, by simp, by
    intro a ha b hb hab
    rw [List.mem_singleton.mp hb] at hab
    exact hk (hab ▸ ha)⟩
  have hlt : IsTable okName (F ++ [key]) l := by
    refine ⟨?_, hnd, ?_, ?_⟩
    · intro k h
      rcases List.mem_append.mp h with h | h
      · exact ht.names k h
      · rw [List.mem_singleton.mp h]; exact hok
    · intro r' hr'
      obtain ⟨i, hi⟩ := List.mem_iff_getElem.mp hr'
      obtain ⟨hi1, rfl⟩ := hi
      obtain ⟨v, _, h2, _⟩ := (List.forall₂_iff_get.mp hl).2 i (by rw [hl.length_eq]; exact hi1) hi1
      exact h2
    · intro r' hr'
      obtain ⟨i, hi⟩ := List.mem_iff_getElem.mp hr'
      obtain ⟨hi1, rfl⟩ := hi
      have hi0 : i < t.length := by rw [hl.length_eq]; exact hi1
      obtain ⟨v, _, _, h3⟩ := (List.forall₂_iff_get.mp hl).2 i hi0 hi1
      simp only [List.get_eq_getElem] at h3
      rw [h3]
      simp [ht.values _ (List.getElem_mem hi0)]
  have hln : l ≠ [] := by
    rintro rfl
    exact hne (List.length_eq_zero_iff.mp hl.length_eq)
  have hfilter : (F ++ [key]).filter (fun k => decide (k ∉ [key])) = F := by
    rw [List.filter_append, List.filter_eq_self.mpr]
    · simp
    · intro k hk'
      simp only [List.mem_singleton, decide_eq_true_eq]
      rintro rfl; exact hk hk'
  simp only [delkeys, fieldsOf_ok hlt hln, hfilter, mkClass_ok ht.names ht.distinct]
  clear e hln hne hf
  induction hl with
  | nil => rfl
  | @cons r r' t l h1 h2 ih =>
    obtain ⟨v, _, hf', hv'⟩ := h1
    have hg := hlt.good (r := r') (by simp)
    have hgr := ht.good (r := r) (by simp)
    have hproj : F.mapM r'.get = .ok r.values := by
      have hfr := ht.fields r (by simp)
      rw [← proj_self hgr, hfr]
      apply Py.mapM_congr
      intro k hk'
      obtain ⟨w, i, hw1, hw2⟩ := exists_at hgr (k := k) (by rw [hfr]; exact hk')
      rw [(get_ok hgr k w).mpr ⟨i, hw1, hw2⟩, (get_ok hg k w)]
      refine ⟨i, ?_, ?_⟩
      · rw [hf', List.getElem?_append_left (by rw [← hfr]; exact (List.getElem?_eq_some_iff.mp hw1).1), ← hfr, hw1]
      · rw [hv', List.getElem?_append_left (List.getElem?_eq_some_iff.mp hw2).1, hw2]
    rw [genMap]
    simp only [hproj, bind, Except.bind, mkRow, if_pos (ht.values r (by simp))]
    have := ih ht.tail hlt.tail
    simp only [bind, Except.bind, mkRow] at this
    rw [this]
    have hrr : (⟨F, r.values⟩ : Row) = r := by rw [← ht.fields r (by simp)]
    rw [hrr]
    rfl

example : addkey sampleName sample "size".toList (fun r => .ok (r.values.flatten)) =
    ([⟨["id".toList, "name".toList, "size".toList], ["1".toList, "Acre".toList, "1Acre".toList]⟩,
      ⟨["id".toList, "name".toList, "size".toList], ["2".toList, "Rio Branco".toList, "2Rio Branco".toList]⟩,
      ⟨["id".toList, "name".toList, "size".toList], ["1".toList, "".toList, "1".toList]⟩], none) := by decide +kernel

end Table
end Coral
