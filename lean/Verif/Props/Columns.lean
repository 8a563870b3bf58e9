import Verif.Props.Table

/-!
# Column names that tables refuse (C199)

Names that are repeated or that a named tuple does not accept are refused before any row is made, and names that a file does not have
are refused with its first row.
-/
namespace Coral
namespace Table

/-- Names that the class of the rows cannot have: a repeated one, or one that is not acceptable. -/
def BadNames (okName : Str → Bool) (keys : List Str) : Prop := ¬ keys.Nodup ∨ ∃ k ∈ keys, okName k = false

theorem mkClass_bad {okName : Str → Bool} {keys : List Str} (h : BadNames okName keys) : mkClass okName keys = .error .valueError := by
  rw [mkClass, if_neg]
  simp only [Bool.and_eq_true, List.all_eq_true, decide_eq_true_eq]
  rintro ⟨h1, h2⟩
  rcases h with h | ⟨k, hk, h⟩
  · exact h h2
  · rw [h1 k hk] at h; cases h

theorem contentLines_eq (comm : Char) (text : Str) :
    contentLines comm text = ((splitlines text).map (cut comm)).filter (fun l => decide (l ≠ [])) := rfl

/-- **C199**: `readfile` raises `ValueError` if the names asked for, or else those in the file, are bad ones, whatever the rows are. -/
theorem C199_readfile (okName : Str → Bool) (text : Str) (keys : Option (List Str)) (sep comm : Char) {line : Str} {rest : List Str}
    (hc : contentLines comm text = line :: rest) (h : BadNames okName (keys.getD (pySplit sep line))) :
    readfile okName text keys sep comm = .raise .valueError := by
  have hs := header_spec comm (splitlines text)
  rw [contentLines_eq] at hc
  simp only [readfile, bind, Res.bind]
  cases hh : header comm (splitlines text) with
  | hang => rw [hh] at hs; simp only at hs; rw [hs] at hc; cases hc
  | raise e => rw [hh] at hs; exact hs.elim
  | ok p =>
    obtain ⟨a, b⟩ := p
    rw [hh] at hs
    simp only at hs
    rw [hs] at hc
    injection hc with hc _
    subst hc
    simp only [mkClass_bad h, Res.lift]

example : readfile sampleName "a,b,a\n1,2,3\n".toList = .raise .valueError :=
  C199_readfile sampleName "a,b,a\n1,2,3\n".toList none ',' '#' (line := "a,b,a".toList) (rest := ["1,2,3".toList]) (by decide +kernel)
    (.inl (by decide +kernel))

/-- **C199**: what `readfile` returns is a table: names that are accepted and distinct, the same in all rows, and a value for each. -/
theorem C199_table (okName : Str → Bool) (text : Str) (keys : Option (List Str)) (sep comm : Char) {rows : List Row}
    (h : readfile okName text keys sep comm = .ok rows) :
    ∃ line rest, contentLines comm text = line :: rest ∧ rows.length = rest.length ∧
      IsTable okName (keys.getD (pySplit sep line)) rows := by
  have hs := header_spec comm (splitlines text)
  obtain ⟨⟨line, lines⟩, eh, h⟩ := Res.bind_ok.mp h
  rw [eh] at hs
  simp only at hs
  obtain ⟨_, e1, h⟩ := Res.bind_ok.mp h
  rw [Res.lift_ok] at h e1
  have hm := mkClass_iff.mp e1
  have hr := readRows_ok h
  refine ⟨line, _, hs, hr.length_eq.symm, hm.1, hm.2, fun r hmem => ?_, fun r hmem => ?_⟩
  all_goals
    obtain ⟨n, hn⟩ := List.mem_iff_getElem?.mp hmem
    obtain ⟨l2, e2⟩ := List.getElem?_eq_some_iff.mp hn
    have := (List.forall₂_iff_get.mp hr).2 n (by rw [hr.length_eq]; exact l2) l2
    rw [List.get_eq_getElem, List.get_eq_getElem, e2] at this
  · exact this.1
  · exact this.2.1

/-- **C199**: a name that the file, with distinct names, does not have is no empty column: no file with rows can be read for it. -/
theorem C199_missing (okName : Str → Bool) (text : Str) (keys : List Str) (sep comm : Char) {line : Str} {rest : List Str}
    (hc : contentLines comm text = line :: rest) (hne : rest ≠ []) (hd : (pySplit sep line).Nodup) {k : Str} (hk : k ∈ keys)
    (hmiss : k ∉ pySplit sep line) : ∃ e, readfile okName text (some keys) sep comm = .raise e := by
  have hs := header_spec comm (splitlines text)
  rw [contentLines_eq] at hc
  rcases hres : readfile okName text (some keys) sep comm with _ | e | rows
  · exfalso
    simp only [readfile, bind, Res.bind] at hres
    cases hh : header comm (splitlines text) with
    | hang => rw [hh] at hs; simp only at hs; rw [hs] at hc; cases hc
    | raise e => rw [hh] at hs; exact hs
    | ok p =>
      rw [hh] at hres
      simp only at hres
      cases h1 : mkClass okName ((some keys).getD (pySplit sep p.1)) with
      | error e => rw [h1] at hres; cases hres
      | ok u =>
        rw [h1] at hres
        simp only [Res.lift] at hres
        split at hres <;> cases hres
  · exact ⟨e, rfl⟩
  · exfalso
    obtain ⟨⟨line', lines⟩, eh, h⟩ := Res.bind_ok.mp hres
    rw [eh] at hs
    simp only at hs
    rw [hs] at hc
    injection hc with hc1 hc2
    subst hc1
    obtain ⟨_, e1, h⟩ := Res.bind_ok.mp h
    rw [Res.lift_ok] at h e1
    have hm := mkClass_iff.mp e1
    simp only [Option.getD_some] at hm h
    have hr := readRows_ok h
    rw [hc2] at hr
    cases hr with
    | nil => exact hne rfl
    | cons h1 _ =>
      obtain ⟨_, h2, h3⟩ := h1
      have hlen := (Py.mapM_ok.mp h3).length_eq
      rw [h2] at hlen
      generalize hfk : pySplit sep line' = fkeys at *
      -- the chosen columns are distinct names among the keys without `k`
      have hmap : ((List.range fkeys.length).filter (fun (i : Nat) => decide (∃ k ∈ keys, fkeys[i]? = some k))).map
          (fun (i : Nat) => fkeys[i]?.getD []) = fkeys.filter (fun k => decide (k ∈ keys)) := by
        have : fkeys = (List.range fkeys.length).map (fun (i : Nat) => fkeys[i]?.getD []) := by
          apply List.ext_getElem
          · simp
          · intro j h1 h2
            simp [List.getElem?_eq_getElem h1]
        conv_rhs => rw [this, List.filter_map]
        congr 1
        apply List.filter_congr
        intro j hj
        have hj : j < fkeys.length := by simpa using hj
        simp [List.getElem?_eq_getElem hj]
      have hl := congrArg List.length hmap
      rw [List.length_map, hlen] at hl
      have hnd : (fkeys.filter (fun k => decide (k ∈ keys))).Nodup := hd.filter _
      have hsub : fkeys.filter (fun k => decide (k ∈ keys)) ⊆ keys.erase k := by
        intro x hx
        rw [List.mem_filter] at hx
        have hx2 : x ∈ keys := by simpa using hx.2
        exact (List.mem_erase_of_ne (by rintro rfl; exact hmiss hx.1)).mpr hx2
      have := (List.subperm_of_subset hnd hsub).length_le
      rw [List.length_erase_of_mem hk] at this
      have : 0 < keys.length := List.length_pos_of_mem hk
      omega

example : ∃ e, readfile sampleName "a,b\n1,2\n".toList (some ["a".toList, "c".toList]) = .raise e :=
  C199_missing sampleName "a,b\n1,2\n".toList ["a".toList, "c".toList] ',' '#' (line := "a,b".toList) (rest := ["1,2".toList]) (k := "c".toList)
    (by decide +kernel) (by decide +kernel) (by decide +kernel) (by decide +kernel) (by decide +kernel)

/-- **C199**: a column cannot be added under a name that the table has or that is not accepted: `ValueError`, without a single row. -/
theorem C199_addkey (okName : Str → Bool) (F : List Str) (t : List Row) (ht : IsTable okName F t) (hne : t ≠ []) (key : Str)
    (h : key ∈ F ∨ okName key = false) (func : Row → Py Str) : addkey okName t key func = ([], some .valueError) := by
  have hb : BadNames okName (F ++ [key]) := by
    rcases h with h | h
    · refine .inl fun hn => ?_
      exact (List.nodup_append.mp hn).2.2 key h key (by simp) rfl
    · exact .inr ⟨key, by simp, h⟩
  simp only [addkey, fieldsOf_ok ht hne, mkClass_bad hb, Gen.raise]

example : addkey sampleName sample "id".toList (fun _ => .ok []) = ([], some .valueError) :=
  C199_addkey sampleName _ sample sample_table (by decide) _ (.inl (by decide)) _

/-- **C199**: tables cannot be joined under bad names. -/
theorem C199_join (okName : Str → Bool) (order : List Str → List Str) (t1 t2 : List Row) (hn1 : t1 ≠ []) (hn2 : t2 ≠ [])
    (pivots : Option (List Str)) (keys : List Str) (h : BadNames okName keys) :
    join okName order t1 t2 pivots (some keys) = .error .valueError := by
  obtain ⟨r1, t1, rfl⟩ := List.exists_cons_of_ne_nil hn1
  obtain ⟨r2, t2, rfl⟩ := List.exists_cons_of_ne_nil hn2
  simp only [join, fieldsOf, bind, Except.bind, Option.getD_some, mkClass_bad h]

example : join sampleName id sample sample none (some ["id".toList, "id".toList]) = .error .valueError :=
  C199_join sampleName id sample sample (by decide) (by decide) none _ (.inl (by decide))

end Table
end Coral
