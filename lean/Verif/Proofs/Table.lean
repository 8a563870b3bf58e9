import Verif.Spec.Table
import Verif.PyList
import Verif.Proofs.Buffer
import Mathlib.Data.List.Basic
import Mathlib.Data.List.Nodup

/-! # Proofs about `table` -/
set_option linter.unusedSectionVars false
namespace Coral
namespace Table
open Buffer (pyIndex_nat)

theorem mapM_exists {α β : Type} {f : α → Py β} {P : α → β → Prop} (l : List α) (h : ∀ a ∈ l, ∃ b, f a = .ok b ∧ P a b) :
    ∃ bs, l.mapM f = .ok bs ∧ List.Forall₂ P l bs := by
  induction l with
  | nil => exact ⟨[], rfl, .nil⟩
  | cons a l ih =>
    obtain ⟨b, e, hb⟩ := h a (by simp)
    obtain ⟨bs, e', hbs⟩ := ih (fun a ha => h a (by simp [ha]))
    exact ⟨b :: bs, by rw [List.mapM_cons, e, e']; rfl, .cons hb hbs⟩

/-! ### Cells -/

theorem lookup_zip {F V : List Str} (hn : F.Nodup) (hl : V.length = F.length) (k v : Str) :
    (F.zip V).lookup k = some v ↔ ∃ i : Nat, F[i]? = some k ∧ V[i]? = some v := by
  induction F generalizing V with
  | nil => simp
  | cons f F ih =>
    cases V with
    | nil => simp at hl
    | cons w V =>
      obtain ⟨h1, h2⟩ := List.nodup_cons.mp hn
      rw [List.zip_cons_cons, List.lookup_cons]
      by_cases hk : k = f
      · subst hk
        simp only [beq_self_eq_true]
        constructor
        · intro h; exact ⟨0, by simp, by simpa using h⟩
        · rintro ⟨i, h3, h4⟩
          cases i with
          | zero => simpa using h4
          | succ i =>
            simp only [List.getElem?_cons_succ] at h3
            exact absurd (List.mem_of_getElem? h3) h1
      · have : (k == f) = false := by simpa using hk
        rw [this]
        simp only
        rw [ih h2 (by simpa using hl)]
        constructor
        · rintro ⟨i, h3, h4⟩; exact ⟨i + 1, by simpa using h3, by simpa using h4⟩
        · rintro ⟨i, h3, h4⟩
          cases i with
          | zero => simp at h3; exact absurd h3.symm hk
          | succ i => exact ⟨i, by simpa using h3, by simpa using h4⟩

/-- A row as a named tuple makes it. -/
def GoodRow (r : Row) : Prop := r.fields.Nodup ∧ r.values.length = r.fields.length

theorem asdict_lookup {r : Row} (h : GoodRow r) (k v : Str) : r.asdict.lookup k = some v ↔ r.At k v := lookup_zip h.1 h.2 k v

theorem at_unique {r : Row} (h : GoodRow r) {k v w : Str} (h1 : r.At k v) (h2 : r.At k w) : v = w := by
  have e1 := (asdict_lookup h k v).mpr h1
  have e2 := (asdict_lookup h k w).mpr h2
  rw [e1] at e2
  injection e2

theorem at_mem {r : Row} {k v : Str} (h : r.At k v) : k ∈ r.fields := by
  obtain ⟨i, h1, _⟩ := h
  exact List.mem_of_getElem? h1

theorem exists_at {r : Row} (h : GoodRow r) {k : Str} (hk : k ∈ r.fields) : ∃ v, r.At k v := by
  obtain ⟨i, hi⟩ := List.mem_iff_getElem?.mp hk
  have hil := (List.getElem?_eq_some_iff.mp hi).1
  exact ⟨r.values[i]'(by have := h.2; omega), i, hi, List.getElem?_eq_getElem _⟩

theorem asdict_lookup_none {r : Row} (h : GoodRow r) (k : Str) : r.asdict.lookup k = none ↔ k ∉ r.fields := by
  constructor
  · intro e hk
    obtain ⟨v, hv⟩ := exists_at h hk
    rw [(asdict_lookup h k v).mpr hv] at e
    cases e
  · intro hk
    cases e : r.asdict.lookup k with
    | none => rfl
    | some v => exact absurd (at_mem ((asdict_lookup h k v).mp e)) hk

theorem get_ok {r : Row} (h : GoodRow r) (k v : Str) : r.get k = .ok v ↔ r.At k v := by
  rw [← asdict_lookup h]
  unfold Row.get dictGet
  cases r.asdict.lookup k with
  | none => simp
  | some w => simp

theorem getattrD_iff {r : Row} (h : GoodRow r) (k v : Str) : getattrD r k = v ↔ r.AtOr k v := by
  unfold getattrD Row.AtOr
  cases e : r.asdict.lookup k with
  | none =>
    have hk := (asdict_lookup_none h k).mp e
    simp only [Option.getD_none]
    constructor
    · intro hv; exact Or.inr ⟨hk, hv.symm⟩
    · rintro (hv | hv)
      · exact absurd (at_mem hv) hk
      · exact hv.2.symm
  | some w =>
    have hw := (asdict_lookup h k w).mp e
    simp only [Option.getD_some]
    constructor
    · rintro rfl; exact Or.inl hw
    · rintro (hv | hv)
      · exact at_unique h hw hv
      · exact absurd (at_mem hw) hv.1

theorem agree_iff {r1 r2 : Row} (h1 : GoodRow r1) (h2 : GoodRow r2) (P : List Str) :
    P.map (getattrD r1) = P.map (getattrD r2) ↔ Agree P r1 r2 := by
  unfold Agree
  rw [List.map_inj_left]
  constructor
  · intro h p hp v
    rw [← getattrD_iff h1, ← getattrD_iff h2, h p hp]
  · intro h p hp
    rw [getattrD_iff h1, h p hp, ← getattrD_iff h2]

theorem IsTable.good {okName : Str → Bool} {F : List Str} {t : List Row} (h : IsTable okName F t) {r : Row} (hr : r ∈ t) :
    GoodRow r := by
  refine ⟨?_, ?_⟩
  · rw [h.fields r hr]; exact h.distinct
  · rw [h.fields r hr]; exact h.values r hr

theorem IsTable.tail {okName : Str → Bool} {F : List Str} {r : Row} {t : List Row} (h : IsTable okName F (r :: t)) :
    IsTable okName F t :=
  ⟨h.names, h.distinct, fun r hr => h.fields r (by simp [hr]), fun r hr => h.values r (by simp [hr])⟩

theorem mkClass_ok {okName : Str → Bool} {keys : List Str} (h1 : ∀ k ∈ keys, okName k = true) (h2 : keys.Nodup) :
    mkClass okName keys = .ok () := by
  have : keys.all okName = true := List.all_eq_true.mpr h1
  simp [mkClass, this, h2]

theorem mkClass_iff {okName : Str → Bool} {keys : List Str} : mkClass okName keys = .ok () ↔
    (∀ k ∈ keys, okName k = true) ∧ keys.Nodup := by
  constructor
  · intro h
    unfold mkClass at h
    split at h
    · rename_i hh
      simp only [Bool.and_eq_true, List.all_eq_true, decide_eq_true_eq] at hh
      exact hh
    · cases h
  · rintro ⟨h1, h2⟩; exact mkClass_ok h1 h2

theorem fieldsOf_ok {okName : Str → Bool} {F : List Str} {t : List Row} (h : IsTable okName F t) (hne : t ≠ []) : fieldsOf t = .ok F := by
  cases t with
  | nil => exact absurd rfl hne
  | cons r t => rw [fieldsOf, h.fields r (by simp)]

/-! ### Projections -/

/-- `keys` of a row, in order. -/
theorem proj_ok {r : Row} (h : GoodRow r) {keys : List Str} (hk : ∀ k ∈ keys, k ∈ r.fields) :
    ∃ vals, keys.mapM r.get = .ok vals ∧ vals.length = keys.length ∧
      ∀ (i : Nat) k v, keys[i]? = some k → vals[i]? = some v → r.At k v := by
  obtain ⟨vals, e, hf⟩ := mapM_exists (f := r.get) (P := fun k v => r.At k v) keys (fun k hk' => by
    obtain ⟨v, hv⟩ := exists_at h (hk k hk')
    exact ⟨v, (get_ok h k v).mpr hv, hv⟩)
  refine ⟨vals, e, hf.length_eq.symm, ?_⟩
  intro i k v h1 h2
  obtain ⟨l1, rfl⟩ := List.getElem?_eq_some_iff.mp h1
  obtain ⟨l2, rfl⟩ := List.getElem?_eq_some_iff.mp h2
  exact (List.forall₂_iff_get.mp hf).2 i l1 l2

theorem proj_at {r : Row} (h : GoodRow r) {keys vals : List Str} (hn : keys.Nodup) (hl : vals.length = keys.length)
    (hv : ∀ (i : Nat) k v, keys[i]? = some k → vals[i]? = some v → r.At k v) (k : Str) (hk : k ∈ keys) (v : Str) :
    (⟨keys, vals⟩ : Row).At k v ↔ r.At k v := by
  constructor
  · rintro ⟨i, h1, h2⟩; exact hv i k v h1 h2
  · intro hr
    have hg : GoodRow ⟨keys, vals⟩ := ⟨hn, hl⟩
    obtain ⟨w, i, h1, h2⟩ := exists_at hg hk
    have := at_unique h hr (hv i k w h1 h2)
    subst this
    exact ⟨i, h1, h2⟩

theorem proj_self {r : Row} (h : GoodRow r) : r.fields.mapM r.get = .ok r.values := by
  obtain ⟨vals, e, hl, hv⟩ := proj_ok h (keys := r.fields) (fun k hk => hk)
  rw [e]
  congr 1
  apply List.ext_getElem?
  intro i
  by_cases hi : i < vals.length
  · have h1 : r.fields[i]? = some (r.fields[i]'(by omega)) := List.getElem?_eq_getElem _
    have h2 : vals[i]? = some vals[i] := List.getElem?_eq_getElem hi
    have h3 : r.values[i]? = some (r.values[i]'(by have := h.2; omega)) := List.getElem?_eq_getElem _
    have := at_unique h (hv i _ _ h1 h2) ⟨i, h1, h3⟩
    rw [h2, h3, this]
  · rw [List.getElem?_eq_none (by omega), List.getElem?_eq_none (by have := h.2; omega)]

/-! ### `join` -/

theorem joinDict_lookup {P : List Str} {t2 : List Row} {r1 : Row} (h1 : GoodRow r1) (h2 : ∀ r ∈ t2, GoodRow r) (k : Str) :
    JoinCell P t2 r1 k (((joinDict P t2 r1).lookup k).getD []) := by
  have hr1 : r1.AtOr k ((r1.asdict.lookup k).getD []) := (getattrD_iff h1 k _).mp rfl
  unfold joinDict
  simp only
  cases hf : t2.find? (fun r2 => decide (P.map (getattrD r1) = P.map (getattrD r2))) with
  | none =>
    right
    refine ⟨?_, hr1⟩
    intro r2 hr2 ha
    have := List.find?_eq_none.mp hf r2 hr2
    simp only [decide_eq_true_eq] at this
    exact this ((agree_iff h1 (h2 r2 hr2) P).mpr ha)
  | some r2 =>
    left
    have hm := List.mem_of_find?_eq_some hf
    have hg2 := h2 r2 hm
    refine ⟨r2, ?_, ?_⟩
    · obtain ⟨hp, as, bs, e, hn⟩ := List.find?_eq_some_iff_append.mp hf
      refine ⟨as.length, by simp [e], ?_, ?_⟩
      · simpa [agree_iff h1 hg2] using hp
      · intro j hj r hr ha
        have hmem : r ∈ as := by
          rw [e, List.getElem?_append_left hj] at hr
          exact List.mem_of_getElem? hr
        have := hn r hmem
        simp only [Bool.not_eq_true', decide_eq_false_iff_not] at this
        exact this ((agree_iff h1 (h2 r (by rw [e]; simp [hmem])) P).mpr ha)
    · simp only
      rw [List.lookup_append]
      cases e2 : r2.asdict.lookup k with
      | some v =>
        left
        simpa using (asdict_lookup hg2 k v).mp e2
      | none =>
        right
        exact ⟨(asdict_lookup_none hg2 k).mp e2, by simpa using hr1⟩

/-! ### `indexby` -/

theorem lookup_dictSet (d : List (Str × Row)) (k : Str) (v : Row) (q : Str) :
    (dictSet d k v).lookup q = if q = k then some v else d.lookup q := by
  induction d with
  | nil =>
    by_cases h : q = k
    · subst h; simp [dictSet]
    · have : (q == k) = false := by simpa using h
      simp [dictSet, h, List.lookup_cons, this]
  | cons e d ih =>
    obtain ⟨k', v'⟩ := e
    rw [dictSet]
    split
    · rename_i hk; subst hk
      by_cases h : q = k'
      · subst h; simp
      · have : (q == k') = false := by simpa using h
        simp [h, List.lookup_cons, this]
    · rename_i hk
      rw [List.lookup_cons, ih, List.lookup_cons]
      by_cases h : q = k'
      · subst h
        simp [hk]
      · have : (q == k') = false := by simpa using h
        simp [this]

theorem mem_dictSet {d : List (Str × Row)} {k : Str} {v : Row} {q : Str} : q ∈ (dictSet d k v).map (·.1) ↔ q = k ∨ q ∈ d.map (·.1) := by
  induction d with
  | nil => simp [dictSet]
  | cons e d ih =>
    obtain ⟨k', v'⟩ := e
    rw [dictSet]
    split
    · rename_i hk; subst hk
      simp
    · rw [List.map_cons, List.mem_cons, ih, List.map_cons, List.mem_cons]
      simp only
      tauto

theorem nodup_dictSet {d : List (Str × Row)} (hd : (d.map (·.1)).Nodup) (k : Str) (v : Row) : ((dictSet d k v).map (·.1)).Nodup := by
  induction d with
  | nil => simp [dictSet]
  | cons e d ih =>
    obtain ⟨k', v'⟩ := e
    simp only [List.map_cons, List.nodup_cons] at hd
    rw [dictSet]
    split
    · simpa using hd
    · rename_i hk
      simp only [List.map_cons, List.nodup_cons, mem_dictSet]
      exact ⟨by rintro (h | h); exact hk h; exact hd.1 h, ih hd.2⟩

/-! ### Reading -/

theorem header_spec (comm : Char) (lines : List Str) :
    match header comm lines with
    | .ok (h, rest) => ((lines.map (cut comm)).filter (fun l => decide (l ≠ []))) =
        h :: ((rest.map (cut comm)).filter (fun l => decide (l ≠ [])))
    | .hang => ((lines.map (cut comm)).filter (fun l => decide (l ≠ []))) = []
    | .raise _ => False := by
  induction lines with
  | nil => simp [header]
  | cons l lines ih =>
    by_cases hc : cut comm l = []
    · rw [header, if_pos hc, List.map_cons, List.filter_cons, hc]
      simpa using ih
    · rw [header, if_neg hc]
      simp [hc]

theorem readRows_ok {keys : List Str} {indexes : List Nat} {sep comm : Char} {lines : List Str} {rows : List Row}
    (h : readRows keys indexes sep comm lines = .ok rows) :
    List.Forall₂ (fun l (r : Row) => r.fields = keys ∧ r.values.length = keys.length ∧
      indexes.mapM (fun (i : Nat) => pyIndex (pySplit sep l) (i : Int)) = .ok r.values)
      ((lines.map (cut comm)).filter (fun l => decide (l ≠ []))) rows := by
  induction lines generalizing rows with
  | nil => cases h; exact .nil
  | cons l lines ih =>
    rw [readRows] at h
    split at h
    · rename_i hc
      rw [List.map_cons, List.filter_cons, hc]
      simpa using ih h
    · rename_i hc
      rw [List.map_cons, List.filter_cons, if_pos (by simpa using hc)]
      obtain ⟨vals, e1, h⟩ := Py.bind_ok.mp h
      obtain ⟨row, e2, h⟩ := Py.bind_ok.mp h
      obtain ⟨rows', e3, h⟩ := Py.bind_ok.mp h
      cases h
      refine .cons ?_ (ih e3)
      unfold mkRow at e2
      split at e2
      · cases e2; exact ⟨rfl, by assumption, e1⟩
      · cases e2

theorem readRows_of {keys : List Str} {indexes : List Nat} {sep comm : Char} {lines : List Str} {cells : List (List Str)}
    (h : List.Forall₂ (fun l vs => vs.length = keys.length ∧ indexes.mapM (fun (i : Nat) => pyIndex (pySplit sep l) (i : Int)) = .ok vs)
      ((lines.map (cut comm)).filter (fun l => decide (l ≠ []))) cells) :
    readRows keys indexes sep comm lines = .ok (cells.map (fun vs => ⟨keys, vs⟩)) := by
  induction lines generalizing cells with
  | nil => cases h; rfl
  | cons l lines ih =>
    rw [readRows]
    split
    · rename_i hc
      rw [List.map_cons, List.filter_cons, hc] at h
      exact ih (by simpa using h)
    · rename_i hc
      rw [List.map_cons, List.filter_cons, if_pos (by simpa using hc)] at h
      cases h with
      | cons h1 h2 =>
        simp only [h1.2, bind, Except.bind, mkRow, if_pos h1.1, ih h2, pure, Except.pure, List.map_cons]

theorem mapM_range_index (vs : List Str) : (List.range vs.length).mapM (fun (i : Nat) => pyIndex vs (i : Int)) = .ok vs := by
  rw [Py.mapM_ok, List.forall₂_iff_get]
  refine ⟨by simp, ?_⟩
  intro i h1 h2
  simp only [List.get_eq_getElem, List.getElem_range]
  exact pyIndex_nat vs i _ (List.getElem?_eq_getElem h2)

/-! ### Writing -/

theorem join_head {sep : Char} {cells : List Str} (hne : cells ≠ []) (hp : ∀ s ∈ cells, NoOuterSpace s)
    (he : isSpace sep = true → cells.head? ≠ some []) (c : Char) (h : (pyJoin sep cells).head? = some c) : isSpace c = false := by
  cases cells with
  | nil => exact absurd rfl hne
  | cons a l =>
    have ha := (hp a (by simp)).1
    cases l with
    | nil => exact ha c h
    | cons b l =>
      rw [pyJoin] at h
      cases a with
      | nil =>
        simp only [List.nil_append, List.head?_cons, Option.some.injEq] at h
        subst h
        cases hs : isSpace sep with
        | false => rfl
        | true => exact absurd rfl (he hs)
      | cons x a => exact ha c (by simpa using h)

theorem join_last {sep : Char} {cells : List Str} (hne : cells ≠ []) (hp : ∀ s ∈ cells, NoOuterSpace s)
    (he : isSpace sep = true → cells.getLast? ≠ some []) (c : Char) (h : (pyJoin sep cells).getLast? = some c) : isSpace c = false := by
  induction cells with
  | nil => exact absurd rfl hne
  | cons a l ih =>
    cases l with
    | nil => exact (hp a (by simp)).2 c h
    | cons b l =>
      rw [pyJoin] at h
      cases hj : pyJoin sep (b :: l) with
      | nil =>
        rw [hj] at h
        simp only [List.getLast?_append, List.getLast?_singleton, Option.some_or, Option.some.injEq] at h
        subst h
        have : b :: l = [[]] := by
          cases l with
          | nil => simpa [pyJoin] using hj
          | cons d l => simp [pyJoin] at hj
        cases hs : isSpace sep with
        | false => rfl
        | true => exact absurd (by rw [this]; rfl) (he hs)
      | cons x xs =>
        refine ih (by simp) (fun s hs => hp s (by simp [hs])) (fun hs => ?_) ?_
        · have := he hs
          simpa [List.getLast?_cons_cons] using this
        · rw [hj] at h ⊢
          rw [← h]
          rw [show a ++ sep :: x :: xs = (a ++ [sep]) ++ (x :: xs) by simp, List.getLast?_append_of_ne_nil _ (by simp)]

theorem plain_cut {sep comm : Char} (hsc : sep ≠ comm) (hc : comm ≠ '\n') {cells : List Str} (h : PlainLine sep comm cells) :
    cut comm (pyJoin sep cells ++ ['\n']) = pyJoin sep cells := by
  have hnc : comm ∉ pyJoin sep cells ++ ['\n'] := by
    intro hm
    rcases List.mem_append.mp hm with hm | hm
    · rcases mem_pyJoin hm with hm | ⟨s, hs, hm⟩
      · exact hsc hm.symm
      · exact (h.plain s hs).noComm hm
    · exact hc (by simpa using hm)
  unfold cut
  rw [pySplit_of_not_mem hnc]
  apply strip_line
  exact ⟨join_head h.nonblank.1 (fun s hs => (h.plain s hs).noOuter) (fun hs => (h.ends hs).1),
    join_last h.nonblank.1 (fun s hs => (h.plain s hs).noOuter) (fun hs => (h.ends hs).2)⟩

theorem plain_ne {sep comm : Char} {cells : List Str} (h : PlainLine sep comm cells) : pyJoin sep cells ≠ [] := by
  obtain ⟨h1, h2⟩ := h.nonblank
  rcases cells with _ | ⟨a, _ | ⟨b, l⟩⟩
  · exact absurd rfl h1
  · intro e; simp only [pyJoin] at e; subst e; exact h2 rfl
  · simp [pyJoin]

theorem plain_split {sep comm : Char} {cells : List Str} (h : PlainLine sep comm cells) : pySplit sep (pyJoin sep cells) = cells :=
  pySplit_join h.nonblank.1 (fun s hs => (h.plain s hs).noSep)

theorem plain_break {sep comm : Char} (hs : isBreak sep = false) {cells : List Str} (h : PlainLine sep comm cells) :
    ∀ c ∈ pyJoin sep cells, isBreak c = false := by
  intro c hc
  rcases mem_pyJoin hc with rfl | ⟨s, hs', hm⟩
  · exact hs
  · exact (h.plain s hs').noBreak c hm

/-- Reading a file of plain lines. -/
theorem read_plain {okName : Str → Bool} {sep comm : Char} (hsc : sep ≠ comm) (hc : comm ≠ '\n') (hs : isBreak sep = false)
    {keys : List Str} {rows : List (List Str)} (hk : PlainLine sep comm keys) (hr : ∀ r ∈ rows, PlainLine sep comm r)
    (hl : ∀ r ∈ rows, r.length = keys.length) (hn : ∀ k ∈ keys, okName k = true) (hd : keys.Nodup) :
    readfile okName ((keys :: rows).flatMap (fun r => pyJoin sep r ++ ['\n'])) none sep comm = .ok (rows.map (fun vs => ⟨keys, vs⟩)) := by
  have hall : ∀ r ∈ keys :: rows, PlainLine sep comm r := by
    intro r hr'
    rcases List.mem_cons.mp hr' with rfl | h
    · exact hk
    · exact hr r h
  have hsplit : splitlines ((keys :: rows).flatMap (fun r => pyJoin sep r ++ ['\n'])) =
      (keys :: rows).map (fun r => pyJoin sep r ++ ['\n']) := by
    have := splitlines_lines ((keys :: rows).map (pyJoin sep)) (by
      intro s hs'
      obtain ⟨r, hr', rfl⟩ := List.mem_map.mp hs'
      exact plain_break hs (hall r hr'))
    rw [List.flatMap_map, List.map_map] at this
    exact this
  have hhead : header comm (splitlines ((keys :: rows).flatMap (fun r => pyJoin sep r ++ ['\n']))) =
      .ok (pyJoin sep keys, rows.map (fun r => pyJoin sep r ++ ['\n'])) := by
    rw [hsplit, List.map_cons, header, plain_cut hsc hc hk, if_neg (plain_ne hk)]
  have hidx : (List.range keys.length).filter (fun (i : Nat) => decide (∃ k ∈ keys, keys[i]? = some k)) = List.range keys.length := by
    rw [List.filter_eq_self]
    intro i hi
    have hi : i < keys.length := by simpa using hi
    simp only [decide_eq_true_eq]
    exact ⟨keys[i], List.getElem_mem _, List.getElem?_eq_getElem hi⟩
  have hrows : readRows keys (List.range keys.length) sep comm (rows.map (fun r => pyJoin sep r ++ ['\n'])) =
      .ok (rows.map (fun vs => ⟨keys, vs⟩)) := by
    apply readRows_of
    clear hall hsplit hhead
    induction rows with
    | nil => exact .nil
    | cons r rows ih =>
      have hr1 := hr r (by simp)
      rw [List.map_cons, List.map_cons, plain_cut hsc hc hr1, List.filter_cons, if_pos (by simpa using plain_ne hr1)]
      refine .cons ⟨hl r (by simp), ?_⟩ (ih (fun r h => hr r (by simp [h])) (fun r h => hl r (by simp [h])))
      rw [plain_split hr1, ← hl r (by simp)]
      exact mapM_range_index r
  simp only [readfile, hhead, bind, Res.bind, plain_split hk, Option.getD_none, hidx, mkClass_ok hn hd, Res.lift, hrows]

end Table
end Coral
