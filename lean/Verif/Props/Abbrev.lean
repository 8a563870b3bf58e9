import Verif.Model.Names
import Verif.Spec.Names
import Verif.PyList
import Mathlib.Data.List.Sort
import Mathlib.Data.List.Zip

/-! # Properties of `names.abbreviations`: C61 -/
set_option linter.unusedSectionVars false
namespace Coral
open scoped List

/-! ### Combinations -/

theorem mem_combinations {α : Type} {k : Nat} {l c : List α} : c ∈ combinations k l ↔ c <+ l ∧ c.length = k := by
  induction l generalizing k c with
  | nil =>
    cases k with
    | zero => simp [combinations]
    | succ k =>
      simp only [combinations, List.not_mem_nil, List.sublist_nil, false_iff, not_and]
      rintro rfl
      simp
  | cons a l ih =>
    cases k with
    | zero =>
      simp only [combinations, List.mem_singleton]
      constructor
      · rintro rfl
        simp
      · rintro ⟨-, h⟩
        exact List.eq_nil_of_length_eq_zero h
    | succ k =>
      simp only [combinations, List.mem_append, List.mem_map, ih]
      constructor
      · rintro (⟨d, ⟨h1, h2⟩, rfl⟩ | ⟨h1, h2⟩)
        · exact ⟨h1.cons_cons a, by simp [h2]⟩
        · exact ⟨h1.cons a, h2⟩
      · rintro ⟨h1, h2⟩
        cases h1 with
        | cons _ h => exact Or.inr ⟨h, h2⟩
        | cons_cons _ h => exact Or.inl ⟨_, ⟨h, by simpa using h2⟩, rfl⟩

theorem combinations_head {α : Type} {k : Nat} {l : List α} (h : k ≤ l.length) : (combinations k l).head? = some (l.take k) := by
  induction l generalizing k with
  | nil =>
    have : k = 0 := by simpa using h
    subst this
    rfl
  | cons a l ih =>
    cases k with
    | zero => rfl
    | succ k => simp [combinations, List.head?_append, ih (by simpa using h)]

/-! ### Letters with their places -/

/-- The letters of a name with their places, without the spaces. -/
def places (t : List Char) : List (Nat × Char) := (t.zipIdx.map (fun p => (p.2, p.1))).filter (fun ic => ic.2 != ' ')

theorem zipIdx_swap_sorted (t : List Char) (k : Nat) : ((t.zipIdx k).map (fun p => (p.2, p.1))).Pairwise (fun a b => a.1 < b.1) := by
  induction t generalizing k with
  | nil => simp
  | cons c t ih =>
    simp only [List.zipIdx_cons, List.map_cons, List.pairwise_cons, ih, and_true, List.mem_map]
    rintro _ ⟨⟨d, j⟩, h, rfl⟩
    have := List.le_snd_of_mem_zipIdx h
    simp only
    omega

theorem places_sorted (t : List Char) : (places t).Pairwise (fun a b => a.1 < b.1) := (zipIdx_swap_sorted t 0).filter _

theorem places_letters (t : List Char) : (places t).map Prod.snd = t.filter (· != ' ') := by
  unfold places
  rw [show (fun ic : Nat × Char => ic.2 != ' ') = (fun c : Char => c != ' ') ∘ Prod.snd from rfl, ← List.filter_map, List.map_map]
  congr 1
  change List.map Prod.fst _ = _
  exact List.zipIdx_map_fst 0 t

theorem mem_places {t : List Char} {i : Nat} {c : Char} : (i, c) ∈ places t ↔ t[i]? = some c ∧ c ≠ ' ' := by
  simp only [places, List.mem_filter, List.mem_map, Prod.mk.injEq, Prod.exists, bne_iff_ne, ne_eq]
  constructor
  · rintro ⟨⟨a, b, h, rfl, rfl⟩, h2⟩
    exact ⟨by simpa [List.mem_zipIdx_iff_getElem?] using h, h2⟩
  · rintro ⟨h, h2⟩
    exact ⟨⟨c, i, by simpa [List.mem_zipIdx_iff_getElem?] using h, rfl, rfl⟩, h2⟩

instance : Std.Antisymm (fun a b : Nat × Char => a.1 < b.1) := ⟨fun a b h h' => absurd h (by omega)⟩

theorem sortPlaces_sorted {l c : List (Nat × Char)} (hl : l.Pairwise (fun a b => a.1 < b.1)) (h : c <+~ l) :
    (sortBy (fun ic => ic.1) c).Pairwise (fun a b => a.1 < b.1) := by
  have h1 := sortBy_sorted (fun ic : Nat × Char => ic.1) c
  have h2 : (sortBy (fun ic : Nat × Char => ic.1) c).Pairwise (fun a b => a.1 ≠ b.1) := by
    have h3 : l.Pairwise (fun a b => a.1 ≠ b.1) := hl.imp (fun h => Nat.ne_of_lt h)
    obtain ⟨d, hd, hs⟩ := (sortBy_perm (fun ic : Nat × Char => ic.1) c).subperm.trans h
    exact (hd.pairwise_iff (fun h => Ne.symm h)).mp (h3.sublist hs)
  exact (h1.and h2).imp (fun ⟨h, h'⟩ => Nat.lt_of_le_of_ne h h')

/-- Spelling some of the places of a name gives letters of the name in their order. -/
theorem spell_sublist {l c : List (Nat × Char)} (hl : l.Pairwise (fun a b => a.1 < b.1)) (h : c <+~ l) : sortBy (fun ic => ic.1) c <+ l :=
  List.sublist_of_subperm_of_pairwise ((sortBy_perm _ c).subperm.trans h) (sortPlaces_sorted hl h) hl

/-- Places in order are spelled as they are. -/
theorem spell_eq {s c : List (Nat × Char)} (hs : s.Pairwise (fun a b => a.1 < b.1)) (h : c ~ s) : sortBy (fun ic => ic.1) c = s :=
  ((sortBy_perm _ c).trans h).eq_of_pairwise' (sortPlaces_sorted hs h.subperm) hs

/-! ### The order of preference -/

theorem moveInitial_perm {t : List Char} {l l' : List (Nat × Char)} {p : Nat × Nat} (h : moveInitial t l p = .ok l') : l' ~ l := by
  simp only [moveInitial, Py.bind_ok] at h
  obtain ⟨c, -, h⟩ := h
  split at h
  · rename_i hm
    cases h
    refine List.perm_middle.trans ?_
    rw [List.take_append_drop]
    exact (List.perm_cons_erase hm).symm
  · cases h

theorem moves_perm {t : List Char} {ps : List (Nat × Nat)} {l l' : List (Nat × Char)} (h : ps.foldlM (moveInitial t) l = .ok l') : l' ~ l := by
  induction ps generalizing l with
  | nil => cases h; exact .refl _
  | cons p ps ih =>
    rw [List.foldlM_cons, Py.bind_ok] at h
    obtain ⟨m, h1, h2⟩ := h
    exact (ih h2).trans (moveInitial_perm h1)

theorem sortRare_perm {ns : List (List Char)} {l l' : List (Nat × Char)} (h : sortRare ns l = .ok l') : l' ~ l := by
  simp only [sortRare, Py.bind_ok] at h
  obtain ⟨ks, h1, h2⟩ := h
  cases h2
  refine ((sortBy_perm _ _).map _).trans ?_
  rw [List.map_snd_zip (by rw [(Py.mapM_ok.mp h1).length_eq])]

/-- What the choice of one long name comes to: the letters in some order of preference, the first free spelling. -/
theorem abbreviate_long {ns : List (List Char)} {n : Nat} {taken : List (List Char)} {t : List Char} (hn : n < t.length) (res : Py (List Char)) :
    abbreviate ns n taken t = res ↔ (∃ e, sortRare ns (places t) = .error e ∧ res = .error e) ∨
      (∃ l e, sortRare ns (places t) = .ok l ∧ (initis t).zipIdx.foldlM (moveInitial t) l = .error e ∧ res = .error e) ∨
      ∃ l m, sortRare ns (places t) = .ok l ∧ (initis t).zipIdx.foldlM (moveInitial t) l = .ok m ∧
        res = (match ((combinations n m).map spell).find? (fun abb => decide (abb ∉ taken)) with
          | some abb => .ok abb
          | none => .error .exception) := by
  rw [abbreviate, if_neg (by omega)]
  change (sortRare ns (places t) >>= _) = res ↔ _
  cases h1 : sortRare ns (places t) with
  | error e =>
    constructor
    · rintro rfl
      exact Or.inl ⟨e, rfl, rfl⟩
    · rintro (⟨e', h, rfl⟩ | ⟨l, e', h, -⟩ | ⟨l, m, h, -⟩)
      · cases h; rfl
      · cases h
      · cases h
  | ok l =>
    change ((initis t).zipIdx.foldlM (moveInitial t) l >>= _) = res ↔ _
    cases h2 : (initis t).zipIdx.foldlM (moveInitial t) l with
    | error e =>
      constructor
      · rintro rfl
        exact Or.inr (Or.inl ⟨l, e, rfl, h2, rfl⟩)
      · rintro (⟨e', h, rfl⟩ | ⟨l', e', h, h', rfl⟩ | ⟨l', m, h, h', -⟩)
        · cases h
        · cases h; rw [h2] at h'; cases h'; rfl
        · cases h; rw [h2] at h'; cases h'
    | ok m =>
      constructor
      · rintro rfl
        exact Or.inr (Or.inr ⟨l, m, rfl, h2, rfl⟩)
      · rintro (⟨e', h, rfl⟩ | ⟨l', e', h, h', rfl⟩ | ⟨l', m', h, h', rfl⟩)
        · cases h
        · cases h; rw [h2] at h'; cases h'
        · cases h; rw [h2] at h'; cases h'; rfl

theorem spell_place {t : List Char} {m c : List (Nat × Char)} (hm : m ~ places t) {n : Nat} (hc : c ∈ combinations n m) :
    spell c <+ t.filter (· != ' ') ∧ (spell c).length = n := by
  obtain ⟨h1, h2⟩ := mem_combinations.mp hc
  constructor
  · rw [← places_letters]
    exact (spell_sublist (places_sorted t) (h1.subperm.trans hm.subperm)).map _
  · rw [spell, List.length_map, (sortBy_perm _ c).length_eq, h2]

/-- Every choice of letters is tried. -/
theorem spell_all {t : List Char} {m : List (Nat × Char)} (hm : m ~ places t) {s : List Char} (hs : s <+ t.filter (· != ' ')) :
    ∃ c ∈ combinations s.length m, spell c = s := by
  rw [← places_letters] at hs
  obtain ⟨q, hq, rfl⟩ := List.sublist_map_iff.mp hs
  have hnd : (places t).Nodup := (places_sorted t).imp (fun h e => by rw [e] at h; exact absurd h (Nat.lt_irrefl _))
  have hp : m.filter (fun x => decide (x ∈ q)) ~ q := by
    rw [List.perm_ext_iff_of_nodup ((hm.nodup_iff.mpr hnd).filter _) (hnd.sublist hq)]
    intro a
    simp only [List.mem_filter, decide_eq_true_eq, and_iff_right_iff_imp]
    exact fun h => hm.mem_iff.mpr (hq.subset h)
  refine ⟨m.filter (fun x => decide (x ∈ q)), mem_combinations.mpr ⟨List.filter_sublist, ?_⟩, ?_⟩
  · rw [hp.length_eq, List.length_map]
  · rw [spell, spell_eq ((places_sorted t).sublist hq) hp]

theorem replaceGo_mem {old s : List Char} {k : Nat} {c : Char} (h : c ∈ replaceGo old [' '] k s) : c ∈ s ∨ c = ' ' := by
  induction s generalizing k with
  | nil => cases k <;> simp [replaceGo] at h
  | cons a s ih =>
    cases k with
    | succ k =>
      rcases ih h with h | h
      · exact Or.inl (by simp [h])
      · exact Or.inr h
    | zero =>
      simp only [replaceGo] at h
      split at h
      · rcases List.mem_append.mp h with h | h
        · exact Or.inr (by simpa using h)
        · rcases ih h with h | h
          · exact Or.inl (by simp [h])
          · exact Or.inr h
      · rcases List.mem_cons.mp h with h | h
        · exact Or.inl (by simp [h])
        · rcases ih h with h | h
          · exact Or.inl (by simp [h])
          · exact Or.inr h

theorem dropExtras_mem {es : List (List Char)} {name : List Char} {c : Char} (h : c ∈ dropExtras es name) : c ∈ name ∨ c = ' ' := by
  induction es generalizing name with
  | nil => exact Or.inl h
  | cons e es ih =>
    rcases ih h with h | h
    · exact replaceGo_mem h
    · exact Or.inr h

theorem sortRare_works {ns : List (List Char)} {l : List (Nat × Char)} (h : ∀ ic ∈ l, ∃ name ∈ ns, ic.2 ∈ name) : ∃ l', sortRare ns l = .ok l' := by
  have : ∃ ks, l.mapM (fun ic => hist ns ic.2) = .ok ks := by
    induction l with
    | nil => exact ⟨[], rfl⟩
    | cons a l ih =>
      obtain ⟨ks, hk⟩ := ih (fun ic hic => h ic (by simp [hic]))
      obtain ⟨name, h1, h2⟩ := h a (by simp)
      have hc : ns.countP (fun name => decide (a.2 ∈ name)) ≠ 0 := by
        rw [ne_eq, List.countP_eq_zero]
        intro h3
        exact h3 name h1 (by simpa using h2)
      refine ⟨ns.countP (fun name => decide (a.2 ∈ name)) :: ks, ?_⟩
      rw [List.mapM_cons, hk]
      simp only [hist, if_neg hc]
      rfl
  obtain ⟨ks, hk⟩ := this
  exact ⟨_, by rw [sortRare, hk]; rfl⟩

theorem mem_initis {t : List Char} (hs : Spaced t) (h0 : t ≠ []) {i : Nat} (h : i ∈ initis t) : ∃ c, t[i]? = some c ∧ c ≠ ' ' := by
  rcases List.mem_cons.mp h with rfl | h
  · obtain ⟨a, t, rfl⟩ := List.exists_cons_of_ne_nil h0
    exact ⟨a, rfl, hs.1 a rfl⟩
  · obtain ⟨⟨c, j⟩, h1, rfl⟩ := List.mem_map.mp h
    obtain ⟨h1, h2⟩ := List.mem_filter.mp h1
    have h3 : t[j]? = some c := by simpa [List.mem_zipIdx_iff_getElem?] using h1
    have h2 : c = ' ' := by simpa using h2
    subst h2
    exact hs.2 j h3

theorem moveInitial_ok {t : List Char} {l : List (Nat × Char)} {p : Nat × Nat} {c : Char} (h1 : t[p.1]? = some c) (hm : (p.1, c) ∈ l) :
    moveInitial t l p = .ok ((l.erase (p.1, c)).take p.2 ++ (p.1, c) :: (l.erase (p.1, c)).drop p.2) := by
  have hi : pyIndex t (p.1 : Int) = .ok c := by
    simp only [pyIndex]
    rw [if_neg (show ¬ (p.1 : Int) < 0 by omega), if_pos (show (0 : Int) ≤ p.1 by omega), Int.toNat_natCast, h1]
  simp only [moveInitial]
  rw [hi]
  change (if (p.1, c) ∈ l then _ else _) = _
  rw [if_pos hm]
  rfl

theorem moves_work {t : List Char} {ps : List (Nat × Nat)} (hp : ∀ p ∈ ps, ∃ c, t[p.1]? = some c ∧ c ≠ ' ') {l : List (Nat × Char)} (hl : l ~ places t) :
    ∃ m, ps.foldlM (moveInitial t) l = .ok m := by
  induction ps generalizing l with
  | nil => exact ⟨l, rfl⟩
  | cons p ps ih =>
    obtain ⟨c, h1, h2⟩ := hp p (by simp)
    have hm : (p.1, c) ∈ l := hl.mem_iff.mpr (mem_places.mpr ⟨h1, h2⟩)
    have hstep : ∃ l', moveInitial t l p = .ok l' := by
      exact ⟨_, moveInitial_ok h1 hm⟩
    obtain ⟨l', h3⟩ := hstep
    obtain ⟨m, h4⟩ := ih (fun p' hp' => hp p' (by simp [hp'])) ((moveInitial_perm h3).trans hl)
    exact ⟨m, by rw [List.foldlM_cons, h3]; exact h4⟩

/-- One long name: a free choice of letters in order, or none is left. -/
theorem abbreviate_ok {ns : List (List Char)} {n : Nat} {taken : List (List Char)} {t abb : List Char} (hn : n < t.length) (h : abbreviate ns n taken t = .ok abb) :
    abb <+ t.filter (· != ' ') ∧ abb.length = n ∧ abb ∉ taken := by
  rcases (abbreviate_long hn _).mp h with ⟨e, -, h⟩ | ⟨l, e, -, -, h⟩ | ⟨l, m, h1, h2, h⟩
  · cases h
  · cases h
  · split at h
    · rename_i a ha
      cases h
      have h3 := List.find?_some ha
      obtain ⟨c, hc, rfl⟩ := List.mem_map.mp (List.mem_of_find?_eq_some ha)
      obtain ⟨h4, h5⟩ := spell_place ((moves_perm h2).trans (sortRare_perm h1)) hc
      exact ⟨h4, h5, by simpa using h3⟩
    · cases h

theorem abbreviate_error {ns : List (List Char)} {n : Nat} {taken : List (List Char)} {t : List Char} (hn : n < t.length) (hs : Spaced t)
    (ht : ∀ c ∈ t, c ≠ ' ' → ∃ name ∈ ns, c ∈ name) (e : PyErr) :
    abbreviate ns n taken t = .error e ↔ e = .exception ∧ ∀ s, s <+ t.filter (· != ' ') → s.length = n → s ∈ taken := by
  obtain ⟨l, h1⟩ := sortRare_works (ns := ns) (l := places t) (fun ic hic => by
    obtain ⟨h3, h4⟩ := mem_places.mp (show (ic.1, ic.2) ∈ places t from hic)
    exact ht _ (List.mem_of_getElem? h3) h4)
  obtain ⟨m, h2⟩ := moves_work (t := t) (ps := (initis t).zipIdx) (fun p hp => mem_initis hs (by intro e; rw [e] at hn; simp at hn) (by
    have := List.mem_map_of_mem (f := Prod.fst) hp
    rwa [List.zipIdx_map_fst] at this)) (sortRare_perm h1)
  have hm := (moves_perm h2).trans (sortRare_perm h1)
  rw [abbreviate_long hn]
  constructor
  · rintro (⟨e', h, -⟩ | ⟨l', e', h, h', -⟩ | ⟨l', m', h, h', h''⟩)
    · rw [h1] at h; cases h
    · rw [h1] at h; cases h; rw [h2] at h'; cases h'
    · rw [h1] at h; cases h; rw [h2] at h'; cases h'
      split at h''
      · cases h''
      · rename_i ha
        cases h''
        refine ⟨rfl, fun s hsub hlen => ?_⟩
        obtain ⟨c, hc, rfl⟩ := spell_all hm hsub
        rw [hlen] at hc
        have := List.find?_eq_none.mp ha _ (List.mem_map_of_mem hc)
        simpa using this
  · rintro ⟨rfl, hall⟩
    refine Or.inr (Or.inr ⟨l, m, h1, h2, ?_⟩)
    rw [List.find?_eq_none.mpr]
    intro s hs'
    obtain ⟨c, hc, rfl⟩ := List.mem_map.mp hs'
    obtain ⟨h4, h5⟩ := spell_place hm hc
    simpa using hall _ h4 h5

theorem abbreviateAll_ok {es ns : List (List Char)} {n : Nat} {abbs rest out : List (List Char)} (h : abbreviateAll (some es) ns n abbs rest = .ok out) :
    ∃ new, out = abbs ++ new ∧ new.length = rest.length ∧ ∀ (i : Nat) name, rest[i]? = some name →
      ∃ abb, new[i]? = some abb ∧ abbreviate ns n (abbs ++ new.take i) (dropExtras es name) = .ok abb := by
  induction rest generalizing abbs with
  | nil =>
    cases h
    exact ⟨[], by simp, rfl, by simp⟩
  | cons name rest ih =>
    simp only [abbreviateAll, Py.bind_ok] at h
    obtain ⟨abb, h1, h2⟩ := h
    obtain ⟨new, rfl, h3, h4⟩ := ih h2
    refine ⟨abb :: new, by simp, by simp [h3], fun i nm hi => ?_⟩
    cases i with
    | zero =>
      cases hi
      exact ⟨abb, rfl, by simpa using h1⟩
    | succ i =>
      obtain ⟨a, h5, h6⟩ := h4 i nm hi
      exact ⟨a, h5, by simpa using h6⟩

/-! ### C61 -/

/-- The form of a name that is shortened: in capitals, without accents and without the extra words. -/
def shortForm (es : List (List Char)) (upper : List Char → List Char) (name : List Char) : List Char := dropExtras es (asciiStr (upper name))

/-- **C61, violated.** For no list of names but the empty one is there a result: the name `extras` is not defined. -/
theorem C61_abbreviations_violated (upper : List Char → List Char) (names : List (List Char)) (length : Nat) :
    (names ≠ [] → abbreviations none upper names length = .error .nameError) ∧
    (names = [] → abbreviations none upper names length = .ok []) := by
  constructor
  · intro h
    obtain ⟨n, ns, rfl⟩ := List.exists_cons_of_ne_nil h
    rfl
  · rintro rfl
    rfl

example : abbreviations none id ["Rio".toList] 3 = .error .nameError := by decide +kernel

/-- **C61**, what would hold if the module had a list of extra words: if there is a result, it has one abbreviation of at most `n` letters for every
name; a short form of at most `n` letters is its own abbreviation; any other has exactly `n` letters of the name in their order, and differs from all
abbreviations before it. Missing: the name `extras`; short forms are not compared with other abbreviations, see below. -/
theorem C61_abbreviations_partial {es : List (List Char)} {upper : List Char → List Char} {names : List (List Char)} {n : Nat} {r : List (List Char × List Char)}
    (h : abbreviations (some es) upper names n = .ok r) :
    r.map Prod.fst = names ∧ ∀ (i : Nat) p, r[i]? = some p → p.2.length ≤ n ∧
      ((shortForm es upper p.1).length ≤ n → p.2 = shortForm es upper p.1) ∧
      (n < (shortForm es upper p.1).length → p.2.length = n ∧ p.2 <+ (shortForm es upper p.1).filter (· != ' ') ∧
        ∀ j < i, ∀ q, r[j]? = some q → q.2 ≠ p.2) := by
  simp only [abbreviations, Py.bind_ok] at h
  obtain ⟨out, h1, h2⟩ := h
  cases h2
  obtain ⟨new, hnew, h3, h4⟩ := abbreviateAll_ok h1
  rw [List.length_map] at h3
  rw [List.nil_append] at hnew
  subst hnew
  refine ⟨List.map_fst_zip (by omega), fun i p hp => ?_⟩
  obtain ⟨hp1, hp2⟩ := List.getElem?_zip_eq_some.mp hp
  obtain ⟨abb, h5, h6⟩ := h4 i (asciiStr (upper p.1)) (by rw [List.getElem?_map, hp1]; rfl)
  rw [hp2] at h5
  cases h5
  rw [List.nil_append] at h6
  change abbreviate _ n (List.take i out) (shortForm es upper p.1) = _ at h6
  rcases Nat.lt_or_ge n (shortForm es upper p.1).length with hn | hn
  · obtain ⟨h7, h8, h9⟩ := abbreviate_ok hn h6
    refine ⟨by omega, by omega, fun _ => ⟨h8, h7, fun j hj q hq e => h9 ?_⟩⟩
    obtain ⟨-, hq2⟩ := List.getElem?_zip_eq_some.mp hq
    rw [← e]
    exact List.mem_of_getElem? (i := j) (by rw [List.getElem?_take, if_pos hj, hq2])
  · rw [abbreviate, if_pos hn] at h6
    have h6 := (Except.ok.inj h6).symm
    exact ⟨by rw [h6]; exact hn, fun _ => h6, fun h => absurd h (by omega)⟩

/-- So with only long names the abbreviations differ. -/
theorem C61_distinct_partial {es : List (List Char)} {upper : List Char → List Char} {names : List (List Char)} {n : Nat} {r : List (List Char × List Char)}
    (h : abbreviations (some es) upper names n = .ok r) (hl : ∀ name ∈ names, n < (shortForm es upper name).length) : (r.map Prod.snd).Nodup := by
  obtain ⟨h1, h2⟩ := C61_abbreviations_partial h
  rw [List.nodup_iff_pairwise_ne, List.pairwise_iff_getElem]
  intro i j hi hj hij
  rw [List.length_map] at hi hj
  have h3 := (h2 j r[j] (List.getElem?_eq_getElem hj)).2.2 (hl _ (by rw [← h1]; exact List.mem_map_of_mem (List.getElem_mem hj)))
  simpa using h3.2.2 i hij r[i] (List.getElem?_eq_getElem hi)

/-- **C61, violated** even with such a list, in every result: two names with the same form of at most `n` letters get the same abbreviation. -/
theorem C61_violated_short {es : List (List Char)} {upper : List Char → List Char} {names : List (List Char)} {n : Nat} {r : List (List Char × List Char)}
    (h : abbreviations (some es) upper names n = .ok r) {i j : Nat} {p q : List Char × List Char} (hp : r[i]? = some p) (hq : r[j]? = some q)
    (hn : (shortForm es upper p.1).length ≤ n) (he : shortForm es upper p.1 = shortForm es upper q.1) : p.2 = q.2 := by
  obtain ⟨-, h2⟩ := C61_abbreviations_partial h
  rw [(h2 i p hp).2.1 hn, (h2 j q hq).2.1 (he ▸ hn), he]

/-- Two islands. -/
example : abbreviations (some []) id ["São".toList, "Sao".toList] 3 = .ok [("São".toList, "Sao".toList), ("Sao".toList, "Sao".toList)] := by decide +kernel

/-- **C61**, giving up: for names of single-spaced words the only error is the exception of line 164, raised for a name only if every choice of `n` of
its letters is an abbreviation before it; then there is no abbreviation of that kind. -/
theorem C61_gives_up_partial {es : List (List Char)} {upper : List Char → List Char} {names : List (List Char)} {n : Nat}
    (hs : ∀ name ∈ names, Spaced (shortForm es upper name)) {e : PyErr} (h : abbreviations (some es) upper names n = .error e) :
    e = .exception ∧ ∃ (before : List (List Char)) (name : List Char) (after : List (List Char)) (abbs : List (List Char × List Char)),
      names = before ++ name :: after ∧ abbs.map Prod.fst = before ∧ n < (shortForm es upper name).length ∧
      ∀ s, s <+ (shortForm es upper name).filter (· != ' ') → s.length = n → s ∈ abbs.map Prod.snd := by
  have h1 : abbreviateAll (some es) (names.map (fun name => asciiStr (upper name))) n [] (names.map (fun name => asciiStr (upper name))) = .error e := by
    simp only [abbreviations] at h
    cases h1 : abbreviateAll (some es) (names.map (fun name => asciiStr (upper name))) n [] (names.map (fun name => asciiStr (upper name))) with
    | ok x => rw [h1] at h; cases h
    | error e' => rw [h1] at h; cases h; rfl
  have key : ∀ (rest before : List (List Char)) (abbs : List (List Char)), names = before ++ rest → abbs.length = before.length →
      abbreviateAll (some es) (names.map (fun name => asciiStr (upper name))) n abbs (rest.map (fun name => asciiStr (upper name))) = .error e →
      e = .exception ∧ ∃ (before : List (List Char)) (name : List Char) (after : List (List Char)) (abbs : List (List Char × List Char)),
      names = before ++ name :: after ∧ abbs.map Prod.fst = before ∧ n < (shortForm es upper name).length ∧
      ∀ s, s <+ (shortForm es upper name).filter (· != ' ') → s.length = n → s ∈ abbs.map Prod.snd := by
    intro rest
    induction rest with
    | nil => intro _ _ _ _ h; cases h
    | cons name rest ih =>
      intro before abbs hb hl h
      simp only [List.map_cons, abbreviateAll] at h
      change (abbreviate _ n abbs (shortForm es upper name) >>= _) = _ at h
      cases h2 : abbreviate (names.map (fun name => asciiStr (upper name))) n abbs (shortForm es upper name) with
      | ok abb =>
        rw [h2] at h
        exact ih (before ++ [name]) (abbs ++ [abb]) (by simp [hb]) (by simp [hl]) h
      | error e' =>
        rw [h2] at h
        cases h
        have hn : n < (shortForm es upper name).length := by
          rcases Nat.lt_or_ge n (shortForm es upper name).length with hn | hn
          · exact hn
          · rw [abbreviate, if_pos hn] at h2
            cases h2
        have hmem : name ∈ names := by rw [hb]; simp
        obtain ⟨h3, h4⟩ := (abbreviate_error hn (hs name hmem) (fun c hc hsp => ⟨asciiStr (upper name), List.mem_map_of_mem (f := fun name => asciiStr (upper name)) hmem, by
          rcases dropExtras_mem hc with h | h
          · exact h
          · exact absurd h hsp⟩) e).mp h2
        refine ⟨h3, before, name, rest, before.zip abbs, hb, List.map_fst_zip (by omega), hn, fun s h5 h6 => ?_⟩
        rw [List.map_snd_zip (by omega)]
        exact h4 s h5 h6
  exact key names [] [] rfl rfl h1

/-- The moves put the initials in front, in their order. -/
theorem moves_front {t : List Char} {is : List Nat} {cs : List (Nat × Char)} (hc : List.Forall₂ (fun i p => p.1 = i ∧ t[i]? = some p.2) is cs) (hnd : cs.Nodup)
    {l m : List (Nat × Char)} {done : List (Nat × Char)} (hl : l.take done.length = done) (hln : l.Nodup) (hlt : ∀ p ∈ cs, p ∈ l) (hd : ∀ p ∈ cs, p ∉ done)
    (h : (is.zipIdx done.length).foldlM (moveInitial t) l = .ok m) : m.take (done.length + cs.length) = done ++ cs := by
  induction hc generalizing l done with
  | nil =>
    cases h
    simpa using hl
  | @cons i p is cs hp hc ih =>
    obtain ⟨rfl, hp⟩ := hp
    rw [List.zipIdx_cons, List.foldlM_cons, moveInitial_ok (p := (p.1, done.length)) hp (hlt p (by simp))] at h
    change ((is.zipIdx (done.length + 1)).foldlM (moveInitial t) _) = .ok m at h
    have he : (l.erase (p.1, p.2)).take done.length = done := by
      have e1 : l = done ++ l.drop done.length := by
        conv_lhs => rw [← List.take_append_drop done.length l, hl]
      rw [e1, List.erase_append_right _ (hd p (by simp)), List.take_left]
    have hlen : done.length ≤ (l.erase (p.1, p.2)).length := by
      rw [← he]
      simp
    have h1 := ih (List.nodup_cons.mp hnd).2 (done := done ++ [p]) (l := (l.erase (p.1, p.2)).take done.length ++ (p.1, p.2) :: (l.erase (p.1, p.2)).drop done.length)
      (by
        rw [he, show done ++ (p.1, p.2) :: (l.erase (p.1, p.2)).drop done.length = (done ++ [p]) ++ (l.erase (p.1, p.2)).drop done.length by simp]
        exact List.take_left)
      (by
        have hperm : (l.erase (p.1, p.2)).take done.length ++ (p.1, p.2) :: (l.erase (p.1, p.2)).drop done.length ~ l := by
          refine List.perm_middle.trans ?_
          rw [List.take_append_drop]
          exact (List.perm_cons_erase (hlt p (by simp))).symm
        exact hperm.nodup_iff.mpr hln)
      (by
        intro q hq
        have hperm : (l.erase (p.1, p.2)).take done.length ++ (p.1, p.2) :: (l.erase (p.1, p.2)).drop done.length ~ l := by
          refine List.perm_middle.trans ?_
          rw [List.take_append_drop]
          exact (List.perm_cons_erase (hlt p (by simp))).symm
        exact hperm.mem_iff.mpr (hlt q (by simp [hq])))
      (by
        intro q hq
        simp only [List.mem_append, List.mem_singleton, not_or]
        exact ⟨hd q (by simp [hq]), fun e => (List.nodup_cons.mp hnd).1 (e ▸ hq)⟩)
      (by rw [List.length_append]; exact h)
    rw [List.length_append, List.length_singleton] at h1
    rw [List.length_cons, show done.length + (cs.length + 1) = done.length + 1 + cs.length by omega, h1]
    simp

theorem wordInitials_true (cs : List Char) : wordInitials true cs = cs.head?.toList ++ wordInitials false cs := by
  cases cs <;> simp [wordInitials]

theorem wordInitials_places (pre t : List Char) :
    (((t.zipIdx pre.length).filter (fun p => p.1 == ' ')).map (fun p => p.2 + 1)).filterMap (fun i => (pre ++ t)[i]?) = wordInitials false t := by
  induction t generalizing pre with
  | nil => rfl
  | cons c cs ih =>
    have h := ih (pre ++ [c])
    rw [List.length_append, List.length_singleton, List.append_assoc, List.singleton_append] at h
    rw [List.zipIdx_cons, List.filter_cons]
    by_cases hc : c = ' '
    · subst hc
      simp only [BEq.rfl, if_true, List.map_cons, wordInitials, Bool.false_eq_true, if_false, wordInitials_true]
      have e : (pre ++ ' ' :: cs)[pre.length + 1]? = cs.head? := by
        rw [List.getElem?_append_right (by omega), show pre.length + 1 - pre.length = 0 + 1 by omega, List.getElem?_cons_succ, List.head?_eq_getElem?]
      cases hcs : cs.head? with
      | none => rw [List.filterMap_cons_none (by rw [e, hcs]), h]; rfl
      | some d => rw [List.filterMap_cons_some (by rw [e, hcs]), h]; rfl
    · have : (c == ' ') = false := by simpa using hc
      simp only [this, Bool.false_eq_true, if_false, wordInitials]
      exact h

theorem initis_letters (t : List Char) : (initis t).filterMap (fun i => t[i]?) = wordInitials true t := by
  have h := wordInitials_places [] t
  rw [List.length_nil, List.nil_append] at h
  rw [wordInitials_true, ← h, initis]
  cases t with
  | nil => rfl
  | cons c t => rfl

theorem initis_sorted (t : List Char) : (initis t).Pairwise (· < ·) := by
  rw [initis, List.pairwise_cons]
  constructor
  · intro i hi
    obtain ⟨p, -, rfl⟩ := List.mem_map.mp hi
    omega
  · rw [List.pairwise_map]
    have := zipIdx_swap_sorted t 0
    rw [List.pairwise_map] at this
    exact (this.filter _).imp (fun h => by omega)

/-- One free name: if the words are not more than the letters wanted, the abbreviation has all their initials in order. -/
theorem abbreviate_initials {ns : List (List Char)} {n : Nat} {t abb : List Char} (hn : n < t.length) (hs : Spaced t)
    (h1 : (wordInitials true t).length ≤ n) (h2 : n ≤ (t.filter (· != ' ')).length) (h : abbreviate ns n [] t = .ok abb) : wordInitials true t <+ abb := by
  rcases (abbreviate_long hn _).mp h with ⟨e, -, h⟩ | ⟨l, e, -, -, h⟩ | ⟨l, m, hl, hm, h⟩
  · cases h
  · cases h
  · have hlp := sortRare_perm hl
    have hmp := (moves_perm hm).trans hlp
    have hnd : (places t).Nodup := (places_sorted t).imp (fun h e => by rw [e] at h; exact absurd h (Nat.lt_irrefl _))
    have h0 : t ≠ [] := by intro e; rw [e] at hn; simp at hn
    have hlen : m.length = (t.filter (· != ' ')).length := by rw [hmp.length_eq, ← places_letters, List.length_map]
    -- the initials with their places
    obtain ⟨cs, hcs, hcl⟩ : ∃ cs : List (Nat × Char), List.Forall₂ (fun i p => p.1 = i ∧ t[i]? = some p.2) (initis t) cs ∧ cs.map Prod.snd = wordInitials true t := by
      rw [← initis_letters]
      have hall : ∀ i ∈ initis t, ∃ c, t[i]? = some c ∧ c ≠ ' ' := fun i hi => mem_initis hs h0 hi
      clear * - hall
      generalize initis t = is at hall
      induction is with
      | nil => exact ⟨[], .nil, rfl⟩
      | cons i is ih =>
        obtain ⟨cs, h1, h2⟩ := ih (fun j hj => hall j (by simp [hj]))
        obtain ⟨c, hc, -⟩ := hall i (by simp)
        exact ⟨(i, c) :: cs, .cons ⟨rfl, hc⟩ h1, by rw [List.filterMap_cons_some hc, List.map_cons, h2]⟩
    have hfst : cs.map Prod.fst = initis t := by
      clear * - hcs
      generalize initis t = is at hcs
      induction hcs with
      | nil => rfl
      | cons h _ ih => rw [List.map_cons, h.1, ih]
    have hcsort : cs.Pairwise (fun a b => a.1 < b.1) := by
      have := initis_sorted t
      rwa [← hfst, List.pairwise_map] at this
    have hcnd : cs.Nodup := hcsort.imp (fun h e => by rw [e] at h; exact absurd h (Nat.lt_irrefl _))
    have hcp : ∀ p ∈ cs, p ∈ places t := by
      intro p hp
      obtain ⟨j, hj, rfl⟩ := List.mem_iff_getElem.mp hp
      have hj' : j < (initis t).length := by rw [hcs.length_eq]; exact hj
      obtain ⟨e1, e2⟩ := List.Forall₂.get hcs hj' hj
      obtain ⟨c, e3, e4⟩ := mem_initis hs h0 (List.getElem_mem hj')
      simp only [List.get_eq_getElem] at e1 e2
      rw [e2] at e3
      cases e3
      refine mem_places.mpr ⟨?_, e4⟩
      change t[cs[j].1]? = some cs[j].2
      rw [e1]
      exact e2
    have hfront := moves_front hcs hcnd (done := []) (l := l) (by simp) (hlp.nodup_iff.mpr hnd) (fun p hp => hlp.mem_iff.mpr (hcp p hp)) (by simp) hm
    rw [List.length_nil, Nat.zero_add, List.nil_append] at hfront
    have hlcs : cs.length ≤ n := by rw [← List.length_map (f := Prod.snd), hcl]; exact h1
    have hpre : cs <+ m.take n := by
      rw [← hfront]
      exact (List.take_prefix_take_left hlcs).sublist
    have hhead := combinations_head (k := n) (l := m) (by omega)
    have hfind : ((combinations n m).map spell).find? (fun abb => decide (abb ∉ ([] : List (List Char)))) = some (spell (m.take n)) := by
      cases hc : combinations n m with
      | nil => rw [hc] at hhead; cases hhead
      | cons a as =>
        rw [hc] at hhead
        cases hhead
        simp
    rw [hfind] at h
    cases h
    rw [← hcl, spell]
    refine List.Sublist.map _ ?_
    exact List.sublist_of_subperm_of_pairwise (hpre.subperm.trans (sortBy_perm _ _).symm.subperm) hcsort
      (sortPlaces_sorted (places_sorted t) ((List.take_sublist _ _).subperm.trans hmp.subperm))

/-- **C61**, what is preferred: the first name, if long enough and of not more than `n` single-spaced words, is abbreviated with the initials of all of
them. (Later names may have to do without, if those spellings are taken.) -/
theorem C61_initials_partial {es : List (List Char)} {upper : List Char → List Char} {names : List (List Char)} {n : Nat} {p : List Char × List Char}
    {r : List (List Char × List Char)} (h : abbreviations (some es) upper names n = .ok (p :: r)) (hn : n < (shortForm es upper p.1).length)
    (hs : Spaced (shortForm es upper p.1)) (h1 : (wordInitials true (shortForm es upper p.1)).length ≤ n)
    (h2 : n ≤ ((shortForm es upper p.1).filter (· != ' ')).length) : wordInitials true (shortForm es upper p.1) <+ p.2 := by
  simp only [abbreviations, Py.bind_ok] at h
  obtain ⟨out, h3, h4⟩ := h
  have h4 : names.zip out = p :: r := Except.ok.inj h4
  obtain ⟨new, hnew, h5, h6⟩ := abbreviateAll_ok h3
  rw [List.nil_append] at hnew
  subst hnew
  have hp : (names.zip out)[0]? = some p := by rw [h4]; rfl
  obtain ⟨hp1, hp2⟩ := List.getElem?_zip_eq_some.mp hp
  obtain ⟨abb, h7, h8⟩ := h6 0 (asciiStr (upper p.1)) (by rw [List.getElem?_map, hp1]; rfl)
  rw [hp2] at h7
  cases h7
  exact abbreviate_initials hn hs h1 h2 h8

example : wordInitials true "RIO JANEIRO".toList = "RJ".toList := by decide +kernel

/-- Three letters for four names. -/
example : abbreviations (some ["DE".toList]) id ["RIO DE JANEIRO".toList, "RIO DO JANEIRO".toList, "ACRE".toList, "ACRA".toList] 3 =
    .ok [("RIO DE JANEIRO".toList, "RIJ".toList), ("RIO DO JANEIRO".toList, "RDJ".toList), ("ACRE".toList, "ACE".toList), ("ACRA".toList, "ACR".toList)] := by decide +kernel

/-- Nothing is left for the fifth. -/
example : abbreviations (some []) id ["ABCD".toList, "ABCD".toList, "ABCD".toList, "ABCD".toList, "ABCD".toList] 3 = .error .exception := by decide +kernel

end Coral
