import Verif.Model.Frame
import Verif.Spec.Frame
import Verif.Proofs.BBox
import Verif.PyList

/-!
# Lemmas about frames
-/
namespace Coral
namespace Frame

open BBox

section
variable {K : Type} [LinearOrder K]

theorem inExtent_iff {xs : List K} {lo hi t : K} (h1 : lo ∈ xs) (h2 : hi ∈ xs) (h : ∀ x ∈ xs, lo ≤ x ∧ x ≤ hi) :
    InExtent xs t ↔ lo ≤ t ∧ (t < hi ∨ t = lo) := by
  constructor
  · rintro ⟨⟨v, hv, hvt⟩, hw⟩
    have := (h v hv).1
    refine ⟨by order, ?_⟩
    rcases hw with ⟨w, hw, htw⟩ | hw
    · left; have := (h w hw).2; order
    · right; have := hw lo h1; order
  · rintro ⟨h3, h4⟩
    refine ⟨⟨lo, h1, h3⟩, ?_⟩
    rcases h4 with h4 | rfl
    · exact .inl ⟨hi, h2, h4⟩
    · exact .inr fun w hw => (h w hw).1

/-- The two overlapping cases of an axis. -/
theorem axis_iff {a0 a1 lo hi : K} (ha : a0 < a1) :
    ((a0 ≤ lo ∧ lo < a1) ∨ (lo ≤ a0 ∧ a0 < hi)) ↔ ∃ t, (a0 ≤ t ∧ t < a1) ∧ lo ≤ t ∧ (t < hi ∨ t = lo) := by
  constructor
  · rintro (⟨h1, h2⟩ | ⟨h1, h2⟩)
    · exact ⟨lo, ⟨h1, h2⟩, le_refl _, .inr rfl⟩
    · exact ⟨a0, ⟨le_refl _, ha⟩, h1, .inl h2⟩
  · rintro ⟨t, ⟨h1, h2⟩, h3, h4⟩
    rcases le_or_gt a0 lo with h | h
    · exact .inl ⟨h, by order⟩
    · refine .inr ⟨h.le, ?_⟩
      rcases h4 with h4 | rfl <;> order

theorem collide_iff_meets {b o : BBox K} (hb : b.Proper) {ps : List (K × K)} (h : BBox.ofPoints ps = .ok o) :
    b.collide o = true ↔ Meets b ps := by
  match ps, h with
  | p :: ps, h =>
    obtain ⟨o', h', -, hc, ⟨p1, m1, e1⟩, ⟨p2, m2, e2⟩, ⟨p3, m3, e3⟩, ⟨p4, m4, e4⟩⟩ := ofPoints_spec p ps
    obtain rfl : o' = o := Except.ok.inj (h'.symm.trans h)
    have hx := fun t => inExtent_iff (t := t) (xs := (p :: ps).map Prod.fst) (lo := o'.x0) (hi := o'.x1)
      (List.mem_map.mpr ⟨p1, m1, e1⟩) (List.mem_map.mpr ⟨p2, m2, e2⟩)
      (by intro x hx; obtain ⟨q, hq, rfl⟩ := List.mem_map.mp hx; exact ⟨(hc q hq).1, (hc q hq).2.1⟩)
    have hy := fun t => inExtent_iff (t := t) (xs := (p :: ps).map Prod.snd) (lo := o'.y0) (hi := o'.y1)
      (List.mem_map.mpr ⟨p3, m3, e3⟩) (List.mem_map.mpr ⟨p4, m4, e4⟩)
      (by intro x hx; obtain ⟨q, hq, rfl⟩ := List.mem_map.mp hx; exact ⟨(hc q hq).2.2.1, (hc q hq).2.2.2⟩)
    simp only [Meets, hx, hy]
    simp only [collide, Bool.and_eq_true, Bool.or_eq_true, decide_eq_true_eq]
    rw [axis_iff hb.1, axis_iff hb.2]
    constructor
    · rintro ⟨⟨x, ⟨h1, h2⟩, h3⟩, ⟨y, ⟨h4, h5⟩, h6⟩⟩
      exact ⟨x, y, ⟨h1, h2, h4, h5⟩, h3, h6⟩
    · rintro ⟨x, y, ⟨h1, h2, h4, h5⟩, h3, h6⟩
      exact ⟨⟨x, ⟨h1, h2⟩, h3⟩, ⟨y, ⟨h4, h5⟩, h6⟩⟩

end

section
variable {K : Type} [Field K] [LinearOrder K] [FloorRing K]
set_option linter.unusedSectionVars false

theorem anyCollides_ok {g : K → K → Py (K × K)} {proj : K × K → K × K} {b : BBox K} (hb : b.Proper) (parts : List (List (K × K)))
    (h : ∀ part ∈ parts, part ≠ [] ∧ ∀ p ∈ part, g p.1 p.2 = .ok (proj p)) :
    ∃ hit, anyCollides g b parts = .ok hit ∧ (hit = true ↔ ∃ part ∈ parts, Meets b (part.map proj)) := by
  induction parts with
  | nil => exact ⟨false, rfl, by simp⟩
  | cons part rest ih =>
    obtain ⟨hne, hp⟩ := h part (by simp)
    obtain ⟨hit, ih1, ih2⟩ := ih (fun q hq => h q (by simp [hq]))
    have h1 : part.mapM (fun p => g p.1 p.2) = .ok (part.map proj) := by
      rw [Py.mapM_ok, List.forall₂_map_right_iff, List.forall₂_same]
      exact hp
    obtain ⟨p, ps, rfl⟩ := List.exists_cons_of_ne_nil hne
    obtain ⟨o, ho, -⟩ := ofPoints_spec (proj p) (ps.map proj)
    have ho' : BBox.ofPoints ((p :: ps).map proj) = .ok o := ho
    have hm := collide_iff_meets hb ho'
    have : anyCollides g b ((p :: ps) :: rest) = if b.collide o then .ok true else anyCollides g b rest := by
      rw [anyCollides, h1]
      change (BBox.ofPoints ((p :: ps).map proj)).bind (fun bb => if b.collide bb then .ok true else anyCollides g b rest) = _
      rw [ho']
      rfl
    rw [this]
    by_cases hc : b.collide o = true
    · refine ⟨true, by rw [if_pos hc], ?_⟩
      simp only [true_iff]
      exact ⟨p :: ps, by simp, hm.mp hc⟩
    · refine ⟨hit, by rw [if_neg hc, ih1], ?_⟩
      rw [ih2]
      rw [hm] at hc
      constructor
      · rintro ⟨q, hq, hh⟩; exact ⟨q, by simp [hq], hh⟩
      · rintro ⟨q, hq, hh⟩
        rcases List.mem_cons.mp hq with rfl | hq
        · exact absurd hh hc
        · exact ⟨q, hq, hh⟩

theorem collect_ok {g : K → K → Py (K × K)} {b : BBox K} {pff : PReader K} (hit : List Nat → Bool) (ns : List (List Nat))
    (h : ∀ n ∈ ns, ∃ parts pos, pff.get 0 n = .ok (parts, pos) ∧ anyCollides g b parts = .ok (hit n)) :
    collect g b pff ns = .ok ((ns.filter hit).map (fun n => nameStr n ++ ['\n'])) := by
  induction ns with
  | nil => rfl
  | cons n ns ih =>
    obtain ⟨parts, pos, h1, h2⟩ := h n (by simp)
    rw [collect, h1]
    change (anyCollides g b parts >>= _) = _
    rw [h2]
    change (collect g b pff ns >>= _) = _
    rw [ih (fun m hm => h m (by simp [hm]))]
    cases hh : hit n <;> simp [hh, List.filter_cons] <;> rfl

theorem indexOf_getElem (names : List (List Nat)) (hn : names.Nodup) (i : Nat) (hi : i < names.length) :
    indexOf names[i] names = .ok i := by
  induction names generalizing i with
  | nil => simp at hi
  | cons n ns ih =>
    rw [List.nodup_cons] at hn
    cases i with
    | zero => simp [indexOf]
    | succ i =>
      have hi' : i < ns.length := by simpa using hi
      have : n ≠ ns[i] := fun e => hn.1 (e ▸ List.getElem_mem _)
      simp only [List.getElem_cons_succ, indexOf, if_neg this]
      rw [ih hn.2 i hi']
      rfl

end

theorem universal_id {s : Str} (h : '\r' ∉ s) : universal s = s := by
  induction s with
  | nil => rfl
  | cons c s ih =>
    have hc : c ≠ '\r' := fun e => h (by simp [e])
    have hs : '\r' ∉ s := fun e => h (by simp [e])
    rw [universal.eq_3 _ _ (by intro s' e; exact absurd e hc), if_neg hc, ih hs]

theorem fileLinesGo_line {cur s t : Str} (h : '\n' ∉ s) : fileLinesGo cur (s ++ '\n' :: t) = (cur ++ s ++ ['\n']) :: fileLinesGo [] t := by
  induction s generalizing cur with
  | nil => simp [fileLinesGo]
  | cons c s ih =>
    have hc : c ≠ '\n' := fun e => h (by simp [e])
    have hs : '\n' ∉ s := fun e => h (by simp [e])
    simp only [List.cons_append, fileLinesGo, if_neg hc]
    rw [ih hs]
    simp

theorem loadnames_lines {l : List Str} (h : ∀ s ∈ l, '\n' ∉ s ∧ '\r' ∉ s ∧ ∀ c, s.getLast? = some c → isSpace c = false) :
    loadnames (l.map (fun s => s ++ ['\n'])).flatten = l := by
  have h1 : universal (l.map (fun s => s ++ ['\n'])).flatten = (l.map (fun s => s ++ ['\n'])).flatten := by
    apply universal_id
    simp only [List.mem_flatten, List.mem_map, not_exists, not_and]
    rintro _ ⟨s, hs, rfl⟩ hm
    rcases List.mem_append.mp hm with hm | hm
    · exact (h s hs).2.1 hm
    · simp at hm
  rw [loadnames, h1]
  clear h1
  induction l with
  | nil => rfl
  | cons s l ih =>
    obtain ⟨h1, h2, h3⟩ := h s (by simp)
    simp only [List.map_cons, List.flatten_cons, List.append_assoc, List.cons_append, List.nil_append]
    rw [fileLinesGo_line h1, List.map_cons, ih (fun q hq => h q (by simp [hq])), List.nil_append, rstrip_snoc (by decide), rstrip_id h3]

end Frame
end Coral
