import Verif.Proofs.Directories
import Verif.Model.SaveTo

/-!
# C202: saving makes the directories that are missing
-/
namespace Coral
namespace Dirs

theorem above_snoc {b : Bool} {q : Place} {cs : List Str} {t : Str} : Above q (b, cs ++ [t]) ↔ q.1 = b ∧ q.2 <+: cs := by
  constructor
  · rintro ⟨h1, s, hs, h2⟩
    refine ⟨h1, ?_⟩
    obtain ⟨s', x, rfl⟩ : ∃ s' x, s = s' ++ [x] := ⟨s.dropLast, s.getLast hs, (List.dropLast_concat_getLast hs).symm⟩
    rw [← List.append_assoc] at h2
    exact ⟨s', ((List.append_inj' h2 rfl).1).symm⟩
  · rintro ⟨h1, s, h2⟩
    exact ⟨h1, s ++ [t], by simp, by show cs ++ [t] = _; rw [← h2, List.append_assoc]⟩

/-- If no file is in the way and the name is not that of a directory, the file is opened. Afterwards the directories above it exist, and nothing else
has changed. -/
theorem C202_created {d : Disk} (hd : Sound d) {f : Str} (hf : FileName f) (hb : ¬ Blocked d (place f)) (hn : d (place f) ≠ some .dir) :
    ∃ e, getFileObj d f = (none, e) ∧ Opened d e (place f) ∧ Sound e := by
  have H := halves hf.1 hf.2
  have hpl : place f = ((place f).1, names (split f).1 ++ [(split f).2]) := by rw [← H.names]; rfl
  have hplh : place (split f).1 = ((place f).1, names (split f).1) := by simp only [place, H.rooted]
  have hdl : (place f).2.dropLast = names (split f).1 := by rw [hpl]; simp
  have hab : ∀ q, Above q (place f) ↔ q.1 = (place f).1 ∧ q.2 <+: names (split f).1 := by
    intro q; conv_lhs => rw [hpl]
    exact above_snoc
  have hnf : ∀ q, q <+: names (split f).1 → ∀ bs, d ((place f).1, q) ≠ some (.file bs) :=
    fun q hq bs h => hb ⟨((place f).1, q), bs, (hab _).mpr ⟨rfl, hq⟩, h⟩
  -- what opening does once the directory is there
  have hopen : ∀ e : Disk, e (place f) ≠ some .dir → e ((place f).1, names (split f).1) = some .dir →
      openWb e f = (none, e.put (place f) (.file [])) := by
    intro e h1 h2
    unfold openWb
    simp only [hdl, h2]
    cases h : e (place f) with
    | none => rfl
    | some x => cases x with
      | dir => exact absurd h h1
      | file bs => rfl
  have hne : ∀ q, Above q (place f) → q ≠ place f := by
    rintro q h rfl
    have := ((hab _).mp h).2
    rw [hpl] at this
    exact not_prefix_snoc this
  have hnpre : ¬ (place f).2 <+: names (split f).1 := by rw [hpl]; exact not_prefix_snoc
  -- the disk afterwards
  have hfin : getFileObj d f = (none, (withDirs d (place f).1 (names (split f).1)).put (place f) (.file [])) := by
    have hdirs : withDirs d (place f).1 (names (split f).1) (place f) ≠ some .dir := by
      simp only [withDirs, hnpre, false_and, and_false, if_false]; exact hn
    unfold getFileObj
    rw [if_neg hf.1]
    by_cases hc : (split f).1 ≠ [] ∧ d.has (split f).1 = false
    · have hnone : d (place (split f).1) = none := by simpa [Disk.has] using hc.2
      have hl' : (split f).1.getLast? ≠ some '/' := by
        rcases H.last hc.1 with h | h
        · rw [hplh, h, hd.root] at hnone; simp at hnone
        · exact h
      simp only [if_pos hc]
      rw [makedirs_ok _ (le_refl _) hd hc.1 hl' hnone (by rw [hplh]; exact hnf), hplh]
      rw [hplh] at hnone
      exact hopen _ hdirs (by simp [withDirs, hnone])
    · simp only [if_neg hc]
      have hdir : d ((place f).1, names (split f).1) = some .dir := by
        by_cases he : (split f).1 = []
        · rw [he, names_nil]; exact hd.root _
        · have hh : d.has (split f).1 = true := by
            by_contra hh
            exact hc ⟨he, by simpa using hh⟩
          rw [Disk.has, hplh] at hh
          cases h : d ((place f).1, names (split f).1) with
          | none => rw [h] at hh; simp at hh
          | some x => cases x with
            | dir => rfl
            | file bs => exact absurd h (hnf _ (List.prefix_refl _) bs)
      rw [withDirs_self hd (by rw [hdir]; simp)]
      exact hopen _ hn hdir
  have hO : Opened d ((withDirs d (place f).1 (names (split f).1)).put (place f) (.file [])) (place f) := by
    refine ⟨by simp [Disk.put], ?_, ?_⟩
    · intro q hq
      obtain ⟨c, q⟩ := q
      obtain ⟨h1, h2⟩ := (hab _).mp hq
      simp only at h1 h2
      simp only [Disk.put, if_neg (hne _ hq), withDirs]
      split
      · rfl
      · rename_i h
        cases hx : d (c, q) with
        | none => exact absurd ⟨h1, h2, hx⟩ h
        | some x => cases x with
          | dir => rfl
          | file bs => exact absurd (h1 ▸ hx) (hnf q h2 bs)
    · intro q h1 h2
      simp only [Disk.put, if_neg h1, withDirs]
      rw [if_neg]
      intro h
      exact h2 ((hab _).mpr ⟨h.1, h.2.1⟩)
  refine ⟨_, hfin, hO, ?_, ?_⟩
  · intro b
    by_cases h : Above (b, []) (place f)
    · exact hO.dirs _ h
    · rw [hO.rest _ (by rw [hpl]; simp) h]; exact hd.root b
  · intro b q n h
    by_cases h1 : Above (b, q ++ [n]) (place f)
    · apply hO.dirs
      obtain ⟨h2, s, hs, h3⟩ := h1
      exact ⟨h2, n :: s, by simp, by rw [h3]; simp⟩
    · by_cases h2 : (b, q ++ [n]) = place f
      · apply hO.dirs
        exact ⟨by rw [← h2], [n], by simp, by rw [← h2]⟩
      · rw [hO.rest _ h2 h1] at h
        have h3 := hd.above b q n h
        by_cases h4 : Above (b, q) (place f)
        · exact hO.dirs _ h4
        · rw [hO.rest _ _ h4]; exact h3
          intro h5
          rw [h5] at h3
          exact hn h3

/-- If a file is in the way, saving raises and no directory has been made. -/
theorem C202_blocked {d : Disk} (hd : Sound d) {f : Str} (hf : FileName f) (hb : Blocked d (place f)) :
    getFileObj d f = (some .notADirectory, d) := by
  have H := halves hf.1 hf.2
  have hpl : place f = ((place f).1, names (split f).1 ++ [(split f).2]) := by rw [← H.names]; rfl
  have hplh : place (split f).1 = ((place f).1, names (split f).1) := by simp only [place, H.rooted]
  have hdl : (place f).2.dropLast = names (split f).1 := by rw [hpl]; simp
  obtain ⟨⟨c, q⟩, bs, hq, hfile⟩ := hb
  rw [hpl, above_snoc] at hq
  obtain ⟨h1, h2⟩ := hq
  simp only at h1 h2
  subst h1
  unfold getFileObj
  rw [if_neg hf.1]
  by_cases hc : (split f).1 ≠ [] ∧ d.has (split f).1 = false
  · have hnone : d (place (split f).1) = none := by simpa [Disk.has] using hc.2
    have hl' : (split f).1.getLast? ≠ some '/' := by
      rcases H.last hc.1 with h | h
      · rw [hplh, h, hd.root] at hnone; simp at hnone
      · exact h
    simp only [if_pos hc]
    rw [makedirs_blocked _ (le_refl _) hd hc.1 hl' hnone ⟨q, bs, h2, by rw [hplh]; exact hfile⟩]
  · simp only [if_neg hc]
    have hpar : d ((place f).1, names (split f).1) = some (.file bs) := by
      obtain ⟨s, hs⟩ := h2
      by_cases hs0 : s = []
      · subst hs0; rw [List.append_nil] at hs; rw [← hs]; exact hfile
      · exfalso
        have hne : d ((place f).1, names (split f).1) = none := by
          by_contra h
          rw [← hs] at h
          rw [hd.up s hs0 h] at hfile; simp at hfile
        apply hc
        refine ⟨?_, by rw [Disk.has, hplh, hne]; rfl⟩
        intro h
        rw [h, names_nil, hd.root] at hne; simp at hne
    have hnone : d (place f) = none := by
      by_contra h
      rw [hpl] at h
      rw [hd.above _ _ _ h] at hpar; simp at hpar
    unfold openWb
    simp only [hnone, hdl, hpar]

/-- The name of a directory cannot be opened, and nothing changes. -/
theorem C202_directory {d : Disk} (hd : Sound d) {f : Str} (hf : FileName f) (hn : d (place f) = some .dir) :
    getFileObj d f = (some .isADirectory, d) := by
  have H := halves hf.1 hf.2
  have hpl : place f = ((place f).1, names (split f).1 ++ [(split f).2]) := by rw [← H.names]; rfl
  have hplh : place (split f).1 = ((place f).1, names (split f).1) := by simp only [place, H.rooted]
  have hdir : d (place (split f).1) = some .dir := by
    rw [hplh]; exact hd.above _ _ (split f).2 (by rw [← hpl, hn]; simp)
  unfold getFileObj openWb
  rw [if_neg hf.1]
  simp [Disk.has, hdir, hn]

/-- A name that only differs in what follows a common beginning is in the same directory. -/
theorem place_ext (r : Str) : ∃ b cs l, ∀ x : Str, x ≠ [] → '/' ∉ x → place (r ++ x) = (b, cs ++ [l ++ x]) := by
  obtain ⟨g, l, rfl, hl, hg⟩ : ∃ g l : Str, r = g ++ l ∧ '/' ∉ l ∧ (g = [] ∨ ∃ g', g = g' ++ ['/']) := by
    refine ⟨(r.reverse.dropWhile (· ≠ '/')).reverse, (r.reverse.takeWhile (· ≠ '/')).reverse, ?_, ?_, ?_⟩
    · rw [← List.reverse_append, List.takeWhile_append_dropWhile, List.reverse_reverse]
    · intro h
      have := List.mem_takeWhile_imp (List.mem_reverse.mp h)
      simp at this
    · cases hd : r.reverse.dropWhile (· ≠ '/') with
      | nil => simp
      | cons x g =>
        right
        have h1 : r.reverse.dropWhile (· ≠ '/') ≠ [] := by rw [hd]; simp
        have h2 := List.head_dropWhile_not (fun x => decide (x ≠ '/')) (l := r.reverse) h1
        simp only [hd, List.head_cons, decide_eq_false_iff_not, not_not] at h2
        exact ⟨g.reverse, by simp [h2]⟩
  refine ⟨g.head? == some '/', names g, l, fun x hx hs => ?_⟩
  have hlx : '/' ∉ l ++ x := by simp [hl, hs]
  have hlx0 : l ++ x ≠ [] := by simp [hx]
  unfold place
  rw [List.append_assoc]
  rcases hg with rfl | ⟨g, rfl⟩
  · rw [List.nil_append, names_one hlx0 hlx, names_nil]
    cases h : l ++ x with
    | nil => exact absurd h hlx0
    | cons y z =>
      rw [h] at hlx
      have : y ≠ '/' := by rintro rfl; simp at hlx
      simp [this]
  · rw [names_slashes (r := g) (s := ['/']) (by simp), List.append_assoc, List.singleton_append, names_mid, names_one hlx0 hlx]
    cases g <;> simp

/-- `save(target)` opens three files in one directory: it is made with the first if it is missing. After the three there are three empty files and the
directories above them, and nothing else has changed. -/
theorem C202_three {d : Disk} (hd : Sound d) (target : Str) (hb : ¬ Blocked d (place (Shapefile.root target ++ Shapefile.shpExt)))
    (hn : ∀ x ∈ [Shapefile.shpExt, Shapefile.shxExt, Shapefile.dbfExt], d (place (Shapefile.root target ++ x)) ≠ some .dir) :
    ∃ d1 d2 d3, getFileObj d (Shapefile.root target ++ Shapefile.shpExt) = (none, d1) ∧
      getFileObj d1 (Shapefile.root target ++ Shapefile.shxExt) = (none, d2) ∧
      getFileObj d2 (Shapefile.root target ++ Shapefile.dbfExt) = (none, d3) ∧ Sound d3 ∧
      (∀ x ∈ [Shapefile.shpExt, Shapefile.shxExt, Shapefile.dbfExt], d3 (place (Shapefile.root target ++ x)) = some (.file [])) ∧
      (∀ q, Above q (place (Shapefile.root target ++ Shapefile.shpExt)) → d3 q = some .dir) ∧
      ∀ q, (∀ x ∈ [Shapefile.shpExt, Shapefile.shxExt, Shapefile.dbfExt], q ≠ place (Shapefile.root target ++ x)) →
        ¬ Above q (place (Shapefile.root target ++ Shapefile.shpExt)) → d3 q = d q := by
  generalize Shapefile.root target = r at *
  obtain ⟨b, cs, l, hp⟩ := place_ext r
  have h1 := hp Shapefile.shpExt (by decide) (by decide)
  have h2 := hp Shapefile.shxExt (by decide) (by decide)
  have h3 := hp Shapefile.dbfExt (by decide) (by decide)
  have fn : ∀ x ∈ [Shapefile.shpExt, Shapefile.shxExt, Shapefile.dbfExt], FileName (r ++ x) := by
    intro x hx
    simp only [List.mem_cons, List.not_mem_nil, or_false] at hx
    rcases hx with rfl | rfl | rfl <;> exact ⟨by simp [Shapefile.shpExt, Shapefile.shxExt, Shapefile.dbfExt],
      by simp [Shapefile.shpExt, Shapefile.shxExt, Shapefile.dbfExt, List.getLast?_append]⟩
  have n12 : ((b, cs ++ [l ++ Shapefile.shxExt]) : Place) ≠ (b, cs ++ [l ++ Shapefile.shpExt]) := by simp [Shapefile.shpExt, Shapefile.shxExt]
  have n13 : ((b, cs ++ [l ++ Shapefile.dbfExt]) : Place) ≠ (b, cs ++ [l ++ Shapefile.shpExt]) := by simp [Shapefile.shpExt, Shapefile.dbfExt]
  have n23 : ((b, cs ++ [l ++ Shapefile.dbfExt]) : Place) ≠ (b, cs ++ [l ++ Shapefile.shxExt]) := by simp [Shapefile.shxExt, Shapefile.dbfExt]
  have na : ∀ s t : Str, ¬ Above (b, cs ++ [s]) (b, cs ++ [t]) := by
    intro s t h; exact not_prefix_snoc (above_snoc.mp h).2
  obtain ⟨d1, e1, o1, s1⟩ := C202_created hd (fn _ (by simp)) hb (hn _ (by simp))
  rw [h1] at o1
  obtain ⟨d2, e2, o2, s2⟩ := C202_created s1 (fn Shapefile.shxExt (by simp)) (by
    rw [h2]
    rintro ⟨q, bs, hq, hf⟩
    rw [o1.dirs q (above_snoc.mpr (above_snoc.mp hq))] at hf; simp at hf) (by
    have := hn Shapefile.shxExt (by simp)
    rw [h2] at this ⊢
    rw [o1.rest _ n12 (na _ _)]; exact this)
  rw [h2] at o2
  obtain ⟨d3, e3, o3, s3⟩ := C202_created s2 (fn Shapefile.dbfExt (by simp)) (by
    rw [h3]
    rintro ⟨q, bs, hq, hf⟩
    rw [o2.dirs q (above_snoc.mpr (above_snoc.mp hq))] at hf; simp at hf) (by
    have := hn Shapefile.dbfExt (by simp)
    rw [h3] at this ⊢
    rw [o2.rest _ n23 (na _ _), o1.rest _ n13 (na _ _)]; exact this)
  rw [h3] at o3
  refine ⟨d1, d2, d3, e1, e2, e3, s3, ?_, ?_, ?_⟩
  · intro x hx
    simp only [List.mem_cons, List.not_mem_nil, or_false] at hx
    rcases hx with rfl | rfl | rfl
    · rw [h1, o3.rest _ n13.symm (na _ _), o2.rest _ n12.symm (na _ _)]; exact o1.file
    · rw [h2, o3.rest _ n23.symm (na _ _)]; exact o2.file
    · rw [h3]; exact o3.file
  · intro q hq
    rw [h1] at hq
    exact o3.dirs q (above_snoc.mpr (above_snoc.mp hq))
  · intro q hx hq
    rw [h1] at hq
    have a1 := hx Shapefile.shpExt (by simp)
    have a2 := hx Shapefile.shxExt (by simp)
    have a3 := hx Shapefile.dbfExt (by simp)
    rw [h1] at a1; rw [h2] at a2; rw [h3] at a3
    rw [o3.rest q a3 (fun h => hq (above_snoc.mpr (above_snoc.mp h))), o2.rest q a2 (fun h => hq (above_snoc.mpr (above_snoc.mp h))), o1.rest q a1 hq]

/-! ## The hypotheses can be met -/

/-- A disk with a directory `a` and a file `x` in the working directory. -/
def someDisk : Disk := fun q =>
  if q.2 = [] ∨ q = (false, [['a']]) then some .dir else if q = (false, [['x']]) then some (.file [1]) else none

theorem someDisk_sound : Sound someDisk := by
  constructor
  · intro b; simp [someDisk]
  · intro b q n h
    cases q with
    | nil => simp [someDisk]
    | cons y q => cases q <;> simp [someDisk] at h

example : FileName ['a', '/', 'n', '/', '/', 'm', '/', 'f'] := ⟨by decide, by decide⟩
example : place ['a', '/', 'n', '/', '/', 'm', '/', 'f'] = (false, [['a'], ['n'], ['m'], ['f']]) := by decide
/-- Two directories are missing. -/
example : someDisk (false, [['a'], ['n'], ['m']]) = none ∧ someDisk (false, [['a'], ['n']]) = none ∧ someDisk (false, [['a']]) = some .dir := by
  decide
/-- A file is in the way. -/
example : Blocked someDisk (place ['x', '/', 'n', '/', 'f']) :=
  ⟨(false, [['x']]), [1], ⟨by decide, [['n'], ['f']], by decide, by decide⟩, by decide⟩
/-- None is in the way. -/
example : ¬ Blocked someDisk (place ['n', '/', 'f']) := by
  rintro ⟨⟨b, q⟩, bs, ⟨h1, s, hs, h2⟩, h3⟩
  have h4 : place ['n', '/', 'f'] = (false, [['n'], ['f']]) := by decide
  rw [h4] at h1 h2
  simp only at h1 h2
  subst h1
  match q, h2 with
  | [], _ => simp [someDisk] at h3
  | [y], h2 => simp at h2; simp [someDisk, ← h2.1] at h3
  | y :: z :: q, h2 =>
    simp at h2
    exact hs h2.2.2.2
example : place ['a'] = (false, [['a']]) ∧ someDisk (place ['a']) = some .dir := by decide

end Dirs
end Coral
