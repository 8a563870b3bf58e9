import Verif.Spec.Directories
import Mathlib.Data.List.Induction
import Mathlib.Data.List.TakeWhile

/-! # Proofs about the directories of saved files -/
namespace Coral
namespace Dirs

theorem pySplit_mid (c : Char) (s t : Str) : pySplit c (s ++ c :: t) = pySplit c s ++ pySplit c t := by
  induction s with
  | nil => simp [pySplit]
  | cons x s ih =>
    by_cases hx : x = c
    · simp [pySplit, hx, ih]
    · have h1 := pySplit_ne_nil c s
      cases h2 : pySplit c s with
      | nil => exact absurd h2 h1
      | cons y l => simp [pySplit, hx, ih, h2]

theorem names_mid (s t : Str) : names (s ++ '/' :: t) = names s ++ names t := by
  simp [names, pySplit_mid]

theorem names_nil : names [] = [] := by simp [names, pySplit]

theorem names_one {t : Str} (ht : t ≠ []) (h : '/' ∉ t) : names t = [t] := by
  simp [names, pySplit_of_not_mem h, ht]

theorem names_slashes {s : Str} (h : ∀ x ∈ s, x = '/') (r : Str) : names (r ++ s) = names r := by
  induction s generalizing r with
  | nil => simp
  | cons x s ih =>
    have hx := h x (by simp)
    subst hx
    rw [names_mid]
    have := ih (fun y hy => h y (by simp [hy])) []
    simp only [List.nil_append] at this
    rw [this, names_nil, List.append_nil]

/-- Taking what a path splits into apart again. -/
structure Halves (p h t : Str) : Prop where
  tail : t ≠ []
  names : names p = names h ++ [t]
  rooted : (p.head? == some '/') = (h.head? == some '/')
  last : h ≠ [] → Dirs.names h = [] ∨ h.getLast? ≠ some '/'
  empty : h = [] → Dirs.names p = [p]

theorem halves {p : Str} (hp : p ≠ []) (hl : p.getLast? ≠ some '/') : Halves p (split p).1 (split p).2 := by
  obtain ⟨t, h0, ht, hh, rfl, hs, ht0, htl⟩ : ∃ t h0 : Str, (p.reverse.takeWhile (· ≠ '/')).reverse = t ∧
      (p.reverse.dropWhile (· ≠ '/')).reverse = h0 ∧ p = h0 ++ t ∧ '/' ∉ t ∧ t ≠ [] ∧ (h0 = [] ∨ ∃ g, h0 = g ++ ['/']) := by
    refine ⟨_, _, rfl, rfl, ?_, ?_, ?_, ?_⟩
    · rw [← List.reverse_append, List.takeWhile_append_dropWhile, List.reverse_reverse]
    · intro h
      have := List.mem_takeWhile_imp (List.mem_reverse.mp h)
      simp at this
    · intro h
      rw [List.reverse_eq_nil_iff] at h
      obtain ⟨g, x, rfl⟩ : ∃ g x, p = g ++ [x] := ⟨p.dropLast, p.getLast hp, (List.dropLast_concat_getLast hp).symm⟩
      simp only [List.getLast?_append, List.getLast?_singleton, Option.some_or, ne_eq, Option.some.injEq] at hl
      simp [List.takeWhile_cons, hl] at h
    · cases hd : p.reverse.dropWhile (· ≠ '/') with
      | nil => simp
      | cons x g =>
        right
        have h1 : p.reverse.dropWhile (· ≠ '/') ≠ [] := by rw [hd]; simp
        have h2 := List.head_dropWhile_not (fun x => decide (x ≠ '/')) (l := p.reverse) h1
        simp only [hd, List.head_cons, decide_eq_false_iff_not, not_not] at h2
        exact ⟨g.reverse, by simp [h2]⟩
  have hsplit : split (h0 ++ t) = (if h0.all (· = '/') then h0 else (h0.reverse.dropWhile (· = '/')).reverse, t) := by
    unfold split; simp only [ht, hh]
  rw [hsplit]
  -- the head before and after its slashes are taken away
  obtain ⟨s, hs1, hs2⟩ : ∃ s : Str, h0 = (h0.reverse.dropWhile (· = '/')).reverse ++ s ∧ ∀ x ∈ s, x = '/' := by
    refine ⟨(h0.reverse.takeWhile (· = '/')).reverse, ?_, ?_⟩
    · rw [← List.reverse_append, List.takeWhile_append_dropWhile, List.reverse_reverse]
    · intro x hx
      have := List.mem_takeWhile_imp (List.mem_reverse.mp hx)
      simpa using this
  have hn0 : names (h0 ++ t) = names h0 ++ [t] := by
    rcases htl with rfl | ⟨g, rfl⟩
    · simp [names_nil, names_one ht0 hs]
    · rw [List.append_assoc, List.singleton_append, names_mid, names_one ht0 hs, names_slashes (by simp)]
  have hhead : ∀ x : Str, x ≠ [] → ∀ y : Str, (x ++ y).head? = x.head? := by
    intro x hx y; cases x with
    | nil => exact absurd rfl hx
    | cons => rfl
  have hrt : h0 = [] → ((h0 ++ t).head? == some '/') = (h0.head? == some '/') := by
    rintro rfl
    cases t with
    | nil => exact absurd rfl ht0
    | cons x t => simp at hs ⊢; exact fun h => hs.1 h.symm
  by_cases ha : h0.all (· = '/')
  · simp only [ha, if_true]
    refine ⟨ht0, hn0, ?_, ?_, ?_⟩
    · by_cases h : h0 = []
      · exact hrt h
      · rw [hhead h0 h]
    · intro _; left
      have := names_slashes (s := h0) (by simpa using ha) []
      rwa [List.nil_append, names_nil] at this
    · rintro rfl; simpa [names_nil] using hn0
  · simp only [ha]
    generalize hr : (h0.reverse.dropWhile (· = '/')).reverse = r at *
    have hrne : r ≠ [] := by
      rintro rfl
      apply ha
      rw [hs1]
      simpa using hs2
    refine ⟨ht0, ?_, ?_, ?_, ?_⟩
    · show names (h0 ++ t) = names r ++ [t]
      rw [hn0, hs1, names_slashes hs2]
    · show ((h0 ++ t).head? == some '/') = (r.head? == some '/')
      rw [hs1, List.append_assoc, hhead r hrne]
    · intro _; right
      show r.getLast? ≠ some '/'
      have h1 : h0.reverse.dropWhile (· = '/') ≠ [] := by intro h; apply hrne; rw [← hr, h]; rfl
      have h2 := List.head_dropWhile_not (fun x => decide (x = '/')) (l := h0.reverse) h1
      rw [← hr, List.getLast?_reverse, List.head?_eq_some_head h1]
      simpa using h2
    · intro h; exact absurd h hrne

theorem Sound.up {d : Disk} (hd : Sound d) {b : Bool} {q : List Str} (r : List Str) (hr : r ≠ []) (h : d (b, q ++ r) ≠ none) :
    d (b, q) = some .dir := by
  induction r using List.reverseRecOn with
  | nil => exact absurd rfl hr
  | append_singleton r n ih =>
    rw [← List.append_assoc] at h
    have := hd.above b _ _ h
    by_cases h0 : r = []
    · subst h0; simpa using this
    · exact ih h0 (by rw [this]; simp)

/-- The disk with the directories on the way to a place. -/
def withDirs (d : Disk) (b : Bool) (cs : List Str) : Disk := fun r =>
  if r.1 = b ∧ r.2 <+: cs ∧ d r = none then some .dir else d r

theorem withDirs_self {d : Disk} (hd : Sound d) {b : Bool} {cs : List Str} (h : d (b, cs) ≠ none) : withDirs d b cs = d := by
  funext r
  obtain ⟨c, q⟩ := r
  simp only [withDirs, ite_eq_right_iff]
  rintro ⟨rfl, ⟨s, rfl⟩, h3⟩
  by_cases hs : s = []
  · subst hs; simp [h3] at h
  · rw [hd.up s hs h] at h3; simp at h3

theorem withDirs_snoc {d : Disk} {b : Bool} {cs : List Str} {t : Str} (h : d (b, cs ++ [t]) = none) :
    (withDirs d b cs).put (b, cs ++ [t]) .dir = withDirs d b (cs ++ [t]) := by
  funext r
  obtain ⟨c, q⟩ := r
  simp only [Disk.put, withDirs, Prod.mk.injEq, List.prefix_concat_iff]
  by_cases hc : c = b
  · subst hc
    by_cases hq : q = cs ++ [t]
    · subst hq; simp [h]
    · simp [hq]
  · simp [hc]

theorem not_prefix_snoc {cs : List Str} {t : Str} : ¬ cs ++ [t] <+: cs := by
  intro h; have := h.length_le; simp only [List.length_append, List.length_singleton] at this; omega

theorem split2_of {p : Str} (h : (split p).2 ≠ []) : split2 p = split p := by simp [split2, h]

theorem makedirs_ok (n : Nat) : ∀ {d : Disk} {p : Str}, p.length ≤ n → Sound d → p ≠ [] → p.getLast? ≠ some '/' → d (place p) = none →
    (∀ q, q <+: names p → ∀ bs, d ((place p).1, q) ≠ some (.file bs)) → makedirs d p = (none, withDirs d (place p).1 (names p)) := by
  induction n with
  | zero => intro d p hn _ hp; exact absurd (List.length_eq_zero_iff.mp (Nat.le_zero.mp hn)) hp
  | succ n ih =>
    intro d p hn hd hp hl hno hf
    have H := halves hp hl
    have hs2 := split2_of H.tail
    have hpl : place p = ((place p).1, names (split p).1 ++ [(split p).2]) := by rw [← H.names]; rfl
    have hmk : ∀ d' : Disk, d' (place p) = none → d' ((place p).1, names (split p).1) = some .dir →
        mkdir d' p = (none, d'.put (place p) .dir) := by
      intro d' h1 h2
      have h3 : (place p).2.dropLast = names (split p).1 := by rw [hpl]; simp
      simp only [mkdir, h1, h3, h2]
      simp
    have hno' : d ((place p).1, names (split p).1 ++ [(split p).2]) = none := by rw [← hpl]; exact hno
    have hstop : d ((place p).1, names (split p).1) = some .dir → mkdir d p = (none, withDirs d (place p).1 (names p)) := by
      intro h
      rw [hmk d hno h, H.names, ← withDirs_snoc hno', withDirs_self hd (by rw [h]; simp), ← hpl]
    rw [makedirs]
    by_cases hc : (split2 p).1 ≠ [] ∧ (split2 p).2 ≠ [] ∧ d.has (split2 p).1 = false
    · rw [dif_pos hc, hs2]
      rw [hs2] at hc
      have hlen : (split p).1.length ≤ n := by
        have := split_fst_length p
        have := List.length_pos_iff.mpr H.tail
        omega
      have hplh : place (split p).1 = ((place p).1, names (split p).1) := by
        simp only [place, H.rooted]
      have hnone : d (place (split p).1) = none := by
        have := hc.2.2
        simpa [Disk.has] using this
      have hl' : (split p).1.getLast? ≠ some '/' := by
        rcases H.last hc.1 with h | h
        · rw [hplh, h, hd.root] at hnone; simp at hnone
        · exact h
      rw [ih hlen hd hc.1 hl' hnone (by
        intro q hq bs
        rw [hplh]
        exact hf q (by rw [H.names]; exact hq.trans (List.prefix_append _ _)) bs), hplh]
      show mkdir (withDirs d (place p).1 (names (split p).1)) p = _
      rw [hmk _ _ _, hpl, withDirs_snoc hno', ← H.names]
      · rw [hpl]; simp [withDirs, not_prefix_snoc, hno']
      · rw [hplh] at hnone
        simp [withDirs, hnone]
    · rw [dif_neg hc]
      rw [hs2] at hc
      apply hstop
      by_cases he : (split p).1 = []
      · rw [he, names_nil]; exact hd.root _
      · have hh : d.has (split p).1 = true := by
          by_contra hh
          exact hc ⟨he, H.tail, by simpa using hh⟩
        have hplh : place (split p).1 = ((place p).1, names (split p).1) := by
          simp only [place, H.rooted]
        rw [Disk.has, hplh] at hh
        cases h : d ((place p).1, names (split p).1) with
        | none => rw [h] at hh; simp at hh
        | some x =>
          cases x with
          | dir => rfl
          | file bs => exact absurd h (hf _ (by rw [H.names]; exact List.prefix_append _ _) bs)

theorem makedirs_blocked (n : Nat) : ∀ {d : Disk} {p : Str}, p.length ≤ n → Sound d → p ≠ [] → p.getLast? ≠ some '/' → d (place p) = none →
    (∃ q bs, q <+: names p ∧ d ((place p).1, q) = some (.file bs)) → makedirs d p = (some .notADirectory, d) := by
  induction n with
  | zero => intro d p hn _ hp; exact absurd (List.length_eq_zero_iff.mp (Nat.le_zero.mp hn)) hp
  | succ n ih =>
    intro d p hn hd hp hl hno ⟨q, bs, hq, hf⟩
    have H := halves hp hl
    have hs2 := split2_of H.tail
    have hpl : place p = ((place p).1, names (split p).1 ++ [(split p).2]) := by rw [← H.names]; rfl
    have hno' : d ((place p).1, names (split p).1 ++ [(split p).2]) = none := by rw [← hpl]; exact hno
    have hplh : place (split p).1 = ((place p).1, names (split p).1) := by simp only [place, H.rooted]
    have hq' : q <+: names (split p).1 := by
      rw [H.names, List.prefix_concat_iff] at hq
      rcases hq with rfl | hq
      · rw [hno'] at hf; simp at hf
      · exact hq
    rw [makedirs]
    by_cases hc : (split2 p).1 ≠ [] ∧ (split2 p).2 ≠ [] ∧ d.has (split2 p).1 = false
    · rw [dif_pos hc, hs2]
      rw [hs2] at hc
      have hlen : (split p).1.length ≤ n := by
        have := split_fst_length p
        have := List.length_pos_iff.mpr H.tail
        omega
      have hnone : d (place (split p).1) = none := by
        have := hc.2.2
        simpa [Disk.has] using this
      have hl' : (split p).1.getLast? ≠ some '/' := by
        rcases H.last hc.1 with h | h
        · rw [hplh, h, hd.root] at hnone; simp at hnone
        · exact h
      rw [ih hlen hd hc.1 hl' hnone ⟨q, bs, hq', by rw [hplh]; exact hf⟩]
    · rw [dif_neg hc]
      rw [hs2] at hc
      have hfile : d ((place p).1, names (split p).1) = some (.file bs) := by
        obtain ⟨s, hs⟩ := hq'
        by_cases hs0 : s = []
        · subst hs0; rw [List.append_nil] at hs; rw [← hs]; exact hf
        · have hne : d ((place p).1, names (split p).1) = none := by
            by_contra h
            rw [← hs] at h
            rw [hd.up s hs0 h] at hf; simp at hf
          exfalso
          apply hc
          refine ⟨?_, H.tail, ?_⟩
          · intro h
            rw [h, names_nil] at hne
            rw [hd.root] at hne; simp at hne
          · rw [Disk.has, hplh, hne]; rfl
      have h3 : (place p).2.dropLast = names (split p).1 := by rw [hpl]; simp
      simp only [mkdir, hno, h3, hfile]
      simp

end Dirs
end Coral
