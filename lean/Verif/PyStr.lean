import Verif.Py

/-!
# Python strings as lists of characters

Nothing here models coral itself.
-/
namespace Coral

/-- A Python string. -/
abbrev Str := List Char

/-- `c.isspace()` -/
def isSpace (c : Char) : Bool :=
  let n := c.toNat
  (9 ≤ n && n ≤ 13) || (28 ≤ n && n ≤ 32) || n == 0x85 || n == 0xA0 || n == 0x1680 || (0x2000 ≤ n && n ≤ 0x200A) ||
    n == 0x2028 || n == 0x2029 || n == 0x202F || n == 0x205F || n == 0x3000

/-- The characters at which `str.splitlines` breaks. -/
def isBreak (c : Char) : Bool :=
  let n := c.toNat
  (10 ≤ n && n ≤ 13) || (28 ≤ n && n ≤ 30) || n == 0x85 || n == 0x2028 || n == 0x2029

/-- `s.lstrip()` -/
def lstrip (s : Str) : Str := s.dropWhile isSpace

/-- `s.rstrip()` -/
def rstrip (s : Str) : Str := (s.reverse.dropWhile isSpace).reverse

/-- `s.strip()` -/
def strip (s : Str) : Str := rstrip (lstrip s)

/-- `s.split(c)` for one character. -/
def pySplit (c : Char) : Str → List Str
  | [] => [[]]
  | x :: l =>
    if x = c then [] :: pySplit c l
    else match pySplit c l with
      | [] => [[x]]
      | h :: t => (x :: h) :: t

/-- `c.join(l)` for one character. -/
def pyJoin (c : Char) : List Str → Str
  | [] => []
  | [a] => a
  | a :: b :: l => a ++ c :: pyJoin c (b :: l)

/-- The rest of `s.splitlines(keepends=True)`, in the middle of a line. -/
def splitlinesGo (cur : Str) : Str → List Str
  | [] => if cur = [] then [] else [cur]
  | c :: rest =>
    if c = '\r' ∧ rest.head? = some '\n' then splitlinesGo (cur ++ [c]) rest
    else if isBreak c then (cur ++ [c]) :: splitlinesGo [] rest
    else splitlinesGo (cur ++ [c]) rest

/-- `s.splitlines(keepends=True)` -/
def splitlines (s : Str) : List Str := splitlinesGo [] s

/-! ### Facts -/

/-- Neither starts nor ends with white space. -/
def NoOuterSpace (s : Str) : Prop := (∀ c, s.head? = some c → isSpace c = false) ∧ ∀ c, s.getLast? = some c → isSpace c = false

instance (s : Str) : Decidable (NoOuterSpace s) :=
  match h1 : s.head?, h2 : s.getLast? with
  | none, none => isTrue ⟨by simp [h1], by simp [h2]⟩
  | some a, none => if h : isSpace a = false then isTrue ⟨by simp [h1, h], by simp [h2]⟩ else isFalse (fun hh => h (hh.1 a h1))
  | none, some a => if h : isSpace a = false then isTrue ⟨by simp [h1], by simp [h2, h]⟩ else isFalse (fun hh => h (hh.2 a h2))
  | some a, some b =>
    if h : isSpace a = false ∧ isSpace b = false then isTrue ⟨by simp [h1, h.1], by simp [h2, h.2]⟩
    else isFalse (fun hh => h ⟨hh.1 a h1, hh.2 b h2⟩)

theorem pySplit_ne_nil (c : Char) (s : Str) : pySplit c s ≠ [] := by
  cases s with
  | nil => simp [pySplit]
  | cons x l =>
    rw [pySplit]
    split
    · simp
    · split <;> simp

theorem pySplit_of_not_mem {c : Char} {s : Str} (h : c ∉ s) : pySplit c s = [s] := by
  induction s with
  | nil => rfl
  | cons x l ih =>
    have hx : x ≠ c := by rintro rfl; simp at h
    rw [pySplit, if_neg hx, ih (fun h' => h (by simp [h']))]

theorem pySplit_append {c : Char} {s : Str} (h : c ∉ s) (t : Str) : pySplit c (s ++ c :: t) = s :: pySplit c t := by
  induction s with
  | nil => simp [pySplit]
  | cons x l ih =>
    have hx : x ≠ c := by rintro rfl; simp at h
    rw [List.cons_append, pySplit, if_neg hx, ih (fun h' => h (by simp [h']))]

theorem pySplit_join {c : Char} {l : List Str} (hl : l ≠ []) (h : ∀ s ∈ l, c ∉ s) : pySplit c (pyJoin c l) = l := by
  induction l with
  | nil => exact absurd rfl hl
  | cons a l ih =>
    cases l with
    | nil => exact pySplit_of_not_mem (h a (by simp))
    | cons b l =>
      rw [pyJoin, pySplit_append (h a (by simp)), ih (by simp) (fun s hs => h s (by simp [hs]))]

theorem mem_pyJoin {c x : Char} {l : List Str} (h : x ∈ pyJoin c l) : x = c ∨ ∃ s ∈ l, x ∈ s := by
  induction l with
  | nil => simp [pyJoin] at h
  | cons a l ih =>
    cases l with
    | nil => exact Or.inr ⟨a, by simp, h⟩
    | cons b l =>
      rw [pyJoin, List.mem_append, List.mem_cons] at h
      rcases h with h | h | h
      · exact Or.inr ⟨a, by simp, h⟩
      · exact Or.inl h
      · rcases ih h with h | ⟨s, hs, hx⟩
        · exact Or.inl h
        · exact Or.inr ⟨s, by simp [hs], hx⟩

theorem isSpace_of_isBreak {c : Char} (h : isBreak c = true) : isSpace c = true := by
  simp only [isBreak, isSpace, Bool.or_eq_true, Bool.and_eq_true, decide_eq_true_eq, beq_iff_eq] at *
  omega

theorem splitlinesGo_line (cur s rest : Str) (h : ∀ c ∈ s, isBreak c = false) :
    splitlinesGo cur (s ++ '\n' :: rest) = (cur ++ s ++ ['\n']) :: splitlinesGo [] rest := by
  induction s generalizing cur with
  | nil =>
    rw [List.nil_append, splitlinesGo, if_neg (by simp), if_pos (by decide)]
    simp
  | cons c s ih =>
    have hc := h c (by simp)
    have hr : c ≠ '\r' := by rintro rfl; revert hc; decide
    rw [List.cons_append, splitlinesGo, if_neg (fun hh => hr hh.1), hc, if_neg (by simp), ih _ (fun d hd => h d (by simp [hd]))]
    simp

theorem splitlines_lines (l : List Str) (h : ∀ s ∈ l, ∀ c ∈ s, isBreak c = false) :
    splitlines (l.flatMap (fun s => s ++ ['\n'])) = l.map (fun s => s ++ ['\n']) := by
  induction l with
  | nil => simp [splitlines, splitlinesGo]
  | cons s l ih =>
    have := splitlinesGo_line [] s (l.flatMap (fun s => s ++ ['\n'])) (h s (by simp))
    unfold splitlines at ih ⊢
    rw [List.flatMap_cons, List.append_assoc]
    simp only [List.cons_append, List.nil_append] at this ⊢
    rw [this, ih (fun s hs => h s (by simp [hs]))]
    rfl

theorem lstrip_id {s : Str} (h : ∀ c, s.head? = some c → isSpace c = false) : lstrip s = s := by
  cases s with
  | nil => rfl
  | cons c s => simp [lstrip, List.dropWhile_cons, h c rfl]

theorem rstrip_id {s : Str} (h : ∀ c, s.getLast? = some c → isSpace c = false) : rstrip s = s := by
  unfold rstrip
  have : ∀ c, s.reverse.head? = some c → isSpace c = false := by
    intro c hc
    rw [List.head?_reverse] at hc
    exact h c hc
  have e := lstrip_id this
  unfold lstrip at e
  rw [e, List.reverse_reverse]

theorem rstrip_snoc {s : Str} {c : Char} (h : isSpace c = true) : rstrip (s ++ [c]) = rstrip s := by
  simp [rstrip, h]

/-- A line without outer white space survives the stripping of its end. -/
theorem strip_line {s : Str} (h : NoOuterSpace s) : strip (s ++ ['\n']) = s := by
  unfold strip
  cases s with
  | nil => rfl
  | cons c s =>
    have : lstrip (c :: s ++ ['\n']) = c :: s ++ ['\n'] := lstrip_id (by intro d hd; exact h.1 d (by simpa using hd))
    rw [this, rstrip_snoc (by decide), rstrip_id h.2]

theorem strip_id {s : Str} (h : NoOuterSpace s) : strip s = s := by
  unfold strip
  rw [lstrip_id h.1, rstrip_id h.2]

end Coral
