import Verif.Model.Describe
import Verif.Proofs.BBox
import Mathlib.Tactic.IntervalCases

/-!
# C184: the description of a variable; C185: the diagonal of a box
-/
namespace Coral
namespace Describe

/-- Texts that agree up to and after the first occurrence of a character. -/
theorem first_split {c : Char} {a b u v : Str} (ha : c ∉ a) (hb : c ∉ b) (h : a ++ c :: u = b ++ c :: v) : a = b ∧ u = v := by
  induction a generalizing b with
  | nil =>
    cases b with
    | nil => simpa using h
    | cons d b =>
      simp only [List.nil_append, List.cons_append, List.cons.injEq] at h
      exact absurd (List.mem_cons.mpr (.inl h.1)) hb
  | cons d a ih =>
    cases b with
    | nil =>
      simp only [List.nil_append, List.cons_append, List.cons.injEq] at h
      exact absurd (List.mem_cons.mpr (.inl h.1.symm)) ha
    | cons e b =>
      simp only [List.cons_append, List.cons.injEq] at h
      obtain ⟨rfl, h⟩ := h
      obtain ⟨rfl, rfl⟩ := ih (fun k => ha (List.mem_cons_of_mem _ k)) (fun k => hb (List.mem_cons_of_mem _ k)) h
      exact ⟨rfl, rfl⟩

/-- The same of the last occurrence. -/
theorem last_split {c : Char} {a b u v : Str} (ha : c ∉ a) (hb : c ∉ b) (h : u ++ c :: a = v ++ c :: b) : u = v ∧ a = b := by
  have h' := congrArg List.reverse h
  simp only [List.reverse_append, List.reverse_cons, List.append_assoc, List.singleton_append] at h'
  obtain ⟨e1, e2⟩ := first_split (by simpa using ha) (by simpa using hb) h'
  exact ⟨List.reverse_injective e2, List.reverse_injective e1⟩

theorem digit_not {d : Nat} (h : d < 10) : digitChar d ≠ ';' ∧ digitChar d ≠ '[' ∧ digitChar d ≠ ' ' := by
  interval_cases d <;> decide

theorem decInt_not (n : Int) : ';' ∉ decInt n ∧ '[' ∉ decInt n := by
  constructor <;> intro h
  · rcases decInt_chars n _ h with e | ⟨d, hd, e⟩
    · exact absurd e (by decide)
    · exact (digit_not hd).1 e.symm
  · rcases decInt_chars n _ h with e | ⟨d, hd, e⟩
    · exact absurd e (by decide)
    · exact (digit_not hd).2.1 e.symm

theorem decInt_injective {a b : Int} (h : decInt a = decInt b) : a = b := by
  have := readInt_decInt a
  rw [h, readInt_decInt] at this
  exact (Option.some.inj this).symm

theorem decNat_injective {a b : Nat} (h : decNat a = decNat b) : a = b := by
  have key : ∀ n : Nat, decInt (n : Int) = decNat n := fun n => by
    rw [decInt, if_neg (by omega), Int.natAbs_natCast]
  have := decInt_injective (a := a) (b := b) (by rw [key, key, h])
  exact_mod_cast this

/-- A name and two bounds in brackets. -/
theorem bounds_split {p a b c n a' b' n' : Str} (ha : ';' ∉ b ∧ '[' ∉ a) (hb : ';' ∉ b' ∧ '[' ∉ a')
    (h : p ++ n ++ " in [".toList ++ a ++ "; ".toList ++ b ++ c = p ++ n' ++ " in [".toList ++ a' ++ "; ".toList ++ b' ++ c) : n = n' ∧ a = a' ∧ b = b' := by
  have h := List.append_cancel_right h
  have e : "; ".toList = [';', ' '] := rfl
  have e' : " in [".toList = [' ', 'i', 'n', ' ', '['] := rfl
  rw [e] at h
  obtain ⟨h1, h2⟩ := last_split (c := ';') (u := p ++ n ++ " in [".toList ++ a) (a := ' ' :: b) (v := p ++ n' ++ " in [".toList ++ a') (b := ' ' :: b')
    (by simpa using ha.1) (by simpa using hb.1) (by simpa using h)
  rw [e'] at h1
  obtain ⟨h3, h4⟩ := last_split (c := '[') (u := p ++ n ++ [' ', 'i', 'n', ' ']) (a := a) (v := p ++ n' ++ [' ', 'i', 'n', ' ']) (b := a') ha.2 hb.2 (by simpa using h1)
  refine ⟨?_, h4, by simpa using h2⟩
  rw [List.append_assoc, List.append_assoc] at h3
  have := List.append_cancel_left h3
  exact List.append_cancel_right this

/-- The end of the text tells whether the variable may be null. -/
theorem end_differs {u v s t : Str} {x y : Char} (hxy : x ≠ y) (h : u ++ (s ++ [x]) = v ++ (t ++ [y])) : False := by
  have h' := congrArg List.getLast? h
  simp at h'
  exact hxy h'

/-- C184: two integer variables with the same description have the same name, bounds and nullability. -/
theorem C184_integer (n n' : Str) (v v' : IVar) (h : v.str n = v'.str n') : n = n' ∧ v.minv = v'.minv ∧ v.maxv = v'.maxv ∧ v.nullable = v'.nullable := by
  have k := decInt_not
  unfold IVar.str at h
  split at h <;> split at h
  · next h1 h2 =>
    obtain ⟨a, b, c⟩ := bounds_split ⟨(k _).1, (k _).2⟩ ⟨(k _).1, (k _).2⟩ h
    exact ⟨a, decInt_injective b, decInt_injective c, by rw [h1, h2]⟩
  · exact (end_differs (s := "] or nul".toList) (x := 'l') (t := []) (y := ']') (by decide) h).elim
  · exact (end_differs (s := []) (x := ']') (t := "] or nul".toList) (y := 'l') (by decide) h).elim
  · next h1 h2 =>
    obtain ⟨a, b, c⟩ := bounds_split ⟨(k _).1, (k _).2⟩ ⟨(k _).1, (k _).2⟩ h
    exact ⟨a, decInt_injective b, decInt_injective c, by rw [Bool.not_eq_true] at h1 h2; rw [h1, h2]⟩

/-- C184: so have two real variables, if numbers are printed faithfully and without semicolons and brackets. -/
theorem C184_real {K : Type} (sh : K → Str) (hs : Function.Injective sh) (hc : ∀ x, ';' ∉ sh x ∧ '[' ∉ sh x) (n n' : Str) (v v' : FVar K)
    (h : v.str sh n = v'.str sh n') : n = n' ∧ v.minv = v'.minv ∧ v.maxv = v'.maxv ∧ v.nullable = v'.nullable := by
  unfold FVar.str at h
  split at h <;> split at h
  · next h1 h2 =>
    obtain ⟨a, b, c⟩ := bounds_split ⟨(hc _).1, (hc _).2⟩ ⟨(hc _).1, (hc _).2⟩ h
    exact ⟨a, hs b, hs c, by rw [h1, h2]⟩
  · exact (end_differs (s := "] or nul".toList) (x := 'l') (t := []) (y := ']') (by decide) h).elim
  · exact (end_differs (s := []) (x := ']') (t := "] or nul".toList) (y := 'l') (by decide) h).elim
  · next h1 h2 =>
    obtain ⟨a, b, c⟩ := bounds_split ⟨(hc _).1, (hc _).2⟩ ⟨(hc _).1, (hc _).2⟩ h
    exact ⟨a, hs b, hs c, by rw [Bool.not_eq_true] at h1 h2; rw [h1, h2]⟩

theorem size_split {n s n' s' c : Str} (ha : ' ' ∉ s) (hb : ' ' ∉ s') (h : "string ".toList ++ n ++ " of ".toList ++ s ++ c = "string ".toList ++ n' ++ " of ".toList ++ s' ++ c) :
    n = n' ∧ s = s' := by
  have h := List.append_cancel_right h
  have e : " of ".toList = [' ', 'o', 'f', ' '] := rfl
  rw [e] at h
  obtain ⟨h1, h2⟩ := last_split (c := ' ') (u := "string ".toList ++ n ++ [' ', 'o', 'f']) (a := s) (v := "string ".toList ++ n' ++ [' ', 'o', 'f']) (b := s') ha hb (by simpa using h)
  have h1 := List.append_cancel_right h1
  exact ⟨List.append_cancel_left h1, h2⟩

/-- C184: two text variables with the same description have the same name, size and nullability. -/
theorem C184_text (n n' : Str) (v v' : SVar) (h : v.str n = v'.str n') : n = n' ∧ v = v' := by
  have k : ∀ m : Nat, ' ' ∉ decNat m := fun m hm => by
    obtain ⟨d, hd, e⟩ := decNat_digits m _ hm
    exact (digit_not hd).2.2 e.symm
  obtain ⟨s, b⟩ := v
  obtain ⟨s', b'⟩ := v'
  unfold SVar.str at h
  split at h <;> split at h
  · next h1 h2 =>
    obtain ⟨a, c⟩ := size_split (k _) (k _) h
    exact ⟨a, by rw [SVar.mk.injEq]; exact ⟨decNat_injective c, h1.trans h2.symm⟩⟩
  · exact (end_differs (s := " bytes or nul".toList) (x := 'l') (t := " byte".toList) (y := 's') (by decide) h).elim
  · exact (end_differs (s := " byte".toList) (x := 's') (t := " bytes or nul".toList) (y := 'l') (by decide) h).elim
  · next h1 h2 =>
    obtain ⟨a, c⟩ := size_split (k _) (k _) h
    rw [Bool.not_eq_true] at h1 h2
    exact ⟨a, by rw [SVar.mk.injEq]; exact ⟨decNat_injective c, h1.trans h2.symm⟩⟩

/-- C184: the kinds of variables are told apart, whatever the names. -/
theorem C184_kinds {K : Type} (sh : K → Str) (n n' n'' : Str) (i : IVar) (f : FVar K) (s : SVar) :
    i.str n ≠ f.str sh n' ∧ i.str n ≠ s.str n'' ∧ f.str sh n' ≠ s.str n'' := by
  have h1 : (i.str n).head? = some 'i' := by unfold IVar.str; split <;> rfl
  have h2 : (f.str sh n').head? = some 'r' := by unfold FVar.str; split <;> rfl
  have h3 : (s.str n'').head? = some 's' := by unfold SVar.str; split <;> rfl
  refine ⟨fun h => ?_, fun h => ?_, fun h => ?_⟩
  · rw [h, h2] at h1; exact absurd h1 (by decide)
  · rw [h, h3] at h1; exact absurd h1 (by decide)
  · rw [h, h3] at h2; exact absurd h2 (by decide)

/-- The text after the last occurrence of a character. -/
def after (c : Char) (s : Str) : Str := (s.reverse.takeWhile (· ≠ c)).reverse

/-- The text before the last occurrence of a character. -/
def before (c : Char) (s : Str) : Str := (s.reverse.dropWhile (· ≠ c)).tail.reverse

theorem after_last {c : Char} {u a : Str} (h : c ∉ a) : after c (u ++ c :: a) = a ∧ before c (u ++ c :: a) = u := by
  have e : (u ++ c :: a).reverse = a.reverse ++ c :: u.reverse := by simp
  have k : ∀ x ∈ a.reverse, decide (x ≠ c) = true := fun x hx => by
    rw [List.mem_reverse] at hx
    exact decide_eq_true (fun q => h (q ▸ hx))
  rw [after, before, e, List.takeWhile_append_of_pos k, List.dropWhile_append_of_pos k]
  simp

/-- C184: the lower bound of an integer variable stands in its description after the last bracket that opens, and the upper bound after the last
semicolon; the description ends with `or null` exactly if the variable may be null. -/
theorem C184_reads (n : Str) (v : IVar) : readInt (after '[' (before ';' (v.str n))) = some v.minv ∧
    readInt ((before ']' (after ';' (v.str n))).drop 1) = some v.maxv ∧ (after ']' (v.str n) = " or null".toList ↔ v.nullable = true) := by
  have k := decInt_not
  have kb : ∀ m : Int, ']' ∉ decInt m := fun m h => by
    rcases decInt_chars m _ h with e | ⟨d, hd, e⟩
    · exact absurd e (by decide)
    · interval_cases d <;> exact absurd e (by decide)
  obtain ⟨t, ht, hs, hb, hn⟩ : ∃ t : Str, v.str n = ("integer ".toList ++ n ++ " in".toList ++ [' '] ++ '[' :: decInt v.minv) ++ ';' :: (' ' :: decInt v.maxv ++ ']' :: t) ∧
      ';' ∉ t ∧ ']' ∉ t ∧ (t = " or null".toList ↔ v.nullable = true) := by
    unfold IVar.str
    split
    · next h => exact ⟨" or null".toList, by simp, by decide, by decide, by simp [h]⟩
    · next h => exact ⟨[], by simp, by decide, by decide, by simp [h]⟩
  have s1 : ';' ∉ (' ' :: decInt v.maxv ++ ']' :: t) := by
    simp [hs, (k v.maxv).1]
  obtain ⟨a1, a2⟩ := after_last (u := "integer ".toList ++ n ++ " in".toList ++ [' '] ++ '[' :: decInt v.minv) s1
  rw [ht, a1, a2]
  obtain ⟨b1, -⟩ := after_last (u := "integer ".toList ++ n ++ " in".toList ++ [' ']) (k v.minv).2
  obtain ⟨c1, c2⟩ := after_last (u := ' ' :: decInt v.maxv) hb
  obtain ⟨d1, -⟩ := after_last (u := ("integer ".toList ++ n ++ " in".toList ++ [' '] ++ '[' :: decInt v.minv) ++ ';' :: (' ' :: decInt v.maxv)) hb
  refine ⟨by rw [b1, readInt_decInt], by rw [c2, List.drop_one, List.tail_cons, readInt_decInt], ?_⟩
  simp only [List.append_assoc, List.cons_append] at d1 ⊢
  rw [d1]
  exact hn

/-- A name that looks like the rest of a description. -/
example : (IVar.mk 0 9 1 256 false none).str "a in [1; 2] or null".toList = "integer a in [1; 2] or null in [0; 9]".toList ∧
    (SVar.mk 32 true).str "town".toList = "string town of 32 bytes or null".toList := by
  decide +kernel

/-! ### The diagonal -/

/-- The distance of two points of the plane. -/
noncomputable def apart (p q : ℝ × ℝ) : ℝ := √((q.1 - p.1) ^ 2 + (q.2 - p.2) ^ 2)

/-- C185: the diagonal is the greatest distance between two points of the box with its sides. -/
theorem C185_diameter (b : BBox ℝ) (hx : b.x0 ≤ b.x1) (hy : b.y0 ≤ b.y1) :
    IsGreatest {d | ∃ p q : ℝ × ℝ, (b.x0 ≤ p.1 ∧ p.1 ≤ b.x1 ∧ b.y0 ≤ p.2 ∧ p.2 ≤ b.y1) ∧ (b.x0 ≤ q.1 ∧ q.1 ≤ b.x1 ∧ b.y0 ≤ q.2 ∧ q.2 ≤ b.y1) ∧ d = apart p q} b.hypot := by
  constructor
  · exact ⟨(b.x0, b.y0), (b.x1, b.y1), ⟨le_rfl, hx, le_rfl, hy⟩, ⟨hx, le_rfl, hy, le_rfl⟩, rfl⟩
  · rintro d ⟨p, q, ⟨p1, p2, p3, p4⟩, ⟨q1, q2, q3, q4⟩, rfl⟩
    refine Real.sqrt_le_sqrt (add_le_add ?_ ?_)
    · exact sq_le_sq' (by linarith) (by linarith)
    · exact sq_le_sq' (by linarith) (by linarith)

/-- C185: it is at least each side and at most their sum, and 0 exactly if both sides are. -/
theorem C185_sides (b : BBox ℝ) (hx : b.x0 ≤ b.x1) (hy : b.y0 ≤ b.y1) :
    b.width ≤ b.hypot ∧ b.height ≤ b.hypot ∧ b.hypot ≤ b.width + b.height ∧ (b.hypot = 0 ↔ b.width = 0 ∧ b.height = 0) := by
  have w0 : 0 ≤ b.width := by unfold BBox.width; linarith
  have h0 : 0 ≤ b.height := by unfold BBox.height; linarith
  have e : b.hypot = √(b.width ^ 2 + b.height ^ 2) := rfl
  rw [e]
  refine ⟨Real.le_sqrt_of_sq_le (by nlinarith), Real.le_sqrt_of_sq_le (by nlinarith), ?_, ?_⟩
  · rw [Real.sqrt_le_left (by linarith)]
    nlinarith
  · rw [Real.sqrt_eq_zero (by positivity)]
    constructor
    · intro h
      constructor <;> nlinarith
    · rintro ⟨h1, h2⟩
      rw [h1, h2]
      norm_num

/-- C185: moving the box keeps the diagonal, and scaling it scales the diagonal. -/
theorem C185_scale (b : BBox ℝ) (dx dy k : ℝ) : (b.translate dx dy).hypot = b.hypot ∧ (b.scale k).hypot = |k| * b.hypot := by
  constructor
  · simp only [BBox.hypot, BBox.translate, BBox.ofCorners]
    congr 1
    ring
  · simp only [BBox.hypot, BBox.scale, BBox.ofCorners, BBox.center, BBox.width, BBox.height]
    rw [← Real.sqrt_sq_eq_abs, ← Real.sqrt_mul (sq_nonneg k)]
    congr 1
    ring

/-- The sides 3 and 4 give 5. -/
example : (BBox.mk 1 1 4 5 : BBox ℝ).hypot = 5 := by
  rw [BBox.hypot, show ((4 : ℝ) - 1) ^ 2 + (5 - 1) ^ 2 = 5 ^ 2 by norm_num, Real.sqrt_sq (by norm_num)]

end Describe
end Coral
