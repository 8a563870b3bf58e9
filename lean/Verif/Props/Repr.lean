import Verif.Spec.Repr
import Mathlib.Data.Rat.Floor
import Mathlib.Tactic.IntervalCases

/-!
# C169: the text of an object evaluates to the object
-/
namespace Coral.Text

theorem tokens_word (v : Str) (hv : ∀ c ∈ v, ends c = false) (w s : Str) : tokens w (v ++ s) = tokens (w ++ v) s := by
  induction v generalizing w with
  | nil => simp
  | cons c v ih =>
    have hc := hv c (by simp)
    simp only [ends, Bool.or_eq_false_iff, beq_eq_false_iff_ne] at hc
    rw [List.cons_append, tokens, if_neg hc.1.1.1, if_neg hc.1.1.2, if_neg hc.1.2, if_neg hc.2, ih (fun c h => hv c (by simp [h]))]
    simp

theorem tokens_lp (w s : Str) : tokens w ('(' :: s) = flush w (.lp :: tokens [] s) := by simp [tokens]
theorem tokens_rp (w s : Str) : tokens w (')' :: s) = flush w (.rp :: tokens [] s) := by simp [tokens]
theorem tokens_comma (w s : Str) : tokens w (',' :: s) = flush w (.comma :: tokens [] s) := by simp [tokens]
theorem tokens_blank (w s : Str) : tokens w (' ' :: s) = flush w (tokens [] s) := by simp [tokens]
theorem flush_nil (l : List Tok) : flush [] l = l := rfl
theorem flush_word {w : Str} (h : w ≠ []) (l : List Tok) : flush w l = .word w :: l := by simp [flush, h]

theorem digit_ends {d : Nat} (h : d < 10) : ends (digitChar d) = false := by
  interval_cases d <;> decide

theorem plain_of {w : Str} (h0 : w ≠ []) (h : ∀ c ∈ w, c = '-' ∨ ∃ d, d < 10 ∧ c = digitChar d) : Plain w := by
  refine ⟨h0, fun c hc => ?_, ?_, ?_⟩
  · rcases h c hc with rfl | ⟨d, hd, rfl⟩
    · decide
    · exact digit_ends hd
  all_goals
    rintro rfl
    rcases h 'e' (by decide) with e | ⟨d, hd, e⟩
    · exact absurd e (by decide)
    · interval_cases d <;> exact absurd e (by decide)

theorem plain_int (n : Int) : Plain (decInt n) := plain_of (decInt_ne_nil n) (decInt_chars n)

theorem plain_nat (n : Nat) : Plain (decNat n) := plain_of (decNat_ne_nil n) (fun c hc => .inr (decNat_digits n c hc))

theorem bool_word (b : Bool) : boolText b ≠ [] ∧ ∀ c ∈ boolText b, ends c = false := by
  cases b <;> decide

theorem truth_bool (b : Bool) : truth (.atom (boolText b)) = some b := by cases b <;> decide

theorem number_bool {K : Type} [NatCast K] (rd : Str → Option K) (b : Bool) :
    number rd (.atom (boolText b)) = some (((if b then 1 else 0 : Nat)) : K) := by
  cases b <;> simp [number, boolText]

theorem number_plain {K : Type} [NatCast K] (rd : Str → Option K) {w : Str} (h : Plain w) : number rd (.atom w) = rd w := by
  rw [number, if_neg h.2.2.1, if_neg h.2.2.2]

theorem parse_bbox {a b c d : Str} (ha : Plain a) (hb : Plain b) (hc : Plain c) (hd : Plain d) :
    parse ("BBox((".toList ++ a ++ ", ".toList ++ b ++ "), (".toList ++ c ++ ", ".toList ++ d ++ "))".toList) =
      some (.call "BBox".toList [.call [] [.atom a, .atom b], .call [] [.atom c, .atom d]]) := by
  have e : "BBox((".toList ++ a ++ ", ".toList ++ b ++ "), (".toList ++ c ++ ", ".toList ++ d ++ "))".toList =
      "BBox".toList ++ '(' :: '(' :: (a ++ ',' :: ' ' :: (b ++ ')' :: ',' :: ' ' :: '(' :: (c ++ ',' :: ' ' :: (d ++ [')', ')'])))) := by simp
  rw [e]
  simp only [parse, tokens_word _ (by decide : ∀ c ∈ "BBox".toList, ends c = false), tokens_word _ ha.2.1, tokens_word _ hb.2.1,
    tokens_word _ hc.2.1, tokens_word _ hd.2.1, List.nil_append, flush_nil,
    flush_word ha.1, flush_word hb.1, flush_word hc.1, flush_word hd.1, flush_word (by decide : "BBox".toList ≠ []), tokens]
  simp [steps, step]

theorem parse_one {f a : Str} (hf : f ≠ [] ∧ ∀ c ∈ f, ends c = false) (ha : a ≠ [] ∧ ∀ c ∈ a, ends c = false) :
    parse (f ++ '(' :: (a ++ [')'])) = some (.call f [.atom a]) := by
  simp only [parse, tokens_word _ hf.2, tokens_word _ ha.2, List.nil_append, flush_nil,
    flush_word ha.1, flush_word hf.1, tokens]
  simp [steps, step]

theorem parse_two {f a b : Str} (hf : f ≠ [] ∧ ∀ c ∈ f, ends c = false) (ha : a ≠ [] ∧ ∀ c ∈ a, ends c = false)
    (hb : b ≠ [] ∧ ∀ c ∈ b, ends c = false) :
    parse (f ++ '(' :: (a ++ ',' :: ' ' :: (b ++ [')']))) = some (.call f [.atom a, .atom b]) := by
  simp only [parse, tokens_word _ hf.2, tokens_word _ ha.2, tokens_word _ hb.2, List.nil_append, flush_nil, flush_word ha.1, flush_word hb.1, flush_word hf.1, tokens]
  simp [steps, step]

theorem parse_three {f a b c : Str} (hf : f ≠ [] ∧ ∀ c ∈ f, ends c = false) (ha : a ≠ [] ∧ ∀ c ∈ a, ends c = false)
    (hb : b ≠ [] ∧ ∀ c ∈ b, ends c = false) (hc : c ≠ [] ∧ ∀ d ∈ c, ends d = false) :
    parse (f ++ '(' :: (a ++ ',' :: ' ' :: (b ++ ',' :: ' ' :: (c ++ [')'])))) = some (.call f [.atom a, .atom b, .atom c]) := by
  simp only [parse, tokens_word _ hf.2, tokens_word _ ha.2, tokens_word _ hb.2, tokens_word _ hc.2, List.nil_append, flush_nil, flush_word ha.1, flush_word hb.1, flush_word hc.1, flush_word hf.1, tokens]
  simp [steps, step]

theorem parse_four {f a b c d : Str} (hf : f ≠ [] ∧ ∀ c ∈ f, ends c = false) (ha : a ≠ [] ∧ ∀ c ∈ a, ends c = false)
    (hb : b ≠ [] ∧ ∀ c ∈ b, ends c = false) (hc : c ≠ [] ∧ ∀ d ∈ c, ends d = false) (hd : d ≠ [] ∧ ∀ c ∈ d, ends c = false) :
    parse (f ++ '(' :: (a ++ ',' :: ' ' :: (b ++ ',' :: ' ' :: (c ++ ',' :: ' ' :: (d ++ [')']))))) =
      some (.call f [.atom a, .atom b, .atom c, .atom d]) := by
  simp only [parse, tokens_word _ hf.2, tokens_word _ ha.2, tokens_word _ hb.2, tokens_word _ hc.2, tokens_word _ hd.2, List.nil_append, flush_nil, flush_word ha.1, flush_word hb.1, flush_word hc.1, flush_word hd.1, flush_word hf.1, tokens]
  simp [steps, step]

/-- A word of a text. -/
def Word (w : Str) : Prop := w ≠ [] ∧ ∀ c ∈ w, ends c = false

theorem Plain.word {w : Str} (h : Plain w) : Word w := ⟨h.1, h.2.1⟩

theorem parse_buffer {a : Str} (ha : Word a) : parse ("Buffer(".toList ++ a ++ ")".toList) = some (.call "Buffer".toList [.atom a]) := by
  have e : "Buffer(".toList ++ a ++ ")".toList = "Buffer".toList ++ '(' :: (a ++ [')']) := by simp
  rw [e]
  exact parse_one (by decide) ha

theorem parse_ivar {a b c : Str} (ha : Word a) (hb : Word b) (hc : Word c) :
    parse ("IVar(".toList ++ a ++ ", ".toList ++ b ++ ", ".toList ++ c ++ ")".toList) = some (.call "IVar".toList [.atom a, .atom b, .atom c]) := by
  have e : "IVar(".toList ++ a ++ ", ".toList ++ b ++ ", ".toList ++ c ++ ")".toList =
      "IVar".toList ++ '(' :: (a ++ ',' :: ' ' :: (b ++ ',' :: ' ' :: (c ++ [')']))) := by simp
  rw [e]
  exact parse_three (by decide) ha hb hc

theorem parse_fvar {a b c d : Str} (ha : Word a) (hb : Word b) (hc : Word c) (hd : Word d) :
    parse ("FVar(".toList ++ a ++ ", ".toList ++ b ++ ", ".toList ++ c ++ ", ".toList ++ d ++ ")".toList) =
      some (.call "FVar".toList [.atom a, .atom b, .atom c, .atom d]) := by
  have e : "FVar(".toList ++ a ++ ", ".toList ++ b ++ ", ".toList ++ c ++ ", ".toList ++ d ++ ")".toList =
      "FVar".toList ++ '(' :: (a ++ ',' :: ' ' :: (b ++ ',' :: ' ' :: (c ++ ',' :: ' ' :: (d ++ [')'])))) := by simp
  rw [e]
  exact parse_four (by decide) ha hb hc hd

theorem parse_svar {a b : Str} (ha : Word a) (hb : Word b) :
    parse ("SVar(".toList ++ a ++ ", ".toList ++ b ++ ")".toList) = some (.call "SVar".toList [.atom a, .atom b]) := by
  have e : "SVar(".toList ++ a ++ ", ".toList ++ b ++ ")".toList = "SVar".toList ++ '(' :: (a ++ ',' :: ' ' :: (b ++ [')'])) := by simp
  rw [e]
  exact parse_two (by decide) ha hb

theorem parse_svar3 {a b c : Str} (ha : Word a) (hb : Word b) (hc : Word c) :
    parse ("SVar(".toList ++ a ++ ", ".toList ++ b ++ ", ".toList ++ c ++ ")".toList) = some (.call "SVar".toList [.atom a, .atom b, .atom c]) := by
  have e : "SVar(".toList ++ a ++ ", ".toList ++ b ++ ", ".toList ++ c ++ ")".toList =
      "SVar".toList ++ '(' :: (a ++ ',' :: ' ' :: (b ++ ',' :: ' ' :: (c ++ [')']))) := by simp
  rw [e]
  exact parse_three (by decide) ha hb hc

/-- C169: `eval(repr(box))` is the box again, whatever kind of number its corners are, as long as the text of such a number has no blanks,
commas or parentheses and is read back as that number. -/
theorem C169_bbox {K : Type} [NatCast K] (sh : K → Str) (rd : Str → Option K) (h : ∀ x, Plain (sh x) ∧ rd (sh x) = some x) (b : BBox K) :
    evalBBox rd (b.repr sh) = some b := by
  unfold BBox.repr evalBBox
  rw [parse_bbox (h b.x0).1 (h b.y0).1 (h b.x1).1 (h b.y1).1, Option.bind_some]
  simp [bboxOf, point, number_plain rd (h b.x0).1, number_plain rd (h b.y0).1, number_plain rd (h b.x1).1, number_plain rd (h b.y1).1, (h _).2,
    BBox.ofCorners]

/-- C169: in particular for boxes with integer corners. -/
theorem C169_bbox_int (b : BBox Int) : evalBBox readInt (b.repr decInt) = some b :=
  C169_bbox decInt readInt (fun n => ⟨plain_int n, readInt_decInt n⟩) b

example : evalBBox readInt "BBox((-3, 0), (12, 7))".toList = some ⟨-3, 0, 12, 7⟩ := by decide +kernel
example : (⟨-3, 0, 12, 7⟩ : BBox Int).repr decInt = "BBox((-3, 0), (12, 7))".toList := by decide +kernel
example : evalBBox readInt "BBox((-3, 0)), (12, 7)".toList = none := by decide +kernel

/-- C169: boxes that print alike are the same. -/
theorem C169_bbox_unique (a b : BBox Int) (h : a.repr decInt = b.repr decInt) : a = b := by
  have := C169_bbox_int a
  rw [h, C169_bbox_int b] at this
  simpa using this.symm

/-- C169: `eval(repr(buffer))` is an empty buffer of the same capacity. -/
theorem C169_buffer {α : Type} (b : Buffer α) : evalBuffer (α := α) b.repr = some (Buffer.init b.n) := by
  unfold evalBuffer Buffer.repr
  rw [parse_buffer (plain_nat b.n).word, Option.bind_some]
  simp [bufferOf, number_plain readNat (plain_nat b.n), readNat_decNat]

/-- C169: for an `IVar` the text lacks the name: it evaluates to the variable whose name is the old lower bound, whose lower bound is the old
upper bound and whose upper bound is the old `nullable`, if there is one. -/
theorem C169_ivar_reads (v : IVar) :
    evalIVar v.repr = some ((IVar.init v.maxv (if v.nullable then 1 else 0) false).map (Name.other (.atom (decInt v.minv)), ·)) := by
  unfold evalIVar IVar.repr
  rw [parse_ivar (plain_int v.minv).word (plain_int v.maxv).word (bool_word v.nullable), Option.bind_some]
  simp [ivarOf, number_plain readInt (plain_int v.maxv), readInt_decInt, number_bool]

/-- C169 is violated for every `IVar`: its text never evaluates to a variable with a string for a name, and never to one with the same bounds. -/
theorem C169_ivar_violated (v : IVar) (n : Str) (w : IVar) :
    evalIVar v.repr ≠ some (.ok (.str n, w)) ∧ ∀ m, evalIVar v.repr = some (.ok (m, w)) → v.minv < v.maxv → w ≠ v := by
  rw [C169_ivar_reads]
  constructor
  · intro h
    rw [Option.some.injEq] at h
    cases hi : IVar.init v.maxv (if v.nullable then 1 else 0) false with
    | error => simp [hi, Except.map] at h
    | ok u => simp [hi, Except.map] at h
  · intro m h hv
    rw [Option.some.injEq] at h
    cases hi : IVar.init v.maxv (if v.nullable then 1 else 0) false with
    | error => simp [hi, Except.map] at h
    | ok u =>
      simp only [hi, Except.map, Except.ok.injEq, Prod.mk.injEq] at h
      rintro rfl
      have hm : u.minv = w.maxv := by
        simp only [IVar.init] at hi
        generalize hq : (if w.nullable = true then (1 : Int) else 0) = q at hi
        cases hp : IVar.pickSize (q - w.maxv) false with
        | error => by_cases hg : q > w.maxv <;> simp [hp, pyAssert, hg, bind, Except.bind] at hi
        | ok k =>
          by_cases hg : q > w.maxv
          · simp [hp, pyAssert, hg, bind, Except.bind, pure, Except.pure] at hi
            exact hi ▸ rfl
          · simp [hp, pyAssert, hg, bind, Except.bind] at hi
      rw [h.2] at hm
      omega

/-- C169: for usual `IVar`s, whose upper bound is at least 1, the text evaluates to an error. -/
theorem C169_ivar_raises (v : IVar) (h : 1 ≤ v.maxv) : evalIVar v.repr = some (.error .assertionError) := by
  rw [C169_ivar_reads, IVar.init]
  have : ¬ v.maxv < (if v.nullable then 1 else 0) := by split <;> omega
  simp [pyAssert, this, bind, Except.bind, Except.map]

example : ∃ v, IVar.init 0 255 false = .ok v ∧ v.repr = "IVar(0, 255, False)".toList ∧ evalIVar v.repr = some (.error .assertionError) :=
  ⟨_, rfl, by decide +kernel, C169_ivar_raises _ (by decide)⟩

/-- A case that does not even raise: a variable from -9 to -2 that may be null comes back as one from -2 to 1 with -9 as its name. -/
example : ∃ v w, IVar.init (-9) (-2) true = .ok v ∧ IVar.init (-2) 1 false = .ok w ∧
    evalIVar v.repr = some (.ok (.other (.atom "-9".toList), w)) := by
  refine ⟨_, _, rfl, rfl, ?_⟩
  rw [C169_ivar_reads]
  rfl

/-- C169: the same for an `FVar`: name, lower bound, upper bound and size are the old lower bound, upper bound, size and `nullable`. -/
theorem C169_fvar_reads {K : Type} [Field K] [LinearOrder K] [FloorRing K] (sh : K → Str) (rd : Str → Option K)
    (h : ∀ x, Plain (sh x) ∧ rd (sh x) = some x) (hn : ∀ n : Nat, rd (decNat n) = some (n : K)) (v : FVar K) :
    evalFVar rd (v.repr sh) =
      some ((FVar.init v.maxv (v.size : K) (if v.nullable then 1 else 0) false).map (Name.other (.atom (sh v.minv)), ·)) := by
  unfold evalFVar FVar.repr
  rw [parse_fvar (h v.minv).1.word (h v.maxv).1.word (plain_nat v.size).word (bool_word v.nullable), Option.bind_some]
  simp [fvarOf, number_plain rd (h v.maxv).1, number_plain rd (plain_nat v.size), (h _).2, hn, number_bool]

/-- C169 is violated for every `FVar`: its text never evaluates to a variable with a string for a name, nor to one that may be null, and it
raises `AssertionError` unless the old size exceeds the old upper bound and the variable may be null. -/
theorem C169_fvar_violated {K : Type} [Field K] [LinearOrder K] [FloorRing K] (sh : K → Str) (rd : Str → Option K)
    (h : ∀ x, Plain (sh x) ∧ rd (sh x) = some x) (hn : ∀ n : Nat, rd (decNat n) = some (n : K)) (v : FVar K) :
    (∀ n w, evalFVar rd (v.repr sh) ≠ some (.ok (.str n, w))) ∧
      (¬ (v.maxv < (v.size : K) ∧ v.nullable = true) → evalFVar rd (v.repr sh) = some (.error .assertionError)) := by
  rw [C169_fvar_reads sh rd h hn]
  constructor
  · intro n w hh
    rw [Option.some.injEq] at hh
    cases hi : FVar.init v.maxv (v.size : K) (if v.nullable then 1 else 0) false with
    | error => simp [hi, Except.map] at hh
    | ok u => simp [hi, Except.map] at hh
  · intro hc
    by_cases h1 : v.maxv < (v.size : K)
    · have h2 : v.nullable = false := by simpa [h1] using hc
      simp [FVar.init, h1, h2, pyAssert, bind, Except.bind, Except.map]
    · simp [FVar.init, h1, pyAssert, bind, Except.bind, Except.map]

/-- C169 is violated for every `SVar`: the text evaluates, without an error, to a variable named by the old size that has room for one byte
or none and may not be null. -/
theorem C169_svar_violated (v : SVar) :
    evalSVar v.repr = some (.other (.atom (decNat v.size)), ⟨if v.nullable then 1 else 0, false⟩) := by
  unfold evalSVar SVar.repr
  rw [parse_svar (plain_nat v.size).word (bool_word v.nullable), Option.bind_some]
  simp [svarOf, number_bool]

example : (⟨8, true⟩ : SVar).repr = "SVar(8, True)".toList ∧
    evalSVar "SVar(8, True)".toList = some (.other (.atom "8".toList), ⟨1, false⟩) :=
  ⟨by decide +kernel, C169_svar_violated ⟨8, true⟩⟩

/-- The evaluator does understand texts that have the name, so that the failures above are due to the text. -/
theorem C169_named (n : Nat) (v : SVar) :
    evalSVar ("SVar(".toList ++ decNat n ++ ", ".toList ++ decNat v.size ++ ", ".toList ++ boolText v.nullable ++ ")".toList) =
      some (.other (.atom (decNat n)), v) := by
  unfold evalSVar
  rw [parse_svar3 (plain_nat n).word (plain_nat v.size).word (bool_word v.nullable), Option.bind_some]
  simp [svarOf, number_plain readNat (plain_nat v.size), readNat_decNat, truth_bool]

end Coral.Text
