import Verif.Spec.Tqdm
import Mathlib.Tactic.Linarith
import Mathlib.Algebra.Order.Floor.Semifield

/-! # Proofs about `tqdm` -/
set_option linter.unusedSectionVars false
namespace Coral
namespace Tqdm

variable {K : Type} [Field K] [LinearOrder K] [FloorRing K] {α : Type}

theorem formatMeter_ok (rate : K → Str) (n : Nat) (t : Int) (e : K) : ∃ s, formatMeter rate n (some t) e = .ok s := by
  simp only [formatMeter]
  by_cases h : (n : Int) > t
  · rw [if_pos h]; exact ⟨_, rfl⟩
  · rw [if_neg h]
    by_cases h0 : t ≠ 0
    · simp only [if_pos h0]; exact ⟨_, rfl⟩
    · simp only [if_neg h0]; exact ⟨_, rfl⟩

/-! ### Characters -/

theorem oneLine_nil : OneLine [] := ⟨by simp, by simp⟩

theorem oneLine_append {a b : Str} (ha : OneLine a) (hb : OneLine b) : OneLine (a ++ b) :=
  ⟨by simp [ha.1, hb.1], by simp [ha.2, hb.2]⟩

theorem oneLine_cons {c : Char} {b : Str} (h1 : c ≠ '\r') (h2 : c ≠ '\n') (hb : OneLine b) : OneLine (c :: b) :=
  ⟨by simp [hb.1, h1.symm], by simp [hb.2, h2.symm]⟩

theorem oneLine_digits {s : Str} (h : ∀ c ∈ s, c = '-' ∨ ∃ d, d < 10 ∧ c = digitChar d) : OneLine s := by
  constructor <;> intro hc <;> rcases h _ hc with h | ⟨d, hd, h⟩
  · exact absurd h (by decide)
  · exact (digitChar_plain hd).2.2.2.2.2.2.2.1 h.symm
  · exact absurd h (by decide)
  · exact (digitChar_plain hd).2.2.2.2.2.2.2.2 h.symm

theorem oneLine_decInt (n : Int) : OneLine (decInt n) := oneLine_digits (decInt_chars n)
theorem oneLine_decNat (n : Nat) : OneLine (decNat n) := oneLine_digits (fun c hc => .inr (decNat_digits n c hc))

theorem oneLine_replicate {c : Char} (h1 : c ≠ '\r') (h2 : c ≠ '\n') (k : Nat) : OneLine (List.replicate k c) :=
  ⟨fun h => h1 (List.mem_replicate.mp h).2.symm, fun h => h2 (List.mem_replicate.mp h).2.symm⟩

theorem oneLine_pad2 (n : Int) : OneLine (pad2 n) := by
  rw [pad2]
  split
  · exact oneLine_cons (by decide) (by decide) (oneLine_append (oneLine_replicate (by decide) (by decide) _) (oneLine_decNat _))
  · exact oneLine_append (oneLine_replicate (by decide) (by decide) _) (oneLine_decNat _)

theorem oneLine_interval (t : K) : OneLine (formatInterval t) := by
  have h1 : ∀ a b : Int, OneLine (pad2 a ++ ':' :: pad2 b) := fun a b =>
    oneLine_append (oneLine_pad2 a) (oneLine_cons (by decide) (by decide) (oneLine_pad2 b))
  simp only [formatInterval]
  split
  · exact oneLine_append (oneLine_decInt _) (oneLine_cons (by decide) (by decide) (h1 _ _))
  · exact h1 _ _

theorem oneLine_meter {rate : K → Str} (hr : ∀ x, OneLine (rate x)) {n : Nat} {t : Option Int} {e : K} {s : Str}
    (h : formatMeter rate n t e = .ok s) : OneLine s := by
  cases t with
  | none => cases h
  | some t =>
    have hrate : OneLine (if e ≠ 0 then rate (n / e) else "?".toList) := by
      split
      · exact hr _
      · exact ⟨by decide, by decide⟩
    have hshort : OneLine (decNat n ++ " [elapsed: ".toList ++ formatInterval e ++ ", ".toList ++
        (if e ≠ 0 then rate (n / e) else "?".toList) ++ " iters/sec]".toList) :=
      oneLine_append (oneLine_append (oneLine_append (oneLine_append (oneLine_append (oneLine_decNat _) ⟨by decide, by decide⟩)
        (oneLine_interval _)) ⟨by decide, by decide⟩) hrate) ⟨by decide, by decide⟩
    simp only [formatMeter] at h
    by_cases h1 : (n : Int) > t
    · rw [if_pos h1] at h
      cases h
      exact hshort
    · rw [if_neg h1] at h
      by_cases h0 : t ≠ 0
      · simp only [if_pos h0] at h
        cases h
        have hleft : OneLine (if n ≠ 0 then formatInterval (e / n * ((t - n : Int) : K)) else "?".toList) := by
          split
          · exact oneLine_interval _
          · exact ⟨by decide, by decide⟩
        have hbar : ∀ z : Int, OneLine (List.replicate z.toNat '#' ++ List.replicate (10 - z).toNat '-') := fun z =>
          oneLine_append (oneLine_replicate (by decide) (by decide) _) (oneLine_replicate (by decide) (by decide) _)
        have hd3 : ∀ z : Int, OneLine (d3 z ++ ['%']) := fun z =>
          oneLine_append (oneLine_append (oneLine_replicate (by decide) (by decide) _) (oneLine_decInt _)) ⟨by decide, by decide⟩
        refine oneLine_cons (by decide) (by decide) ?_
        have lits : OneLine "| ".toList ∧ OneLine " [elapsed: ".toList ∧ OneLine " left: ".toList ∧ OneLine ", ".toList ∧
            OneLine " iters/sec]".toList := ⟨⟨by decide, by decide⟩, ⟨by decide, by decide⟩, ⟨by decide, by decide⟩, ⟨by decide, by decide⟩,
          ⟨by decide, by decide⟩⟩
        obtain ⟨l1, l2, l3, l4, l5⟩ := lits
        exact oneLine_append (oneLine_append (oneLine_append (oneLine_append (oneLine_append (oneLine_append (oneLine_append (oneLine_append
          (oneLine_append (oneLine_append (oneLine_append (hbar _) l1) (oneLine_decNat _)) (oneLine_cons (by decide) (by decide) (oneLine_decInt _)))
          (oneLine_cons (by decide) (by decide) (hd3 _))) l2) (oneLine_interval _)) l3) hleft) l4) hrate) l5
      · simp only [if_neg h0] at h
        cases h
        exact hshort

/-! ### The terminal -/

theorem put_row {above : List Str} {done rest : Str} {c : Char} (h1 : c ≠ '\r') (h2 : c ≠ '\n') :
    (⟨above, done ++ rest, done.length⟩ : Term).put c = ⟨above, (done ++ [c]) ++ rest.drop 1, (done ++ [c]).length⟩ := by
  simp only [Term.put, if_neg h1, if_neg h2]
  congr 1
  · rw [List.take_left, List.drop_append]
    simp
  · simp

theorem put_line {above : List Str} (s : Str) (hs : OneLine s) : ∀ done rest : Str,
    s.foldl Term.put ⟨above, done ++ rest, done.length⟩ = ⟨above, done ++ s ++ rest.drop s.length, (done ++ s).length⟩ := by
  induction s with
  | nil => intro done rest; simp
  | cons c s ih =>
    intro done rest
    have hc1 : c ≠ '\r' := fun e => hs.1 (by simp [e])
    have hc2 : c ≠ '\n' := fun e => hs.2 (by simp [e])
    rw [List.foldl_cons, put_row hc1 hc2, ih ⟨fun h => hs.1 (List.mem_cons_of_mem _ h), fun h => hs.2 (List.mem_cons_of_mem _ h)⟩]
    simp [List.drop_drop, Nat.add_comm]

theorem showing_append (a b : Str) : Term.showing (a ++ b) = b.foldl Term.put (Term.showing a) := by
  rw [Term.showing, List.foldl_append]; rfl

/-- The row of the terminal shows the last status, of `lastLen` characters. -/
def Shows (p : Printer) (s : Str) : Prop :=
  p.lastLen = s.length ∧ (Term.showing p.written).above = [] ∧ Padded (Term.showing p.written).row s

theorem shows_new : Shows (Printer.new []) [] := ⟨rfl, rfl, 0, rfl⟩

theorem shows_print {p : Printer} {s : Str} (h : Shows p s) {s' : Str} (hs : OneLine s') : Shows (p.printStatus s') s' := by
  obtain ⟨h1, h2, k, h3⟩ := h
  refine ⟨rfl, ?_⟩
  simp only [Printer.printStatus, showing_append]
  generalize Term.showing p.written = t at h2 h3
  rw [List.foldl_cons]
  have hcr : t.put '\r' = ⟨[], [] ++ t.row, ([] : Str).length⟩ := by simp [Term.put, h2]
  rw [hcr, put_line _ (oneLine_append hs (oneLine_replicate (by decide) (by decide) _)), h3, h1]
  refine ⟨rfl, ?_⟩
  simp only [List.nil_append, List.length_append, List.length_replicate]
  by_cases hl : s'.length ≤ s.length
  · refine ⟨s.length - s'.length + k, ?_⟩
    rw [show s'.length + (s.length - s'.length) = s.length by omega, List.drop_left, List.append_assoc, List.replicate_append_replicate]
  · refine ⟨k - (s'.length - s.length), ?_⟩
    rw [show s.length - s'.length = 0 by omega, List.drop_append, List.drop_eq_nil_of_le (by omega), List.drop_replicate]
    simp

/-! ### The generator -/

theorem passedOn_value {items : Nat → Next α} {k : Nat} (h : ∀ j < k, ∃ a, items j = .value a) : passedOn items k = items k := by
  rw [passedOn, if_pos]
  rw [List.all_eq_true]
  intro j hj
  obtain ⟨a, ha⟩ := h j (List.mem_range.mp hj)
  simp [ha]

theorem passedOn_ended {items : Nat → Next α} {k j : Nat} (hj : j < k) (h : ∀ a, items j ≠ .value a) : passedOn items k = .stop := by
  rw [passedOn, if_neg]
  rw [List.all_eq_true]
  intro hall
  have := hall j (List.mem_range.mpr hj)
  cases hi : items j with
  | value a => exact h a hi
  | stop => simp [hi] at this
  | raise e => simp [hi] at this

theorem body_ok (c : Call K α) (t : Int) (ht : c.total' = some t) (v : Vars K) :
    ∃ v', c.body v = .ok v' ∧ v'.n = v.n + 1 ∧ v'.startT = v.startT ∧ v'.stdout = v.stdout ∧
      ((v'.sp = v.sp ∧ v'.lastN = v.lastN ∧ v'.lastT = v.lastT) ∨
        ∃ s, formatMeter c.rate v'.n c.total' (v'.lastT - v'.startT) = .ok s ∧ v'.sp = v.sp.printStatus (c.prefix ++ s) ∧ v'.lastN = v'.n ∧
          v'.lastT = c.clock v.ticks) := by
  simp only [Call.body]
  by_cases h1 : ((v.n + 1 : Nat) : Int) - v.lastN ≥ c.miniters
  · rw [if_pos h1]
    by_cases h2 : c.clock v.ticks - v.lastT ≥ c.mininterval
    · rw [if_pos h2]
      obtain ⟨s, hs⟩ := formatMeter_ok c.rate (v.n + 1) t (c.clock v.ticks - v.startT)
      rw [ht, hs]
      exact ⟨_, rfl, rfl, rfl, rfl, .inr ⟨s, hs, rfl, rfl, rfl⟩⟩
    · rw [if_neg h2]
      exact ⟨_, rfl, rfl, rfl, rfl, .inl ⟨rfl, rfl, rfl⟩⟩
  · rw [if_neg h1]
    exact ⟨_, rfl, rfl, rfl, rfl, .inl ⟨rfl, rfl, rfl⟩⟩

/-- What holds of the variables: the printer shows the meter of `lastN`. -/
def Good (c : Call K α) (v : Vars K) : Prop :=
  (∀ x, OneLine (c.rate x)) → OneLine c.desc →
    ∃ s, formatMeter c.rate v.lastN c.total' (if v.lastN = 0 then 0 else v.lastT - v.startT) = .ok s ∧ Shows v.sp (c.prefix ++ s)

theorem oneLine_prefix {c : Call K α} (h : OneLine c.desc) : OneLine c.prefix := by
  rw [Call.prefix]
  split
  · exact oneLine_append h ⟨by decide, by decide⟩
  · exact oneLine_nil

theorem body_good {c : Call K α} {v v' : Vars K} (hg : Good c v)
    (h : (v'.sp = v.sp ∧ v'.lastN = v.lastN ∧ v'.lastT = v.lastT) ∨
        ∃ s, formatMeter c.rate v'.n c.total' (v'.lastT - v'.startT) = .ok s ∧ v'.sp = v.sp.printStatus (c.prefix ++ s) ∧ v'.lastN = v'.n ∧
          v'.lastT = c.clock v.ticks) (hn : v'.n = v.n + 1) (hst : v'.startT = v.startT) : Good c v' := by
  intro hr hd
  obtain ⟨s0, h1, h2⟩ := hg hr hd
  rcases h with ⟨e1, e2, e3⟩ | ⟨s, hs, e1, e2, _⟩
  · exact ⟨s0, by rw [e2, e3, hst]; exact h1, by rw [e1]; exact h2⟩
  · refine ⟨s, ?_, ?_⟩
    · rw [e2, if_neg (by omega)]; exact hs
    · rw [e1]
      exact shows_print h2 (oneLine_append (oneLine_prefix hd) (oneLine_meter hr hs))

/-- The state of the generator after `k` calls of `next`. -/
def Inv (c : Call K α) (k : Nat) : Gen K → Prop
  | .fresh => k = 0
  | .suspended v => (∀ j ≤ v.n, ∃ a, c.items j = .value a) ∧ k = v.n + 1 ∧ v.stdout = [] ∧ v.lastN ≤ v.n ∧ Good c v
  | .closed f o => ∃ j < k, (∀ a, c.items j ≠ .value a) ∧ (∀ i < j, ∃ a, c.items i = .value a) ∧
      (c.items j = .stop → (∀ x, OneLine (c.rate x)) → OneLine c.desc →
        if c.leave then o = [] ∧ ∃ w s e row, f = w ++ ['\n'] ∧ formatMeter c.rate j c.total' e = .ok s ∧
            (Term.showing w).above = [] ∧ (Term.showing w).row = row ∧ Padded row (c.prefix ++ s)
        else o = ['\r'] ∧ (Term.showing f).above = [] ∧ Padded (Term.showing f).row [])

theorem pull_inv {c : Call K α} {t : Int} (ht : c.total' = some t) {v : Vars K} (hv : ∀ j < v.n, ∃ a, c.items j = .value a)
    (ho : v.stdout = []) (hl : v.lastN ≤ v.n) (hg : Good c v) : (c.pull v).1 = passedOn c.items v.n ∧ Inv c (v.n + 1) (c.pull v).2 := by
  rw [passedOn_value hv]
  cases hi : c.items v.n with
  | value a =>
    simp only [Call.pull, hi]
    refine ⟨trivial, ?_, rfl, ho, hl, hg⟩
    intro j hj
    rcases Nat.lt_or_eq_of_le hj with h | h
    · exact hv j h
    · exact ⟨a, by rw [h]; exact hi⟩
  | raise e =>
    simp only [Call.pull, hi]
    exact ⟨trivial, v.n, Nat.lt_succ_self _, by rw [hi]; simp, hv, by rw [hi]; simp⟩
  | stop =>
    simp only [Call.pull, hi, Call.finish]
    by_cases hleave : c.leave = true
    · rw [if_neg (by simp [hleave])]
      by_cases hlt : v.lastN < v.n
      · rw [if_pos hlt]
        obtain ⟨s, hs⟩ := formatMeter_ok c.rate v.n t (c.clock v.ticks - v.startT)
        rw [ht]
        simp only [hs]
        refine ⟨trivial, v.n, Nat.lt_succ_self _, by rw [hi]; simp, hv, ?_⟩
        intro _ hr hd
        rw [if_pos hleave]
        obtain ⟨s0, _, h2⟩ := hg hr hd
        obtain ⟨_, h4, h5⟩ := shows_print h2 (oneLine_append (oneLine_prefix hd) (oneLine_meter hr hs))
        exact ⟨ho, _, s, _, _, rfl, by rw [ht]; exact hs, h4, rfl, h5⟩
      · rw [if_neg hlt]
        refine ⟨rfl, v.n, Nat.lt_succ_self _, by rw [hi]; simp, hv, ?_⟩
        intro _ hr hd
        rw [if_pos hleave]
        obtain ⟨s0, h1, h2⟩ := hg hr hd
        have : v.lastN = v.n := by omega
        rw [this] at h1
        exact ⟨ho, _, s0, _, _, rfl, h1, h2.2.1, rfl, h2.2.2⟩
    · rw [if_pos hleave]
      refine ⟨rfl, v.n, Nat.lt_succ_self _, by rw [hi]; simp, hv, ?_⟩
      intro _ hr hd
      rw [if_neg hleave]
      obtain ⟨s0, _, h2⟩ := hg hr hd
      obtain ⟨_, h4, h5⟩ := shows_print h2 oneLine_nil
      exact ⟨by rw [ho]; rfl, h4, h5⟩

theorem after_inv (c : Call K α) {t : Int} (ht : c.total' = some t) (k : Nat) :
    Inv c k (c.after k) ∧ c.result k = passedOn c.items k := by
  have step : ∀ k, Inv c k (c.after k) → c.result k = passedOn c.items k ∧ Inv c (k + 1) (c.after (k + 1)) := by
    intro k hk
    simp only [Call.result, Call.after]
    cases hg : c.after k with
    | fresh =>
      rw [hg] at hk
      have hk0 : k = 0 := hk
      subst hk0
      obtain ⟨s, hs⟩ := formatMeter_ok c.rate 0 t (0 : K)
      simp only [Call.next]
      rw [ht, hs]
      refine pull_inv (v := ⟨(Printer.new []).printStatus (c.prefix ++ s), c.clock 0, c.clock 0, 0, 0, 1, []⟩) ht (by simp) rfl (le_refl _) ?_
      intro hr hd
      refine ⟨s, by rw [if_pos rfl, ht]; exact hs, shows_print shows_new (oneLine_append (oneLine_prefix hd) (oneLine_meter hr hs))⟩
    | suspended v =>
      rw [hg] at hk
      obtain ⟨h1, h2, h3, h4, h5⟩ := hk
      obtain ⟨v', hb, hn, hst, hso, hor⟩ := body_ok c t ht v
      simp only [Call.next, hb]
      have := pull_inv (v := v') ht (fun j hj => h1 j (by omega)) (by rw [hso, h3])
        (by rcases hor with ⟨_, e, _⟩ | ⟨_, _, _, e, _⟩ <;> omega) (body_good h5 hor hn hst)
      rw [h2, ← hn]
      exact this
    | closed f o =>
      rw [hg] at hk
      obtain ⟨j, hj, h1, h2⟩ := hk
      simp only [Call.next]
      exact ⟨(passedOn_ended hj h1).symm, j, by omega, h1, h2⟩
  have : ∀ k, Inv c k (c.after k) := by
    intro k
    induction k with
    | zero => rfl
    | succ k ih => exact (step k ih).2
  exact ⟨this k, (step k (this k)).1⟩

/-! ### The meter -/

variable [IsStrictOrderedRing K]

theorem trunc_nat {x : K} (h : 0 ≤ x) : trunc x = (⌊x⌋₊ : Int) := by
  rw [trunc, if_pos h, Int.natCast_floor_eq_floor h]

theorem pySplit_two {a b : Str} (ha : ':' ∉ a) (hb : ':' ∉ b) : pySplit ':' (a ++ ':' :: b) = [a, b] := by
  rw [pySplit_append ha, pySplit_of_not_mem hb]

theorem colon_digits {s : Str} (h : ∀ c ∈ s, ∃ d, d < 10 ∧ c = digitChar d) : ':' ∉ s := by
  intro hc
  obtain ⟨d, hd, e⟩ := h _ hc
  exact (digitChar_plain hd).2.2.2.1 e.symm

theorem readClock_interval {t : K} (h : 0 ≤ t) : readClock (formatInterval t) = some ⌊t⌋₊ := by
  simp only [formatInterval, trunc_nat h]
  generalize ⌊t⌋₊ = n
  obtain ⟨l1, r1, d1⟩ := pad2_spec (n := n / 60 % 60) (by omega)
  obtain ⟨l2, r2, d2⟩ := pad2_spec (n := n % 60) (by omega)
  have e1 : ((n : Int) / 60 % 60) = ((n / 60 % 60 : Nat) : Int) := by omega
  have e2 : ((n : Int) % 60) = ((n % 60 : Nat) : Int) := by omega
  rw [e1, e2]
  by_cases hh : (n : Int) / 60 / 60 ≠ 0
  · rw [if_pos hh]
    have e3 : ((n : Int) / 60 / 60) = ((n / 60 / 60 : Nat) : Int) := by omega
    have e4 : decInt ((n / 60 / 60 : Nat) : Int) = decNat (n / 60 / 60) := by
      rw [decInt, if_neg (by omega)]; rfl
    rw [e3, e4, readClock, pySplit_append (colon_digits (decNat_digits _)), pySplit_two (colon_digits d1) (colon_digits d2)]
    simp only [r1, r2, readNat_decNat]
    rw [if_pos ⟨by omega, l1, l2, by omega, by omega⟩]
    congr 1; omega
  · rw [if_neg hh, readClock, pySplit_two (colon_digits d1) (colon_digits d2)]
    simp only [r1, r2]
    rw [if_pos ⟨l1, l2, by omega, by omega⟩]
    congr 1; omega

theorem trunc_frac (n t m : Nat) (ht : 0 < t) : trunc ((n : K) / ((t : Int) : K) * m) = ((m * n / t : Nat) : Int) := by
  have hpos : (0 : K) < (t : K) := by exact_mod_cast ht
  rw [Int.cast_natCast, trunc_nat (mul_nonneg (div_nonneg (Nat.cast_nonneg _) hpos.le) (Nat.cast_nonneg _))]
  congr 1
  have : (n : K) / (t : K) * m = ((m * n : Nat) : K) / (t : K) := by
    push_cast; field_simp
  rw [this, Nat.floor_div_eq_div]

end Tqdm
end Coral
