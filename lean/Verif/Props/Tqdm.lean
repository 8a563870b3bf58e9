import Verif.Proofs.Tqdm
import Mathlib.Data.Rat.Floor

/-! # Theorems about `tqdm` (C81–C83) -/
set_option linter.unusedSectionVars false
namespace Coral
namespace Tqdm

variable {K : Type} [Field K] [LinearOrder K] [FloorRing K] {α : Type}

/-! ### C81 -/

/-- **C81, in part.** If `total` is given or the iterable has a length, iterating `tqdm(it)` gives what iterating `it` gives, item by
item, to the end or the first exception, whatever the clock reads. Missing: iterables without a length, see `C81_violated`. -/
theorem C81_items_partial (c : Call K α) (h : c.total ≠ none ∨ c.len ≠ none) (k : Nat) : c.result k = passedOn c.items k := by
  have : ∃ t, c.total' = some t := by
    rw [Call.total']
    cases ht : c.total with
    | some t => exact ⟨t, rfl⟩
    | none =>
      cases hl : c.len with
      | some n => exact ⟨n, rfl⟩
      | none => exact absurd hl (h.resolve_left (by simp [ht]))
  obtain ⟨t, ht⟩ := this
  exact (after_inv c ht k).2

/-- `trange(n)` gives `0, ..., n - 1`. -/
theorem C81_trange (c : Call K Int) (n : Nat) (hi : c.items = trangeItems n) (hl : c.len = some n) (k : Nat) :
    c.result k = if k < n then .value k else .stop := by
  rw [C81_items_partial c (.inr (by simp [hl])), hi]
  by_cases hk : k ≤ n
  · rw [passedOn_value]
    · rfl
    · intro j hj
      exact ⟨j, by simp [trangeItems, Nat.lt_of_lt_of_le hj hk]⟩
  · rw [if_neg (by omega), passedOn_ended (j := n) (by omega)]
    simp [trangeItems]

/-- A clock that stands still, then jumps back. -/
def demo (len : Option Nat) : Call ℚ Nat :=
  { items := fun i => if i < 2 then .value (7 + i) else .raise .keyError, len := len, desc := "x".toList, total := none, leave := true,
    mininterval := 0, miniters := 1, rate := fun _ => "1.00".toList, clock := fun i => if i < 2 then 5 else 3 }

example : (demo (some 2)).result 0 = .value 7 ∧ (demo (some 2)).result 1 = .value 8 ∧ (demo (some 2)).result 2 = .raise .keyError ∧
    (demo (some 2)).result 3 = .stop := by
  refine ⟨?_, ?_, ?_, ?_⟩ <;> rw [C81_items_partial _ (.inr (by simp [demo]))] <;> decide +kernel

/-- Without a length and a total the first `next()` raises `TypeError`, whatever the iterable gives. -/
theorem C81_violated_all (c : Call K α) (h1 : c.total = none) (h2 : c.len = none) : c.result 0 = .raise .typeError := by
  have : c.total' = none := by rw [Call.total', h1, h2]; rfl
  simp only [Call.result, Call.after, Call.next, this, formatMeter]

/-- The claim fails for a generator: it would give 7. -/
theorem C81_violated : ∃ c : Call ℚ Nat, c.len = none ∧ c.items 0 = .value 7 ∧ c.result 0 ≠ passedOn c.items 0 :=
  ⟨demo none, rfl, rfl, by rw [C81_violated_all _ rfl rfl]; decide⟩

/-! ### C82 -/

/-- **C82.** After any statuses, the line of the terminal is the last status followed by blanks only. -/
theorem C82_status (ss : List Str) (s : Str) (h : ∀ x ∈ ss ++ [s], OneLine x) :
    let t := Term.showing ((ss ++ [s]).foldl Printer.printStatus (Printer.new [])).written
    t.above = [] ∧ Padded t.row s := by
  have : ∀ (ss : List Str) (p : Printer) (s0 : Str), Shows p s0 → (∀ x ∈ ss ++ [s], OneLine x) →
      Shows ((ss ++ [s]).foldl Printer.printStatus p) s := by
    intro ss
    induction ss with
    | nil => intro p s0 hp hx; exact shows_print hp (hx s (by simp))
    | cons x ss ih =>
      intro p s0 hp hx
      exact ih _ x (shows_print hp (hx x (by simp))) (fun y hy => hx y (by simp only [List.cons_append, List.mem_cons]; exact .inr hy))
  exact (this ss _ [] shows_new h).2

/-- Throughout an iteration the line shows the description and the meter of the last count printed, then blanks; if the items end, the
line left behind shows the meter of the number of items (`leave`), or nothing. -/
theorem C82_tqdm (c : Call K α) (h : c.total ≠ none ∨ c.len ≠ none) (hr : ∀ x, OneLine (c.rate x)) (hd : OneLine c.desc) (k : Nat) :
    (∀ v, c.after k = .suspended v → ∃ s e, formatMeter c.rate v.lastN c.total' e = .ok s ∧ v.lastN < k ∧
      (Term.showing v.sp.written).above = [] ∧ Padded (Term.showing v.sp.written).row (c.prefix ++ s)) ∧
    (∀ n f o, (∀ i < n, ∃ a, c.items i = .value a) → c.items n = .stop → c.after k = .closed f o →
      if c.leave then o = [] ∧ ∃ s e w, formatMeter c.rate n c.total' e = .ok s ∧ f = w ++ ['\n'] ∧
        (Term.showing w).above = [] ∧ Padded (Term.showing w).row (c.prefix ++ s)
      else o = ['\r'] ∧ (Term.showing f).above = [] ∧ Padded (Term.showing f).row []) := by
  have : ∃ t, c.total' = some t := by
    rw [Call.total']
    cases ht : c.total with
    | some t => exact ⟨t, rfl⟩
    | none =>
      cases hl : c.len with
      | some n => exact ⟨n, rfl⟩
      | none => exact absurd hl (h.resolve_left (by simp [ht]))
  obtain ⟨t, ht⟩ := this
  have inv := (after_inv c ht k).1
  constructor
  · intro v hv
    rw [hv] at inv
    obtain ⟨_, h2, _, h4, h5⟩ := inv
    obtain ⟨s, h6, h7⟩ := h5 hr hd
    exact ⟨s, _, h6, by omega, h7.2⟩
  · intro n f o hvals hstop hcl
    rw [hcl] at inv
    obtain ⟨j, _, h1, h2, h3⟩ := inv
    have hj : j = n := by
      rcases Nat.lt_trichotomy j n with hlt | he | hgt
      · obtain ⟨a, ha⟩ := hvals j hlt
        exact absurd ha (h1 a)
      · exact he
      · obtain ⟨a, ha⟩ := h2 n hgt
        rw [hstop] at ha; cases ha
    subst hj
    have h4 := h3 hstop hr hd
    split
    · rename_i hle
      rw [if_pos hle] at h4
      obtain ⟨ho, w, s, e, row, hf, hm, ha, hrow, hp⟩ := h4
      exact ⟨ho, s, e, w, hm, hf, ha, by rw [hrow]; exact hp⟩
    · rename_i hle
      rw [if_neg hle] at h4
      exact h4

example : (Term.showing (["abcdef".toList, "xy".toList, "pqr".toList].foldl Printer.printStatus (Printer.new [])).written).row =
    "pqr   ".toList := by decide +kernel

/-! ### C83 -/

variable [IsStrictOrderedRing K]

/-- **C83.** `format_interval(t)` is a clock reading of exactly `int(t)` seconds; the bar has ten cells, of which `10 n / total`,
rounded down, are filled, and the counts and the percentage, rounded down, follow. -/
theorem C83_interval {t : K} (h : 0 ≤ t) : readClock (formatInterval t) = some ⌊t⌋₊ := readClock_interval h

theorem C83_meter {rate : K → Str} {n total : Nat} (h0 : 0 < total) (hn : n ≤ total) {elapsed : K} {s : Str}
    (h : formatMeter rate n (some total) elapsed = .ok s) :
    ∃ bar rest, s = "|".toList ++ bar ++ "| ".toList ++ decNat n ++ "/".toList ++ decNat total ++ " ".toList ++
        rjust 3 (decNat (100 * n / total)) ++ "% [elapsed: ".toList ++ formatInterval elapsed ++ rest ∧
      bar = List.replicate (10 * n / total) '#' ++ List.replicate (10 - 10 * n / total) '-' ∧ bar.length = 10 := by
  have hle : 10 * n / total ≤ 10 := by
    exact Nat.div_le_of_le_mul (by rw [Nat.mul_comm total]; exact Nat.mul_le_mul_left 10 hn)
  simp only [formatMeter] at h
  rw [if_neg (by omega)] at h
  simp only [if_pos (show (total : Int) ≠ 0 by omega)] at h
  have e10 := trunc_frac (K := K) n total 10 h0
  have e100 := trunc_frac (K := K) n total 100 h0
  rw [Nat.cast_ofNat] at e10 e100
  rw [e10, e100] at h
  have hdec : ∀ m : Nat, decInt (m : Int) = decNat m := fun m => by rw [decInt, if_neg (by omega)]; rfl
  injection h with h
  refine ⟨List.replicate (10 * n / total) '#' ++ List.replicate (10 - 10 * n / total) '-',
    " left: ".toList ++ (if n ≠ 0 then formatInterval (elapsed / n * ((total - n : Int) : K)) else "?".toList) ++ ", ".toList ++
      (if elapsed ≠ 0 then rate (n / elapsed) else "?".toList) ++ " iters/sec]".toList, ?_, rfl, by simp; omega⟩
  rw [← h]
  have e1 : (10 - ((10 * n / total : Nat) : Int)).toNat = 10 - 10 * n / total := by omega
  simp only [d3, hdec, Int.toNat_natCast, e1]
  have l1 : "|".toList = ['|'] := rfl
  have l2 : "/".toList = ['/'] := rfl
  have l3 : " ".toList = [' '] := rfl
  have l4 : "% [elapsed: ".toList = '%' :: " [elapsed: ".toList := rfl
  rw [l1, l2, l3, l4]
  simp only [List.cons_append, List.append_assoc, List.nil_append]

example : readClock (formatInterval (3725 + 1 / 2 : ℚ)) = some 3725 ∧ formatInterval (3725 + 1 / 2 : ℚ) = "1:02:05".toList := by
  constructor <;> decide +kernel

example : ∃ s, formatMeter (fun _ : ℚ => "2.00".toList) 7 (some 14) (7 / 2) = .ok s ∧ s.take 24 = "|#####-----| 7/14  50% [".toList := by
  refine ⟨_, rfl, ?_⟩; decide +kernel

end Tqdm
end Coral
