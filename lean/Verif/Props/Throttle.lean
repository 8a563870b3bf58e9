import Verif.Props.Tqdm

/-! # How often `tqdm` updates its meter (C146) -/
set_option linter.unusedSectionVars false
namespace Coral
namespace Tqdm

variable {K : Type} [Field K] [LinearOrder K] [FloorRing K] {α : Type}

/-- Updates of the meter, the latest first, each with the count and the time: between two of them there are at least `miniters` iterations (and one)
and `mininterval` seconds. -/
inductive Spaced (miniters : Int) (mininterval : K) : List (Nat × K) → Prop
  | start (t : K) : Spaced miniters mininterval [(0, t)]
  | update {n n' : Nat} {t t' : K} {l : List (Nat × K)} : Spaced miniters mininterval ((n, t) :: l) → n < n' → miniters ≤ (n' : Int) - n →
      mininterval ≤ t' - t → Spaced miniters mininterval ((n', t') :: (n, t) :: l)

/-- What a generator that is suspended has printed. -/
structure Printed (c : Call K α) (k : Nat) (v : Vars K) (log : List (Nat × K)) (texts : List Str) : Prop where
  spaced : Spaced c.miniters c.mininterval ((v.lastN, v.lastT) :: log)
  first : ((v.lastN, v.lastT) :: log).getLast? = some (0, c.clock 0)
  meters : List.Forall₂ (fun (p : Nat × K) s => formatMeter c.rate p.1 c.total' (p.2 - c.clock 0) = .ok s) ((v.lastN, v.lastT) :: log) texts
  printed : v.sp = (texts.reverse.map (c.prefix ++ ·)).foldl Printer.printStatus (Printer.new [])
  count : v.n + 1 = k
  last : v.lastN ≤ v.n
  start : v.startT = c.clock 0
  read : ∃ i, i < v.ticks ∧ v.lastT = c.clock i
  times : ∀ p ∈ log, p.1 < v.lastN ∧ ∃ i, p.2 = c.clock i

theorem pull_suspended {c : Call K α} {v v' : Vars K} (h : (c.pull v).2 = .suspended v') : v' = v := by
  simp only [Call.pull] at h
  split at h
  · cases h; rfl
  · simp only [Call.finish] at h
    split at h
    · cases h
    · split at h
      · split at h <;> cases h
      · cases h
  · cases h

theorem printed_after (c : Call K α) (k : Nat) : ∀ v, c.after k = .suspended v → ∃ log texts, Printed c k v log texts := by
  induction k with
  | zero => intro v h; cases h
  | succ k ih =>
    intro v h
    have h : (c.next (c.after k)).2 = .suspended v := h
    match hk : c.after k with
    | .fresh =>
      have k0 : k = 0 := by
        by_contra hne
        obtain ⟨j, rfl⟩ : ∃ j, k = j + 1 := ⟨k - 1, by omega⟩
        have hk : (c.next (c.after j)).2 = .fresh := hk
        generalize c.after j = g at hk
        have hp : ∀ w : Vars K, (c.pull w).2 ≠ .fresh := by
          intro w hw
          simp only [Call.pull] at hw
          split at hw
          · cases hw
          · simp only [Call.finish] at hw
            split at hw
            · cases hw
            · split at hw
              · split at hw <;> cases hw
              · cases hw
          · cases hw
        cases g <;> simp only [Call.next] at hk
        · split at hk
          · cases hk
          · exact hp _ hk
        · split at hk
          · cases hk
          · exact hp _ hk
        · cases hk
      subst k0
      rw [hk] at h
      simp only [Call.next] at h
      split at h
      · cases h
      · rename_i s hs
        have := pull_suspended h
        subst this
        exact ⟨[], [s], ⟨.start _, rfl, .cons (by simpa using hs) .nil, rfl, rfl, Nat.le_refl _, rfl, ⟨0, Nat.zero_lt_one, rfl⟩, by simp⟩⟩
    | .closed f o => rw [hk] at h; cases h
    | .suspended u =>
      obtain ⟨log, texts, hu⟩ := ih u hk
      rw [hk] at h
      simp only [Call.next] at h
      split at h
      · cases h
      · rename_i u' hb
        have := pull_suspended h
        subst this
        simp only [Call.body] at hb
        split at hb
        · rename_i hm
          split at hb
          · rename_i hi
            obtain ⟨s, hs, hb⟩ := Py.bind_ok.mp hb
            cases hb
            refine ⟨(u.lastN, u.lastT) :: log, s :: texts, ⟨.update hu.spaced ?_ hm hi, ?_, .cons ?_ hu.meters, ?_, ?_, Nat.le_refl _, hu.start, ⟨u.ticks, Nat.lt_succ_self _, rfl⟩, ?_⟩⟩
            · have := hu.last; dsimp only; omega
            · rw [List.getLast?_cons_cons]; exact hu.first
            · rw [← hu.start]; exact hs
            · simp only [List.reverse_cons, List.map_append, List.foldl_append, ← hu.printed]
              rfl
            · have := hu.count; dsimp only; omega
            · intro p hp
              have hl := hu.last
              rcases List.mem_cons.mp hp with rfl | hp
              · obtain ⟨i, -, hi⟩ := hu.read
                exact ⟨by dsimp only; omega, i, hi⟩
              · obtain ⟨h1, h2⟩ := hu.times p hp
                exact ⟨by dsimp only; omega, h2⟩
          · cases hb
            obtain ⟨i, hi, hi'⟩ := hu.read
            exact ⟨log, texts, ⟨hu.spaced, hu.first, hu.meters, hu.printed, by have := hu.count; dsimp only; omega, by have := hu.last; dsimp only; omega, hu.start,
              ⟨i, by dsimp only; omega, hi'⟩, hu.times⟩⟩
        · cases hb
          exact ⟨log, texts, ⟨hu.spaced, hu.first, hu.meters, hu.printed, by have := hu.count; dsimp only; omega, by have := hu.last; dsimp only; omega, hu.start, hu.read, hu.times⟩⟩

/-! ### C146 -/

/-- **C146.** What has been printed while iterating is a sequence of meters, the first one for no items, of counts and times that the clock has shown,
and between two of them there are always at least `miniters` iterations and `mininterval` seconds. -/
theorem C146_spaced (c : Call K α) (k : Nat) (v : Vars K) (h : c.after k = .suspended v) :
    ∃ (log : List (Nat × K)) (texts : List Str), Spaced c.miniters c.mininterval log ∧ log.getLast? = some (0, c.clock 0) ∧
      (∀ p ∈ log, p.1 < k ∧ ∃ i, p.2 = c.clock i) ∧
      List.Forall₂ (fun (p : Nat × K) s => formatMeter c.rate p.1 c.total' (p.2 - c.clock 0) = .ok s) log texts ∧
      (c.after k).file = ((texts.reverse.map (c.prefix ++ ·)).foldl Printer.printStatus (Printer.new [])).written := by
  obtain ⟨log, texts, hp⟩ := printed_after c k v h
  refine ⟨(v.lastN, v.lastT) :: log, texts, hp.spaced, hp.first, ?_, hp.meters, by rw [h, ← hp.printed]; rfl⟩
  intro p hm
  have h1 := hp.count
  have h2 := hp.last
  rcases List.mem_cons.mp hm with rfl | hm
  · obtain ⟨i, -, hi⟩ := hp.read
    exact ⟨by dsimp only; omega, i, hi⟩
  · obtain ⟨h3, h4⟩ := hp.times p hm
    exact ⟨by omega, h4⟩

/-- With no interval to wait for, `miniters` at most 1 and a clock that does not run backwards, the meter is updated after every item. -/
theorem C146_every (c : Call K α) (hi : c.mininterval ≤ 0) (hm : c.miniters ≤ 1) (hclock : ∀ i j, i ≤ j → 0 ≤ c.clock j - c.clock i) (k : Nat) (v : Vars K)
    (h : c.after k = .suspended v) : v.lastN + 1 = k := by
  induction k generalizing v with
  | zero => cases h
  | succ k ih =>
    obtain ⟨log, texts, hp⟩ := printed_after c (k + 1) v h
    have h : (c.next (c.after k)).2 = .suspended v := h
    match hk : c.after k with
    | .closed f o => rw [hk] at h; cases h
    | .fresh =>
      rw [hk] at h
      simp only [Call.next] at h
      split at h
      · cases h
      · have := pull_suspended h
        subst this
        exact hp.count
    | .suspended u =>
      have hu := ih u hk
      obtain ⟨logu, textsu, hpu⟩ := printed_after c k u hk
      rw [hk] at h
      simp only [Call.next] at h
      split at h
      · cases h
      · rename_i u' hb
        have := pull_suspended h
        subst this
        have hcu := hpu.count
        obtain ⟨i, hlt, hi'⟩ := hpu.read
        have hdue : c.clock u.ticks - u.lastT ≥ c.mininterval := by
          rw [hi']
          exact le_trans hi (hclock i u.ticks (by omega))
        simp only [Call.body] at hb
        rw [if_pos (by omega), if_pos hdue] at hb
        obtain ⟨s, hs, hb⟩ := Py.bind_ok.mp hb
        cases hb
        dsimp only
        omega

variable [IsStrictOrderedRing K]

theorem spaced_length {m : Int} {d : K} {log : List (Nat × K)} (h : Spaced m d log) : ∀ n t t0, log.head? = some (n, t) → log.getLast? = some (0, t0) →
    ((log.length - 1 : Nat) : K) * d ≤ t - t0 ∧ ((log.length - 1 : Nat) : Int) * max 1 m ≤ n := by
  induction h with
  | start t =>
    intro n t' t0 h1 h2
    cases h1
    cases h2
    simp
  | @update n n' t t' l hl hn hm hd ih =>
    intro n1 t1 t0 h1 h2
    cases h1
    obtain ⟨e1, e2⟩ := ih n t t0 rfl (by rw [← h2, List.getLast?_cons_cons])
    have : (((n', t') :: (n, t) :: l).length - 1 : Nat) = (((n, t) :: l).length - 1) + 1 := by simp
    rw [this]
    refine ⟨?_, ?_⟩
    · push_cast
      rw [add_mul, one_mul]
      linarith
    · push_cast
      rw [Int.add_mul, Int.one_mul]
      have : max 1 m ≤ (n' : Int) - n := by omega
      linarith

/-- So there are never more updates than intervals have passed since the start, nor than the items allow. -/
theorem C146_at_most (c : Call K α) (k : Nat) (v : Vars K) (h : c.after k = .suspended v) :
    ∃ (texts : List Str) (i updates : Nat), texts.length = updates + 1 ∧
      (c.after k).file = ((texts.map (c.prefix ++ ·)).foldl Printer.printStatus (Printer.new [])).written ∧
      (updates : K) * c.mininterval ≤ c.clock i - c.clock 0 ∧ (updates : Int) * max 1 c.miniters < k := by
  obtain ⟨log, texts, h1, h2, h3, h4, h5⟩ := C146_spaced c k v h
  match log, h1, h2, h3, h4 with
  | (n, t) :: log, h1, h2, h3, h4 =>
    obtain ⟨hk, i, hi⟩ := h3 (n, t) (by simp)
    obtain ⟨e1, e2⟩ := spaced_length h1 n t _ rfl h2
    refine ⟨texts.reverse, i, log.length, ?_, h5, ?_, ?_⟩
    · rw [List.length_reverse, ← h4.length_eq, List.length_cons]
    · dsimp only at hi
      rw [← hi]
      simpa using e1
    · have : ((((n, t) :: log).length - 1 : Nat) : Int) = log.length := by simp
      rw [this] at e2
      dsimp only at hk
      omega

/-- Five items, and a clock that goes one second per reading. -/
def slow : Call ℚ Nat :=
  { items := fun i => if i < 5 then .value i else .stop, len := some 5, desc := [], total := none, leave := true, mininterval := 2, miniters := 1,
    rate := fun _ => [], clock := fun i => i }

/-- With two seconds to wait, the meter is updated after the second and the fourth item. -/
example : (match slow.after 5 with
    | .suspended v => (v.lastN, v.n, v.ticks)
    | _ => (0, 0, 0)) = (4, 4, 5) := by decide +kernel

end Tqdm
end Coral
