import Verif.Spec.Stats

/-! # The decorated functions of `stats` answer like the bare ones -/
set_option linter.unusedSectionVars false
namespace Coral
namespace Stats

variable {K : Type} [Field K] [LinearOrder K] [FloorRing K]

/-- The bare functions, on arguments that may be generators. -/
def bareA (sqrt : K → K) : Fn → List (Arg K) → Py K
  | .max, [.tuple l] => pyMax l
  | .min, [.tuple l] => pyMin l
  | .sum, [.tuple l] => .ok l.sum
  | .sum, [.gen _ l] => .ok l.sum
  | .len, [.tuple l] => .ok (l.length : K)
  | .avg, [.tuple l] => avg l
  | .var, [.tuple l] => var l
  | .stdDev, [.tuple l] => stdDev sqrt l
  | .covar, [.tuple l, .tuple l'] => covar l l'
  | .corr, [.tuple l, .tuple l'] => corr sqrt l l'
  | .giniKakwani, [.tuple l] => giniKakwani l
  | .giniDeaton, [.tuple l] => giniDeaton l
  | _, _ => .error .typeError

theorem bareA_tuple (sqrt : K → K) (f : Fn) (args : List (List K)) : bareA sqrt f (args.map .tuple) = bare sqrt f args := by
  rcases args with _ | ⟨a, _ | ⟨b, _ | ⟨c, l⟩⟩⟩ <;> cases f <;> rfl

/-- The identities of the generators among the arguments. -/
def IdsBelow (n : Nat) (args : List (Arg K)) : Prop := ∀ i l, Arg.gen i l ∈ args → i < n

/-- The number of calls that the counters of a cache should show. -/
def counted (f : Fn) (log : List Event) : Nat := if f ∈ memos then callsSinceClear f log else callsEver f log

/-- What holds between calls. -/
structure Inv (sqrt : K → K) (st : State K) : Prop where
  sound : ∀ f, ∀ e ∈ (st.caches f).entries, bareA sqrt f e.1 = .ok e.2
  ids : ∀ f, ∀ e ∈ (st.caches f).entries, IdsBelow st.next e.1
  size : ∀ f, (st.caches f).entries.length ≤ maxsize f
  count : ∀ f, (st.caches f).hits + (st.caches f).misses = counted f st.log

/-- From this state the computation answers `r` and keeps the invariant. -/
def Good (sqrt : K → K) {α : Type} (m : SM K α) (r : Py α) (st : State K) : Prop :=
  (m st).1 = r ∧ Inv sqrt (m st).2 ∧ st.next ≤ (m st).2.next

/-- From every state. -/
def Refines (sqrt : K → K) {α : Type} (m : SM K α) (r : Py α) : Prop := ∀ st, Inv sqrt st → Good sqrt m r st

theorem refines_lift (sqrt : K → K) {α : Type} (x : Py α) : Refines sqrt (SM.lift x) x :=
  fun st h => ⟨rfl, h, le_refl _⟩

theorem good_bind {sqrt : K → K} {α β : Type} {m : SM K α} {k : α → SM K β} {r : Py α} {r' : α → Py β} {st : State K}
    (h : Good sqrt m r st) (hk : ∀ a, r = .ok a → Refines sqrt (k a) (r' a)) : Good sqrt (m >>= k) (r >>= r') st := by
  obtain ⟨h1, h2, h3⟩ := h
  simp only [Good, bind, SM.bind]
  generalize he : m st = res at *
  obtain ⟨x, st'⟩ := res
  simp only at h1 h2 h3
  subst h1
  cases x with
  | error e => exact ⟨rfl, h2, h3⟩
  | ok a =>
    obtain ⟨g1, g2, g3⟩ := hk a rfl st' h2
    exact ⟨g1, g2, le_trans h3 g3⟩

theorem refines_bind {sqrt : K → K} {α β : Type} {m : SM K α} {k : α → SM K β} {r : Py α} {r' : α → Py β}
    (h : Refines sqrt m r) (hk : ∀ a, r = .ok a → Refines sqrt (k a) (r' a)) : Refines sqrt (m >>= k) (r >>= r') :=
  fun st hi => good_bind (h st hi) hk

theorem counted_call (f g : Fn) (log : List Event) : counted f (.call g :: log) = (if g = f then 1 else 0) + counted f log := by
  unfold counted
  split <;> simp [callsSinceClear, callsEver]

theorem maxsize_pos (f : Fn) : 0 < maxsize f := by cases f <;> decide

theorem length_eraseP_mem {α : Type} {p : α → Bool} {l : List α} {a : α} (h : l.find? p = some a) :
    (l.eraseP p).length + 1 = l.length := by
  have hm := List.mem_of_find?_eq_some h
  have hp := List.find?_some h
  have := List.length_eraseP_of_mem hm hp
  have : 0 < l.length := List.length_pos_of_mem hm
  omega

theorem memo_good {sqrt : K → K} {f : Fn} {body : List (Arg K) → SM K K} {args : List (Arg K)} {st : State K}
    (hinv : Inv sqrt st)
    (hkey : ∀ e ∈ (st.caches f).entries, argsEq e.1 args = true → bareA sqrt f e.1 = bareA sqrt f args)
    (hids : IdsBelow st.next args) (hbody : Refines sqrt (body args) (bareA sqrt f args)) :
    Good sqrt (memo f body args) (bareA sqrt f args) st := by
  simp only [Good, memo]
  cases hfind : ((st.caches f).entries.find? (fun e => argsEq e.1 args)) with
  | some e =>
    have hm := List.mem_of_find?_eq_some hfind
    have hp := List.find?_some hfind
    refine ⟨?_, ⟨?_, ?_, ?_, ?_⟩, le_refl _⟩
    · simp only
      rw [← hkey e hm hp]
      exact (hinv.sound f e hm).symm
    · intro g e' he'
      simp only [State.setCache] at he'
      split at he'
      · rename_i hg; subst hg
        rcases List.mem_cons.mp he' with rfl | h
        · exact hinv.sound g _ hm
        · exact hinv.sound g _ (List.mem_of_mem_eraseP h)
      · exact hinv.sound g _ he'
    · intro g e' he'
      simp only [State.setCache] at he' ⊢
      split at he'
      · rename_i hg; subst hg
        rcases List.mem_cons.mp he' with rfl | h
        · exact hinv.ids g _ hm
        · exact hinv.ids g _ (List.mem_of_mem_eraseP h)
      · exact hinv.ids g _ he'
    · intro g
      simp only [State.setCache]
      split
      · rename_i hg; subst hg
        have := length_eraseP_mem hfind
        have := hinv.size g
        simp only [List.length_cons]
        omega
      · exact hinv.size g
    · intro g
      have := hinv.count g
      simp only [State.setCache, counted_call]
      split
      · rename_i hg; subst hg
        simp only [if_true]
        omega
      · rename_i hg
        rw [if_neg (fun h => hg h.symm)]
        omega
  | none =>
    have hst1 : Inv sqrt (State.setCache { st with log := .call f :: st.log } f
        ⟨(st.caches f).entries, (st.caches f).hits, (st.caches f).misses + 1⟩) := by
      refine ⟨?_, ?_, ?_, ?_⟩
      · intro g e he
        simp only [State.setCache] at he
        split at he
        · rename_i hg; subst hg; exact hinv.sound g e he
        · exact hinv.sound g e he
      · intro g e he
        simp only [State.setCache] at he ⊢
        split at he
        · rename_i hg; subst hg; exact hinv.ids g e he
        · exact hinv.ids g e he
      · intro g
        simp only [State.setCache]
        split
        · rename_i hg; subst hg; exact hinv.size g
        · exact hinv.size g
      · intro g
        have := hinv.count g
        simp only [State.setCache, counted_call]
        split
        · rename_i hg; subst hg
          simp only [if_true]
          omega
        · rename_i hg
          rw [if_neg (fun h => hg h.symm)]
          omega
    obtain ⟨g1, g2, g3⟩ := hbody _ hst1
    simp only
    generalize body args (State.setCache { st with log := .call f :: st.log } f
        ⟨(st.caches f).entries, (st.caches f).hits, (st.caches f).misses + 1⟩) = res at *
    obtain ⟨x, st2⟩ := res
    simp only [State.setCache] at g1 g2 g3
    subst g1
    cases hx : bareA sqrt f args with
    | error e => exact ⟨rfl, g2, g3⟩
    | ok v =>
      refine ⟨rfl, ⟨?_, ?_, ?_, ?_⟩, g3⟩
      · intro g e he
        simp only [State.setCache] at he
        split at he
        · rename_i hg; subst hg
          rcases List.mem_cons.mp (List.mem_of_mem_take he) with rfl | h
          · exact hx
          · exact g2.sound g _ h
        · exact g2.sound g _ he
      · intro g e he
        simp only [State.setCache] at he ⊢
        split at he
        · rename_i hg; subst hg
          rcases List.mem_cons.mp (List.mem_of_mem_take he) with rfl | h
          · exact fun i l hl => lt_of_lt_of_le (hids i l hl) g3
          · exact g2.ids g _ h
        · exact g2.ids g _ he
      · intro g
        simp only [State.setCache]
        split
        · rename_i hg; subst hg
          exact List.length_take_le _ _
        · exact g2.size g
      · intro g
        have := g2.count g
        simp only [State.setCache]
        split
        · rename_i hg; subst hg; exact this
        · exact this

theorem argsEq_tuple {as : List (Arg K)} {bs : List (List K)} (h : argsEq as (bs.map .tuple) = true) : as = bs.map .tuple := by
  induction as generalizing bs with
  | nil => cases bs with
    | nil => rfl
    | cons b bs => simp [argsEq] at h
  | cons a as ih =>
    cases bs with
    | nil => simp [argsEq] at h
    | cons b bs =>
      simp only [List.map_cons, argsEq, Bool.and_eq_true] at h
      rw [List.map_cons, ih h.2]
      cases a with
      | tuple l =>
        have := h.1
        simp only [Arg.eq, decide_eq_true_eq] at this
        rw [this]
      | gen i l => simp [Arg.eq] at h

theorem memo_refines {sqrt : K → K} {f : Fn} {body : List (Arg K) → SM K K} (args : List (List K))
    (hbody : Refines sqrt (body (args.map .tuple)) (bareA sqrt f (args.map .tuple))) :
    Refines sqrt (memo f body (args.map .tuple)) (bareA sqrt f (args.map .tuple)) := by
  intro st hinv
  refine memo_good hinv ?_ ?_ hbody
  · intro e _ he
    rw [argsEq_tuple he]
  · intro i l hl
    simp at hl

theorem mSum_refines (sqrt : K → K) (l : List K) : Refines sqrt (mSum [.tuple l]) (.ok l.sum) :=
  memo_refines [l] (refines_lift sqrt _)

theorem mLen_refines (sqrt : K → K) (l : List K) : Refines sqrt (mLen [.tuple l]) (.ok (l.length : K)) :=
  memo_refines [l] (refines_lift sqrt _)

theorem mAvg_refines (sqrt : K → K) (l : List K) : Refines sqrt (mAvg [.tuple l]) (avg l) := by
  refine memo_refines (f := .avg) [l] ?_
  exact refines_bind (mSum_refines sqrt l) (r' := fun s => div s (l.length : K)) (fun s _ =>
    refines_bind (mLen_refines sqrt l) (r' := fun n => div s n) (fun n _ => refines_lift sqrt _))

/-- The sum of a new generator. -/
theorem gen_refines {sqrt : K → K} {α : Type} (l : List K) {k : K → SM K α} {r' : K → Py α} (hk : Refines sqrt (k l.sum) (r' l.sum)) :
    Refines sqrt (newGen l >>= fun g => mSum [g] >>= k) (r' l.sum) := by
  intro st hinv
  have hst : Inv sqrt { st with next := st.next + 1 } :=
    ⟨hinv.sound, fun f e he i l hl => Nat.lt_succ_of_lt (hinv.ids f e he i l hl), hinv.size, hinv.count⟩
  have hg : Good sqrt (mSum [.gen st.next l]) (.ok l.sum) { st with next := st.next + 1 } := by
    refine memo_good (f := .sum) hst ?_ ?_ (refines_lift sqrt _)
    · rintro ⟨key, v⟩ he heq
      exfalso
      have hb := hinv.ids .sum (key, v) he
      rcases key with _ | ⟨a, _ | ⟨b, as⟩⟩
      · simp [argsEq] at heq
      · cases a with
        | tuple l' => simp [argsEq, Arg.eq] at heq
        | gen i l' =>
          simp only [argsEq, Arg.eq, Bool.and_true, decide_eq_true_eq] at heq
          have := hb i l' (by simp)
          omega
      · simp [argsEq] at heq
    · intro i l' hl'
      simp only [List.mem_singleton, Arg.gen.injEq] at hl'
      rw [hl'.1]
      exact Nat.lt_succ_self _
  have := good_bind (k := k) (r := .ok l.sum) (r' := r') hg (fun a ha => by
    have : l.sum = a := by injection ha
    subst this; exact hk)
  obtain ⟨h1, h2, h3⟩ := this
  exact ⟨h1, h2, le_trans (Nat.le_succ _) h3⟩

theorem mVar_refines (sqrt : K → K) (l : List K) : Refines sqrt (mVar [.tuple l]) (var l) := by
  refine memo_refines (f := .var) [l] ?_
  refine refines_bind (mAvg_refines sqrt l) (r' := fun u => div (l.map (fun x => (x - u) * (x - u))).sum (l.length : K)) (fun u _ => ?_)
  exact gen_refines (l.map (fun x => (x - u) * (x - u))) (r' := fun s => div s (l.length : K))
    (refines_bind (mLen_refines sqrt l) (r' := fun n => div _ n) (fun n _ => refines_lift sqrt _))

theorem mStdDev_refines (sqrt : K → K) (l : List K) : Refines sqrt (mStdDev sqrt [.tuple l]) (stdDev sqrt l) := by
  refine memo_refines (f := .stdDev) [l] ?_
  exact refines_bind (mVar_refines sqrt l) (r' := fun v => pySqrt sqrt v) (fun v _ => refines_lift sqrt _)

theorem mCovar_refines (sqrt : K → K) (l l' : List K) : Refines sqrt (mCovar [.tuple l, .tuple l']) (covar l l') := by
  refine memo_refines (f := .covar) [l, l'] ?_
  exact refines_bind (mLen_refines sqrt l) (r' := fun n => avg l >>= fun u1 => avg l' >>= fun u2 => covarLoop l l' n u1 u2) (fun n _ =>
    refines_bind (mAvg_refines sqrt l) (fun u1 _ => refines_bind (mAvg_refines sqrt l') (fun u2 _ => refines_lift sqrt _)))

theorem mCorr_refines (sqrt : K → K) (l l' : List K) : Refines sqrt (mCorr sqrt [.tuple l, .tuple l']) (corr sqrt l l') := by
  refine memo_refines (f := .corr) [l, l'] ?_
  exact refines_bind (mCovar_refines sqrt l l') (fun c _ => refines_bind (mStdDev_refines sqrt l) (fun s1 _ =>
    refines_bind (mStdDev_refines sqrt l') (fun s2 _ => refines_lift sqrt _)))

theorem mGiniKakwani_refines (sqrt : K → K) (l : List K) : Refines sqrt (mGiniKakwani [.tuple l]) (giniKakwani l) := by
  refine memo_refines (f := .giniKakwani) [l] ?_
  exact refines_bind (mLen_refines sqrt l) (r' := fun n => avg l >>= fun u => kakwaniLoop l n u) (fun n _ =>
    refines_bind (mAvg_refines sqrt l) (fun u _ => refines_lift sqrt _))

theorem mGiniDeaton_refines (sqrt : K → K) (l : List K) : Refines sqrt (mGiniDeaton [.tuple l]) (giniDeaton l) := by
  refine memo_refines (f := .giniDeaton) [l] ?_
  exact refines_bind (mLen_refines sqrt l) (r' := fun n => avg l >>= fun u => deatonLoop l n u l.sum) (fun n _ =>
    refines_bind (mAvg_refines sqrt l) (fun u _ => refines_bind (mSum_refines sqrt l) (r' := fun s => deatonLoop l n u s)
      (fun s _ => refines_lift sqrt _)))

theorem call_refines (sqrt : K → K) (f : Fn) (args : List (List K)) :
    Refines sqrt (call sqrt f (args.map .tuple)) (bare sqrt f args) := by
  rw [← bareA_tuple]
  rcases args with _ | ⟨a, _ | ⟨b, _ | ⟨c, l⟩⟩⟩
  · cases f <;> exact memo_refines [] (refines_lift sqrt _)
  · cases f
    · exact memo_refines [a] (refines_lift sqrt _)
    · exact memo_refines [a] (refines_lift sqrt _)
    · exact mSum_refines sqrt a
    · exact mLen_refines sqrt a
    · exact mAvg_refines sqrt a
    · exact mVar_refines sqrt a
    · exact mStdDev_refines sqrt a
    · exact memo_refines [a] (refines_lift sqrt _)
    · exact memo_refines [a] (refines_lift sqrt _)
    · exact mGiniKakwani_refines sqrt a
    · exact mGiniDeaton_refines sqrt a
  · cases f
    case covar => exact mCovar_refines sqrt a b
    case corr => exact mCorr_refines sqrt a b
    all_goals exact memo_refines [a, b] (refines_lift sqrt _)
  · cases f <;> exact memo_refines (a :: b :: c :: l) (refines_lift sqrt _)

theorem clear_caches (st : State K) (f : Fn) : (cacheClear st).caches f = if f ∈ memos then ⟨[], 0, 0⟩ else st.caches f := by
  cases f <;> simp [cacheClear, memos, State.setCache]

theorem clear_next (st : State K) : (cacheClear st).next = st.next := rfl

theorem clear_log (st : State K) : (cacheClear st).log = .clear :: st.log := rfl

theorem clear_inv {sqrt : K → K} {st : State K} (h : Inv sqrt st) : Inv sqrt (cacheClear st) := by
  refine ⟨?_, ?_, ?_, ?_⟩
  · intro f e he
    rw [clear_caches] at he
    split at he
    · simp at he
    · exact h.sound f e he
  · intro f e he
    rw [clear_caches] at he
    rw [clear_next]
    split at he
    · simp at he
    · exact h.ids f e he
  · intro f
    rw [clear_caches]
    split
    · simp
    · exact h.size f
  · intro f
    rw [clear_caches, clear_log]
    have := h.count f
    unfold counted at this ⊢
    split
    · simp [callsSinceClear]
    · rename_i hf
      rw [if_neg hf] at this
      simpa [callsEver] using this

theorem init_inv (sqrt : K → K) : Inv sqrt (State.init : State K) :=
  ⟨by simp [State.init], by simp [State.init], by simp [State.init], by
    intro f; simp [State.init, counted, callsSinceClear, callsEver]⟩

theorem run_spec (sqrt : K → K) (ops : List (Op K)) (st : State K) (h : Inv sqrt st) :
    (run sqrt st ops).1 = bareRun sqrt ops ∧ Inv sqrt (run sqrt st ops).2 := by
  induction ops generalizing st with
  | nil => exact ⟨rfl, h⟩
  | cons op ops ih =>
    cases op with
    | call f args =>
      obtain ⟨h1, h2, _⟩ := call_refines sqrt f args st h
      obtain ⟨i1, i2⟩ := ih _ h2
      simp only [run, step, bareRun]
      exact ⟨by rw [h1, i1], i2⟩
    | clear =>
      obtain ⟨i1, i2⟩ := ih _ (clear_inv h)
      simp only [run, step, bareRun]
      exact ⟨by rw [i1], i2⟩

end Stats
end Coral
