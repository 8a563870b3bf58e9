import Verif.Model.Iter
import Verif.Props.Shapefile
import Verif.Props.Dbf

/-! # The iterators of shapefile readers: C120, C121, C122 -/
set_option linter.unusedSectionVars false
namespace Coral
namespace Shapefile
variable {D : Type} [Double D]

/-- Where sequential reading goes. -/
theorem Shapes.positions {noM : Bool} {data : List Byte} {pos : Nat} {l : List (Shape D)} (h : Shapes D noM data pos (.ok l)) :
    ∃ p : Nat → Nat, p 0 = pos ∧ (∀ (i : Nat) s, l[i]? = some s → p i < data.length ∧ shapeAt noM data (p i) = .ok (s, p (i + 1))) ∧
      data.length ≤ p l.length := by
  generalize hr : (Except.ok l : Py (List (Shape D))) = res at h
  induction h generalizing l with
  | done hd => cases hr; exact ⟨fun _ => _, rfl, by simp, hd⟩
  | raise => cases hr
  | next hp hat _ ih =>
    rename_i pos pos' s r _
    cases r with
    | error e => cases hr
    | ok l' =>
      have ho : l = s :: l' := Except.ok.inj hr
      obtain ⟨p, h0, h1, h2⟩ := ih rfl
      refine ⟨fun i => match i with | 0 => pos | i + 1 => p i, rfl, ?_, by simpa [ho] using h2⟩
      intro i s' hi
      cases i with
      | zero =>
        rw [ho] at hi
        simp only [List.getElem?_cons_zero, Option.some.injEq] at hi
        subst hi
        exact ⟨hp, by rw [hat]; simp [h0]⟩
      | succ i =>
        rw [ho] at hi
        exact h1 i s' (by simpa using hi)

/-- Those are the positions in the index. -/
theorem Recs.positions {w : Option Int} {noM : Bool} {n : Nat} {ss ss' : List (Shape D)} {rs : List (List Byte)} (h : Recs w n ss rs ss')
    (pre : List Byte) {l : List (Shape D)} {p : Nat → Nat} (h0 : p 0 = pre.length) (hl : l.length = ss.length)
    (hp : ∀ (i : Nat) s, l[i]? = some s → shapeAt noM (pre ++ rs.flatten) (p i) = .ok (s, p (i + 1)))
    (i o : Nat) (hi : (starts pre.length rs)[i]? = some o) : o = p i := by
  induction h generalizing pre l p i with
  | nil => simp [starts] at hi
  | cons hrec _ ih =>
    rename_i r _ ss rs _ _
    cases i with
    | zero =>
      simp only [starts, List.getElem?_cons_zero, Option.some.injEq] at hi
      omega
    | succ i =>
      simp only [starts, List.getElem?_cons_succ] at hi
      cases l with
      | nil => simp at hl
      | cons s0 l =>
        have hat := hp 0 s0 rfl
        have h1 : p 1 = pre.length + r.length := by
          rw [h0] at hat
          simp only [shapeAt, List.flatten_cons, List.drop_left, Py.bind_ok] at hat
          obtain ⟨⟨o1, l1⟩, hread, hat⟩ := hat
          have := hrec.next noM rs.flatten hread
          simp only at hat
          rw [if_pos (by omega)] at hat
          injection hat with hat
          have := congrArg Prod.snd hat
          simp only [Nat.zero_add] at this
          omega
        refine ih (pre ++ r) (l := l) (p := fun i => p (i + 1)) (by simpa using h1) (by simpa using hl) ?_ i (by rw [List.length_append]; exact hi)
        intro i s hs
        have := hp (i + 1) s (by simpa using hs)
        simpa using this

theorem iterNext_fresh (r : Reader D) : r.iterNext .fresh = ({ r with pos := 100 } : Reader D).iterNext .running := by
  simp [Reader.iterNext, Reader.noM]

/-- A loop whose body always ends, without raising, and leaves the position as it is sees what sequential reading gives. -/
theorem for_quiet {body : Nat → Shape D → Reader D → Py (Reader D) → Prop} {noM : Bool} {data : List Byte} (Inv : Nat → Reader D → Prop)
    (hi : ∀ n r, Inv n r → r.shp = data ∧ r.noM = noM)
    (hb : ∀ (n : Nat) (r : Reader D) (s : Shape D) (next : Nat), Inv n r → r.pos < data.length → shapeAt noM data r.pos = .ok (s, next) →
      ∃ r', (∀ res, body n s { r with pos := next } res ↔ res = .ok r') ∧ Inv (n + 1) r' ∧ r'.pos = next)
    {n : Nat} {r : Reader D} (hr : Inv n r) (res : Py (List (Shape D))) :
    ForShapes body n r .running res ↔ Shapes D noM data r.pos res := by
  have hnext : ∀ n (r : Reader D), Inv n r → r.iterNext .running = if r.pos < data.length then
      (shapeAt noM data r.pos).map (fun x => ({ r with pos := x.2 }, .running, some x.1)) else .ok (r, .finished, none) := by
    intro n r hr
    obtain ⟨h1, h2⟩ := hi n r hr
    simp only [Reader.iterNext, h1, h2, reduceCtorEq, if_false]
    split
    · cases shapeAt (D := D) noM data r.pos <;> rfl
    · rfl
  constructor
  · intro h
    generalize hg : Gen.running = g at h
    induction h with
    | stop h =>
      subst hg
      rw [hnext _ _ hr] at h
      split at h
      · cases hs : shapeAt (D := D) noM data _ with
        | error e => rw [hs] at h; cases h
        | ok x => rw [hs] at h; cases h
      · exact .done (by omega)
    | raise h =>
      subst hg
      rw [hnext _ _ hr] at h
      split at h
      · cases hs : shapeAt (D := D) noM data _ with
        | error e => rw [hs] at h; cases h; exact .raise (by assumption) hs
        | ok x => rw [hs] at h; cases h
      · cases h
    | inner h h' =>
      subst hg
      rw [hnext _ _ hr] at h
      split at h
      · cases hs : shapeAt (D := D) noM data _ with
        | error e => rw [hs] at h; cases h
        | ok x =>
          rw [hs] at h
          cases h
          obtain ⟨r2, h1, -, -⟩ := hb _ _ _ _ hr (by assumption) hs
          rw [h1] at h'
          cases h'
      · cases h
    | step h h' _ ih =>
      subst hg
      rw [hnext _ _ hr] at h
      split at h
      · cases hs : shapeAt (D := D) noM data _ with
        | error e => rw [hs] at h; cases h
        | ok x =>
          rw [hs] at h
          cases h
          obtain ⟨r2, h1, h2, h3⟩ := hb _ _ _ _ hr (by assumption) hs
          rw [h1] at h'
          cases h'
          have := ih h2 rfl
          rw [h3] at this
          exact .next (by assumption) hs this
      · cases h
  · intro h
    generalize hp : r.pos = pos at h
    induction h generalizing n r with
    | done hd =>
      refine .stop (r' := r) (g' := .finished) ?_
      rw [hnext _ _ hr, if_neg (by omega)]
    | raise hp' he =>
      refine .raise ?_
      rw [hnext _ _ hr, hp, if_pos hp', he]
      rfl
    | next hp' he _ ih =>
      obtain ⟨r2, h1, h2, h3⟩ := hb _ _ _ _ hr (by rw [hp]; exact hp') (by rw [hp]; exact he)
      refine .step ?_ ((h1 _).mpr rfl) (ih h2 h3)
      rw [hnext _ _ hr, hp, if_pos hp', he]
      rfl

theorem for_fresh {body : Nat → Shape D → Reader D → Py (Reader D) → Prop} {n : Nat} {r : Reader D} (res : Py (List (Shape D))) :
    ForShapes body n r .fresh res ↔ ForShapes body n { r with pos := 100 } .running res := by
  have e := iterNext_fresh r
  constructor
  · intro h
    cases h with
    | stop h => exact .stop (e ▸ h)
    | raise h => exact .raise (e ▸ h)
    | inner h h' => exact .inner (e ▸ h) h'
    | step h h' h'' => exact .step (e ▸ h) h' h''
  · intro h
    cases h with
    | stop h => exact .stop (e ▸ h)
    | raise h => exact .raise (e ▸ h)
    | inner h h' => exact .inner (e ▸ h) h'
    | step h h' h'' => exact .step (e ▸ h) h' h''

/-- C120: without a body that uses the geometry file, the iterator gives what `shapes()` gives, for every file (and raises or does not end when
that raises or does not end). -/
theorem C120_iter (r : Reader D) (res : Py (List (Shape D))) :
    ForShapes (fun _ _ r res => res = .ok r) 0 r .fresh res ↔ Shapes D r.noM r.shp 100 res := by
  rw [for_fresh]
  exact for_quiet (body := fun _ _ r res => res = .ok r) (fun _ r' => r'.shp = r.shp ∧ r'.noM = r.noM) (fun _ _ h => h) (fun n r' s next h _ _ => ⟨{ r' with pos := next }, fun _ => Iff.rfl, h, rfl⟩) (n := 0) (r := { r with pos := 100 }) ⟨rfl, rfl⟩ res

theorem starts_ge (p : Nat) (rs : List (List Byte)) : ∀ o ∈ starts p rs, p ≤ o := by
  induction rs generalizing p with
  | nil => simp [starts]
  | cons r rs ih =>
    intro o ho
    rcases List.mem_cons.mp ho with rfl | ho
    · exact Nat.le_refl _
    · exact Nat.le_trans (Nat.le_add_right _ _) (ih _ o ho)

/-- The state of affairs in a reader of saved files: its index gives the positions sequential reading visits. -/
theorem saved_positions {w w' : Writer D} {shp shx : List Byte} (h : w.save = .ok (w', shp, shx)) (h0 : w.offsets = []) {numRecords : Option Nat}
    (hn : numRecords = none ∨ numRecords = some w.shapes.length) {r0 : Reader D} (hr0 : Reader.new shp (some shx) numRecords = .ok r0)
    {l : List (Shape D)} (hl : Shapes D r0.noM shp 100 (.ok l)) :
    ∃ (p : Nat → Nat) (offs : List Int), p 0 = 100 ∧ (∀ (i : Nat) s, l[i]? = some s → p i < shp.length ∧ shapeAt r0.noM shp (p i) = .ok (s, p (i + 1))) ∧
      shp.length ≤ p l.length ∧ ∀ (r : Reader D), Uses r0 r → r.shp = shp ∧ r.noM = r0.noM ∧ ∀ (i : Nat), i < l.length → ∀ s, l[i]? = some s →
        ∀ res, Reader.Shape r i res ↔ res = .ok ({ r with offsets := offs, pos := p (i + 1) }, s) := by
  obtain ⟨t, n, m, hd, rs, hft, -, hm, hhd, rfl, hrecs, hoffs, hhead, hshx⟩ := save_all h (by simp [h0])
  rw [h0, List.nil_append, List.take_of_length_le (by rw [starts_length, hrecs.length_ss.1]; exact Nat.le_refl _)] at hshx
  have hr0e : r0 = { shp := hd ++ rs.flatten, shx := some shx, numRecords := numRecords, measure := m } := by
    simp only [Reader.new, hhead, ok_bind] at hr0
    exact (Except.ok.inj hr0).symm
  obtain ⟨p, p0, p1, p2⟩ := hl.positions
  have hl' := hl
  rw [← hhd] at hl'
  have hlen := (hrecs.visits hd hl').1
  refine ⟨p, (starts 100 rs).map (fun o : Nat => (o : Int)), p0, p1, p2, fun r hr => ?_⟩
  obtain ⟨u1, u2, u3, u4, u5⟩ := uses_inv hr (by rw [hr0e]) hshx (by rw [hr0e])
  have e1 : r.noM = r0.noM := by simp only [Reader.noM, u4]
  have e2 : r.shp = hd ++ rs.flatten := by rw [u1, hr0e]
  refine ⟨e2, e1, fun i hil s hi => ?_⟩
  have hsl : (starts hd.length rs).length = w.shapes.length := (hrecs.visits hd hl').2.1
  obtain ⟨o, ho⟩ : ∃ o, (starts hd.length rs)[i]? = some o := ⟨_, List.getElem?_eq_getElem (by omega)⟩
  have hop := hrecs.positions hd (l := l) (p := p) (by omega) hlen (fun i s hs => (p1 i s hs).2) i o ho
  have hrest : restrictIndex r.numRecords i = .ok (i : Int) := by
    rw [u3, hr0e]
    rcases hn with rfl | rfl
    · rfl
    · match hk : w.shapes.length with
      | 0 => omega
      | k + 1 =>
        simp only [restrictIndex]
        rw [if_neg (by simp; omega), if_neg (by omega)]
  rw [hhd] at ho
  have hpos : 0 < o := Nat.lt_of_lt_of_le (by decide : 0 < 100) (starts_ge 100 rs o (List.mem_of_getElem? ho))
  refine fun res => shape_by_index (u2.trans (by rw [hr0e])) hshx u5 hrest (by omega) (o := (o : Int)) (by simp [ho]) (by omega) (next := p (i + 1)) ?_ res
  rw [e1, e2, Int.toNat_natCast, hop]
  exact (p1 i s hi).2

/-- Lookups leave the number of records. -/
theorem uses_numRecords {w w' : Writer D} {shp shx : List Byte} (h : w.save = .ok (w', shp, shx)) (h0 : w.offsets = []) {numRecords : Option Nat}
    {r0 : Reader D} (hr0 : Reader.new shp (some shx) numRecords = .ok r0) {r : Reader D} (hr : Uses r0 r) : r.numRecords = numRecords := by
  obtain ⟨t, n, m, hd, rs, hft, -, hm, hhd, rfl, hrecs, hoffs, hhead, hshx⟩ := save_all h (by simp [h0])
  have hr0e : r0 = { shp := hd ++ rs.flatten, shx := some shx, numRecords := numRecords, measure := m } := by
    simp only [Reader.new, hhead, ok_bind] at hr0
    exact (Except.ok.inj hr0).symm
  obtain ⟨-, -, u3, -, -⟩ := uses_inv hr (by rw [hr0e]) hshx (by rw [hr0e])
  rw [u3, hr0e]

/-- C120, with lookups that are harmless: looking up the shape just given, `r.shape(n)` in round `n`, the loop still gets all shapes in order.
Missing: other lookups, see below. -/
theorem C120_lookup_partial {w w' : Writer D} {shp shx : List Byte} (h : w.save = .ok (w', shp, shx)) (h0 : w.offsets = []) {numRecords : Option Nat}
    (hn : numRecords = none ∨ numRecords = some w.shapes.length) {r0 r : Reader D} (hr0 : Reader.new shp (some shx) numRecords = .ok r0)
    (hr : Uses r0 r) {l : List (Shape D)} (hl : Shapes D r0.noM shp 100 (.ok l)) (res : Py (List (Shape D))) :
    ForShapes (lookup (fun n : Nat => (n : Int))) 0 r .fresh res ↔ res = .ok l := by
  obtain ⟨p, offs, p0, p1, p2, hu⟩ := saved_positions h h0 hn hr0 hl
  rw [for_fresh]
  have hq := for_quiet (body := lookup (fun n : Nat => (n : Int))) (noM := r0.noM) (data := shp)
    (fun n r' => Uses r0 r' ∧ r'.pos = p n ∧ n ≤ l.length) (fun n r' h => ⟨(hu r' h.1).1, (hu r' h.1).2.1⟩) ?_ (n := 0) (r := { r with pos := 100 })
    ⟨.shapes 100 hr, p0.symm, Nat.zero_le _⟩ res
  · rw [hq]
    exact ⟨fun h' => h'.det hl, fun h' => h' ▸ hl⟩
  · rintro n r' s next ⟨h1, h2, h3⟩ h4 h5
    have hnl : n < l.length := by
      rcases Nat.lt_or_ge n l.length with h | h
      · exact h
      · have : n = l.length := by omega
        rw [h2, this] at h4
        omega
    have hs := p1 n _ (List.getElem?_eq_getElem hnl)
    rw [h2, hs.2] at h5
    injection h5 with h5
    obtain ⟨rfl, rfl⟩ := Prod.mk.inj h5
    obtain ⟨-, -, hsh⟩ := hu _ (.shapes (p (n + 1)) h1)
    have hsh := hsh n hnl _ (List.getElem?_eq_getElem hnl)
    refine ⟨{ r' with offsets := offs, pos := p (n + 1) }, fun res => ⟨?_, ?_⟩, ⟨.shape (.shapes (p (n + 1)) h1) ((hsh _).mpr rfl), rfl, by omega⟩, rfl⟩
    · rintro ⟨res', h6, rfl⟩
      rw [hsh] at h6
      rw [h6]
      rfl
    · rintro rfl
      exact ⟨_, (hsh _).mpr rfl, rfl⟩

theorem iterNext_at {shp : List Byte} {l : List (Shape D)} {p : Nat → Nat} {r0 r : Reader D}
    (p1 : ∀ (i : Nat) s, l[i]? = some s → p i < shp.length ∧ shapeAt r0.noM shp (p i) = .ok (s, p (i + 1))) {P : Reader D → Prop}
    (hu : ∀ (r : Reader D), Uses r0 r → r.shp = shp ∧ r.noM = r0.noM ∧ P r) (hr : Uses r0 r) {j : Nat} (hj : j < l.length) (hp : r.pos = p j) :
    r.iterNext .running = .ok ({ r with pos := p (j + 1) }, .running, some l[j]) := by
  obtain ⟨h1, h2⟩ := p1 j _ (List.getElem?_eq_getElem hj)
  obtain ⟨h3, h4, -⟩ := hu r hr
  simp only [Reader.iterNext, h3, h4, hp, reduceCtorEq, if_false, if_pos h1, h2]
  rfl

/-- C120 fails: if the body looks up any other shape than the last, `r.shape(k)`, the loop never ends as soon as there are two shapes. -/
theorem C120_lookup_violated {w w' : Writer D} {shp shx : List Byte} (h : w.save = .ok (w', shp, shx)) (h0 : w.offsets = []) {numRecords : Option Nat}
    (hn : numRecords = none ∨ numRecords = some w.shapes.length) {r0 r : Reader D} (hr0 : Reader.new shp (some shx) numRecords = .ok r0)
    (hr : Uses r0 r) {l : List (Shape D)} (hl : Shapes D r0.noM shp 100 (.ok l)) {k : Nat} (hk : k + 1 < l.length) (res : Py (List (Shape D))) :
    ¬ ForShapes (lookup (fun _ => (k : Int))) 0 r .fresh res := by
  obtain ⟨p, offs, p0, p1, p2, hu⟩ := saved_positions h h0 hn hr0 hl
  rw [for_fresh]
  have key : ∀ (n : Nat) (r' : Reader D) (g : Gen) (res : Py (List (Shape D))), ForShapes (lookup (fun _ => (k : Int))) n r' g res → g = .running → Uses r0 r' →
      ∀ j, j < l.length → r'.pos = p j → False := by
    intro n r' g res hf
    induction hf with
    | stop h =>
      rintro rfl h1 j hj hp
      rw [iterNext_at p1 hu h1 hj hp] at h
      cases h
    | raise h =>
      rintro rfl h1 j hj hp
      rw [iterNext_at p1 hu h1 hj hp] at h
      cases h
    | inner h h' =>
      rintro rfl h1 j hj hp
      rw [iterNext_at p1 hu h1 hj hp] at h
      cases h
      obtain ⟨res', h6, h7⟩ := h'
      rw [(hu _ (.shapes (p (j + 1)) h1)).2.2 k (by omega) _ (List.getElem?_eq_getElem (by omega))] at h6
      subst h6
      cases h7
    | step h h' _ ih =>
      rintro rfl h1 j hj hp
      rw [iterNext_at p1 hu h1 hj hp] at h
      cases h
      obtain ⟨res', h6, h7⟩ := h'
      have h8 := h6
      rw [(hu _ (.shapes (p (j + 1)) h1)).2.2 k (by omega) _ (List.getElem?_eq_getElem (by omega))] at h6
      subst h6
      cases h7
      exact ih rfl (.shape (.shapes (p (j + 1)) h1) h8) (k + 1) hk rfl
  exact fun hf => key 0 _ _ res hf rfl (.shapes 100 hr) 0 (by omega) p0.symm

/-- C120 fails: if the body looks up the last shape, the loop ends after the first one. -/
theorem C120_last_violated {w w' : Writer D} {shp shx : List Byte} (h : w.save = .ok (w', shp, shx)) (h0 : w.offsets = []) {numRecords : Option Nat}
    (hn : numRecords = none ∨ numRecords = some w.shapes.length) {r0 r : Reader D} (hr0 : Reader.new shp (some shx) numRecords = .ok r0)
    (hr : Uses r0 r) {l : List (Shape D)} (hl : Shapes D r0.noM shp 100 (.ok l)) {k : Nat} (hk : k + 1 = l.length) (res : Py (List (Shape D))) :
    ForShapes (lookup (fun _ => (k : Int))) 0 r .fresh res ↔ res = .ok (l.take 1) := by
  obtain ⟨p, offs, p0, p1, p2, hu⟩ := saved_positions h h0 hn hr0 hl
  rw [for_fresh]
  have h1 : Uses r0 { r with pos := 100 } := .shapes 100 hr
  have e1 := iterNext_at p1 hu h1 (j := 0) (by omega) p0.symm
  have hlook := (hu _ (.shapes (p (0 + 1)) h1)).2.2 k (by omega) _ (List.getElem?_eq_getElem (by omega))
  have e2 : Reader.iterNext ({ r with offsets := offs, pos := p (k + 1) } : Reader D) .running = .ok ({ r with offsets := offs, pos := p (k + 1) }, .finished, none) := by
    have := hu r hr
    simp only [Reader.iterNext, this.1, reduceCtorEq, if_false, hk]
    rw [if_neg (by omega)]
  have hl1 : l.take 1 = [l[0]] := by
    cases l with
    | nil => simp at hk
    | cons a l => rfl
  rw [hl1]
  constructor
  · intro hf
    cases hf with
    | stop h => rw [e1] at h; cases h
    | raise h => rw [e1] at h; cases h
    | inner h h' =>
      rw [e1] at h; cases h
      obtain ⟨res', h6, h7⟩ := h'
      rw [hlook] at h6
      subst h6
      cases h7
    | step h h' h'' =>
      rw [e1] at h; cases h
      obtain ⟨res', h6, h7⟩ := h'
      rw [hlook] at h6
      subst h6
      cases h7
      cases h'' with
      | stop h => rfl
      | raise h => rw [e2] at h; cases h
      | inner h => rw [e2] at h; cases h
      | step h => rw [e2] at h; cases h
  · rintro rfl
    exact .step (res := .ok []) e1 ⟨_, (hlook _).mpr rfl, rfl⟩ (.stop e2)

end Shapefile
namespace Dbf
open Shapefile (ok_bind restrictIndex)
variable {F : Type} (pyFloat : List Byte → Py F)

/-- A loop whose body does not raise and leaves the reader as it is, from a `yield` on, gets what the loop of `records()` gets. -/
theorem for_quiet {body : Nat → List (Value F) → Reader → Py Reader} (hb : ∀ n x r, body n x r = .ok r) (n k : Nat) (r : Reader) (res : Py (List (List (Value F)))) :
    ForRecords pyFloat body n r (.running k) res ↔ res = (Reader.loop pyFloat k r).map Prod.snd := by
  induction k generalizing n r res with
  | zero =>
    constructor
    · intro h
      cases h with
      | stop => rfl
      | raise h => cases h
      | inner h => cases h
      | step h => cases h
    · rintro rfl
      exact .stop (r' := r) (g' := .finished) rfl
  | succ k ih =>
    have e1 : Reader.loop pyFloat (k + 1) r = (r.next pyFloat >>= fun x => Reader.loop pyFloat k x.1 >>= fun y => .ok (y.1, match x.2 with
      | some (v :: vs) => (v :: vs) :: y.2
      | _ => y.2)) := rfl
    have e2 : r.iterNext pyFloat (.running (k + 1)) = (r.next pyFloat >>= fun x => match x.2 with
      | some (v :: vs) => .ok (x.1, .running k, some (v :: vs))
      | _ => Reader.iterLoop pyFloat k x.1) := rfl
    cases hn : r.next pyFloat with
    | error e =>
      rw [hn] at e1 e2
      rw [e1]
      constructor
      · intro h
        cases h with
        | stop h => rw [e2] at h; cases h
        | raise h => rw [e2] at h; cases h; rfl
        | inner h => rw [e2] at h; cases h
        | step h => rw [e2] at h; cases h
      · rintro rfl
        exact .raise e2
    | ok x =>
      obtain ⟨r1, x⟩ := x
      rw [hn] at e1 e2
      rw [e1]
      have skip : r.iterNext pyFloat (.running (k + 1)) = r1.iterNext pyFloat (.running k) →
          (ForRecords pyFloat body n r (.running (k + 1)) res ↔ ForRecords pyFloat body n r1 (.running k) res) := by
        intro e
        constructor
        · intro h
          cases h with
          | stop h => exact .stop (e ▸ h)
          | raise h => exact .raise (e ▸ h)
          | inner h h' => exact .inner (e ▸ h) h'
          | step h h' h'' => exact .step (e ▸ h) h' h''
        · intro h
          cases h with
          | stop h => exact .stop (e ▸ h)
          | raise h => exact .raise (e ▸ h)
          | inner h h' => exact .inner (e ▸ h) h'
          | step h h' h'' => exact .step (e ▸ h) h' h''
      have map_id : ∀ z : Py (Reader × List (List (Value F))), (z >>= fun y => (.ok (y.1, y.2) : Py (Reader × List (List (Value F))))) = z := by
        intro z; cases z <;> rfl
      match x with
      | none =>
        rw [skip e2, ih]
        simp only [ok_bind, map_id]
      | some [] =>
        rw [skip e2, ih]
        simp only [ok_bind, map_id]
      | some (v :: vs) =>
        simp only [ok_bind] at e2 ⊢
        have e3 : (Reader.loop pyFloat k r1 >>= fun y => (.ok (y.1, (v :: vs) :: y.2) : Py _)).map Prod.snd =
            ((Reader.loop pyFloat k r1).map Prod.snd).map ((v :: vs) :: ·) := by
          cases Reader.loop pyFloat k r1 <;> rfl
        rw [e3]
        constructor
        · intro h
          cases h with
          | stop h => rw [e2] at h; cases h
          | raise h => rw [e2] at h; cases h
          | inner h h' => rw [hb] at h'; cases h'
          | step h h' h'' =>
            rw [e2] at h; cases h
            rw [hb] at h'; cases h'
            rw [ih] at h''
            rw [h'']
        · rintro rfl
          exact .step e2 (hb _ _ _) ((ih _ _ _).mpr rfl)

/-- C121: without a body that uses the attribute file, the iterator gives what `records()` gives, for every file. -/
theorem C121_iter (r : Reader) (res : Py (List (List (Value F)))) :
    ForRecords pyFloat (fun _ _ r => .ok r) 0 r .fresh res ↔ res = (r.records pyFloat).map Prod.snd := by
  have e1 : r.iterNext pyFloat .fresh = (r.again >>= fun r => r.length >>= fun r => Reader.iterLoop pyFloat r.numRecords { r with pos := r.headerLength }) := rfl
  have e2 : r.records pyFloat = (r.again >>= fun r => r.length >>= fun r => Reader.loop pyFloat r.numRecords { r with pos := r.headerLength }) := rfl
  cases ha : (r.again >>= fun r => r.length) with
  | error e =>
    have e3 : r.iterNext pyFloat .fresh = .error e := by
      rw [e1, ← bind_assoc, ha]; rfl
    have e4 : r.records pyFloat = .error e := by
      rw [e2, ← bind_assoc, ha]; rfl
    rw [e4]
    constructor
    · intro h
      cases h with
      | stop h => rw [e3] at h; cases h
      | raise h => rw [e3] at h; cases h; rfl
      | inner h => rw [e3] at h; cases h
      | step h => rw [e3] at h; cases h
    · rintro rfl
      exact .raise e3
  | ok r1 =>
    have e3 : r.iterNext pyFloat .fresh = Reader.iterNext pyFloat { r1 with pos := r1.headerLength } (.running r1.numRecords) := by
      rw [e1, ← bind_assoc, ha]; rfl
    have e4 : r.records pyFloat = Reader.loop pyFloat r1.numRecords { r1 with pos := r1.headerLength } := by
      rw [e2, ← bind_assoc, ha]; rfl
    rw [e4, ← for_quiet pyFloat (fun _ _ _ => rfl) 0]
    constructor
    · intro h
      cases h with
      | stop h => exact .stop (e3 ▸ h)
      | raise h => exact .raise (e3 ▸ h)
      | inner h h' => exact .inner (e3 ▸ h) h'
      | step h h' h'' => exact .step (e3 ▸ h) h' h''
    · intro h
      cases h with
      | stop h => exact .stop (e3 ▸ h)
      | raise h => exact .raise (e3 ▸ h)
      | inner h h' => exact .inner (e3 ▸ h) h'
      | step h h' h'' => exact .step (e3 ▸ h) h' h''

/-- Reading and looking up in a file without deleted records. -/
theorem kept_positions {r : Reader} (hn : r.numRecords ≠ 0) (hh : r.headerLength ≠ 0) {xs : List (List (Value F))} (hx : xs.length = r.numRecords)
    (hne : ∀ x ∈ xs, x ≠ []) (hrec : ∀ (i : Nat) x, xs[i]? = some x → ∃ r1, r.record pyFloat i = .ok (r1, some x)) :
    ∃ p : Nat → Nat, p 0 = r.headerLength ∧ ∀ (i : Nat) (hi : i < xs.length),
      (∀ k, Reader.iterNext pyFloat { r with pos := p i } (.running (k + 1)) = .ok ({ r with pos := p (i + 1) }, .running k, some xs[i])) ∧
      (∀ q, Reader.record pyFloat { r with pos := q } i = .ok ({ r with pos := p (i + 1) }, some xs[i])) := by
  refine ⟨fun i => r.headerLength + i * r.recSize, by simp, fun i hi => ?_⟩
  obtain ⟨r1, h1⟩ := hrec i _ (List.getElem?_eq_getElem hi)
  have hi' := (Shapefile.C90_indices_partial r.numRecords (by omega) i).1 (by omega)
  rw [if_neg (by omega)] at hi'
  have h2 := h1
  rw [record_eq pyFloat hn hh hi' (by omega), Int.toNat_natCast] at h2
  have h3 := next_ok pyFloat (r := { r with pos := r.headerLength + i * r.recSize }) hn h2
  have h4 : r1 = { r with pos := r.headerLength + (i + 1) * r.recSize } := by
    rw [h3]
    simp only [Reader.recSize]
    congr 1
    rw [Nat.add_mul, Nat.one_mul, Nat.add_assoc]
  rw [h4] at h2
  obtain ⟨v, vs, hv⟩ := List.exists_cons_of_ne_nil (hne _ (List.getElem_mem hi))
  refine ⟨fun k => ?_, fun q => ?_⟩
  · simp only [Reader.iterNext, Reader.iterLoop, h2, ok_bind, hv]
    rfl
  · rw [record_eq pyFloat (r := { r with pos := q }) hn hh hi' (by omega), Int.toNat_natCast]
    exact h2

theorem ForRecords.det {body : Nat → List (Value F) → Reader → Py Reader} {n : Nat} {r : Reader} {g : Gen} {res res' : Py (List (List (Value F)))}
    (h : ForRecords pyFloat body n r g res) (h' : ForRecords pyFloat body n r g res') : res = res' := by
  induction h generalizing res' with
  | stop h => cases h' with
    | stop => rfl
    | raise k => rw [h] at k; cases k
    | inner k => rw [h] at k; cases k
    | step k => rw [h] at k; cases k
  | raise h => cases h' with
    | stop k => rw [h] at k; cases k
    | raise k => rw [h] at k; cases k; rfl
    | inner k => rw [h] at k; cases k
    | step k => rw [h] at k; cases k
  | inner h hb => cases h' with
    | stop k => rw [h] at k; cases k
    | raise k => rw [h] at k; cases k
    | inner k kb => rw [h] at k; cases k; rw [hb] at kb; cases kb; rfl
    | step k kb => rw [h] at k; cases k; rw [hb] at kb; cases kb
  | step h hb _ ih => cases h' with
    | stop k => rw [h] at k; cases k
    | raise k => rw [h] at k; cases k
    | inner k kb => rw [h] at k; cases k; rw [hb] at kb; cases kb
    | step k kb kr => rw [h] at k; cases k; rw [hb] at kb; cases kb; rw [ih kr]

theorem for_fresh {body : Nat → List (Value F) → Reader → Py Reader} {n : Nat} {r : Reader} (hn : r.numRecords ≠ 0) (hh : r.headerLength ≠ 0)
    {res : Py (List (List (Value F)))} (h : ForRecords pyFloat body n { r with pos := r.headerLength } (.running r.numRecords) res) :
    ForRecords pyFloat body n r .fresh res := by
  have e : Reader.iterNext pyFloat { r with pos := r.headerLength } (.running r.numRecords) = r.iterNext pyFloat .fresh := by
    have e1 : r.again = .ok r := by simp [Reader.again, hn]
    have e2 : r.length = .ok r := by simp [Reader.length, hh]
    simp only [Reader.iterNext, e1, e2, ok_bind]
  cases h with
  | stop h => exact .stop (e ▸ h)
  | raise h => exact .raise (e ▸ h)
  | inner h h' => exact .inner (e ▸ h) h'
  | step h h' h'' => exact .step (e ▸ h) h' h''

/-- C121, with lookups that are harmless: looking up the record just given, `r.record(n)` in round `n`, the loop still gets all records in
order. Missing: other lookups, see below; deleted records. -/
theorem C121_lookup_partial {r : Reader} (hn : r.numRecords ≠ 0) (hh : r.headerLength ≠ 0) {xs : List (List (Value F))} (hx : xs.length = r.numRecords)
    (hne : ∀ x ∈ xs, x ≠ []) (hrec : ∀ (i : Nat) x, xs[i]? = some x → ∃ r1, r.record pyFloat i = .ok (r1, some x))
    (res : Py (List (List (Value F)))) :
    ForRecords pyFloat (lookup pyFloat (fun n : Nat => (n : Int))) 0 r .fresh res ↔ res = .ok xs := by
  obtain ⟨p, p0, hp⟩ := kept_positions pyFloat hn hh hx hne hrec
  have key : ∀ (k n : Nat), n + k = xs.length → ForRecords pyFloat (lookup pyFloat (fun n : Nat => (n : Int))) n { r with pos := p n } (.running k) (.ok (xs.drop n)) := by
    intro k
    induction k with
    | zero =>
      intro n h
      rw [List.drop_eq_nil_of_le (by omega)]
      exact .stop (r' := { r with pos := p n }) (g' := .finished) rfl
    | succ k ih =>
      intro n h
      obtain ⟨h1, h2⟩ := hp n (by omega)
      rw [List.drop_eq_getElem_cons (by omega)]
      refine .step (res := .ok (xs.drop (n + 1))) (h1 k) ?_ (ih (n + 1) (by omega))
      simp only [lookup, h2]
      rfl
  have hall : ForRecords pyFloat (lookup pyFloat (fun n : Nat => (n : Int))) 0 r .fresh (.ok xs) := by
    have := key xs.length 0 (by omega)
    rw [p0, List.drop_zero, hx] at this
    exact for_fresh pyFloat hn hh this
  exact ⟨fun h => ForRecords.det pyFloat h hall, fun h => h ▸ hall⟩

/-- C121 fails: if the body looks up another record than the last, `r.record(k)`, then after the first round it gets the record after that one
every time. -/
theorem C121_lookup_violated {r : Reader} (hn : r.numRecords ≠ 0) (hh : r.headerLength ≠ 0) {xs : List (List (Value F))} (hx : xs.length = r.numRecords)
    (hne : ∀ x ∈ xs, x ≠ []) (hrec : ∀ (i : Nat) x, xs[i]? = some x → ∃ r1, r.record pyFloat i = .ok (r1, some x)) {k : Nat} (hk : k + 1 < xs.length)
    (res : Py (List (List (Value F)))) :
    ForRecords pyFloat (lookup pyFloat (fun _ => (k : Int))) 0 r .fresh res ↔ res = .ok (xs[0] :: List.replicate (xs.length - 1) xs[k + 1]) := by
  obtain ⟨p, p0, hp⟩ := kept_positions pyFloat hn hh hx hne hrec
  have look : ∀ n x q, lookup pyFloat (fun _ => (k : Int)) n x { r with pos := q } = .ok { r with pos := p (k + 1) } := by
    intro n x q
    simp only [lookup, (hp k (by omega)).2]
    rfl
  have key : ∀ (m n : Nat), ForRecords pyFloat (lookup pyFloat (fun _ => (k : Int))) n { r with pos := p (k + 1) } (.running m) (.ok (List.replicate m xs[k + 1])) := by
    intro m
    induction m with
    | zero =>
      intro n
      exact .stop (r' := { r with pos := p (k + 1) }) (g' := .finished) rfl
    | succ m ih =>
      intro n
      exact .step (res := .ok (List.replicate m xs[k + 1])) ((hp (k + 1) hk).1 m) (look _ _ _) (ih (n + 1))
  have hall : ForRecords pyFloat (lookup pyFloat (fun _ => (k : Int))) 0 r .fresh (.ok (xs[0] :: List.replicate (xs.length - 1) xs[k + 1])) := by
    refine for_fresh pyFloat hn hh ?_
    obtain ⟨m, hm⟩ : ∃ m, r.numRecords = m + 1 := ⟨r.numRecords - 1, by omega⟩
    have h1 := (hp 0 (by omega)).1 m
    rw [p0] at h1
    have hm1 : xs.length - 1 = m := by omega
    rw [hm1]
    refine .step (res := .ok (List.replicate m xs[k + 1])) (r' := { r with pos := p (0 + 1) }) (g' := .running m) ?_ (look _ _ _) (key m 1)
    rw [← h1, hm]
  exact ⟨fun h => ForRecords.det pyFloat h hall, fun h => h ▸ hall⟩

end Dbf

namespace Shapefile
variable {D : Type} [Double D] {F : Type} (pyFloat : List Byte → Py F)

/-- The records of a saved file, one by one. -/
theorem saved_record {v v' : Dbf.Writer} {y m d : Int} {data : List Byte} (h : v.saveDbf y m d = .ok (v', data))
    (hf : ∀ f ∈ v.fields, Dbf.Ascii f.name ∧ f.deletes = false) (hne : v.records ≠ []) {recs : List (List (Dbf.Value F))}
    (hrow : List.Forall₂ (Dbf.Row v.fields) v.records recs) :
    ∃ r : Dbf.Reader, Dbf.Reader.new data = .ok r ∧ r.numRecords = v.records.length ∧
      ∀ pos (i : Nat) x, recs[i]? = some x → ∃ r1, Dbf.Reader.record pyFloat { r with pos := pos } i = .ok (r1, some x) := by
  obtain ⟨r, hr, hrecs⟩ := Dbf.C88_records_back_partial pyFloat h hf hne hrow
  obtain ⟨hd, rs, -, h1, h2, rfl⟩ := Dbf.saveDbf_ok h (fun f hf' => (hf f hf').2)
  obtain ⟨hlen, hnew⟩ := Dbf.new_ok h1 (fun f hf' => (hf f hf').1) rs.flatten
  rw [hnew] at hr
  injection hr with hr
  have hnum : r.numRecords = v.records.length := by rw [← hr]
  have hhl : r.headerLength ≠ 0 := by rw [← hr]; simp only; omega
  have hn0 : r.numRecords ≠ 0 := by rw [hnum]; simpa using hne
  refine ⟨r, by rw [hnew, hr], hnum, fun pos i x hx => ?_⟩
  obtain ⟨r', h3⟩ := hrecs pos
  obtain ⟨os, h4, h5, h6⟩ := Dbf.records_ok pyFloat (r := { r with pos := pos }) hn0 hhl h3
  have hl : os.length = (os.filterMap Dbf.kept).length := by
    rw [← h5, h4, ← hrow.length_eq]
    exact hnum
  have hos : os = recs.map some := by
    rw [h5]
    clear * - hl
    induction os with
    | nil => rfl
    | cons o os ih =>
      have hle := List.length_filterMap_le Dbf.kept os
      match o with
      | none => rw [List.filterMap_cons_none rfl, List.length_cons] at hl; omega
      | some [] => rw [List.filterMap_cons_none rfl, List.length_cons] at hl; omega
      | some (v :: vs) =>
        simp only [List.filterMap_cons, Dbf.kept, List.length_cons, Nat.add_right_cancel_iff] at hl
        simp only [List.filterMap_cons, Dbf.kept, List.map_cons]
        rw [← ih hl]
  exact h6 i (some x) (by rw [hos, List.getElem?_map, hx]; rfl)

/-- C122, what holds: in files saved with as many records as shapes, `shapeRecord(i)` is the shape and the record saved at place `i`, counted
from the end if negative, whatever was read before; and every other index raises `IndexError`. Missing: the index `-n` is one of those that raise,
see below; what does not come back from the attribute file (C88). -/
theorem C122_shape_record_partial {w w' : Writer D} {shp shx : List Byte} (h : w.save = .ok (w', shp, shx)) (h0 : w.offsets = []) {t : Int}
    (hft : fileType w = some t) (ht : Plain t) {v v' : Dbf.Writer} {y m d : Int} {data : List Byte} (hv : v.saveDbf y m d = .ok (v', data))
    (hf : ∀ f ∈ v.fields, Dbf.Ascii f.name ∧ f.deletes = false) (hlen : v.records.length = w.shapes.length) (hne : w.shapes ≠ [])
    {recs : List (List (Dbf.Value F))} (hrow : List.Forall₂ (Dbf.Row v.fields) v.records recs) :
    ∃ (r : Reader D) (a : Dbf.Reader) (outs : List (Shape D)), Reader.new shp (some shx) (some v.records.length) = .ok r ∧ Dbf.Reader.new data = .ok a ∧
      List.Forall₂ (Same t) w.shapes outs ∧ ∀ r', Uses r r' → ∀ (pos : Nat) (i : Int) res,
        (∀ j : Nat, (j < w.shapes.length ∧ (i = j ∨ (0 < j ∧ i = j - w.shapes.length))) → (ShapeRecord pyFloat r' { a with pos := pos } i res ↔
          ∃ s x, outs[j]? = some s ∧ recs[j]? = some x ∧ res = .ok (s, some x))) ∧
        (¬ (-w.shapes.length < i ∧ i < w.shapes.length) → (ShapeRecord pyFloat r' { a with pos := pos } i res ↔ res = .error .indexError)) := by
  obtain ⟨t', n', m', hd', rs', hft', -, -, hhd', rfl, hrecs', -, hhead', -⟩ := save_all h (by simp [h0])
  rw [hft] at hft'
  cases hft'
  let r : Reader D := { shp := hd' ++ rs'.flatten, shx := some shx, numRecords := some v.records.length, measure := m' }
  have hr : Reader.new (hd' ++ rs'.flatten) (some shx) (some v.records.length) = .ok r := by
    simp only [Reader.new, hhead', ok_bind]
    rfl
  obtain ⟨outs, hl, hall⟩ := hrecs'.shapes ht rfl r.noM hd'
  rw [hhd'] at hl
  obtain ⟨a, ha, hnum, hrec⟩ := saved_record pyFloat hv hf (by intro e; rw [e] at hlen; exact hne (List.eq_nil_of_length_eq_zero hlen.symm)) hrow
  have hn : 0 < w.shapes.length := List.length_pos_of_ne_nil hne
  refine ⟨r, a, outs, hr, ha, hall.imp (fun _ _ h => h.1), fun r' hu pos i res => ?_⟩
  obtain ⟨p, offs, -, -, -, hsh⟩ := saved_positions h h0 (Or.inr (by rw [hlen])) hr hl
  replace hsh := (hsh r' hu).2.2
  have hsame : r'.numRecords = some w.shapes.length := by
    rw [uses_numRecords h h0 hr hu, hlen]
  have hidx := C90_indices_partial w.shapes.length hn i
  refine ⟨fun j hj => ?_, fun hi => ?_⟩
  · have hjo : j < outs.length := by rw [← hall.length_eq]; exact hj.1
    have hjr : j < recs.length := by rw [← hrow.length_eq, hlen]; exact hj.1
    have hi : restrictIndex r'.numRecords i = .ok (j : Int) := by
      rw [hsame, hidx.1 (by omega)]
      congr 1
      split <;> omega
    have hs := hsh j hjo _ (List.getElem?_eq_getElem hjo)
    obtain ⟨a1, hx⟩ := hrec pos j _ (List.getElem?_eq_getElem hjr)
    constructor
    · intro hsr
      refine ⟨outs[j], recs[j], List.getElem?_eq_getElem hjo, List.getElem?_eq_getElem hjr, ?_⟩
      cases hsr with
      | range h => rw [hi] at h; cases h
      | shape h h' => rw [hi] at h; cases h; rw [hs] at h'; cases h'
      | both h h' => rw [hi] at h; cases h; rw [hs] at h'; cases h'; rw [hx]; rfl
    · rintro ⟨s, x, h1, h2, rfl⟩
      rw [List.getElem?_eq_getElem hjo] at h1
      rw [List.getElem?_eq_getElem hjr] at h2
      cases h1
      cases h2
      have := ShapeRecord.both (pyFloat := pyFloat) (d := { a with pos := pos }) hi ((hs _).mpr rfl)
      rw [hx] at this
      exact this
  · have hi : restrictIndex r'.numRecords i = .error .indexError := by rw [hsame, hidx.2 hi]
    constructor
    · intro hsr
      cases hsr with
      | range h => rw [hi] at h; cases h; rfl
      | shape h h' => rw [hi] at h; cases h
      | both h h' => rw [hi] at h; cases h
    · rintro rfl
      exact .range hi

/-- C122 fails at `-n`, for every file: it is the first entry of a list of `n`, and raises here. -/
theorem C122_violated_first {r : Reader D} {a : Dbf.Reader} {n : Nat} (hn : 0 < n) (hr : r.numRecords = some n) (res : Py (Shape D × Option (List (Dbf.Value F)))) :
    ShapeRecord pyFloat r a (-n) res ↔ res = .error .indexError := by
  have hi : restrictIndex r.numRecords (-n) = .error .indexError := by rw [hr, (C90_indices_partial n hn (-n)).2 (by omega)]
  constructor
  · intro hsr
    cases hsr with
    | range h => rw [hi] at h; cases h; rfl
    | shape h h' => rw [hi] at h; cases h
    | both h h' => rw [hi] at h; cases h
  · rintro rfl
    exact .range hi

/-- C122: a deleted record does not shift the pairs, unlike in `shapeRecords()` (C89): its shape comes with `None`. -/
theorem C122_deleted {r r' : Reader D} {a a' : Dbf.Reader} {n k : Nat} (hr : r.numRecords = some n) (hk : k < n) {s : Shape D}
    (hs : Reader.Shape r k (.ok (r', s))) (hd : ∀ res, Reader.Shape r k res → res = .ok (r', s)) (ha : a.record pyFloat k = .ok (a', none)) (res : Py (Shape D × Option (List (Dbf.Value F)))) :
    ShapeRecord pyFloat r a k res ↔ res = .ok (s, none) := by
  have hi : restrictIndex r.numRecords k = .ok (k : Int) := by
    rw [hr, (C90_indices_partial n (by omega) k).1 (by omega), if_neg (by omega)]
  constructor
  · intro hsr
    cases hsr with
    | range h => rw [hi] at h; cases h
    | shape h h' => rw [hi] at h; cases h; cases hd _ h'
    | both h h' => rw [hi] at h; cases h; cases hd _ h'; rw [ha]; rfl
  · rintro rfl
    have := ShapeRecord.both (pyFloat := pyFloat) (d := a) hi hs
    rw [ha] at this
    exact this

/-! ### Cases -/

/-- The two polygons of C84 are saved with their index, so C120 is about some file; its first shape, looked up in every round, is not the last. -/
example : (exampleWriter.save).toOption.isSome = true ∧ exampleWriter.offsets = [] ∧ 0 + 1 < exampleWriter.shapes.length ∧ 1 + 1 = exampleWriter.shapes.length := by
  refine ⟨by decide +kernel, by decide +kernel, by decide +kernel, by decide +kernel⟩

/-- Two records for them. -/
def exampleRows : Dbf.Writer := { fields := [Dbf.exampleField 5], records := [[.text ['x']], [.text ['y', 'z']]] }

theorem exampleRows_row : List.Forall₂ (Dbf.Row (F := Nat) exampleRows.fields) exampleRows.records [[.text ['x']], [.text ['y', 'z']]] := by
  refine .cons (.cons (.text ⟨'C', rfl, by decide, by decide, by decide, by decide⟩ (by simp) ?_ (by decide) (by decide)) .nil)
    (.cons (.cons (.text ⟨'C', rfl, by decide, by decide, by decide, by decide⟩ (by simp) ?_ (by decide) (by decide)) .nil) .nil)
  · intro c hc
    simp only [List.mem_cons, List.not_mem_nil, or_false] at hc
    subst hc
    decide
  · intro c hc
    simp only [List.mem_cons, List.not_mem_nil, or_false] at hc
    rcases hc with rfl | rfl <;> decide

/-- `shapeRecord(-1)` of these files is the second polygon with the record `yz`. -/
example : ∃ (shp shx data : List Byte) (w' : Writer Toy) (v' : Dbf.Writer) (r : Reader Toy) (a : Dbf.Reader) (outs : List (Shape Toy)) (s : Shape Toy),
    exampleWriter.save = .ok (w', shp, shx) ∧ exampleRows.saveDbf 126 11 16 = .ok (v', data) ∧ Reader.new shp (some shx) (some 2) = .ok r ∧ Dbf.Reader.new data = .ok a ∧
      List.Forall₂ (Same 5) exampleWriter.shapes outs ∧ outs[1]? = some s ∧
      ShapeRecord (fun _ => (.ok 0 : Py Nat)) r a (-1) (.ok (s, some [.text ['y', 'z']])) := by
  have h1 : (exampleWriter.save).toOption.isSome = true := by decide +kernel
  have h2 : (exampleRows.saveDbf 126 11 16).toOption.isSome = true := by decide +kernel
  obtain ⟨⟨w', shp, shx⟩, e1⟩ : ∃ x, exampleWriter.save = .ok x := by
    cases h : exampleWriter.save with
    | ok x => exact ⟨x, rfl⟩
    | error e => rw [h] at h1; cases h1
  obtain ⟨⟨v', data⟩, e2⟩ : ∃ x, exampleRows.saveDbf 126 11 16 = .ok x := by
    cases h : exampleRows.saveDbf 126 11 16 with
    | ok x => exact ⟨x, rfl⟩
    | error e => rw [h] at h2; cases h2
  have hl : exampleWriter.shapes.length = 2 := by decide +kernel
  obtain ⟨r, a, outs, hr, ha, hs, hsr⟩ := C122_shape_record_partial (fun _ => (.ok 0 : Py Nat)) e1 (by decide +kernel) (t := 5) (by decide +kernel) (by simp [Plain])
    e2 (by unfold Dbf.Ascii; decide +kernel) (by rw [hl]; rfl) (by intro e; rw [e] at hl; cases hl) exampleRows_row
  have ho : outs.length = 2 := by rw [← hs.length_eq, hl]
  refine ⟨shp, shx, data, w', v', r, a, outs, outs[1], e1, e2, hr, ha, hs, List.getElem?_eq_getElem (by omega), ?_⟩
  refine ((hsr r .refl a.pos (-1) _).1 1 (by rw [hl]; decide)).mpr ⟨_, _, List.getElem?_eq_getElem (by omega), rfl, rfl⟩

/-- Three records, for C121. -/
def threeRows : Dbf.Writer := { fields := [Dbf.exampleField 5], records := [[.text ['x']], [.text ['y']], [.text ['z']]] }

theorem threeRows_row : List.Forall₂ (Dbf.Row (F := Nat) threeRows.fields) threeRows.records [[.text ['x']], [.text ['y']], [.text ['z']]] := by
  refine .cons (.cons (.text ⟨'C', rfl, by decide, by decide, by decide, by decide⟩ (by simp) ?_ (by decide) (by decide)) .nil)
    (.cons (.cons (.text ⟨'C', rfl, by decide, by decide, by decide, by decide⟩ (by simp) ?_ (by decide) (by decide)) .nil)
    (.cons (.cons (.text ⟨'C', rfl, by decide, by decide, by decide, by decide⟩ (by simp) ?_ (by decide) (by decide)) .nil) .nil))
  all_goals
    intro c hc
    simp only [List.mem_cons, List.not_mem_nil, or_false] at hc
    subst hc
    decide

/-- `for x in r.iterRecords(): r.record(0)` gives x, y, y. -/
example : ∃ (data : List Byte) (v' : Dbf.Writer) (a : Dbf.Reader), threeRows.saveDbf 126 11 16 = .ok (v', data) ∧ Dbf.Reader.new data = .ok a ∧
    ∀ res, Dbf.ForRecords (fun _ => (.ok 0 : Py Nat)) (Dbf.lookup (fun _ => (.ok 0 : Py Nat)) (fun _ => 0)) 0 a .fresh res ↔
      res = .ok [[.text ['x']], [.text ['y']], [.text ['y']]] := by
  have h2 : (threeRows.saveDbf 126 11 16).toOption.isSome = true := by decide +kernel
  obtain ⟨⟨v', data⟩, e2⟩ : ∃ x, threeRows.saveDbf 126 11 16 = .ok x := by
    cases h : threeRows.saveDbf 126 11 16 with
    | ok x => exact ⟨x, rfl⟩
    | error e => rw [h] at h2; cases h2
  obtain ⟨a, ha, hnum, hrec⟩ := saved_record (fun _ => (.ok 0 : Py Nat)) e2 (by unfold Dbf.Ascii; decide +kernel) (by simp [threeRows]) threeRows_row
  have hh : a.headerLength ≠ 0 := by
    intro e
    have h3 : (do
        let (_, data) ← threeRows.saveDbf 126 11 16
        let r ← Dbf.Reader.new data
        return r.headerLength) = .ok 65 := by decide +kernel
    rw [e2, ok_bind] at h3
    simp only [ha, ok_bind] at h3
    cases (Except.ok.inj h3).symm.trans e
  refine ⟨data, v', a, e2, ha, fun res => ?_⟩
  exact Dbf.C121_lookup_violated (fun _ => (.ok 0 : Py Nat)) (by rw [hnum]; decide) hh (by rw [hnum]; rfl) (by simp) (fun i x hx => hrec a.pos i x hx) (k := 0) (by decide) res

end Shapefile
end Coral
