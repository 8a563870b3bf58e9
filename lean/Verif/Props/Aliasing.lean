import Verif.Model.Aliasing
import Verif.Props.Gradient
import Verif.Props.Shapefile

/-!
# What happens to arguments (C147, C148)
-/
namespace Coral

set_option linter.unusedSectionVars false

namespace Shapefile

section
variable {D : Type} [Double D]

/-! ### C147 -/

/-- The value of a point. -/
def Pt.value (h : Heap D) : Pt D → List D
  | .tuple v => v
  | .list a => h.lists a

/-- All lists that are passed are there. -/
def Pt.There (h : Heap D) : Pt D → Prop
  | .tuple _ => True
  | .list a => a < h.next

theorem addPoints_tuples {h : Heap D} {ps : List (Pt D)} (ht : ∀ p ∈ ps, ∃ v, p = .tuple v) :
    (∀ a < h.next, (addPoints h ps).1.lists a = h.lists a) ∧ (∀ a ∈ (addPoints h ps).2, h.next ≤ a) ∧ h.next ≤ (addPoints h ps).1.next ∧
    (addPoints h ps).2.map (addPoints h ps).1.lists = ps.map (fun p => pad4 (p.value h)) := by
  induction ps generalizing h with
  | nil => exact ⟨fun _ _ => rfl, by simp [addPoints], Nat.le_refl _, rfl⟩
  | cons p ps ih =>
    obtain ⟨v, rfl⟩ := ht p (by simp)
    have ht' : ∀ q ∈ ps, ∃ v, q = .tuple v := fun q hq => ht q (by simp [hq])
    obtain ⟨i1, i2, i3, i4⟩ := ih (h := { h.set h.next (pad4 v) with next := h.next + 1 }) ht'
    simp only [addPoints, addPoint]
    refine ⟨fun a ha => ?_, fun a ha => ?_, ?_, ?_⟩
    · rw [i1 a (by dsimp only; omega)]
      simp only [Heap.set]
      rw [if_neg (by omega)]
    · rcases List.mem_cons.mp ha with rfl | ha
      · exact Nat.le_refl _
      · have := i2 a ha
        dsimp only at this
        omega
    · dsimp only at i3 ⊢
      omega
    · rw [List.map_cons, List.map_cons, i4]
      congr 1
      · rw [i1 h.next (by dsimp only; omega)]
        simp [Heap.set, Pt.value]
      · refine List.map_congr_left fun q hq => ?_
        obtain ⟨u, rfl⟩ := ht' q hq
        rfl

/-- C147, what holds: if all points are tuples, `poly` changes no list of numbers, and no list that there was is in the shape, so that nothing done to
such a list changes the shape; the shape has the values of the parts, padded with zeros. Only the lists of points themselves may be changed: see below.
Missing: points that are lists. -/
theorem C147_tuples_partial {h h' : Heap D} {parts parts' : List (List (Pt D))} {t : Int} {as : List Nat} (hp : polyArgs h parts t = .ok (h', parts', as))
    (ht : ∀ part ∈ parts, ∀ p ∈ part, ∃ v, p = .tuple v) :
    (∀ a < h.next, h'.lists a = h.lists a) ∧ as.map h'.lists = parts'.flatten.map (fun p => pad4 (p.value h)) ∧
    ∀ a < h.next, ∀ v, as.map (h'.set a v).lists = as.map h'.lists := by
  obtain ⟨ps, h1, hp1⟩ := Py.bind_ok.mp hp
  clear hp
  unfold closeArgs at h1
  have hps : ∀ p ∈ ps.flatten, ∃ v, p = Pt.tuple v := by
    have hall : ∀ part ∈ ps, ∀ p ∈ part, ∃ v, p = Pt.tuple v := by
      split at h1
      · rw [Py.mapM_ok] at h1
        clear hp1
        induction h1 with
        | nil => simp
        | cons hx _ ih =>
          intro part hpart
          rcases List.mem_cons.mp hpart with rfl | hpart
          · unfold closeArg at hx
            split at hx
            · rename_i a b ha hb
              cases hx
              split
              · exact ht _ (by simp)
              · intro p hp
                rcases List.mem_append.mp hp with hp | hp
                · exact ht _ (by simp) p hp
                · rw [List.mem_singleton.mp hp]
                  exact ht _ (by simp) a (List.mem_of_mem_head? ha)
            · cases hx
          · exact ih (fun q hq => ht q (by simp [hq])) part hpart
      · cases h1
        exact ht
    intro p hp
    obtain ⟨part, h2, h3⟩ := List.mem_flatten.mp hp
    exact hall part h2 p h3
  obtain ⟨e1, e2, -, e4⟩ := addPoints_tuples (h := h) hps
  cases hp1
  refine ⟨e1, e4, fun a ha v => List.map_congr_left fun b hb => ?_⟩
  have := e2 b hb
  simp only [Heap.set]
  rw [if_neg (by omega)]

theorem addPoints_fresh {h : Heap D} {ps : List (Pt D)} {b : Nat} (hb : b < h.next) (hn : Pt.list b ∉ ps) :
    (addPoints h ps).1.lists b = h.lists b ∧ h.next ≤ (addPoints h ps).1.next := by
  induction ps generalizing h with
  | nil => exact ⟨rfl, Nat.le_refl _⟩
  | cons p ps ih =>
    simp only [List.mem_cons, not_or] at hn
    simp only [addPoints]
    cases p with
    | tuple v =>
      obtain ⟨i1, i2⟩ := ih (h := { h.set h.next (pad4 v) with next := h.next + 1 }) (by dsimp only; omega) hn.2
      simp only [addPoint]
      refine ⟨?_, by dsimp only at i2; omega⟩
      rw [i1]
      simp only [Heap.set]
      rw [if_neg (by omega)]
    | list a =>
      have hne : b ≠ a := fun he => hn.1 (by rw [he])
      obtain ⟨i1, i2⟩ := ih (h := h.set a (pad4 (h.lists a))) hb hn.2
      simp only [addPoint]
      refine ⟨?_, i2⟩
      rw [i1]
      simp only [Heap.set]
      rw [if_neg hne]

theorem pad4_pad4 (p : List D) : pad4 (pad4 p) = pad4 p := by
  have : 4 - (pad4 p).length = 0 := by simp [pad4]; omega
  change pad4 p ++ List.replicate (4 - (pad4 p).length) 0 = pad4 p
  rw [this]
  simp

theorem addPoints_list {h : Heap D} {ps : List (Pt D)} {a : Nat} (ha : a < h.next) (hm : Pt.list a ∈ ps) :
    (addPoints h ps).1.lists a = pad4 (h.lists a) ∧ a ∈ (addPoints h ps).2 := by
  induction ps generalizing h with
  | nil => cases hm
  | cons p ps ih =>
    simp only [addPoints]
    by_cases hin : Pt.list a ∈ ps
    · cases p with
      | tuple v =>
        obtain ⟨i1, i2⟩ := ih (h := { h.set h.next (pad4 v) with next := h.next + 1 }) (by dsimp only; omega) hin
        simp only [addPoint]
        refine ⟨?_, List.mem_cons_of_mem _ i2⟩
        rw [i1]
        simp only [Heap.set]
        rw [if_neg (by omega)]
      | list b =>
        obtain ⟨i1, i2⟩ := ih (h := h.set b (pad4 (h.lists b))) ha hin
        simp only [addPoint]
        refine ⟨?_, List.mem_cons_of_mem _ i2⟩
        rw [i1]
        simp only [Heap.set]
        split
        · rename_i he
          rw [he, pad4_pad4]
        · rfl
    · have hp : p = .list a := by
        rcases List.mem_cons.mp hm with h | h
        · exact h.symm
        · exact absurd h hin
      subst hp
      simp only [addPoint]
      refine ⟨?_, by simp⟩
      rw [(addPoints_fresh (h := h.set a (pad4 (h.lists a))) (by exact ha) hin).1]
      simp [Heap.set]

/-- C147 fails for points that are lists: such a list has four numbers afterwards, and it is part of the shape, so that changing it changes the
shape. -/
theorem C147_lists_violated {h h' : Heap D} {parts parts' : List (List (Pt D))} {t : Int} {as : List Nat} (hp : polyArgs h parts t = .ok (h', parts', as))
    {a : Nat} (ha : a < h.next) (hm : ∃ part ∈ parts, Pt.list a ∈ part) :
    h'.lists a = pad4 (h.lists a) ∧ ((h.lists a).length < 4 → h'.lists a ≠ h.lists a) ∧
    ∀ v, v ≠ h'.lists a → as.map (h'.set a v).lists ≠ as.map h'.lists := by
  obtain ⟨ps, h1, hp⟩ := Py.bind_ok.mp hp
  unfold closeArgs at h1
  have hin : Pt.list a ∈ ps.flatten := by
    obtain ⟨part, hpart, hm⟩ := hm
    split at h1
    · rw [Py.mapM_ok] at h1
      obtain ⟨i, hi, rfl⟩ := List.mem_iff_getElem.mp hpart
      have hi' : i < ps.length := by rw [← h1.length_eq]; exact hi
      have hc := List.Forall₂.get h1 hi hi'
      refine List.mem_flatten.mpr ⟨ps[i], List.getElem_mem hi', ?_⟩
      unfold closeArg at hc
      split at hc
      · simp only [List.get_eq_getElem] at hc
        rw [← Except.ok.inj hc]
        split
        · exact hm
        · exact List.mem_append_left _ hm
      · cases hc
    · cases h1
      exact List.mem_flatten.mpr ⟨part, hpart, hm⟩
  obtain ⟨e1, e2⟩ := addPoints_list (h := h) ha hin
  cases hp
  refine ⟨e1, fun hl he => ?_, fun v hv he => ?_⟩
  · rw [e1] at he
    have := congrArg List.length he
    simp only [pad4, List.length_append, List.length_replicate] at this
    omega
  · have := List.map_inj_left.mp he a e2
    simp [Heap.set] at this
    exact hv this

/-- C147 fails for rings that are not closed: the list of the caller has the first point again at the end. -/
theorem C147_rings_violated {h h' : Heap D} {part : List (Pt D)} {parts' : List (List (Pt D))} {t : Int} (ht : t = 5 ∨ t = 15 ∨ t = 25 ∨ t = 31) {as : List Nat}
    {p q : Pt D} (h1 : part.head? = some p) (h2 : part.getLast? = some q) (hne : p.same h q = false) (hp : polyArgs h [part] t = .ok (h', parts', as)) :
    parts' = [part ++ [p]] := by
  obtain ⟨ps, h3, hp⟩ := Py.bind_ok.mp hp
  unfold closeArgs at h3
  rw [if_pos (by simp [ht])] at h3
  have hc : closeArg h part = .ok (part ++ [p]) := by
    unfold closeArg
    rw [h1, h2]
    simp [hne]
  simp only [List.mapM_cons, List.mapM_nil, hc, ok_bind] at h3
  cases h3
  cases hp
  rfl

/-- Other shapes leave the lists of points alone. -/
theorem C147_lines_partial {h h' : Heap D} {parts parts' : List (List (Pt D))} {t : Int} (ht : t ∉ ([5, 15, 25, 31] : List Int)) {as : List Nat}
    (hp : polyArgs h parts t = .ok (h', parts', as)) : parts' = parts := by
  obtain ⟨ps, h3, hp⟩ := Py.bind_ok.mp hp
  unfold closeArgs at h3
  rw [if_neg ht] at h3
  cases h3
  cases hp
  rfl

theorem closeArg_value {h : Heap D} {part : List (Pt D)} (hk : (∀ p ∈ part, ∃ v, p = .tuple v) ∨ ∀ p ∈ part, ∃ a, p = .list a) :
    (closeArg h part).map (List.map (Pt.value h)) = closePart (part.map (Pt.value h)) := by
  unfold closeArg closePart
  rw [List.head?_map, List.getLast?_map]
  match h1 : part.head?, h2 : part.getLast? with
  | none, _ => rfl
  | some a, none => rfl
  | some a, some b =>
    have hs : a.same h b = true ↔ a.value h = b.value h := by
      have ha := List.mem_of_mem_head? h1
      have hb := List.mem_of_mem_getLast? h2
      rcases hk with hk | hk
      · obtain ⟨v, rfl⟩ := hk a ha
        obtain ⟨w, rfl⟩ := hk b hb
        simp [Pt.same, Pt.value]
      · obtain ⟨v, rfl⟩ := hk a ha
        obtain ⟨w, rfl⟩ := hk b hb
        simp [Pt.same, Pt.value]
    simp only [Option.map_some]
    by_cases he : a.value h = b.value h
    · rw [if_pos (hs.mpr he), if_neg (by simpa using he)]
      rfl
    · rw [if_neg (by rw [hs]; exact he), if_pos he]
      simp [Except.map]

theorem polyLoop_points (starts : List Int) (points : List (List D)) (parts : List (List (List D))) :
    (polyLoop starts points parts).2 = points ++ parts.flatten.map pad4 := by
  induction parts generalizing starts points with
  | nil => simp [polyLoop]
  | cons p ps ih => rw [polyLoop, ih]; simp

/-- For points that are tuples, the shape is that of the model without addresses (`Writer.poly`). -/
theorem C147_same_shape_partial {w w' : Writer D} {h h' : Heap D} {parts parts' : List (List (Pt D))} {t : Int} {as : List Nat}
    (hp : polyArgs h parts t = .ok (h', parts', as)) (ht : ∀ part ∈ parts, ∀ p ∈ part, ∃ v, p = .tuple v)
    (hw : w.poly (parts.map (List.map (Pt.value h))) t = .ok w') :
    (w'.shapes.getLast?.map Shape.points) = some (as.map h'.lists) := by
  rw [(C147_tuples_partial hp ht).2.1]
  obtain ⟨ps, h1, hp1⟩ := Py.bind_ok.mp hp
  clear hp
  cases hp1
  have hclose : (if t ∈ ([5, 15, 25, 31] : List Int) then (parts.map (List.map (Pt.value h))).mapM closePart
      else pure (parts.map (List.map (Pt.value h)))) = Except.ok (parts'.map (List.map (Pt.value h))) := by
    unfold closeArgs at h1
    split at h1
    · rename_i hm
      rw [if_pos hm]
      rw [Py.mapM_ok] at h1 ⊢
      clear hw
      induction h1 with
      | nil => exact List.Forall₂.nil
      | @cons a b l m hx _ ih =>
        refine List.Forall₂.cons ?_ (ih fun q hq => ht q (by simp [hq]))
        rw [← closeArg_value (Or.inl (ht a (by simp))), hx]
        rfl
    · rename_i hm
      rw [if_neg hm]
      cases h1
      rfl
  unfold Writer.poly at hw
  by_cases hm : t ∈ ([5, 15, 25, 31] : List Int)
  · rw [if_pos hm] at hclose
    simp only [if_pos hm] at hw
    obtain ⟨qs, h2, hw⟩ := Py.bind_ok.mp hw
    rw [hclose] at h2
    cases h2
    cases hw
    simp [polyLoop_points, List.map_flatten, Function.comp_def]
  · rw [if_neg hm] at hclose
    simp only [if_neg hm] at hw
    obtain ⟨qs, h2, hw⟩ := Py.bind_ok.mp hw
    rw [hclose] at h2
    cases h2
    cases hw
    simp [polyLoop_points, List.map_flatten, Function.comp_def]

/-- A triangle of a list and two tuples. -/
example : (polyArgs ({ lists := fun _ => [toy 1, toy 2], next := 1 } : Heap Toy) [[.list 0, .tuple [toy 3, 0], .tuple [0, 0]]] 5).map (fun r => (r.2.1, r.2.2, r.2.2.map r.1.lists)) =
    .ok ([[.list 0, .tuple [toy 3, 0], .tuple [0, 0], .list 0]], [0, 1, 2, 0],
      [[toy 1, toy 2, 0, 0], [toy 3, 0, 0, 0], [0, 0, 0, 0], [toy 1, toy 2, 0, 0]]) := by decide +kernel

end

end Shapefile

/-! ### C148 -/

section
variable {K : Type} [Field K] [LinearOrder K]

theorem extendStops_eq {l t la : List (K × List K)} {f z : K × List K} (h1 : l = f :: t) (h2 : l = la ++ [z]) :
    extendStops l = .ok ((if 0 < f.1 then [(0, f.2)] else []) ++ l ++ (if z.1 < 1 then [(1, z.2)] else [])) := by
  have k1 : pyIndex l 0 = .ok f := by
    rw [h1]; simp [pyIndex]
  have k2 : ∀ pre : List (K × List K), pyIndex (pre ++ l) (-1) = .ok z := by
    intro pre
    rw [h2, ← List.append_assoc]
    exact pyIndex_last _ _
  have k2' := k2 [(0, f.2)]
  have k2'' := k2 []
  simp only [List.cons_append, List.nil_append] at k2' k2''
  simp only [extendStops, k1, bind, Except.bind, pure, Except.pure]
  by_cases hf : 0 < f.1
  · simp only [if_pos hf, k2', List.cons_append, List.nil_append]
    split <;> simp
  · simp only [if_neg hf, k2'', List.nil_append]
    split <;> simp

/-- C148, what holds: the list passed to `Gradient(points)` stays as it was exactly if it is sorted, begins at 0 or below and ends at 1 or above.
Missing: all other lists. -/
theorem C148_unchanged_partial {points points' : List (K × List K)} {g : Gradient K} (h : Gradient.initArg points = .ok (g, points')) :
    points' = points ↔ points.Pairwise (fun p q => p.1 ≤ q.1) ∧ (∀ p, points.head? = some p → p.1 ≤ 0) ∧ (∀ p, points.getLast? = some p → 1 ≤ p.1) := by
  obtain ⟨ps, h1, h2⟩ := Py.bind_ok.mp h
  cases h2
  have hsorted := sorted_sortStops points
  have hlen : (sortStops points).length = points.length := (List.perm_insertionSort _ points).length_eq
  have hne : sortStops points ≠ [] := by
    intro he
    rw [he] at h1
    cases h1
  obtain ⟨f, t, hf⟩ := List.exists_cons_of_ne_nil hne
  obtain ⟨la, z, hz⟩ : ∃ la z, sortStops points = la ++ [z] := ⟨_, _, (List.dropLast_append_getLast hne).symm⟩
  rw [extendStops_eq hf hz] at h1
  cases h1
  constructor
  · intro he
    have hl := congrArg List.length he
    by_cases c1 : 0 < f.1
    · rw [if_pos c1] at hl
      simp only [List.length_append, List.length_cons] at hl
      omega
    by_cases c2 : z.1 < 1
    · rw [if_pos c2] at hl
      simp only [List.length_append, List.length_cons] at hl
      omega
    rw [if_neg c1, if_neg c2, List.append_nil, List.nil_append] at he
    rw [he] at hsorted hf hz
    refine ⟨hsorted, fun p hp => ?_, fun p hp => ?_⟩
    · rw [hf] at hp
      cases hp
      exact not_lt.mp c1
    · rw [hz, List.getLast?_concat] at hp
      cases hp
      exact not_lt.mp c2
  · rintro ⟨hs, h0, h1⟩
    have he : sortStops points = points := List.Pairwise.insertionSort_eq hs
    rw [he] at hf hz ⊢
    rw [if_neg (not_lt.mpr (h0 f (by rw [hf]; rfl))), if_neg (not_lt.mpr (h1 z (by rw [hz, List.getLast?_concat])))]
    simp

/-- The gradient is the one of `Gradient.init`, and its stops are those of the list afterwards. -/
theorem C148_gradient {points points' : List (K × List K)} {g : Gradient K} (h : Gradient.initArg points = .ok (g, points')) :
    Gradient.init points = .ok g ∧ g.pos = points'.map Prod.fst ∧ g.rgb = points'.map Prod.snd := by
  obtain ⟨ps, h1, h2⟩ := Py.bind_ok.mp h
  cases h2
  refine ⟨?_, rfl, rfl⟩
  unfold Gradient.init
  rw [h1]
  rfl

/-- C148 fails for a list with one stop between 0 and 1: two more are added to it. -/
theorem C148_violated {p : K} {c : List K} (h0 : 0 < p) (h1 : p < 1) :
    ∃ g, Gradient.initArg [(p, c)] = .ok (g, [(0, c), (p, c), (1, c)]) := by
  have he : extendStops (sortStops [(p, c)]) = .ok [(0, c), (p, c), (1, c)] := by
    rw [extendStops_eq (l := sortStops [(p, c)]) (f := (p, c)) (t := []) (la := []) (z := (p, c)) rfl rfl, if_pos h0, if_pos h1]
    rfl
  refine ⟨⟨[0, p, 1], [c, c, c]⟩, ?_⟩
  unfold Gradient.initArg
  rw [he]
  rfl

/-- Stops out of order, one of them added. -/
example : (Gradient.initArg [((1 : ℚ), [0]), (1 / 2, [1])]).map Prod.snd = .ok [(0, [1]), (1 / 2, [1]), (1, [0])] := by decide +kernel

/-- A list that stays as it was. -/
example : (Gradient.initArg [((0 : ℚ), [0]), (1, [1])]).map Prod.snd = .ok [(0, [0]), (1, [1])] := by decide +kernel

end

end Coral
