import Verif.Spec.Geo
import Verif.Proofs.Shapefile
import Mathlib.Tactic.Ring
import Mathlib.Tactic.LinearCombination

namespace Coral
namespace Geo

set_option linter.unusedSectionVars false

open Shapefile (cut ok_bind)

section
variable {K : Type} [Field K] [LinearOrder K]

/-- The sum of `signed_area` over a list with the extra element. -/
def threes : List (K × K) → K
  | a :: b :: c :: l => b.1 * (c.2 - a.2) + threes (b :: c :: l)
  | _ => 0

theorem threes_eq (a b : K × K) (l : List (K × K)) (y z : K × K) (h : (a :: b :: l).getLast? = some y) :
    threes (a :: b :: l ++ [z]) = lace (a :: b :: l) - a.1 * b.2 + y.1 * z.2 := by
  induction l generalizing a b with
  | nil =>
    simp at h
    subst h
    simp only [threes, lace, List.cons_append, List.nil_append]
    ring
  | cons c l ih =>
    have := ih b c (by rw [← h]; simp [List.getLast?_cons])
    simp only [threes, lace, List.cons_append] at this ⊢
    rw [this]
    ring

theorem lace_append (l : List (K × K)) (a : K × K) (r : List (K × K)) : lace (l ++ a :: r) = lace (l ++ [a]) + lace (a :: r) := by
  induction l with
  | nil => simp [lace]
  | cons b l ih =>
    cases l with
    | nil => simp only [List.cons_append, List.nil_append, lace]; ring
    | cons c l =>
      simp only [List.cons_append, lace] at ih ⊢
      rw [ih]
      ring

theorem lace_reverse (l : List (K × K)) : lace l.reverse = - lace l := by
  induction l with
  | nil => simp [lace]
  | cons a l ih =>
    cases l with
    | nil => simp [lace]
    | cons b l =>
      have e : (a :: b :: l).reverse = l.reverse ++ b :: [a] := by simp
      rw [e, lace_append, show l.reverse ++ [b] = (b :: l).reverse by simp, ih]
      simp only [lace]
      ring

theorem lace_shift (dx dy : K) (l : List (K × K)) (a z : K × K) (ha : l.head? = some a) (hz : l.getLast? = some z) :
    lace (l.map (fun p => (p.1 + dx, p.2 + dy))) = lace l + dx * (z.2 - a.2) - dy * (z.1 - a.1) := by
  induction l generalizing a with
  | nil => simp at ha
  | cons b l ih =>
    simp at ha
    subst ha
    cases l with
    | nil => simp at hz; subst hz; simp [lace]
    | cons c l =>
      have := ih c rfl (by rw [← hz]; simp [List.getLast?_cons])
      simp only [List.map_cons, lace] at this ⊢
      rw [this]
      ring

theorem lace_close_rotate (u v : List (K × K)) : lace (close (u ++ v)) = lace (close (v ++ u)) := by
  cases u with
  | nil => simp
  | cons a u =>
    cases v with
    | nil => simp
    | cons b v =>
      have e1 : close (a :: u ++ b :: v) = (a :: u) ++ b :: (v ++ [a]) := by simp [close]
      have e2 : close (b :: v ++ a :: u) = (b :: v) ++ a :: (u ++ [b]) := by simp [close]
      rw [e1, e2, lace_append, lace_append (b :: v)]
      simp only [List.cons_append]
      ring

theorem sum_threes (l : List (K × K)) :
    ((List.range' 1 (l.length - 2)).map (fun i => (l.map Prod.fst).getD i 0 * ((l.map Prod.snd).getD (i + 1) 0 - (l.map Prod.snd).getD (i - 1) 0))).sum = threes l := by
  induction l with
  | nil => rfl
  | cons a l ih =>
    cases l with
    | nil => rfl
    | cons b l =>
      cases l with
      | nil => rfl
      | cons c l =>
        have e : (a :: b :: c :: l).length - 2 = ((b :: c :: l).length - 2) + 1 := by simp
        rw [e, List.range'_succ, List.map_cons, List.sum_cons, threes, ← ih]
        congr 1
        rw [← List.map_add_range' (a := 1) 1 _ 1, List.map_map]
        congr 1
        refine List.map_congr_left (fun i hi => ?_)
        have : 1 ≤ i := by
          rw [List.mem_range'] at hi
          obtain ⟨j, -, rfl⟩ := hi
          omega
        obtain ⟨j, rfl⟩ : ∃ j, i = j + 1 := ⟨i - 1, by omega⟩
        simp only [Function.comp, List.map_cons]
        rw [show 1 + (j + 1) = (j + 1) + 1 by omega, show (j + 1 + 1) - 1 = j + 1 by omega, show j + 1 - 1 = j by omega]
        simp only [List.getD_cons_succ]

theorem mapM_two (l : List (K × K)) : (l.map flat).mapM two = some l := by
  induction l with
  | nil => rfl
  | cons a l ih => simp [List.mapM_cons, ih, flat, two]

theorem xsys_flat (a : K × K) (l : List (K × K)) : xsys ((a :: l).map flat) = .ok ((a :: l).map Prod.fst, (a :: l).map Prod.snd) := by
  simp only [xsys, mapM_two]
  rw [if_pos (by simp [flat])]

theorem signedArea_flat (a b : K × K) (l : List (K × K)) : signedArea ((a :: b :: l).map flat) = .ok (threes (a :: b :: l ++ [b]) / 2) := by
  have := sum_threes (a :: b :: l ++ [b])
  simp only [signedArea, xsys_flat, ok_bind]
  have i1 : ∀ {α : Type} (p q : α) (l : List α), pyIndex (p :: q :: l) 1 = .ok q := fun p q l => rfl
  simp only [List.map_cons, i1, ok_bind]
  simp only [List.map_append, List.map_cons, List.map_nil, List.length_append, List.length_cons, List.length_nil, List.cons_append] at this ⊢
  rw [← this]
  simp [pure, Except.pure]

/-! ### Parts -/

theorem partsLoop_cut (points : List (List K)) (p : Int) (parts : List Int) (h : ∀ q ∈ p :: parts, 0 ≤ q) :
    partsLoop points p parts = cut (p :: parts) points := by
  induction parts generalizing p with
  | nil =>
    have := h p (by simp)
    simp only [partsLoop, sliceFrom, cut, sliceAt]
    rw [if_neg (by omega)]
  | cons q parts ih =>
    have h1 := h p (by simp)
    have h2 := h q (by simp)
    simp only [partsLoop, cut, slice, sliceAt]
    rw [if_neg (by omega), if_neg (by omega), ih q (fun r hr => h r (by simp at hr; simp [hr]))]

theorem cut_flatten {α : Type} (l : List α) (p : Int) (parts : List Int) (h : (p :: parts).Pairwise (· ≤ ·)) (h0 : 0 ≤ p) :
    (cut (p :: parts) l).flatten = l.drop p.toNat := by
  induction parts generalizing p with
  | nil => simp [cut]
  | cons q parts ih =>
    have hpq : p ≤ q := (List.pairwise_cons.mp h).1 q (by simp)
    have := ih q (List.pairwise_cons.mp h).2 (by omega)
    simp only [cut, List.flatten_cons, this]
    rw [List.drop_take]
    conv => rhs; rw [← List.take_append_drop (q.toNat - p.toNat) (l.drop p.toNat)]
    rw [List.drop_drop]
    congr 2
    omega

theorem cut_length {α : Type} (l : List α) (parts : List Int) : (cut parts l).length = parts.length := by
  induction parts with
  | nil => rfl
  | cons p parts ih =>
    cases parts with
    | nil => rfl
    | cons q parts => simp only [cut, List.length_cons, ih]

/-- A polygon of a `MultiPolygon` after the first: a clockwise ring and counter-clockwise ones. -/
def Whole (poly : List (List (List K))) : Prop :=
  ∃ c cs, poly = c :: cs ∧ (∃ a, signedArea c = .ok a ∧ a < 0) ∧ ∀ d ∈ cs, ∃ a, signedArea d = .ok a ∧ 0 ≤ a

theorem polysLoop_ok {polys : List (List (List (List K)))} {c : List (List K)} {cs coords : List (List (List K))} {out : List (List (List (List K)))}
    (h : polysLoop polys (c :: cs) coords = .ok out) (hcs : ∀ d ∈ cs, ∃ a, signedArea d = .ok a ∧ 0 ≤ a) :
    ∃ cs' more, out = polys ++ (c :: cs') :: more ∧ (∀ d ∈ cs', ∃ a, signedArea d = .ok a ∧ 0 ≤ a) ∧ (∀ p ∈ more, Whole p) ∧
      (c :: cs') ++ more.flatten = c :: cs ++ coords := by
  induction coords generalizing polys c cs with
  | nil =>
    cases h
    exact ⟨cs, [], rfl, hcs, by simp, by simp⟩
  | cons d coords ih =>
    obtain ⟨a, ha, h⟩ := Py.bind_ok.mp h
    split at h
    · rename_i hneg
      obtain ⟨cs', more, rfl, h1, h2, h3⟩ := ih h (by simp)
      refine ⟨cs, (d :: cs') :: more, by simp, hcs, ?_, ?_⟩
      · intro p hp
        rcases List.mem_cons.mp hp with rfl | hp
        · exact ⟨d, cs', rfl, ⟨a, ha, hneg⟩, h1⟩
        · exact h2 p hp
      · rw [List.flatten_cons, h3]; simp
    · rename_i hpos
      obtain ⟨cs', more, rfl, h1, h2, h3⟩ := ih h (by
        intro e he
        rcases List.mem_append.mp he with he | he
        · exact hcs e he
        · simp at he; subst he; exact ⟨a, ha, not_lt.mp hpos⟩)
      exact ⟨cs', more, rfl, h1, h2, by rw [h3]; simp⟩

theorem polysLoop_of {coords : List (List (List K))} (h : ∀ d ∈ coords, ∃ a, signedArea d = .ok a) (polys : List (List (List (List K)))) (poly : List (List (List K))) :
    ∃ out, polysLoop polys poly coords = .ok out := by
  induction coords generalizing polys poly with
  | nil => exact ⟨_, rfl⟩
  | cons d coords ih =>
    obtain ⟨a, ha⟩ := h d (by simp)
    simp only [polysLoop, ha, ok_bind]
    split
    · exact ih (fun e he => h e (by simp [he])) _ _
    · exact ih (fun e he => h e (by simp [he])) _ _

end

end Geo
end Coral
