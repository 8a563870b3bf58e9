import Verif.Py
import Mathlib.Data.List.Forall2

/-!
# `mapM` of the two computation types, elementwise
-/
namespace Coral

theorem Py.mapM_ok {α β : Type} {f : α → Py β} {l : List α} {l' : List β} :
    l.mapM f = .ok l' ↔ List.Forall₂ (fun a b => f a = .ok b) l l' := by
  induction l generalizing l' with
  | nil =>
    simp only [List.mapM_nil, List.forall₂_nil_left_iff]
    exact ⟨fun h => by injection h with h; exact h.symm, fun h => by rw [h]; rfl⟩
  | cons a l ih =>
    simp only [List.mapM_cons, Py.bind_ok, List.forall₂_cons_left_iff, ih]
    constructor
    · rintro ⟨b, hb, bs, hbs, h⟩
      injection h with h
      exact ⟨b, bs, hb, hbs, h.symm⟩
    · rintro ⟨b, bs, hb, hbs, h⟩
      exact ⟨b, hb, bs, hbs, by rw [h]; rfl⟩

theorem Py.mapM_congr {α β : Type} {f g : α → Py β} {l : List α} (h : ∀ a ∈ l, f a = g a) : l.mapM f = l.mapM g := by
  induction l with
  | nil => rfl
  | cons a l ih =>
    rw [List.mapM_cons, List.mapM_cons, h a (by simp), ih (fun b hb => h b (by simp [hb]))]

theorem Res.mapM_ok {α β : Type} {f : α → Res β} {l : List α} {l' : List β} :
    l.mapM f = .ok l' ↔ List.Forall₂ (fun a b => f a = .ok b) l l' := by
  induction l generalizing l' with
  | nil =>
    simp only [List.mapM_nil, List.forall₂_nil_left_iff]
    exact ⟨fun h => by injection h with h; exact h.symm, fun h => by rw [h]; rfl⟩
  | cons a l ih =>
    simp only [List.mapM_cons, Res.bind_ok, List.forall₂_cons_left_iff, ih]
    constructor
    · rintro ⟨b, hb, bs, hbs, h⟩
      injection h with h
      exact ⟨b, bs, hb, hbs, h.symm⟩
    · rintro ⟨b, bs, hb, hbs, h⟩
      exact ⟨b, hb, bs, hbs, by rw [h]; rfl⟩

end Coral
