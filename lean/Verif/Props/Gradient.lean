import Verif.Proofs.Gradient
import Mathlib.Algebra.Order.Ring.Rat
import Mathlib.Data.Rat.Floor

/-! # Gradients: C53, C54 -/
set_option linter.unusedSectionVars false
namespace Coral
section
variable {K : Type} [Field K] [LinearOrder K] [IsStrictOrderedRing K]

/-- **C53.** For every non-empty list of stops in `[0, 1]`, in any order, and every `x` in `[0, 1]`, the gradient can be
built and `get(x)` returns what the stops prescribe: the first stop at `x`, else the interpolation of the neighbouring
stops, else (before the first or after the last stop) the colour of the nearest stop. -/
theorem C53_get_prescribed (stops : List (K × List K)) (hne : stops ≠ []) (h01 : ∀ q ∈ stops, 0 ≤ q.1 ∧ q.1 ≤ 1) :
    ∃ g, Gradient.init stops = .ok g ∧ ∀ x, 0 ≤ x → x ≤ 1 → ∃ c, g.get x = .ok c ∧ Prescribes stops x c := by
  obtain ⟨g, c, h1, h2, h3⟩ := init_get stops hne h01 0 (le_refl _) zero_le_one
  refine ⟨g, h1, fun x hx0 hx1 => ?_⟩
  obtain ⟨g', c', h1', h2', h3'⟩ := init_get stops hne h01 x hx0 hx1
  rw [h1] at h1'
  injection h1' with h1'
  subst h1'
  exact ⟨c', h2', h3'⟩

/-- **C53.** Interpolated channels lie between those of the neighbours. -/
theorem C53_lerp_between {pa pb x : K} (a b : K) (h1 : pa < x) (h2 : x < pb) :
    min a b ≤ lerp pa a pb b x ∧ lerp pa a pb b x ≤ max a b := by
  have hd : 0 < pb - pa := by linarith
  have t0 : 0 ≤ (x - pa) / (pb - pa) := div_nonneg (by linarith) hd.le
  have t1 : (x - pa) / (pb - pa) ≤ 1 := by rw [div_le_one hd]; linarith
  unfold lerp
  generalize (x - pa) / (pb - pa) = t at t0 t1
  rcases le_total a b with h | h
  · rw [min_eq_left h, max_eq_right h]
    constructor <;> nlinarith
  · rw [min_eq_right h, max_eq_left h]
    constructor <;> nlinarith

/-- What is prescribed at `x` is determined by the stops. -/
theorem prescribes_det {stops : List (K × List K)} {x : K} {c c' : List K} (h : Prescribes stops x c)
    (h' : Prescribes stops x c') : c = c' := by
  have first : ∀ {v : K} {l r l' r' : List (K × List K)} {c c' : List K}, l ++ (v, c) :: r = l' ++ (v, c') :: r' →
      (∀ q ∈ l, q.1 ≠ v) → (∀ q ∈ l', q.1 ≠ v) → c = c' := by
    intro v l
    induction l with
    | nil =>
      intro r l' r' c c' e _ h2
      cases l' with
      | nil => simp at e; exact e.1
      | cons a l' => simp at e; exact absurd (by rw [← e.1]) (h2 a (by simp))
    | cons a l ih =>
      intro r l' r' c c' e h1 h2
      cases l' with
      | nil => simp at e; exact absurd (by rw [e.1]) (h1 a (by simp))
      | cons a' l' =>
        simp only [List.cons_append, List.cons.injEq] at e
        exact ih e.2 (fun q hq => h1 q (by simp [hq])) (fun q hq => h2 q (by simp [hq]))
  have last : ∀ {v : K} {l r l' r' : List (K × List K)} {c c' : List K}, l ++ (v, c) :: r = l' ++ (v, c') :: r' →
      (∀ q ∈ r, q.1 ≠ v) → (∀ q ∈ r', q.1 ≠ v) → c = c' := by
    intro v l r l' r' c c' e h1 h2
    have e' := congrArg List.reverse e
    simp only [List.reverse_append, List.reverse_cons, List.append_assoc, List.singleton_append] at e'
    exact first e' (by simpa using h1) (by simpa using h2)
  have mid : ∀ {l r : List (K × List K)} {p : K × List K}, stops = l ++ p :: r → p ∈ stops := by
    intro l r p h; rw [h]; simp
  have above : ∀ {p p' : K} {c c' : List K}, StopAbove stops x p c → StopAbove stops x p' c' → p = p' ∧ c = c' := by
    rintro p p' c c' ⟨a1, a2, l, r, e, a3⟩ ⟨b1, b2, l', r', e', b3⟩
    have hp : p = p' := le_antisymm (a2 _ (mid e') b1) (b2 _ (mid e) a1)
    subst hp
    exact ⟨rfl, first (e ▸ e') a3 b3⟩
  have below : ∀ {p p' : K} {c c' : List K}, StopBelow stops x p c → StopBelow stops x p' c' → p = p' ∧ c = c' := by
    rintro p p' c c' ⟨a1, a2, l, r, e, a3⟩ ⟨b1, b2, l', r', e', b3⟩
    have hp : p = p' := le_antisymm (b2 _ (mid e) a1) (a2 _ (mid e') b1)
    subst hp
    exact ⟨rfl, last (e ▸ e') a3 b3⟩
  have ma : ∀ {c : List K}, StopAt stops x c → ∃ q ∈ stops, q.1 = x := by
    rintro c ⟨l, r, e, _⟩; exact ⟨_, mid e, rfl⟩
  have mb : ∀ {p : K} {c : List K}, StopBelow stops x p c → ∃ q ∈ stops, q.1 < x := by
    rintro p c ⟨h, _, l, r, e, _⟩; exact ⟨_, mid e, h⟩
  have mc : ∀ {p : K} {c : List K}, StopAbove stops x p c → ∃ q ∈ stops, x < q.1 := by
    rintro p c ⟨h, _, l, r, e, _⟩; exact ⟨_, mid e, h⟩
  have clash : ∀ {P : Prop}, (∃ q ∈ stops, q.1 = x) → ((∀ q ∈ stops, q.1 ≠ x) ∨ (∀ q ∈ stops, x < q.1) ∨ (∀ q ∈ stops, q.1 < x)) → P := by
    rintro P ⟨q, hq, e⟩ (h | h | h)
    · exact absurd e (h q hq)
    · exact absurd (h q hq) (by rw [e]; exact lt_irrefl _)
    · exact absurd (h q hq) (by rw [e]; exact lt_irrefl _)
  rcases h with h | ⟨h, pa, ca, pb, cb, hb, ha, e⟩ | ⟨h, p, ha⟩ | ⟨h, p, hb⟩ <;>
  rcases h' with h' | ⟨h', pa', ca', pb', cb', hb', ha', e'⟩ | ⟨h', p', ha'⟩ | ⟨h', p', hb'⟩
  · obtain ⟨l, r, e, a3⟩ := h
    obtain ⟨l', r', e', b3⟩ := h'
    exact first (e ▸ e') a3 b3
  · exact clash (ma h) (Or.inl h')
  · exact clash (ma h) (Or.inr (Or.inl h'))
  · exact clash (ma h) (Or.inr (Or.inr h'))
  · exact clash (ma h') (Or.inl h)
  · obtain ⟨rfl, rfl⟩ := below hb hb'
    obtain ⟨rfl, rfl⟩ := above ha ha'
    rw [e, e']
  · obtain ⟨q, hq, hl⟩ := mb hb
    exact absurd (h' q hq) (not_lt.mpr hl.le)
  · obtain ⟨q, hq, hl⟩ := mc ha
    exact absurd (h' q hq) (not_lt.mpr hl.le)
  · exact clash (ma h') (Or.inr (Or.inl h))
  · obtain ⟨q, hq, hl⟩ := mb hb'
    exact absurd (h q hq) (not_lt.mpr hl.le)
  · exact (above ha ha').2
  · obtain ⟨q, hq, hl⟩ := mb hb'
    exact absurd (h q hq) (not_lt.mpr hl.le)
  · exact clash (ma h') (Or.inr (Or.inr h))
  · obtain ⟨q, hq, hl⟩ := mc ha'
    exact absurd (h q hq) (not_lt.mpr hl.le)
  · obtain ⟨q, hq, hl⟩ := mc ha'
    exact absurd (h q hq) (not_lt.mpr hl.le)
  · exact (below hb hb').2

/-- **C53.** The specification has exactly one answer for each `x`, and `get` gives it. -/
theorem C53_get_unique (stops : List (K × List K)) (hne : stops ≠ []) (h01 : ∀ q ∈ stops, 0 ≤ q.1 ∧ q.1 ≤ 1)
    (x : K) (hx0 : 0 ≤ x) (hx1 : x ≤ 1) (c : List K) :
    (∃ g, Gradient.init stops = .ok g ∧ g.get x = .ok c) ↔ Prescribes stops x c := by
  obtain ⟨g, hg, h⟩ := C53_get_prescribed stops hne h01
  obtain ⟨c0, h1, h2⟩ := h x hx0 hx1
  constructor
  · rintro ⟨g', hg', hc⟩
    rw [hg] at hg'
    injection hg' with hg'
    subst hg'
    rw [h1] at hc
    injection hc with hc
    exact hc ▸ h2
  · intro hp
    exact ⟨g, hg, by rw [h1, prescribes_det h2 hp]⟩

variable [FloorRing K]

/-- **C54.** For stops in `[0, 1]` with channels in `[0, 1]`, `get_hex(x)` is `#` followed by one hexadecimal digit per
channel of `get(x)`, each the floor of 15 times the channel. -/
theorem C54_get_hex (stops : List (K × List K)) (hne : stops ≠ []) (h01 : ∀ q ∈ stops, 0 ≤ q.1 ∧ q.1 ≤ 1)
    (hc : ∀ q ∈ stops, ∀ c ∈ q.2, 0 ≤ c ∧ c ≤ 1) (x : K) (hx0 : 0 ≤ x) (hx1 : x ≤ 1) :
    ∃ (g : Gradient K) (cs : List K) (ds : List Nat), Gradient.init stops = .ok g ∧ g.get x = .ok cs ∧
      List.Forall₂ (fun (c : K) (d : Nat) => d < 16 ∧ ⌊15 * c⌋ = (d : Int)) cs ds ∧
      g.getHex x = .ok ('#' :: ds.map (fun d => "0123456789abcdef".toList.getD d '?')) := by
  obtain ⟨g, cs, h1, h2, h3⟩ := init_get stops hne h01 x hx0 hx1
  have hcs : ∀ c ∈ cs, 0 ≤ c ∧ c ≤ 1 := by
    have mid : ∀ {l r : List (K × List K)} {p : K × List K}, stops = l ++ p :: r → p ∈ stops := by
      intro l r p h; rw [h]; simp
    rcases h3 with ⟨l, r, e, _⟩ | ⟨_, pa, ca, pb, cb, ⟨b1, _, l, r, e, _⟩, ⟨a1, _, l', r', e', _⟩, hz⟩ |
      ⟨_, p, _, _, l, r, e, _⟩ | ⟨_, p, _, _, l, r, e, _⟩
    · exact hc _ (mid e)
    · have ha := hc _ (mid e)
      have hb := hc _ (mid e')
      intro c hcm
      rw [hz] at hcm
      obtain ⟨i, hi, rfl⟩ := List.getElem_of_mem hcm
      rw [List.getElem_zipWith]
      have hi' := hi
      rw [List.length_zipWith] at hi'
      have u := ha _ (List.getElem_mem (l := ca) (n := i) (by omega))
      have v := hb _ (List.getElem_mem (l := cb) (n := i) (by omega))
      obtain ⟨w1, w2⟩ := C53_lerp_between (ca[i]'(by omega)) (cb[i]'(by omega)) b1 a1
      exact ⟨le_trans (le_min u.1 v.1) w1, le_trans w2 (max_le u.2 v.2)⟩
    · exact hc _ (mid e)
    · exact hc _ (mid e)
  have one : ∀ c : K, 0 ≤ c → c ≤ 1 → ∃ d : Nat, d < 16 ∧ ⌊15 * c⌋ = (d : Int) ∧
      pyIndex (pyHex (intTrunc (c * 15))) 2 = .ok ("0123456789abcdef".toList.getD d '?') := by
    intro c h0 h1
    have f0 : 0 ≤ ⌊15 * c⌋ := Int.floor_nonneg.mpr (by linarith)
    have f1 : ⌊15 * c⌋ < 16 := Int.floor_lt.mpr (by push_cast; linarith)
    obtain ⟨d, hd⟩ := Int.eq_ofNat_of_zero_le f0
    have hd16 : d < 16 := by omega
    refine ⟨d, hd16, hd, ?_⟩
    have ht : intTrunc (c * 15) = (d : Int) := by
      rw [intTrunc, if_neg (by linarith), mul_comm, hd]
    rw [ht]
    have all : ∀ e : Nat, e < 16 → pyIndex (pyHex (e : Int)) 2 = .ok ("0123456789abcdef".toList.getD e '?') := by
      decide +kernel
    exact all d hd16
  obtain ⟨ds, hds1, hds2⟩ : ∃ ds : List Nat, List.Forall₂ (fun (c : K) (d : Nat) => d < 16 ∧ ⌊15 * c⌋ = (d : Int)) cs ds ∧
      cs.mapM (fun i => pyIndex (pyHex (intTrunc (i * 15))) 2) =
        .ok (ds.map (fun d => "0123456789abcdef".toList.getD d '?')) := by
    clear h2 h3
    induction cs with
    | nil => exact ⟨[], .nil, rfl⟩
    | cons c cs ih =>
      obtain ⟨d, d1, d2, d3⟩ := one c (hcs c (by simp)).1 (hcs c (by simp)).2
      obtain ⟨ds, e1, e2⟩ := ih (fun c h => hcs c (by simp [h]))
      refine ⟨d :: ds, .cons ⟨d1, d2⟩ e1, ?_⟩
      rw [List.mapM_cons, d3, e2]
      rfl
  refine ⟨g, cs, ds, h1, h2, hds1, ?_⟩
  simp only [Gradient.getHex, h2, bind, Except.bind, hds2]
  rfl

end

-- Non-vacuous: unsorted stops with a repeated position, over ℚ.
example : (do
    let g ← Gradient.init [((1/2 : ℚ), [0, 1]), (1/4, [1, 0]), (1/2, [1, 1])]
    let a ← g.get (1/2)
    let b ← g.get (3/8)
    let c ← g.get 1
    let h ← g.getHex (3/8)
    return (a, b, c, h)) = .ok ([0, 1], [1/2, 1/2], [1, 1], ['#', '7', '7']) := by decide +kernel

end Coral
