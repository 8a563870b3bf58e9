import Verif.Model.FloatsI
import Verif.Props.FloatsB
import Verif.Props.Geo

/-!
# Orientation of rings on floats (C174)
-/
namespace Coral
namespace Flt

open Geo (flat lace)

/-! ### Adding from left to right -/

theorem pow_u (u : ℚ) (h0 : 0 ≤ u) (k : ℕ) (h : 2 * k * u ≤ 1) : (1 + u) ^ k ≤ 1 + 2 * k * u := by
  induction k with
  | zero => simp
  | succ k ih =>
    push_cast at h ⊢
    have hk : 2 * (k : ℚ) * u ≤ 1 := by nlinarith
    have := ih hk
    rw [pow_succ]
    have h1 : (1 + u) ^ k * (1 + u) ≤ (1 + 2 * k * u) * (1 + u) := mul_le_mul_of_nonneg_right this (by linarith)
    have h2 : 2 * (k : ℚ) * u * u ≤ 1 * u := mul_le_mul_of_nonneg_right hk h0
    nlinarith

/-- The error of a sum, relative to the sum of the sizes. -/
theorem foldl_error (u : ℚ) (hu : u = 2 ^ (-53 : ℤ)) (qs : List ℚ) (h : ∀ q ∈ qs, IsDouble q) (c : ℚ) (hc : IsDouble c) :
    |qs.foldl (fun s t => fl (s + t)) c - (c + qs.sum)| ≤ ((1 + u) ^ qs.length - 1) * (|c| + (qs.map (|·|)).sum) := by
  have u0 : 0 ≤ u := by rw [hu]; positivity
  induction qs generalizing c with
  | nil => simp
  | cons q qs ih =>
    have e1 : |fl (c + q) - (c + q)| ≤ |c + q| * u := by
      have := sub_error hc (double_neg (h q (by simp)))
      rwa [sub_neg_eq_add, ← hu] at this
    have := ih (fun q hq => h q (by simp [hq])) (fl (c + q)) (fl_double _)
    simp only [List.foldl_cons, List.sum_cons, List.map_cons, List.length_cons]
    set F := qs.foldl (fun s t => fl (s + t)) (fl (c + q))
    set A := (qs.map (|·|)).sum
    have hA : 0 ≤ A := List.sum_nonneg (by simp)
    have h1 : (1 : ℚ) ≤ (1 + u) ^ qs.length := one_le_pow₀ (by linarith)
    have t1 : |c + q| ≤ |c| + |q| := abs_add_le _ _
    have t2 : |fl (c + q)| ≤ (|c| + |q|) * (1 + u) := by
      have : |fl (c + q)| ≤ |fl (c + q) - (c + q)| + |c + q| := by
        have := abs_add_le (fl (c + q) - (c + q)) (c + q)
        simpa using this
      nlinarith
    have t3 : |F - (c + (q + qs.sum))| ≤ |F - (fl (c + q) + qs.sum)| + |fl (c + q) - (c + q)| := by
      have := abs_add_le (F - (fl (c + q) + qs.sum)) (fl (c + q) - (c + q))
      rwa [show F - (fl (c + q) + qs.sum) + (fl (c + q) - (c + q)) = F - (c + (q + qs.sum)) by ring] at this
    have t4 : ((1 + u) ^ qs.length - 1) * (|fl (c + q)| + A) ≤ ((1 + u) ^ qs.length - 1) * ((|c| + |q|) * (1 + u) + A * (1 + u)) := by
      apply mul_le_mul_of_nonneg_left _ (by linarith)
      nlinarith
    have t5 : |c + q| * u ≤ (|c| + |q|) * u := mul_le_mul_of_nonneg_right t1 u0
    rw [pow_succ]
    have t6 : 0 ≤ A * u := mul_nonneg hA u0
    nlinarith

/-- Multiples of a power of two are added exactly as long as the sizes add up to 2⁵³ of it. -/
theorem foldl_exact (e : ℤ) (he : -1074 ≤ e) (ns : List ℤ) (c : ℤ) (h : |c| + (ns.map (|·|)).sum ≤ 2 ^ 53) :
    (ns.map (fun n : ℤ => (n : ℚ) * 2 ^ e)).foldl (fun s t => fl (s + t)) ((c : ℚ) * 2 ^ e) = ((c + ns.sum : ℤ) : ℚ) * 2 ^ e := by
  induction ns generalizing c with
  | nil => simp
  | cons n ns ih =>
    simp only [List.map_cons, List.sum_cons, List.foldl_cons] at h ⊢
    have hA : 0 ≤ (ns.map (|·|)).sum := List.sum_nonneg (by simp)
    have t := abs_add_le c n
    rw [show (c : ℚ) * 2 ^ e + n * 2 ^ e = ((c + n : ℤ) : ℚ) * 2 ^ e by push_cast; ring, fl_id (double_mk (by linarith) he), ih (c + n) (by linarith)]
    congr 2
    ring

/-! ### The terms -/

/-- What a function of three neighbours gives along a list. -/
def triples {α : Type} (f : ℚ → ℚ → ℚ → α) : List (ℚ × ℚ) → List α
  | a :: b :: c :: l => f b.1 c.2 a.2 :: triples f (b :: c :: l)
  | _ => []

theorem triples_eq {α : Type} (f : ℚ → ℚ → ℚ → α) (l : List (ℚ × ℚ)) :
    (List.range' 1 (l.length - 2)).map (fun i => f ((l.map Prod.fst).getD i 0) ((l.map Prod.snd).getD (i + 1) 0) ((l.map Prod.snd).getD (i - 1) 0)) = triples f l := by
  induction l with
  | nil => rfl
  | cons a l ih =>
    cases l with
    | nil => rfl
    | cons b l =>
      cases l with
      | nil => rfl
      | cons c l =>
        have e : (a :: b :: c :: l).length - 2 = ((b :: c :: l).length - 2) + 1 := by simp
        rw [e, List.range'_succ, List.map_cons, triples, ← ih]
        congr 1
        rw [← List.map_add_range' (a := 1) 1 _ 1, List.map_map]
        refine List.map_congr_left (fun i hi => ?_)
        have : 1 ≤ i := by
          rw [List.mem_range'] at hi
          obtain ⟨j, -, rfl⟩ := hi
          omega
        obtain ⟨j, rfl⟩ : ∃ j, i = j + 1 := ⟨i - 1, by omega⟩
        simp only [Function.comp, List.map_cons]
        rw [show 1 + (j + 1) = (j + 1) + 1 by omega, show (j + 1 + 1) - 1 = j + 1 by omega, show j + 1 - 1 = j by omega]
        simp only [List.getD_cons_succ]

theorem flat_generic (f : ℚ → ℚ → ℚ → ℚ) (G : List ℚ → ℚ) (a b : ℚ × ℚ) (l : List (ℚ × ℚ)) :
    (do
      let (xs, ys) ← Geo.xsys ((a :: b :: l).map flat)
      let xs := xs ++ [← pyIndex xs 1]
      let ys := ys ++ [← pyIndex ys 1]
      let terms := (List.range' 1 (((a :: b :: l).map flat).length - 1)).map (fun i => f (xs.getD i 0) (ys.getD (i + 1) 0) (ys.getD (i - 1) 0))
      return G terms) = (.ok (G (triples f (a :: b :: l ++ [b]))) : Py ℚ) := by
  have := triples_eq f (a :: b :: l ++ [b])
  simp only [Geo.xsys_flat, Shapefile.ok_bind]
  have i1 : ∀ {α : Type} (p q : α) (l : List α), pyIndex (p :: q :: l) 1 = .ok q := fun p q l => rfl
  simp only [List.map_cons, i1, Shapefile.ok_bind]
  simp only [List.map_append, List.map_cons, List.map_nil, List.length_append, List.length_cons, List.length_nil, List.cons_append] at this ⊢
  rw [← this]
  simp [pure, Except.pure]

theorem signedArea_flat (a b : ℚ × ℚ) (l : List (ℚ × ℚ)) : signedArea ((a :: b :: l).map flat) =
    .ok (fl ((triples (fun x y z => fl (x * fl (y - z))) (a :: b :: l ++ [b])).foldl (fun s t => fl (s + t)) 0 / 2)) :=
  flat_generic (fun x y z => fl (x * fl (y - z))) (fun t => fl (t.foldl (fun s t => fl (s + t)) 0 / 2)) a b l

theorem triples_length {α : Type} (f : ℚ → ℚ → ℚ → α) (a b : ℚ × ℚ) (l : List (ℚ × ℚ)) : (triples f (a :: b :: l)).length = l.length := by
  induction l generalizing a b with
  | nil => rfl
  | cons c l ih => simp [triples, ih]

theorem triples_sum (l : List (ℚ × ℚ)) : (triples (fun x y z => x * (y - z)) l).sum = Geo.threes l := by
  induction l with
  | nil => rfl
  | cons a l ih =>
    cases l with
    | nil => rfl
    | cons b l =>
      cases l with
      | nil => rfl
      | cons c l => rw [triples, List.sum_cons, ih]; rfl

/-- A statement about three points of the ring carries over to the terms. -/
theorem triples_forall₂ {α β : Type} {f : ℚ → ℚ → ℚ → α} {f' : ℚ → ℚ → ℚ → β} {R : α → β → Prop} (l : List (ℚ × ℚ))
    (h : ∀ a ∈ l, ∀ b ∈ l, ∀ c ∈ l, R (f b.1 c.2 a.2) (f' b.1 c.2 a.2)) : List.Forall₂ R (triples f l) (triples f' l) := by
  induction l with
  | nil => exact .nil
  | cons a l ih =>
    cases l with
    | nil => exact .nil
    | cons b l =>
      cases l with
      | nil => exact .nil
      | cons c l =>
        refine .cons (h a (by simp) b (by simp) c (by simp)) (ih ?_)
        intro p hp q hq r hr
        exact h p (List.mem_cons_of_mem _ hp) q (List.mem_cons_of_mem _ hq) r (List.mem_cons_of_mem _ hr)

theorem lace_eq {a b : ℚ × ℚ} {l : List (ℚ × ℚ)} (hc : (a :: b :: l).head? = (a :: b :: l).getLast?) :
    (triples (fun x y z => x * (y - z)) (a :: b :: l ++ [b])).sum = lace (a :: b :: l) := by
  rw [triples_sum, Geo.threes_eq a b l a b (by rw [← hc]; rfl)]
  ring

/-- All coordinates are floats, no x is beyond `X`, and no two y differ by more than `H`. -/
structure Within (ring : List (ℚ × ℚ)) (X H : ℚ) : Prop where
  doubles : ∀ p ∈ ring, IsDouble p.1 ∧ IsDouble p.2
  wide : ∀ p ∈ ring, |p.1| ≤ X
  high : ∀ p ∈ ring, ∀ q ∈ ring, |p.2 - q.2| ≤ H

/-- How far the area of a ring with `n` positions, as far as `X` from the y axis and `H` high, may be off. -/
def areaError (n : ℕ) (X H : ℚ) : ℚ := (n : ℚ) ^ 2 * (X * H) * 2 ^ (-50 : ℤ) + n * 2 ^ (-1073 : ℤ)

theorem term_error {u η X H x y z : ℚ} (hu : u = 2 ^ (-53 : ℤ)) (hη : η = 2 ^ (-1075 : ℤ)) (hy : IsDouble y) (hz : IsDouble z) (hx : |x| ≤ X)
    (h : |y - z| ≤ H) : |fl (x * fl (y - z)) - x * (y - z)| ≤ X * H * (3 * u) + η ∧ |fl (x * fl (y - z))| ≤ 2 * (X * H) + η := by
  have u0 : 0 ≤ u := by rw [hu]; positivity
  have u1 : u ≤ 1 / 10 := by rw [hu]; norm_num
  have e1 : |fl (y - z) - (y - z)| ≤ |y - z| * u := by rw [hu]; exact sub_error hy hz
  have e2 : |fl (x * fl (y - z)) - x * fl (y - z)| ≤ |x * fl (y - z)| * u + η := fl_close hu hη
  generalize fl (y - z) = D at *
  generalize fl (x * D) = P at *
  generalize y - z = d at *
  have X0 : 0 ≤ X := (abs_nonneg _).trans hx
  have H0 : 0 ≤ H := (abs_nonneg _).trans h
  have t1 : |x * d| ≤ X * H := by rw [abs_mul]; exact mul_le_mul hx h (abs_nonneg _) X0
  have t2 : |x * (D - d)| ≤ X * H * u := by
    rw [abs_mul]
    calc |x| * |D - d| ≤ X * (H * u) := mul_le_mul hx (e1.trans (mul_le_mul_of_nonneg_right h u0)) (abs_nonneg _) X0
      _ = X * H * u := by ring
  have t3 : |x * D| ≤ X * H * (1 + u) := by
    have : |x * d + x * (D - d)| ≤ |x * d| + |x * (D - d)| := abs_add_le _ _
    rw [show x * d + x * (D - d) = x * D by ring] at this
    linarith
  have XH : 0 ≤ X * H := mul_nonneg X0 H0
  have t4 : |x * D| * u ≤ X * H * (1 + u) * u := mul_le_mul_of_nonneg_right t3 u0
  have t5 : X * H * (u * u) ≤ X * H * (u * (1 / 10)) := mul_le_mul_of_nonneg_left (mul_le_mul_of_nonneg_left u1 u0) XH
  have t6 : X * H * u ≤ X * H * (1 / 10) := mul_le_mul_of_nonneg_left u1 XH
  constructor
  · have : |P - x * D + x * (D - d)| ≤ |P - x * D| + |x * (D - d)| := abs_add_le _ _
    rw [show P - x * D + x * (D - d) = P - x * d by ring] at this
    have : 0 ≤ X * H * u := mul_nonneg XH u0
    nlinarith
  · have : |P - x * D + x * D| ≤ |P - x * D| + |x * D| := abs_add_le _ _
    rw [sub_add_cancel] at this
    nlinarith

theorem forall₂_sum {l l' : List ℚ} {e : ℚ} (h : List.Forall₂ (fun q t => |q - t| ≤ e) l l') : |l.sum - l'.sum| ≤ l.length * e := by
  induction h with
  | nil => simp
  | @cons q t l l' h h' ih =>
    simp only [List.sum_cons, List.length_cons]
    have := abs_add_le (q - t) (l.sum - l'.sum)
    rw [show q - t + (l.sum - l'.sum) = q + l.sum - (t + l'.sum) by ring] at this
    push_cast
    linarith

theorem sum_abs_le {l : List ℚ} {e : ℚ} (h : ∀ q ∈ l, |q| ≤ e) : (l.map (|·|)).sum ≤ l.length * e := by
  induction l with
  | nil => simp
  | cons q l ih =>
    have := h q (by simp)
    have := ih (fun q hq => h q (by simp [hq]))
    simp only [List.map_cons, List.sum_cons, List.length_cons]
    push_cast
    linarith

theorem triples_mem {α : Type} {f : ℚ → ℚ → ℚ → α} {P : α → Prop} (l : List (ℚ × ℚ)) (h : ∀ a ∈ l, ∀ b ∈ l, ∀ c ∈ l, P (f b.1 c.2 a.2)) :
    ∀ q ∈ triples f l, P q := by
  induction l with
  | nil => simp [triples]
  | cons a l ih =>
    cases l with
    | nil => simp [triples]
    | cons b l =>
      cases l with
      | nil => simp [triples]
      | cons c l =>
        intro q hq
        rw [triples, List.mem_cons] at hq
        rcases hq with rfl | hq
        · exact h a (by simp) b (by simp) c (by simp)
        · refine ih ?_ q hq
          intro p hp q hq r hr
          exact h p (List.mem_cons_of_mem _ hp) q (List.mem_cons_of_mem _ hq) r (List.mem_cons_of_mem _ hr)

theorem triples_ints {f f' : ℚ → ℚ → ℚ → ℚ} {e B : ℤ} (l : List (ℚ × ℚ))
    (h : ∀ a ∈ l, ∀ b ∈ l, ∀ c ∈ l, ∃ n : ℤ, f b.1 c.2 a.2 = n * 2 ^ e ∧ f' b.1 c.2 a.2 = n * 2 ^ e ∧ |n| ≤ B) :
    ∃ ns : List ℤ, triples f l = ns.map (fun n : ℤ => (n : ℚ) * 2 ^ e) ∧ triples f' l = ns.map (fun n : ℤ => (n : ℚ) * 2 ^ e) ∧ ∀ n ∈ ns, |n| ≤ B := by
  induction l with
  | nil => exact ⟨[], rfl, rfl, by simp⟩
  | cons a l ih =>
    cases l with
    | nil => exact ⟨[], rfl, rfl, by simp⟩
    | cons b l =>
      cases l with
      | nil => exact ⟨[], rfl, rfl, by simp⟩
      | cons c l =>
        obtain ⟨ns, h1, h2, h3⟩ := ih (fun p hp q hq r hr => h p (List.mem_cons_of_mem _ hp) q (List.mem_cons_of_mem _ hq) r (List.mem_cons_of_mem _ hr))
        obtain ⟨n, k1, k2, k3⟩ := h a (by simp) b (by simp) c (by simp)
        refine ⟨n :: ns, ?_, ?_, ?_⟩
        · rw [triples, h1, k1]; rfl
        · rw [triples, h2, k2]; rfl
        · intro m hm
          rcases List.mem_cons.mp hm with rfl | hm
          · exact k3
          · exact h3 m hm

theorem sum_mul (ns : List ℤ) (x : ℚ) : (ns.map (fun n : ℤ => (n : ℚ) * x)).sum = (ns.sum : ℤ) * x := by
  induction ns with
  | nil => simp
  | cons n ns ih => simp [ih, add_mul]

theorem sum_ints {ns : List ℤ} {B : ℤ} (h : ∀ n ∈ ns, |n| ≤ B) : (ns.map (|·|)).sum ≤ ns.length * B := by
  induction ns with
  | nil => simp
  | cons n ns ih =>
    have := h n (by simp)
    have := ih (fun n hn => h n (by simp [hn]))
    simp only [List.map_cons, List.sum_cons, List.length_cons]
    push_cast
    linarith

/-- The last steps of the estimate. -/
theorem area_bound {u η m V F S A B : ℚ} (h0 : 0 ≤ u) (h1 : u ≤ 1 / 10) (hη : 0 ≤ η) (hm : 1 ≤ m) (hmu : 2 * m * u ≤ 1) (hV : 0 ≤ V)
    (e1 : |F - S| ≤ 2 * m * u * (m * (2 * V + η))) (e2 : |S - B| ≤ m * (V * (3 * u) + η)) (e3 : |A - F / 2| ≤ |F / 2| * u + η)
    (e4 : |S| ≤ m * (2 * V + η)) : |A - B / 2| ≤ m ^ 2 * V * (8 * u) + m * (4 * η) := by
  have m0 : 0 ≤ m := by linarith
  have k0 : 0 ≤ m * (2 * V + η) := mul_nonneg m0 (by linarith)
  have hF : |F| ≤ 2 * (m * (2 * V + η)) := by
    have := abs_add_le (F - S) S
    rw [sub_add_cancel] at this
    have : 2 * m * u * (m * (2 * V + η)) ≤ 1 * (m * (2 * V + η)) := mul_le_mul_of_nonneg_right hmu k0
    linarith
  have hF2 : |F / 2| * u ≤ m * (2 * V + η) * u := by
    rw [abs_div, abs_two]
    exact mul_le_mul_of_nonneg_right (by linarith) h0
  have t : |A - B / 2| ≤ |A - F / 2| + |F - S| / 2 + |S - B| / 2 := by
    have a1 := abs_add_le (A - F / 2) (F / 2 - B / 2)
    rw [show A - F / 2 + (F / 2 - B / 2) = A - B / 2 by ring] at a1
    have a2 := abs_add_le (F - S) (S - B)
    rw [show F - S + (S - B) = F - B by ring] at a2
    rw [show F / 2 - B / 2 = (F - B) / 2 by ring, abs_div, abs_two] at a1
    linarith
  have p1 : m * (V * u) ≤ m * m * (V * u) := by
    have : 0 ≤ V * u := mul_nonneg hV h0
    have : m * 1 ≤ m * m := mul_le_mul_of_nonneg_left hm m0
    nlinarith
  have p2 : 2 * m * u * (m * η) ≤ 1 * (m * η) := mul_le_mul_of_nonneg_right hmu (mul_nonneg m0 hη)
  have p3 : m * η * u ≤ m * η * (1 / 10) := mul_le_mul_of_nonneg_left h1 (mul_nonneg m0 hη)
  have p4 : 1 * η ≤ m * η := mul_le_mul_of_nonneg_right hm hη
  have p5 : 0 ≤ m * η := mul_nonneg m0 hη
  have q1 : 2 * m * u * (m * (2 * V + η)) = 4 * (m * m * (V * u)) + 2 * m * u * (m * η) := by ring
  have q2 : m * (V * (3 * u) + η) = 3 * (m * (V * u)) + m * η := by ring
  have q3 : m * (2 * V + η) * u = 2 * (m * (V * u)) + m * η * u := by ring
  have q4 : m ^ 2 * V * (8 * u) = 8 * (m * m * (V * u)) := by ring
  have p6 : 0 ≤ m * m * (V * u) := by positivity
  rw [q4]
  linarith

/-- C174: the area of a closed ring is off by no more than `areaError`. -/
theorem C174_close (ring : List (ℚ × ℚ)) (X H : ℚ) (hlen : 2 ≤ ring.length) (hn : ring.length ≤ 2 ^ 52) (hc : ring.head? = ring.getLast?)
    (h : Within ring X H) : ∃ a, signedArea (ring.map flat) = .ok a ∧ |a - lace ring / 2| ≤ areaError ring.length X H := by
  obtain ⟨hd, hX, hH⟩ := h
  match ring, hlen with
  | a :: b :: l, _ =>
    refine ⟨_, signedArea_flat a b l, ?_⟩
    have mem : ∀ p ∈ a :: b :: l ++ [b], p ∈ a :: b :: l := by
      intro p hp
      rcases List.mem_append.mp hp with h | h
      · exact h
      · rw [List.mem_singleton.mp h]; simp
    obtain ⟨u, hu⟩ : ∃ u : ℚ, u = 2 ^ (-53 : ℤ) := ⟨_, rfl⟩
    obtain ⟨η, hη⟩ : ∃ η : ℚ, η = 2 ^ (-1075 : ℤ) := ⟨_, rfl⟩
    have term : ∀ p ∈ a :: b :: l ++ [b], ∀ q ∈ a :: b :: l ++ [b], ∀ r ∈ a :: b :: l ++ [b], _ := fun p hp q hq r hr =>
      term_error hu hη (hd r (mem r hr)).2 (hd p (mem p hp)).2 (hX q (mem q hq)) (hH r (mem r hr) p (mem p hp))
    have len := triples_length (fun x y z => fl (x * fl (y - z))) a b (l ++ [b])
    have f1 := forall₂_sum (triples_forall₂ (f := fun x y z => fl (x * fl (y - z))) (f' := fun x y z => x * (y - z))
      (R := fun q t => |q - t| ≤ X * H * (3 * u) + η) _ (fun p hp q hq r hr => (term p hp q hq r hr).1))
    have f2 := sum_abs_le (triples_mem (f := fun x y z => fl (x * fl (y - z))) (P := fun q => |q| ≤ 2 * (X * H) + η) _
      (fun p hp q hq r hr => (term p hp q hq r hr).2))
    have f3 := foldl_error u hu (triples (fun x y z => fl (x * fl (y - z))) (a :: b :: l ++ [b]))
      (triples_mem (P := IsDouble) _ (fun p hp q hq r hr => fl_double _)) 0 (by simpa using double_int (n := 0) (by norm_num))
    rw [lace_eq hc] at f1
    have k := fl_close (x := (triples (fun x y z => fl (x * fl (y - z))) (a :: b :: l ++ [b])).foldl (fun s t => fl (s + t)) 0 / 2) hu hη
    simp only [List.cons_append] at *
    generalize triples (fun x y z => fl (x * fl (y - z))) (a :: b :: (l ++ [b])) = qs at *
    have f4 : |qs.sum| ≤ (qs.map (|·|)).sum := by
      clear f1 f2 f3 k len
      induction qs with
      | nil => simp
      | cons q qs ih =>
        simp only [List.sum_cons, List.map_cons]
        exact (abs_add_le _ _).trans (by linarith)
    generalize qs.foldl (fun s t => fl (s + t)) 0 = F at *
    have hm1 : (1 : ℚ) ≤ qs.length := by rw [len]; simp
    have u0 : 0 ≤ u := by rw [hu]; positivity
    have hmn : (qs.length : ℚ) ≤ (a :: b :: l).length := by rw [len]; simp
    have hmu : 2 * (qs.length : ℚ) * u ≤ 1 := by
      have : (qs.length : ℚ) ≤ 2 ^ 52 := hmn.trans (by exact_mod_cast hn)
      calc 2 * (qs.length : ℚ) * u ≤ 2 * 2 ^ 52 * u := by nlinarith
        _ = 1 := by rw [hu]; norm_num
    have hV : 0 ≤ X * H := mul_nonneg ((abs_nonneg _).trans (hX a (by simp))) ((abs_nonneg _).trans (hH a (by simp) a (by simp)))
    have η0 : 0 ≤ η := by rw [hη]; positivity
    rw [abs_zero, zero_add, zero_add] at f3
    have g3 : |F - qs.sum| ≤ 2 * qs.length * u * (qs.length * (2 * (X * H) + η)) := by
      refine f3.trans (mul_le_mul ?_ f2 (List.sum_nonneg (by simp)) (by positivity))
      have := pow_u u u0 qs.length hmu
      linarith
    have := area_bound u0 (by rw [hu]; norm_num) η0 hm1 hmu hV g3 f1 k (f4.trans f2)
    refine this.trans ?_
    rw [areaError]
    have e8 : 8 * u = 2 ^ (-50 : ℤ) := by rw [hu]; norm_num
    have e4 : 4 * η = 2 ^ (-1073 : ℤ) := by
      rw [hη, show (-1073 : ℤ) = 2 + -1075 by norm_num, zpow_add₀ (by norm_num)]
      norm_num
    rw [e8, e4]
    have p : (0 : ℚ) ≤ 2 ^ (-50 : ℤ) := by positivity
    have p' : (0 : ℚ) ≤ 2 ^ (-1073 : ℤ) := by positivity
    have sq : (qs.length : ℚ) ^ 2 ≤ ((a :: b :: l).length : ℚ) ^ 2 := pow_le_pow_left₀ (by linarith) hmn 2
    exact add_le_add (mul_le_mul_of_nonneg_right (mul_le_mul_of_nonneg_right sq hV) p) (mul_le_mul_of_nonneg_right hmn p')

/-- The area of the ring is larger than what rounding may change. -/
def Clear (ring : List (ℚ × ℚ)) : Prop :=
  2 ≤ ring.length ∧ ring.length ≤ 2 ^ 52 ∧ ring.head? = ring.getLast? ∧ ∃ X H, Within ring X H ∧ areaError ring.length X H < |lace ring / 2|

/-- C174: the sign of the area is right. Missing: rings that enclose next to nothing, see `C174_orientation_violated`. -/
theorem C174_orientation_partial (ring : List (ℚ × ℚ)) (h : Clear ring) :
    ∃ a, signedArea (ring.map flat) = .ok a ∧ (a < 0 ↔ lace ring < 0) ∧ (0 < a ↔ 0 < lace ring) := by
  obtain ⟨h1, h2, h3, X, H, h4, h5⟩ := h
  obtain ⟨a, ha, e⟩ := C174_close ring X H h1 h2 h3 h4
  refine ⟨a, ha, ?_⟩
  have := e.trans_lt h5
  rw [abs_lt] at this
  rcases lt_or_ge (lace ring) 0 with hs | hs
  · rw [abs_of_neg (by linarith)] at this
    exact ⟨⟨fun _ => hs, fun _ => by linarith⟩, ⟨fun _ => by linarith, fun _ => by linarith⟩⟩
  · rw [abs_of_nonneg (by linarith)] at this
    exact ⟨⟨fun _ => by linarith, fun _ => by linarith⟩, ⟨fun _ => by linarith, fun _ => by linarith⟩⟩

/-- C174: on a grid (x multiples of `2 ^ k` up to `M` of them, y multiples of `2 ^ l` up to `N`) the area is exact. -/
theorem C174_exact (ring : List (ℚ × ℚ)) (k l : ℤ) (M N : ℕ) (hlen : 2 ≤ ring.length) (hc : ring.head? = ring.getLast?) (hl : -1074 ≤ l) (hkl : -1073 ≤ k + l)
    (hM : 0 < M) (hN : 2 * ring.length * M * N ≤ 2 ^ 53)
    (hg : ∀ p ∈ ring, ∃ i j : ℤ, p = ((i : ℚ) * 2 ^ k, (j : ℚ) * 2 ^ l) ∧ |i| ≤ M ∧ |j| ≤ N) :
    signedArea (ring.map flat) = .ok (lace ring / 2) := by
  match ring, hlen with
  | a :: b :: r, _ =>
    rw [signedArea_flat a b r]
    have mem : ∀ p ∈ a :: b :: r ++ [b], p ∈ a :: b :: r := by
      intro p hp
      rcases List.mem_append.mp hp with h | h
      · exact h
      · rw [List.mem_singleton.mp h]; simp
    have two : (2 : ℚ) ^ (k + l) = 2 ^ k * 2 ^ l := zpow_add₀ (by norm_num) _ _
    have hN2 : 2 * (N : ℤ) ≤ 2 ^ 53 := by
      have : 2 * N ≤ 2 * (a :: b :: r).length * M * N := by
        have : 1 ≤ (a :: b :: r).length * M := Nat.mul_pos (by simp) hM
        nlinarith
      exact_mod_cast this.trans hN
    have hMN : 2 * ((M : ℤ) * N) ≤ 2 ^ 53 := by
      have : 2 * (M * N) ≤ 2 * (a :: b :: r).length * M * N := by
        have : 1 ≤ (a :: b :: r).length := by simp
        have : 1 * (M * N) ≤ (a :: b :: r).length * (M * N) := Nat.mul_le_mul_right _ this
        nlinarith
      exact_mod_cast this.trans hN
    obtain ⟨ns, n1, n2, n3⟩ := triples_ints (f := fun x y z => fl (x * fl (y - z))) (f' := fun x y z => x * (y - z)) (e := k + l) (B := 2 * ((M : ℤ) * N))
        (a :: b :: r ++ [b]) (by
      intro p hp q hq s hs
      obtain ⟨i0, j, e1, -, b1⟩ := hg p (mem p hp)
      obtain ⟨i, j0, e2, b2, -⟩ := hg q (mem q hq)
      obtain ⟨i1, j', e3, -, b3⟩ := hg s (mem s hs)
      rw [e1, e2, e3]
      simp only
      have d : (j' : ℚ) * 2 ^ l - j * 2 ^ l = ((j' - j : ℤ) : ℚ) * 2 ^ l := by push_cast; ring
      have bd : |j' - j| ≤ 2 * N := by
        have := abs_sub j' j
        omega
      have e : (i : ℚ) * 2 ^ k * (((j' - j : ℤ) : ℚ) * 2 ^ l) = ((i * (j' - j) : ℤ) : ℚ) * 2 ^ (k + l) := by rw [two]; push_cast; ring
      have bn : |i * (j' - j)| ≤ 2 * ((M : ℤ) * N) := by
        rw [abs_mul]
        calc |i| * |j' - j| ≤ M * (2 * N) := mul_le_mul b2 bd (abs_nonneg _) (by positivity)
          _ = 2 * ((M : ℤ) * N) := by ring
      rw [d, fl_id (double_mk (by omega) hl), e]
      exact ⟨_, fl_id (double_mk (bn.trans hMN) (by omega)), rfl, bn⟩)
    have len := triples_length (fun x y z => x * (y - z)) a b (r ++ [b])
    have hs := lace_eq hc
    simp only [List.cons_append] at *
    rw [n2] at len hs
    rw [n1]
    rw [sum_mul] at hs
    have B := sum_ints n3
    have hb : (0 : ℤ) ≤ 2 * ((M : ℤ) * N) := by positivity
    have hle : (ns.map (|·|)).sum ≤ 2 ^ 53 := by
      refine B.trans ?_
      have : (ns.length : ℤ) ≤ (a :: b :: r).length := by
        simp only [List.length_map] at len
        rw [len]
        simp
      calc (ns.length : ℤ) * (2 * ((M : ℤ) * N)) ≤ (a :: b :: r).length * (2 * ((M : ℤ) * N)) := mul_le_mul_of_nonneg_right this hb
        _ = ((2 * (a :: b :: r).length * M * N : ℕ) : ℤ) := by push_cast; ring
        _ ≤ 2 ^ 53 := by exact_mod_cast hN
    have key := foldl_exact (k + l) (by omega) ns 0 (by simpa using hle)
    rw [Int.cast_zero, zero_mul, zero_add] at key
    rw [key, hs]
    congr 1
    apply fl_id
    have : lace (a :: b :: r) / 2 = (ns.sum : ℤ) * 2 ^ (k + l - 1) := by
      rw [← hs, zpow_sub₀ (by norm_num)]
      ring
    rw [this]
    refine double_mk (le_trans ?_ hle) (by omega)
    clear * -
    induction ns with
    | nil => simp
    | cons n ns ih =>
      simp only [List.sum_cons, List.map_cons]
      exact (abs_add_le _ _).trans (by linarith)

/-- A square with corners at whole numbers. -/
example : ∀ p ∈ [(0, 0), (3, 0), (3, 3), (0, 3), (0, 0)], ∃ i j : ℤ, p = ((i : ℚ) * 2 ^ (0 : ℤ), (j : ℚ) * 2 ^ (0 : ℤ)) ∧ |i| ≤ (3 : ℕ) ∧ |j| ≤ (3 : ℕ) := by
  intro p hp
  simp only [List.mem_cons, List.not_mem_nil, or_false] at hp
  rcases hp with rfl | rfl | rfl | rfl | rfl
  · exact ⟨0, 0, by norm_num, by decide, by decide⟩
  · exact ⟨3, 0, by norm_num, by decide, by decide⟩
  · exact ⟨3, 3, by norm_num, by decide, by decide⟩
  · exact ⟨0, 3, by norm_num, by decide, by decide⟩
  · exact ⟨0, 0, by norm_num, by decide, by decide⟩

/-- A field of ten by ten metres, a million metres from the origin. -/
def field : List (ℚ × ℚ) := [(1000000, 1000000), (1000010, 1000000), (1000010, 1000010), (1000000, 1000010), (1000000, 1000000)]

theorem field_within : Within field 1000010 10 := by
  have hd : ∀ n : ℤ, |n| ≤ 1000010 → IsDouble n := fun n hn => double_int (hn.trans (by norm_num))
  have d1 : IsDouble 1000000 := by exact_mod_cast hd 1000000 (by decide)
  have d2 : IsDouble 1000010 := by exact_mod_cast hd 1000010 (by decide)
  constructor
  · simp [field, d1, d2]
  · simp [field]; norm_num
  · simp [field]; norm_num

theorem field_lace : lace field = 200 := by norm_num [lace, field]

theorem field_clear : Clear field := by
  refine ⟨by decide, by decide, rfl, _, _, field_within, ?_⟩
  rw [field_lace, areaError]
  have : (2 : ℚ) ^ (-1073 : ℤ) ≤ 1 := zpow_le_one_of_nonpos₀ (by norm_num) (by norm_num)
  generalize (2 : ℚ) ^ (-1073 : ℤ) = e at *
  have : (field.length : ℚ) = 5 := by norm_num [field]
  rw [this]
  norm_num
  linarith

/-- C174: a triangle that runs counter-clockwise and whose area is negative for `signed_area`. -/
theorem C174_orientation_violated : ∃ ring a, ring.head? = ring.getLast? ∧ (∀ p ∈ ring, IsDouble p.1 ∧ IsDouble p.2) ∧
    0 < lace ring ∧ signedArea (ring.map flat) = .ok a ∧ a < 0 := by
  refine ⟨[(fl (5 / 10), fl (3 / 10)), (fl (6 / 10), fl (2 / 10)), (fl 0, fl (8 / 10)), (fl (5 / 10), fl (3 / 10))], -1 / 2 ^ 55, rfl, ?_, by decide +kernel, by decide +kernel, by norm_num⟩
  intro p hp
  simp only [List.mem_cons, List.not_mem_nil, or_false] at hp
  rcases hp with rfl | rfl | rfl | rfl <;> exact ⟨fl_double _, fl_double _⟩

/-! ### The interface -/

/-- A ring as `__geo_interface__` holds it, with a clear area. -/
def ClearCoords (c : List (List ℚ)) : Prop := ∃ ring, c = ring.map flat ∧ Clear ring

theorem polysLoop_eq (coords : List (List (List ℚ))) (h : ∀ c ∈ coords, ClearCoords c) (polys : List (List (List (List ℚ)))) (poly : List (List (List ℚ))) :
    polysLoop polys poly coords = Geo.polysLoop polys poly coords := by
  induction coords generalizing polys poly with
  | nil => rfl
  | cons c coords ih =>
    obtain ⟨ring, rfl, hr⟩ := h c (by simp)
    obtain ⟨a, ha, hn, -⟩ := C174_orientation_partial ring hr
    have hb := Geo.C93_shoelace hr.1 hr.2.2.1
    rw [polysLoop, Geo.polysLoop, ha, hb]
    simp only [Shapefile.ok_bind]
    have e : lace ring / 2 < 0 ↔ lace ring < 0 := by constructor <;> intro h <;> linarith
    have ih := ih (fun c hc => h c (by simp [hc]))
    by_cases hl : lace ring < 0
    · rw [if_pos (hn.mpr hl), if_pos (e.mpr hl), ih]
    · rw [if_neg (fun k => hl (hn.mp k)), if_neg (fun k => hl (e.mp k)), ih]

/-- C174: if the rings after the first enclose clear areas, then floats lead to the same interface as exact numbers. Missing: rings that enclose next to
nothing, see `C174_interface_violated`. -/
theorem C174_interface_partial (s : Shapefile.Shape ℚ) (parts : List Int) (hp : s.parts = some parts) (hs : Geo.Starts s.points.length parts)
    (h : ∀ c ∈ (Shapefile.cut parts s.points).tail, ClearCoords c) : geo s = Geo.geo s := by
  rw [geo]
  by_cases ht : s.shapeType ∈ [some 5, some 25, some 15]
  · rw [if_pos ht]
    have hg : Geo.geo s = (do
      let parts ← Shapefile.attr s.parts
      if parts.length = 1 then return .polygon [s.points] else Geo.polygons (← Geo.coordinatesOf s.points parts)) := by
      simp only [Geo.geo]
      simp only [List.mem_cons, List.not_mem_nil, or_false] at ht
      rcases ht with ht | ht | ht <;> simp [ht]
    rw [hg, hp]
    simp only [Shapefile.attr, Shapefile.ok_bind, (Geo.coordinatesOf_eq hs).1]
    split
    · rfl
    · cases hc : Shapefile.cut parts s.points with
      | nil => rfl
      | cons c cs =>
        rw [hc] at h
        simp only [polygons, Geo.polygons]
        rw [polysLoop_eq cs h]
        rcases Geo.polysLoop [] [c] cs with e | (_ | ⟨x, _ | ⟨y, l⟩⟩) <;> rfl
  · rw [if_neg ht]

/-- A polygon with the field as its hole. -/
example : ∃ s : Shapefile.Shape ℚ, s.parts = some [0, 5] ∧ Geo.Starts s.points.length [0, 5] ∧ ∀ c ∈ (Shapefile.cut [0, 5] s.points).tail, ClearCoords c :=
  ⟨{ shapeType := some 5, points := [[0, 0], [0, 4000000], [4000000, 4000000], [4000000, 0], [0, 0]] ++ field.map flat, parts := some [0, 5] }, rfl,
    by refine ⟨rfl, by decide, by decide⟩, fun c hc => ⟨field, by simpa [Shapefile.cut] using hc, field_clear⟩⟩

/-- A clockwise square whose hole is the thin triangle. -/
def holed : Shapefile.Shape ℚ :=
  { shapeType := some 5, parts := some [0, 5], points := [[-1, -1], [-1, 1], [1, 1], [1, -1], [-1, -1], [fl (5 / 10), fl (3 / 10)],
      [fl (6 / 10), fl (2 / 10)], [fl 0, fl (8 / 10)], [fl (5 / 10), fl (3 / 10)]] }

/-- C174: a hole that becomes a polygon of its own. -/
theorem C174_interface_violated : (∃ a b, Geo.geo holed = .ok (.polygon [a, b])) ∧ ∃ a b, geo holed = .ok (.multiPolygon [[a], [b]]) := by
  refine ⟨⟨[[-1, -1], [-1, 1], [1, 1], [1, -1], [-1, -1]], [[fl (5 / 10), fl (3 / 10)], [fl (6 / 10), fl (2 / 10)], [fl 0, fl (8 / 10)], [fl (5 / 10), fl (3 / 10)]], ?_⟩,
    ⟨[[-1, -1], [-1, 1], [1, 1], [1, -1], [-1, -1]], [[fl (5 / 10), fl (3 / 10)], [fl (6 / 10), fl (2 / 10)], [fl 0, fl (8 / 10)], [fl (5 / 10), fl (3 / 10)]], ?_⟩⟩ <;>
  decide +kernel

end Flt
end Coral
