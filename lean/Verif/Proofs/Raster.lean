import Verif.Model.Raster
import Verif.Spec.RasterVals
import Verif.Proofs.Buffer
import Verif.PyList
import Mathlib.Data.List.Induction
import Mathlib.Tactic.Positivity
import Mathlib.Tactic.Linarith
import Mathlib.Tactic.Ring
import Mathlib.Tactic.Push
import Mathlib.Tactic.LinearCombination

/-! # Proofs about canvases -/
set_option linter.unusedSectionVars false
namespace Coral
open Buffer (pyIndex_nat pySetItem_nat)

/-! ### Indexing -/

theorem idx_lt {w h x y : Nat} (hx : x < w) (hy : y < h) : y * w + x < w * h := by
  have : (y + 1) * w ≤ h * w := Nat.mul_le_mul_right w hy
  have e : (y + 1) * w = y * w + w := by ring
  rw [mul_comm w h]
  omega

theorem idx_inj {w x y x' y' : Nat} (hx : x < w) (hx' : x' < w) (h : y * w + x = y' * w + x') : x = x' ∧ y = y' := by
  have hw : 0 < w := by omega
  have h1 : (y * w + x) / w = y := by
    rw [mul_comm, Nat.mul_add_div hw, Nat.div_eq_of_lt hx, add_zero]
  have h2 : (y' * w + x') / w = y' := by
    rw [mul_comm, Nat.mul_add_div hw, Nat.div_eq_of_lt hx', add_zero]
  have : y = y' := by rw [← h1, ← h2, h]
  subst this
  exact ⟨by omega, rfl⟩

theorem onCanvas_nat {w h : Nat} {x y : Int} (hc : OnCanvas w h x y) :
    ∃ a b : Nat, x = a ∧ y = b ∧ a < w ∧ b < h := by
  obtain ⟨h1, h2, h3, h4⟩ := hc
  exact ⟨x.toNat, y.toNat, by omega, by omega, by omega, by omega⟩

theorem byteOf_ok {v : Int} {b : Nat} : byteOf v = .ok b ↔ v = b ∧ b < 256 := by
  simp only [byteOf]
  split
  · rename_i h
    constructor
    · intro e
      injection e with e
      omega
    · rintro ⟨e, _⟩
      subst e
      simp
  · rename_i h
    constructor
    · intro e; simp at e
    · rintro ⟨e, h'⟩; exact absurd ⟨by omega, by omega⟩ h

theorem byteOf_nat {b : Nat} (h : b < 256) : byteOf (b : Int) = .ok b := byteOf_ok.mpr ⟨rfl, h⟩

theorem mapM_byteOf {l : List Int} {bs : List Nat} :
    l.mapM byteOf = .ok bs ↔ List.Forall₂ (fun (v : Int) (b : Nat) => v = b ∧ b < 256) l bs := by
  rw [Py.mapM_ok]
  constructor
  · intro h; exact h.imp fun _ _ e => byteOf_ok.mp e
  · intro h; exact h.imp fun _ _ e => byteOf_ok.mpr e

theorem mapM_byteOf_replicate {n : Nat} {v : Int} {bs : List Nat} :
    (List.replicate n v).mapM byteOf = .ok bs → bs = List.replicate n v.toNat ∧ (0 < n → 0 ≤ v ∧ v < 256) := by
  rw [mapM_byteOf]
  induction n generalizing bs with
  | zero => intro h; simp only [List.replicate_zero, List.forall₂_nil_left_iff] at h; simp [h]
  | succ n ih =>
    intro h
    rw [List.replicate_succ, List.forall₂_cons_left_iff] at h
    obtain ⟨b, l', ⟨h1, h2⟩, h3, rfl⟩ := h
    have := (ih h3).1
    subst this
    refine ⟨?_, fun _ => by omega⟩
    rw [List.replicate_succ, h1, Int.toNat_natCast]

/-! ### Histories -/

theorem cellAfter_nil {P V W : Type} [DecidableEq P] (apply : V → W → V) (init : V) (p : P) :
    cellAfter apply init ([] : List (P × W)) p = init := rfl

theorem cellAfter_cons {P V W : Type} [DecidableEq P] (apply : V → W → V) (init : V) (q : P) (w : W)
    (ws : List (P × W)) (p : P) :
    cellAfter apply init ((q, w) :: ws) p =
      if q = p then cellAfter apply (apply init w) ws p else cellAfter apply init ws p := by
  unfold cellAfter
  by_cases h : q = p <;> simp [h]

theorem lastWritten_eq {P V : Type} [DecidableEq P] (init : V) (ws : List (P × V)) (p : P) :
    lastWritten init ws p = cellAfter (fun _ w => w) init ws p := by
  unfold lastWritten cellAfter
  generalize ws.filter _ = l
  induction l using List.reverseRecOn with
  | nil => rfl
  | append_singleton l a ih => simp

theorem cellAfter_map {P V W W' : Type} [DecidableEq P] (apply : V → W → V) (apply' : V → W' → V) (g : W → W')
    (h : ∀ v w, apply v w = apply' v (g w)) (init : V) (ws : List (P × W)) (p : P) :
    cellAfter apply init ws p = cellAfter apply' init (ws.map (fun w => (w.1, g w.2))) p := by
  induction ws generalizing init with
  | nil => rfl
  | cons w ws ih =>
    obtain ⟨q, w⟩ := w
    rw [List.map_cons, cellAfter_cons, cellAfter_cons, h, ih, ih]

theorem cellAfter_const {P V W : Type} [DecidableEq P] (apply : V → W → V) (w : W) (v : V) (h : ∀ u, apply u w = v) (init : V)
    (ps : List P) (p : P) :
    cellAfter apply init (ps.map (fun q => (q, w))) p = if p ∈ ps then v else init := by
  induction ps generalizing init with
  | nil => rfl
  | cons q ps ih =>
    rw [List.map_cons, cellAfter_cons, ih, ih, h]
    by_cases hq : q = p
    · subst hq; simp
    · have : ¬ p = q := fun e => hq e.symm
      simp [hq, this]

/-! ### Black and white -/

theorem bw_col {w x : Nat} (hx : x < w) : x < bytesPerRow w * 8 := by unfold bytesPerRow; omega

theorem bw_bit {c : BW} {x y : Nat} :
    (c.bit x y / 8 = ((y * bytesPerRow c.width + x / 8 : Nat) : Int)) ∧
    (7 - c.bit x y % 8).toNat = 7 - x % 8 := by
  simp only [BW.bit]
  have e : (y : Int) * ((bytesPerRow c.width * 8 : Nat) : Int) = 8 * ((y * bytesPerRow c.width : Nat) : Int) := by
    push_cast; ring
  rw [e]
  constructor
  · push_cast
    omega
  · omega

theorem bw_idx {c : BW} (hc : c.WF) {x y : Nat} (hx : x < c.width) (hy : y < c.height) :
    y * bytesPerRow c.width + x / 8 < c.data.length := by
  rw [hc.len]
  apply idx_lt _ hy
  have := bw_col hx
  omega

theorem and_shift (b k : Nat) : (b &&& 1 <<< k ≠ 0) ↔ b.testBit k = true := by
  rw [Nat.one_shiftLeft, Nat.and_two_pow]
  cases b.testBit k <;> simp

theorem bw_get {c : BW} (hc : c.WF) {x y : Nat} (hx : x < c.width) (hy : y < c.height) :
    c.get x y = .ok ((c.data[y * bytesPerRow c.width + x / 8]'(bw_idx hc hx hy)).testBit (7 - x % 8)).toNat := by
  obtain ⟨e1, e2⟩ := @bw_bit c x y
  have hi := bw_idx hc hx hy
  simp only [BW.get, e1, e2, bind, Except.bind, pyIndex_nat _ _ _ (List.getElem?_eq_getElem hi), pure, Except.pure,
    and_shift]
  cases (c.data[y * bytesPerRow c.width + x / 8]'hi).testBit (7 - x % 8) <;> simp

/-- The byte after writing a bit. -/
def setBit (b k : Nat) (v : Bool) : Nat := if v then b ||| 1 <<< k else Nat.ldiff b (1 <<< k)

theorem setBit_testBit (b k j : Nat) (v : Bool) :
    (setBit b k v).testBit j = if j = k then v else b.testBit j := by
  unfold setBit
  cases v
  · simp only [Bool.false_eq_true, if_false, Nat.testBit_ldiff, Nat.one_shiftLeft, Nat.testBit_two_pow]
    by_cases h : j = k
    · subst h; simp
    · have : ¬ k = j := fun e => h e.symm
      simp [h, this]
  · simp only [if_true, Nat.testBit_or, Nat.one_shiftLeft, Nat.testBit_two_pow]
    by_cases h : j = k
    · subst h; simp
    · have : ¬ k = j := fun e => h e.symm
      simp [h, this]

theorem setBit_lt {b k : Nat} (hb : b < 256) (hk : k < 8) (v : Bool) : setBit b k v < 256 := by
  have : setBit b k v < 2 ^ 8 := by
    apply Nat.lt_pow_two_of_testBit
    intro i hi
    rw [setBit_testBit, if_neg (by omega)]
    apply Nat.testBit_lt_two_pow
    calc b < 2 ^ 8 := hb
      _ ≤ 2 ^ i := Nat.pow_le_pow_right (by omega) hi
  exact this

theorem bw_set {c : BW} (hc : c.WF) {x y : Nat} (hx : x < c.width) (hy : y < c.height) (v : Bool) :
    c.set x y v = .ok ⟨c.width, c.height, c.data.set (y * bytesPerRow c.width + x / 8)
      (setBit (c.data[y * bytesPerRow c.width + x / 8]'(bw_idx hc hx hy)) (7 - x % 8) v)⟩ := by
  obtain ⟨e1, e2⟩ := @bw_bit c x y
  have hi := bw_idx hc hx hy
  simp only [BW.set, e1, e2, bind, Except.bind, pyIndex_nat _ _ _ (List.getElem?_eq_getElem hi), pySetItem_nat _ _ _ hi]
  rfl

theorem bw_set_spec {c : BW} (hc : c.WF) {x y : Int} (hxy : OnCanvas c.width c.height x y) (v : Bool) :
    ∃ c', c.set x y v = .ok c' ∧ c'.WF ∧ c'.width = c.width ∧ c'.height = c.height ∧ c'.get x y = .ok v.toNat ∧
      ∀ x' y', OnCanvas c.width c.height x' y' → (x', y') ≠ (x, y) → c'.get x' y' = c.get x' y' := by
  obtain ⟨a, b, rfl, rfl, hx, hy⟩ := onCanvas_nat hxy
  have hi := bw_idx hc hx hy
  have hwf : (BW.mk c.width c.height (c.data.set (b * bytesPerRow c.width + a / 8)
      (setBit (c.data[b * bytesPerRow c.width + a / 8]'hi) (7 - a % 8) v))).WF := by
    constructor
    · simpa using hc.len
    · intro q hq
      rcases List.mem_or_eq_of_mem_set hq with h | h
      · exact hc.byte q h
      · rw [h]; exact setBit_lt (hc.byte _ (List.getElem_mem _)) (by omega) v
  refine ⟨_, bw_set hc hx hy v, hwf, rfl, rfl, ?_, ?_⟩
  · rw [bw_get hwf hx hy]
    simp only [List.getElem_set_self, setBit_testBit, if_true]
  · intro x' y' hc' hne
    obtain ⟨a', b', rfl, rfl, hx', hy'⟩ := onCanvas_nat hc'
    rw [bw_get hwf hx' hy', bw_get hc hx' hy']
    simp only [List.getElem_set]
    split
    · rename_i heq
      rw [setBit_testBit]
      obtain ⟨h1, h2⟩ := idx_inj (w := bytesPerRow c.width) (by have := bw_col hx; omega) (by have := bw_col hx'; omega) heq
      rw [if_neg]
      · simp only [heq]
      · intro h3
        apply hne
        have : a' = a := by omega
        rw [this, h2]
    · rfl

theorem bw_writes {c : BW} (hc : c.WF) (ws : List ((Int × Int) × Bool))
    (hws : ∀ w ∈ ws, OnCanvas c.width c.height w.1.1 w.1.2) :
    ∃ c', c.writes ws = .ok c' ∧ c'.WF ∧ c'.width = c.width ∧ c'.height = c.height ∧
      ∀ x y v, OnCanvas c.width c.height x y → c.get x y = .ok v →
        c'.get x y = .ok (cellAfter (fun _ (w : Bool) => w.toNat) v ws (x, y)) := by
  induction ws generalizing c with
  | nil => exact ⟨c, rfl, hc, rfl, rfl, fun x y v _ h => h⟩
  | cons w ws ih =>
    obtain ⟨⟨a, b⟩, v⟩ := w
    obtain ⟨c1, h1, hw1, e1, e2, hself, hother⟩ := bw_set_spec hc (hws ((a, b), v) (by simp)) v
    obtain ⟨c2, h2, hw2, e3, e4, hr⟩ := ih hw1 (fun w hw => by rw [e1, e2]; exact hws w (by simp [hw]))
    refine ⟨c2, ?_, hw2, e3.trans e1, e4.trans e2, ?_⟩
    · simp only [BW.writes, List.foldlM_cons, h1, bind, Except.bind]
      exact h2
    · intro x y u hon hu
      rw [cellAfter_cons]
      split
      · rename_i heq
        simp only [Prod.mk.injEq] at heq
        obtain ⟨rfl, rfl⟩ := heq
        exact hr _ _ _ (by rw [e1, e2]; exact hon) hself
      · rename_i hne
        apply hr _ _ _ (by rw [e1, e2]; exact hon)
        rw [hother x y hon (fun e => hne e.symm)]
        exact hu

theorem bw_init {w h : Nat} {bg : Int} {c : BW} (hi : BW.init w h bg = .ok c) :
    c.WF ∧ c.width = w ∧ c.height = h ∧ c.data = List.replicate (bytesPerRow w * h) bg.toNat := by
  simp only [BW.init, Py.bind_ok] at hi
  obtain ⟨data, hd, he⟩ := hi
  injection he with he
  subst he
  obtain ⟨e, hb⟩ := mapM_byteOf_replicate hd
  refine ⟨⟨by simp [e], ?_⟩, rfl, rfl, e⟩
  intro b hb'
  simp only [e, List.mem_replicate] at hb'
  have := hb (by omega)
  omega

theorem byteOf_replicate {n : Nat} {v : Int} (h0 : 0 ≤ v) (h1 : v < 256) :
    (List.replicate n v).mapM byteOf = .ok (List.replicate n v.toNat) := by
  rw [mapM_byteOf]
  induction n with
  | zero => simp
  | succ n ih => rw [List.replicate_succ, List.replicate_succ]; exact .cons ⟨by omega, by omega⟩ ih

theorem bw_init_ok (w h : Nat) {bg : Int} (h0 : 0 ≤ bg) (h1 : bg < 256) : ∃ c, BW.init w h bg = .ok c := by
  simp only [BW.init, byteOf_replicate h0 h1, bind, Except.bind]
  exact ⟨_, rfl⟩

theorem bw_init_get {w h : Nat} {bg : Int} {c : BW} (hi : BW.init w h bg = .ok c) {x y : Nat} (hx : x < w) (hy : y < h) :
    c.get x y = .ok (bg.toNat.testBit (7 - x % 8)).toNat := by
  obtain ⟨hwf, rfl, rfl, hd⟩ := bw_init hi
  rw [bw_get hwf hx hy]
  simp [hd]

/-! ### Gray -/

theorem gray_idx {c : Gray} (hc : c.WF) {x y : Nat} (hx : x < c.width) (hy : y < c.height) :
    y * c.width + x < c.data.length := by rw [hc.len]; exact idx_lt hx hy

theorem gray_get {c : Gray} (hc : c.WF) {x y : Nat} (hx : x < c.width) (hy : y < c.height) :
    c.get x y = .ok (c.data[y * c.width + x]'(gray_idx hc hx hy)) := by
  have := pyIndex_nat c.data (y * c.width + x) _ (List.getElem?_eq_getElem (gray_idx hc hx hy))
  simpa [Gray.get] using this

section
variable {K : Type} [Field K] [LinearOrder K] [IsStrictOrderedRing K] [FloorRing K]

/-- Alpha blending, for values and alpha in range. -/
theorem mix_bounds {bg fg a : K} (ha : 0 ≤ a) (ha1 : a ≤ 1) {lo hi : Int} (h1 : (lo : K) ≤ bg) (h2 : bg ≤ hi)
    (h3 : (lo : K) ≤ fg) (h4 : fg ≤ hi) : lo ≤ Mix bg fg a ∧ Mix bg fg a ≤ hi := by
  unfold Mix
  have e : bg + (fg - bg) * a = bg * (1 - a) + fg * a := by ring
  have hl : (lo : K) ≤ bg + (fg - bg) * a := by
    rw [e]; nlinarith [mul_le_mul_of_nonneg_right h1 (sub_nonneg.mpr ha1), mul_le_mul_of_nonneg_right h3 ha]
  have hh : bg + (fg - bg) * a ≤ hi := by
    rw [e]; nlinarith [mul_le_mul_of_nonneg_right h2 (sub_nonneg.mpr ha1), mul_le_mul_of_nonneg_right h4 ha]
  constructor
  · rw [Int.le_floor]; linarith
  · have : ⌊bg + (fg - bg) * a + 1 / 2⌋ < hi + 1 := by
      rw [Int.floor_lt]; push_cast; linarith
    omega

theorem blend_eq_mix {bg fg a : K} (hbg : 0 ≤ bg) (hfg : 0 ≤ fg) (ha : 0 ≤ a) (ha1 : a ≤ 1) :
    blend bg fg a = Mix bg fg a := by
  have e : bg * (1 - a) + fg * a + 1 / 2 = bg + (fg - bg) * a + 1 / 2 := by ring
  have : 0 ≤ bg + (fg - bg) * a + 1 / 2 := by
    rw [← e]
    have := mul_nonneg hbg (sub_nonneg.mpr ha1)
    have := mul_nonneg hfg ha
    linarith
  unfold blend Mix pyTrunc
  rw [e, if_pos this]

theorem grayVal_over_lt {bg : Nat} (hb : bg < 256) {v : GrayVal K} (hv : v.Valid) : v.over bg < 256 := by
  cases v with
  | v v => simp only [GrayVal.Valid] at hv; simp only [GrayVal.over]; omega
  | va fg a =>
    obtain ⟨h1, h2, h3, h4⟩ := hv
    have := (mix_bounds (bg := (bg : K)) (fg := fg) h3 h4 (lo := 0) (hi := 255) (by simp)
      (by have : bg ≤ 255 := by omega
          exact_mod_cast this) (by simpa using h1) (by simpa using h2)).2
    simp only [GrayVal.over]
    omega

theorem gray_set {c : Gray} (hc : c.WF) {x y : Nat} (hx : x < c.width) (hy : y < c.height) {v : GrayVal K} (hv : v.Valid) :
    c.set x y v = .ok ⟨c.width, c.height, c.data.set (y * c.width + x)
      (v.over (c.data[y * c.width + x]'(gray_idx hc hx hy)))⟩ := by
  have hi := gray_idx hc hx hy
  have hb := hc.byte _ (List.getElem_mem hi)
  have hlt := grayVal_over_lt hb hv
  have e : (y : Int) * c.width + x = ((y * c.width + x : Nat) : Int) := by push_cast; ring
  have hn : c.newValue ((y * c.width + x : Nat) : Int) v = .ok ((v.over (c.data[y * c.width + x]'hi) : Nat) : Int) := by
    cases v with
    | v v =>
      simp only [GrayVal.Valid] at hv
      simp only [Gray.newValue, GrayVal.over]
      rw [Int.toNat_of_nonneg hv.1]
    | va fg a =>
      obtain ⟨h1, h2, h3, h4⟩ := hv
      simp only [Gray.newValue, pyIndex_nat _ _ _ (List.getElem?_eq_getElem hi), bind, Except.bind, pure, Except.pure,
        GrayVal.over]
      rw [blend_eq_mix (by positivity) h1 h3 h4]
      have := (mix_bounds (bg := ((c.data[y * c.width + x]'hi : Nat) : K)) (fg := fg) h3 h4 (lo := 0) (hi := 255) (by simp)
        (by have : c.data[y * c.width + x]'hi ≤ 255 := by omega
            exact_mod_cast this) (by simpa using h1) (by simpa using h2)).1
      rw [Int.toNat_of_nonneg this]
  simp only [Gray.set, e, hn, bind, Except.bind, byteOf_nat hlt, pySetItem_nat _ _ _ hi]
  rfl

theorem gray_set_spec {c : Gray} (hc : c.WF) {x y : Int} (hxy : OnCanvas c.width c.height x y) {v : GrayVal K} (hv : v.Valid) :
    ∃ c', c.set x y v = .ok c' ∧ c'.WF ∧ c'.width = c.width ∧ c'.height = c.height ∧
      (∀ u, c.get x y = .ok u → c'.get x y = .ok (v.over u)) ∧
      ∀ x' y', OnCanvas c.width c.height x' y' → (x', y') ≠ (x, y) → c'.get x' y' = c.get x' y' := by
  obtain ⟨a, b, rfl, rfl, hx, hy⟩ := onCanvas_nat hxy
  have hi := gray_idx hc hx hy
  have hwf : (Gray.mk c.width c.height (c.data.set (b * c.width + a) (v.over (c.data[b * c.width + a]'hi)))).WF := by
    constructor
    · simpa using hc.len
    · intro q hq
      rcases List.mem_or_eq_of_mem_set hq with h | h
      · exact hc.byte q h
      · rw [h]; exact grayVal_over_lt (hc.byte _ (List.getElem_mem _)) hv
  refine ⟨_, gray_set hc hx hy hv, hwf, rfl, rfl, ?_, ?_⟩
  · intro u hu
    rw [gray_get hc hx hy] at hu
    injection hu with hu
    rw [gray_get hwf hx hy]
    simp only [List.getElem_set_self, hu]
  · intro x' y' hc' hne
    obtain ⟨a', b', rfl, rfl, hx', hy'⟩ := onCanvas_nat hc'
    rw [gray_get hwf hx' hy', gray_get hc hx' hy']
    simp only [List.getElem_set]
    split
    · rename_i heq
      obtain ⟨h1, h2⟩ := idx_inj hx hx' heq
      exact absurd (by rw [h1, h2]) hne
    · rfl

theorem gray_writes {c : Gray} (hc : c.WF) (ws : List ((Int × Int) × GrayVal K))
    (hws : ∀ w ∈ ws, OnCanvas c.width c.height w.1.1 w.1.2 ∧ w.2.Valid) :
    ∃ c', c.writes ws = .ok c' ∧ c'.WF ∧ c'.width = c.width ∧ c'.height = c.height ∧
      ∀ x y v, OnCanvas c.width c.height x y → c.get x y = .ok v →
        c'.get x y = .ok (cellAfter GrayVal.over v ws (x, y)) := by
  induction ws generalizing c with
  | nil => exact ⟨c, rfl, hc, rfl, rfl, fun x y v _ h => h⟩
  | cons w ws ih =>
    obtain ⟨⟨a, b⟩, v⟩ := w
    have h0 := hws ((a, b), v) (by simp)
    obtain ⟨c1, h1, hw1, e1, e2, hself, hother⟩ := gray_set_spec hc h0.1 h0.2
    obtain ⟨c2, h2, hw2, e3, e4, hr⟩ := ih hw1 (fun w hw => by rw [e1, e2]; exact hws w (by simp [hw]))
    refine ⟨c2, ?_, hw2, e3.trans e1, e4.trans e2, ?_⟩
    · simp only [Gray.writes, List.foldlM_cons, h1, bind, Except.bind]
      exact h2
    · intro x y u hon hu
      rw [cellAfter_cons]
      split
      · rename_i heq
        simp only [Prod.mk.injEq] at heq
        obtain ⟨rfl, rfl⟩ := heq
        exact hr _ _ _ (by rw [e1, e2]; exact hon) (hself u hu)
      · rename_i hne
        apply hr _ _ _ (by rw [e1, e2]; exact hon)
        rw [hother x y hon (fun e => hne e.symm)]
        exact hu

end

theorem gray_init {w h : Nat} {bg : Int} {c : Gray} (hi : Gray.init w h bg = .ok c) :
    c.WF ∧ c.width = w ∧ c.height = h ∧ c.data = List.replicate (w * h) bg.toNat ∧ (0 < w * h → 0 ≤ bg ∧ bg < 256) := by
  simp only [Gray.init, Py.bind_ok] at hi
  obtain ⟨data, hd, he⟩ := hi
  injection he with he
  subst he
  obtain ⟨e, hb⟩ := mapM_byteOf_replicate hd
  refine ⟨⟨by simp [e], ?_⟩, rfl, rfl, e, hb⟩
  intro b hb'
  simp only [e, List.mem_replicate] at hb'
  have := hb (by omega)
  omega

theorem gray_init_get {w h : Nat} {bg : Int} {c : Gray} (hi : Gray.init w h bg = .ok c) {x y : Nat} (hx : x < w) (hy : y < h) :
    ∃ v : Nat, c.get x y = .ok v ∧ (v : Int) = bg := by
  obtain ⟨hwf, rfl, rfl, hd, hb⟩ := gray_init hi
  refine ⟨bg.toNat, ?_, ?_⟩
  · rw [gray_get hwf hx hy]
    simp [hd]
  · have := hb (Nat.mul_pos (by omega) (by omega))
    omega

theorem gray_init_ok (w h : Nat) {bg : Int} (h0 : 0 ≤ bg) (h1 : bg < 256) : ∃ c, Gray.init w h bg = .ok c := by
  simp only [Gray.init, byteOf_replicate h0 h1, bind, Except.bind]
  exact ⟨_, rfl⟩

/-! ### Colour -/

theorem colour_idx {c : Colour} (hc : c.WF) {x y : Nat} (hx : x < c.width) (hy : y < c.height) :
    3 * (y * c.width + x) + 3 ≤ c.data.length := by
  rw [hc.len]; have := idx_lt hx hy; omega

theorem sliceBound_nat {n i : Nat} (h : i ≤ n) : sliceBound n (i : Int) = i := by
  unfold sliceBound; rw [if_neg (by omega)]; omega

theorem take3 {α : Type} (l : List α) (i : Nat) (h : i + 3 ≤ l.length) :
    (l.drop i).take 3 = [l[i]'(by omega), l[i + 1]'(by omega), l[i + 2]'(by omega)] := by
  apply List.ext_getElem
  · simp; omega
  · intro k h1 h2
    simp only [List.length_cons, List.length_nil] at h2
    have : k = 0 ∨ k = 1 ∨ k = 2 := by omega
    rcases this with rfl | rfl | rfl <;> simp

theorem colour_get {c : Colour} (hc : c.WF) {x y : Nat} (hx : x < c.width) (hy : y < c.height) :
    c.get x y = .ok (c.data[3 * (y * c.width + x)]'(by have := colour_idx hc hx hy; omega),
      c.data[3 * (y * c.width + x) + 1]'(by have := colour_idx hc hx hy; omega),
      c.data[3 * (y * c.width + x) + 2]'(by have := colour_idx hc hx hy; omega)) := by
  have hi := colour_idx hc hx hy
  have e : (3 * ((y : Int) * c.width + x)) = ((3 * (y * c.width + x) : Nat) : Int) := by push_cast; ring
  have e' : ((3 * (y * c.width + x) : Nat) : Int) + 3 = ((3 * (y * c.width + x) + 3 : Nat) : Int) := by push_cast; ring
  simp only [Colour.get, e, e', pySlice]
  rw [sliceBound_nat (by omega), sliceBound_nat (by omega), show 3 * (y * c.width + x) + 3 - 3 * (y * c.width + x) = 3 by omega,
    take3 _ _ hi]
  rfl

theorem getElem?_setSlice3 {α : Type} (l new : List α) (i j : Nat) (h : i + 3 ≤ l.length) (hn : new.length = 3) :
    (l.take i ++ (new ++ l.drop (i + 3)))[j]? = if i ≤ j ∧ j < i + 3 then new[j - i]? else l[j]? := by
  have hl : (l.take i).length = i := by simp; omega
  rcases lt_or_ge j i with h1 | h1
  · rw [List.getElem?_append_left (by omega), List.getElem?_take, if_pos h1, if_neg (by omega)]
  · rw [List.getElem?_append_right (by omega), hl]
    rcases lt_or_ge j (i + 3) with h2 | h2
    · rw [List.getElem?_append_left (by omega), if_pos ⟨h1, h2⟩]
    · rw [List.getElem?_append_right (by omega), hn, List.getElem?_drop, if_neg (by omega)]
      congr 1; omega

theorem length_setSlice3 {α : Type} (l new : List α) (i : Nat) (h : i + 3 ≤ l.length) (hn : new.length = 3) :
    (l.take i ++ (new ++ l.drop (i + 3))).length = l.length := by
  simp only [List.length_append, List.length_take, List.length_drop, hn]
  omega

section
variable {K : Type} [Field K] [LinearOrder K] [IsStrictOrderedRing K] [FloorRing K]

theorem mix_byte {bg : Nat} (hb : bg < 256) {fg a : K} (h1 : 0 ≤ fg) (h2 : fg ≤ 255) (h3 : 0 ≤ a) (h4 : a ≤ 1) :
    ∃ n : Nat, Mix (bg : K) fg a = n ∧ blend (bg : K) fg a = n ∧ n < 256 := by
  have := mix_bounds (bg := (bg : K)) (fg := fg) h3 h4 (lo := 0) (hi := 255) (by simp)
        (by have : bg ≤ 255 := by omega
            exact_mod_cast this) (by simpa using h1) (by simpa using h2)
  refine ⟨(Mix (bg : K) fg a).toNat, by omega, ?_, by omega⟩
  rw [blend_eq_mix (by positivity) h1 h3 h4]
  omega

theorem colour_set {c : Colour} (hc : c.WF) {x y : Nat} (hx : x < c.width) (hy : y < c.height) {v : ColourVal K}
    (hv : v.Valid) {u : Nat × Nat × Nat} (hu : c.get x y = .ok u) :
    c.set x y v = .ok ⟨c.width, c.height, c.data.take (3 * (y * c.width + x)) ++
      ([(v.over u).1, (v.over u).2.1, (v.over u).2.2] ++ c.data.drop (3 * (y * c.width + x) + 3))⟩ ∧
    (v.over u).1 < 256 ∧ (v.over u).2.1 < 256 ∧ (v.over u).2.2 < 256 := by
  have hi := colour_idx hc hx hy
  have e : (3 * ((y : Int) * c.width + x)) = ((3 * (y * c.width + x) : Nat) : Int) := by push_cast; ring
  have e' : ((3 * (y * c.width + x) : Nat) : Int) + 3 = ((3 * (y * c.width + x) + 3 : Nat) : Int) := by push_cast; ring
  have hsl : pySlice c.data ((3 * (y * c.width + x) : Nat) : Int) ((3 * (y * c.width + x) : Nat) + 3 : Int) =
      [c.data[3 * (y * c.width + x)]'(by omega), c.data[3 * (y * c.width + x) + 1]'(by omega),
      c.data[3 * (y * c.width + x) + 2]'(by omega)] := by
    rw [e', pySlice, sliceBound_nat (by omega), sliceBound_nat (by omega),
      show 3 * (y * c.width + x) + 3 - 3 * (y * c.width + x) = 3 by omega, take3 _ _ hi]
  rw [colour_get hc hx hy] at hu
  injection hu with hu
  have hb0 := hc.byte _ (List.getElem_mem (show 3 * (y * c.width + x) < c.data.length by omega))
  have hb1 := hc.byte _ (List.getElem_mem (show 3 * (y * c.width + x) + 1 < c.data.length by omega))
  have hb2 := hc.byte _ (List.getElem_mem (show 3 * (y * c.width + x) + 2 < c.data.length by omega))
  have hset : ∀ new : List Nat, pySetSlice c.data ((3 * (y * c.width + x) : Nat) : Int) ((3 * (y * c.width + x) : Nat) + 3 : Int) new =
      c.data.take (3 * (y * c.width + x)) ++ (new ++ c.data.drop (3 * (y * c.width + x) + 3)) := by
    intro new
    rw [e', pySetSlice, sliceBound_nat (by omega), sliceBound_nat (by omega)]
    simp only [show max (3 * (y * c.width + x)) (3 * (y * c.width + x) + 3) = 3 * (y * c.width + x) + 3 by omega]
  cases v with
  | plain l =>
    obtain ⟨hl, hv⟩ := hv
    match l, hl with
    | [r, g, b], _ =>
      simp only [List.mem_cons, List.not_mem_nil, or_false, forall_eq_or_imp, forall_eq] at hv
      obtain ⟨h1, h2, h3⟩ := hv
      have hbs : [r, g, b].mapM byteOf = .ok [r.toNat, g.toNat, b.toNat] := by
        rw [mapM_byteOf]
        exact .cons ⟨by omega, by omega⟩ (.cons ⟨by omega, by omega⟩ (.cons ⟨by omega, by omega⟩ .nil))
      refine ⟨?_, ?_⟩
      · simp only [Colour.set, e, Colour.newValue, hbs, bind, Except.bind, hset]
        rfl
      · simp only [ColourVal.over, List.getD_cons_zero, List.getD_cons_succ]
        omega
  | rgba r g b a =>
    obtain ⟨⟨r1, r2⟩, ⟨g1, g2⟩, ⟨b1, b2⟩, a1, a2⟩ := hv
    subst hu
    obtain ⟨nr, mr, br, lr⟩ := mix_byte hb0 r1 r2 a1 a2
    obtain ⟨ng, mg, bg, lg⟩ := mix_byte hb1 g1 g2 a1 a2
    obtain ⟨nb, mb, bb, lb⟩ := mix_byte hb2 b1 b2 a1 a2
    have hbs : [(nr : Int), (ng : Int), (nb : Int)].mapM byteOf = .ok [nr, ng, nb] := by
      rw [mapM_byteOf]
      exact .cons ⟨rfl, lr⟩ (.cons ⟨rfl, lg⟩ (.cons ⟨rfl, lb⟩ .nil))
    refine ⟨?_, ?_⟩
    · simp only [Colour.set, e, Colour.newValue, hsl, unpack3, br, bg, bb, bind, Except.bind, pure, Except.pure, hbs, hset,
        ColourVal.over, mr, mg, mb, Int.toNat_natCast]
    · simp only [ColourVal.over, mr, mg, mb, Int.toNat_natCast]
      exact ⟨lr, lg, lb⟩

theorem colour_get_iff {c : Colour} (hc : c.WF) {x y : Nat} (hx : x < c.width) (hy : y < c.height) (p : Nat × Nat × Nat) :
    c.get x y = .ok p ↔ c.data[3 * (y * c.width + x)]? = some p.1 ∧ c.data[3 * (y * c.width + x) + 1]? = some p.2.1 ∧
      c.data[3 * (y * c.width + x) + 2]? = some p.2.2 := by
  have hi := colour_idx hc hx hy
  rw [colour_get hc hx hy, List.getElem?_eq_getElem (by omega), List.getElem?_eq_getElem (by omega),
    List.getElem?_eq_getElem (by omega)]
  obtain ⟨p1, p2, p3⟩ := p
  simp

theorem colour_set_spec {c : Colour} (hc : c.WF) {x y : Int} (hxy : OnCanvas c.width c.height x y) {v : ColourVal K}
    (hv : v.Valid) :
    ∃ c', c.set x y v = .ok c' ∧ c'.WF ∧ c'.width = c.width ∧ c'.height = c.height ∧
      (∀ u, c.get x y = .ok u → c'.get x y = .ok (v.over u)) ∧
      ∀ x' y', OnCanvas c.width c.height x' y' → (x', y') ≠ (x, y) → c'.get x' y' = c.get x' y' := by
  obtain ⟨a, b, rfl, rfl, hx, hy⟩ := onCanvas_nat hxy
  have hi := colour_idx hc hx hy
  obtain ⟨hset, h1, h2, h3⟩ := colour_set hc hx hy hv (colour_get hc hx hy)
  generalize hu : (c.data[3 * (b * c.width + a)]'(by omega), c.data[3 * (b * c.width + a) + 1]'(by omega),
      c.data[3 * (b * c.width + a) + 2]'(by omega)) = u at hset h1 h2 h3
  generalize hd : c.data.take (3 * (b * c.width + a)) ++
      ([(v.over u).1, (v.over u).2.1, (v.over u).2.2] ++ c.data.drop (3 * (b * c.width + a) + 3)) = d at hset
  have hget : ∀ j, d[j]? = if 3 * (b * c.width + a) ≤ j ∧ j < 3 * (b * c.width + a) + 3 then
      [(v.over u).1, (v.over u).2.1, (v.over u).2.2][j - 3 * (b * c.width + a)]? else c.data[j]? := by
    intro j; rw [← hd]; exact getElem?_setSlice3 _ _ _ _ hi rfl
  have hwf : (Colour.mk c.width c.height d).WF := by
    constructor
    · rw [← hd]; exact (length_setSlice3 _ _ _ hi rfl).trans hc.len
    · intro q hq
      simp only [← hd, List.mem_append, List.mem_cons, List.not_mem_nil, or_false] at hq
      rcases hq with hq | (rfl | rfl | rfl) | hq
      · exact hc.byte q (List.mem_of_mem_take hq)
      · exact h1
      · exact h2
      · exact h3
      · exact hc.byte q (List.mem_of_mem_drop hq)
  refine ⟨_, hset, hwf, rfl, rfl, ?_, ?_⟩
  · intro u' hu'
    rw [colour_get hc hx hy, hu] at hu'
    injection hu' with hu'
    subst hu'
    rw [colour_get_iff hwf hx hy]
    simp only [hget]
    refine ⟨?_, ?_, ?_⟩
    · rw [if_pos (by omega)]; simp
    · rw [if_pos (by omega)]; simp
    · rw [if_pos (by omega)]; simp
  · intro x' y' hc' hne
    obtain ⟨a', b', rfl, rfl, hx', hy'⟩ := onCanvas_nat hc'
    have hne' : b * c.width + a ≠ b' * c.width + a' := by
      intro heq
      obtain ⟨h1, h2⟩ := idx_inj hx hx' heq
      exact hne (by rw [h1, h2])
    rw [colour_get hc hx' hy', colour_get_iff hwf hx' hy']
    have hi' := colour_idx hc hx' hy'
    simp only [hget]
    refine ⟨?_, ?_, ?_⟩
    · rw [if_neg (by omega)]; exact List.getElem?_eq_getElem (by omega)
    · rw [if_neg (by omega)]; exact List.getElem?_eq_getElem (by omega)
    · rw [if_neg (by omega)]; exact List.getElem?_eq_getElem (by omega)

theorem colour_writes {c : Colour} (hc : c.WF) (ws : List ((Int × Int) × ColourVal K))
    (hws : ∀ w ∈ ws, OnCanvas c.width c.height w.1.1 w.1.2 ∧ w.2.Valid) :
    ∃ c', c.writes ws = .ok c' ∧ c'.WF ∧ c'.width = c.width ∧ c'.height = c.height ∧
      ∀ x y v, OnCanvas c.width c.height x y → c.get x y = .ok v →
        c'.get x y = .ok (cellAfter ColourVal.over v ws (x, y)) := by
  induction ws generalizing c with
  | nil => exact ⟨c, rfl, hc, rfl, rfl, fun x y v _ h => h⟩
  | cons w ws ih =>
    obtain ⟨⟨a, b⟩, v⟩ := w
    have h0 := hws ((a, b), v) (by simp)
    obtain ⟨c1, h1, hw1, e1, e2, hself, hother⟩ := colour_set_spec hc h0.1 h0.2
    obtain ⟨c2, h2, hw2, e3, e4, hr⟩ := ih hw1 (fun w hw => by rw [e1, e2]; exact hws w (by simp [hw]))
    refine ⟨c2, ?_, hw2, e3.trans e1, e4.trans e2, ?_⟩
    · simp only [Colour.writes, List.foldlM_cons, h1, bind, Except.bind]
      exact h2
    · intro x y u hon hu
      rw [cellAfter_cons]
      split
      · rename_i heq
        simp only [Prod.mk.injEq] at heq
        obtain ⟨rfl, rfl⟩ := heq
        exact hr _ _ _ (by rw [e1, e2]; exact hon) (hself u hu)
      · rename_i hne
        apply hr _ _ _ (by rw [e1, e2]; exact hon)
        rw [hother x y hon (fun e => hne e.symm)]
        exact hu

end

theorem fill3_getElem? {α : Type} (a b c : α) (n k : Nat) (h : k < n) :
    (List.replicate n [a, b, c]).flatten[3 * k]? = some a ∧ (List.replicate n [a, b, c]).flatten[3 * k + 1]? = some b ∧
      (List.replicate n [a, b, c]).flatten[3 * k + 2]? = some c := by
  induction n generalizing k with
  | zero => omega
  | succ n ih =>
    rw [List.replicate_succ, List.flatten_cons]
    cases k with
    | zero => simp
    | succ k =>
      have := ih k (by omega)
      simpa [show 3 * (k + 1) = 3 * k + 3 by ring] using this

theorem colour_init3 {w h : Nat} {r g b : Int} (hr : 0 ≤ r ∧ r < 256) (hg : 0 ≤ g ∧ g < 256) (hb : 0 ≤ b ∧ b < 256) :
    Colour.init w h [r, g, b] =
      .ok ⟨w, h, (List.replicate (w * h) [r.toNat, g.toNat, b.toNat]).flatten⟩ := by
  have : (fillColor [r, g, b] (w * h)).mapM byteOf = .ok (List.replicate (w * h) [r.toNat, g.toNat, b.toNat]).flatten := by
    rw [mapM_byteOf]
    unfold fillColor
    induction w * h with
    | zero => simp
    | succ n ih =>
      rw [List.replicate_succ, List.replicate_succ, List.flatten_cons, List.flatten_cons]
      refine .cons ⟨by omega, by omega⟩ (.cons ⟨by omega, by omega⟩ (.cons ⟨by omega, by omega⟩ ih))
  simp only [Colour.init, this, bind, Except.bind]
  rfl

theorem flatten3_length {α : Type} (a b c : α) (n : Nat) : (List.replicate n [a, b, c]).flatten.length = 3 * n := by
  induction n with
  | zero => rfl
  | succ n ih => rw [List.replicate_succ, List.flatten_cons, List.length_append, ih]; simp; omega

theorem colour_init3_wf {w h : Nat} {r g b : Int} (hr : 0 ≤ r ∧ r < 256) (hg : 0 ≤ g ∧ g < 256) (hb : 0 ≤ b ∧ b < 256) :
    (Colour.mk w h (List.replicate (w * h) [r.toNat, g.toNat, b.toNat]).flatten).WF := by
  constructor
  · exact flatten3_length _ _ _ _
  · intro q hq
    simp only [List.mem_flatten, List.mem_replicate] at hq
    obtain ⟨l, ⟨_, rfl⟩, hq⟩ := hq
    simp only [List.mem_cons, List.not_mem_nil, or_false] at hq
    omega

theorem colour_init3_get {w h : Nat} {r g b : Int} (hr : 0 ≤ r ∧ r < 256) (hg : 0 ≤ g ∧ g < 256) (hb : 0 ≤ b ∧ b < 256)
    {x y : Nat} (hx : x < w) (hy : y < h) :
    (Colour.mk w h (List.replicate (w * h) [r.toNat, g.toNat, b.toNat]).flatten).get x y = .ok (r.toNat, g.toNat, b.toNat) := by
  rw [colour_get_iff (colour_init3_wf hr hg hb) hx hy]
  exact fill3_getElem? _ _ _ _ _ (idx_lt hx hy)

/-! ### Files -/

theorem decimal_isDecimal (n : Nat) : IsDecimal n (decimal n) := by
  induction n using Nat.strongRecOn with
  | _ n ih =>
    rw [decimal]
    split
    · rename_i h
      refine ⟨by simp, ?_, ?_, ?_⟩
      · intro d hd; simp only [List.mem_singleton] at hd; omega
      · intro hd
        simp only [List.head?_cons, Option.some.injEq] at hd
        simp [hd]
      · simp [decValue]
    · rename_i h
      obtain ⟨h1, h2, h3, h4⟩ := ih (n / 10) (by omega)
      refine ⟨by simp, ?_, ?_, ?_⟩
      · intro d hd
        simp only [List.mem_append, List.mem_singleton] at hd
        rcases hd with hd | hd
        · exact h2 d hd
        · omega
      · intro hd
        exfalso
        rw [List.head?_append_of_ne_nil _ h1] at hd
        have := h3 hd
        rw [this] at h4
        simp [decValue] at h4
        omega
      · simp only [decValue, List.foldl_append, List.foldl_cons, List.foldl_nil] at h4 ⊢
        rw [h4]
        omega

end Coral
