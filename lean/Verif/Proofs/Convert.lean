import Verif.Model.Convert
import Verif.Spec.Convert
import Verif.Proofs.PF
import Verif.Proofs.Sphere

/-!
# Lemmas on `sf2pf`, on `radiusat` and on the errors of `Writer.close`
-/
set_option linter.unusedSectionVars false
namespace Coral

theorem pySlice_nat {α : Type} (l : List α) {a b : Nat} (h1 : a ≤ b) (h2 : b ≤ l.length) : pySlice l (a : Int) (b : Int) = (l.take b).drop a := by
  have e1 : sliceBound l.length (a : Int) = a := by unfold sliceBound; rw [if_neg (by omega)]; omega
  have e2 : sliceBound l.length (b : Int) = b := by unfold sliceBound; rw [if_neg (by omega)]; omega
  rw [pySlice, e1, e2, List.drop_take]

theorem slices_rings {α : Type} (pre : List α) (rings : List (List α)) (post : Int) (hp : post = ((pre ++ rings.flatten).length : Nat)) :
    (((ringStarts pre.length rings ++ [post]).dropLast.zip (ringStarts pre.length rings ++ [post]).tail).map
      fun ab => pySlice (pre ++ rings.flatten) ab.1 ab.2) = rings := by
  subst hp
  rw [List.dropLast_concat]
  induction rings generalizing pre with
  | nil => simp [ringStarts]
  | cons r rs ih =>
    have := ih (pre ++ r)
    simp only [List.length_append, List.flatten_cons, ← List.append_assoc] at this ⊢
    simp only [ringStarts, List.cons_append, List.tail_cons]
    cases rs with
    | nil =>
      simp only [ringStarts, List.nil_append, List.zip_cons_cons, List.zip_nil_left, List.map_cons, List.map_nil]
      rw [pySlice_nat _ (by omega) (by simp)]
      simp only [List.flatten_nil, List.append_nil, List.length_nil, Nat.add_zero]
      rw [← List.length_append, List.take_length, List.drop_left]
    | cons r2 rs =>
      simp only [ringStarts, List.cons_append, List.tail_cons, List.zip_cons_cons, List.map_cons] at this ⊢
      rw [this]
      congr 1
      have e : ((pre.length + r.length : Nat) : Int) = ((pre.length + r.length : Nat) : Int) := rfl
      rw [pySlice_nat _ (by omega) (by simp)]
      have : (pre ++ r ++ (r2 :: rs).flatten).take (pre.length + r.length) = pre ++ r := by
        rw [← List.length_append, List.take_left]
      rw [this, List.drop_left]

section
variable {K : Type} [Field K] [LinearOrder K] [IsStrictOrderedRing K] [FloorRing K] {R : Type}

theorem shapeParts_rings {α : Type} (rings : List (List α)) : shapeParts rings.flatten (some (ringStarts 0 rings)) = .ok rings := by
  rw [shapeParts]
  congr 1
  exact slices_rings [] rings _ rfl

/-- The shape records of entities made of rings. -/
theorem sf2pfLoop_rings (getname : R → Py (List Nat)) (es : List (R × List Nat × List (List (K × K)))) (hn : ∀ e ∈ es, getname e.1 = .ok e.2.1) (w : PWriter) :
    sf2pfLoop getname w (es.map fun e => ((e.2.2.flatten, some (ringStarts 0 e.2.2)), e.1)) = w.writeAll (es.map Prod.snd) := by
  induction es generalizing w with
  | nil => rfl
  | cons e es ih =>
    obtain ⟨rec, name, rings⟩ := e
    simp only [List.map_cons, sf2pfLoop, PWriter.writeAll, shapeParts_rings, hn _ (List.mem_cons_self ..)]
    change (w.write name rings >>= fun w => sf2pfLoop getname w _) = _
    congr 1
    funext w'
    exact ih (fun e he => hn e (List.mem_cons_of_mem _ he)) w'

end

/-! ### The radius -/

namespace Sph
open Real Proj Spec

theorem radiusat_surface {E : Ellipsoid} (ha : 0 < E.a) (hb : 0 < E.b) {lat x z : ℝ} (h : AtLatitude E.a E.b lat x z) :
    radiusat lat (some E) = .ok √(x ^ 2 + z ^ 2) := by
  obtain ⟨h1, h2⟩ := h
  change x / E.a ^ 2 * sin (rad lat) - z / E.b ^ 2 * cos (rad lat) = 0 at h2
  have hcs := sin_sq_add_cos_sq (rad lat)
  unfold radiusat
  simp only [Option.getD_some]
  generalize cos (rad lat) = c at *
  generalize sin (rad lat) = s at *
  have hD : 0 < E.a ^ 2 * c ^ 2 + E.b ^ 2 * s ^ 2 := by
    by_cases hc : c = 0
    · have : s ^ 2 = 1 := by rw [hc] at hcs; linarith
      rw [hc, this]; positivity
    · have := pow_pos ha 2
      have := mul_pos this (pow_pos (abs_pos.mpr hc) 2)
      rw [sq_abs] at this
      positivity
  set t := x / E.a ^ 2 * c + z / E.b ^ 2 * s with ht
  have hx : x = E.a ^ 2 * (t * c) := by
    have : x / E.a ^ 2 = t * c := by
      have : t * c = x / E.a ^ 2 * (s ^ 2 + c ^ 2) - (x / E.a ^ 2 * s - z / E.b ^ 2 * c) * s := by rw [ht]; ring
      rw [this, hcs, h2]; ring
    rw [← this]; field_simp
  have hz : z = E.b ^ 2 * (t * s) := by
    have : z / E.b ^ 2 = t * s := by
      have : t * s = z / E.b ^ 2 * (s ^ 2 + c ^ 2) + (x / E.a ^ 2 * s - z / E.b ^ 2 * c) * c := by rw [ht]; ring
      rw [this, hcs, h2]; ring
    rw [← this]; field_simp
  have h1' : t ^ 2 * (E.a ^ 2 * c ^ 2 + E.b ^ 2 * s ^ 2) = 1 := by
    rw [← h1, hx, hz]; field_simp
  have hden : E.a * E.a * c * c + E.b * E.b * s * s = E.a ^ 2 * c ^ 2 + E.b ^ 2 * s ^ 2 := by ring
  have hnum : E.a * E.a * (E.a * E.a * c * c) + E.b * E.b * (E.b * E.b * s * s) = (x ^ 2 + z ^ 2) * (E.a ^ 2 * c ^ 2 + E.b ^ 2 * s ^ 2) := by
    have : (x ^ 2 + z ^ 2) * (E.a ^ 2 * c ^ 2 + E.b ^ 2 * s ^ 2) = (E.a ^ 4 * c ^ 2 + E.b ^ 4 * s ^ 2) * (t ^ 2 * (E.a ^ 2 * c ^ 2 + E.b ^ 2 * s ^ 2)) := by
      rw [hx, hz]; ring
    rw [this, h1']; ring
  change (rdiv _ _ >>= fun q => rsqrt q) = _
  rw [hden, hnum, rdiv_ok hD.ne']
  change rsqrt _ = _
  rw [mul_div_assoc, div_self hD.ne', mul_one, rsqrt_ok (by positivity)]

theorem atLatitude_exists {E : Ellipsoid} (ha : 0 < E.a) (hb : 0 < E.b) (lat : ℝ) : ∃ x z, AtLatitude E.a E.b lat x z ∧ 0 ≤ x * cos (rad lat) + z * sin (rad lat) := by
  have hcs := sin_sq_add_cos_sq (rad lat)
  change ∃ x z, (x ^ 2 / E.a ^ 2 + z ^ 2 / E.b ^ 2 = 1 ∧ x / E.a ^ 2 * sin (rad lat) - z / E.b ^ 2 * cos (rad lat) = 0) ∧ _
  generalize cos (rad lat) = c at *
  generalize sin (rad lat) = s at *
  have hD : 0 < E.a ^ 2 * c ^ 2 + E.b ^ 2 * s ^ 2 := by
    by_cases hc : c = 0
    · have : s ^ 2 = 1 := by rw [hc] at hcs; linarith
      rw [hc, this]; positivity
    · have := pow_pos ha 2
      have := mul_pos this (pow_pos (abs_pos.mpr hc) 2)
      rw [sq_abs] at this
      positivity
  have hsq := Real.sq_sqrt hD.le
  have hpos := Real.sqrt_pos.mpr hD
  generalize √(E.a ^ 2 * c ^ 2 + E.b ^ 2 * s ^ 2) = D at *
  refine ⟨E.a ^ 2 * c / D, E.b ^ 2 * s / D, ⟨?_, ?_⟩, ?_⟩
  · have : (E.a ^ 2 * c / D) ^ 2 / E.a ^ 2 + (E.b ^ 2 * s / D) ^ 2 / E.b ^ 2 = (E.a ^ 2 * c ^ 2 + E.b ^ 2 * s ^ 2) / D ^ 2 := by field_simp
    rw [this, hsq, div_self hD.ne']
  · field_simp
    try ring
  · have : E.a ^ 2 * c / D * c + E.b ^ 2 * s / D * s = (E.a ^ 2 * c ^ 2 + E.b ^ 2 * s ^ 2) / D := by field_simp
    rw [this]; positivity

theorem wgs84_pos : 0 < wgs84.a ∧ 0 < wgs84.b ∧ wgs84.b < wgs84.a := by
  norm_num [wgs84]

theorem radiusat_default (lat : ℝ) : radiusat lat none = radiusat lat (some wgs84) := rfl

theorem haversine_default (lon1 lat1 lon2 lat2 : ℝ) : ∃ r, radiusat ((lat1 + lat2) / 2) none = .ok r ∧
    haversine lon1 lat1 lon2 lat2 none = .ok (r * arc lon1 lat1 lon2 lat2) := by
  obtain ⟨x, z, h, -⟩ := atLatitude_exists wgs84_pos.1 wgs84_pos.2.1 ((lat1 + lat2) / 2)
  have hr := radiusat_surface wgs84_pos.1 wgs84_pos.2.1 h
  refine ⟨_, hr, ?_⟩
  rw [← haversine_eq]
  unfold haversine
  change (radiusat _ none >>= _) = _
  rw [radiusat_default, hr]
  rfl

end Sph

/-! ### The errors -/

theorem pointErr_ok (umax : Int) (q : QBox ℝ) (p : ℝ × ℝ) : ∃ e, pointErr umax q p = .ok e := by
  obtain ⟨r, -, h⟩ := Sph.haversine_default p.1 p.2 (storedAs umax q p).1 (storedAs umax q p).2
  exact ⟨_, h⟩

theorem pointErrs_ok (umax : Int) (q : QBox ℝ) (ps : List (ℝ × ℝ)) : ∃ es, ps.mapM (pointErr umax q) = .ok es ∧ es.map Except.ok = ps.map (pointErr umax q) := by
  induction ps with
  | nil => exact ⟨[], rfl, rfl⟩
  | cons p ps ih =>
    obtain ⟨e, he⟩ := pointErr_ok umax q p
    obtain ⟨es, h1, h2⟩ := ih
    refine ⟨e :: es, ?_, by simp [he, h2]⟩
    rw [List.mapM_cons, he, h1]
    rfl

/-- `writeErrs` is `write`, with the errors. -/
theorem writeErrs_ok {w w' : PWriter} {errs errs' : List ℝ} {name : List Nat} {polygons : List (List (ℝ × ℝ))}
    (h : w.writeErrs errs name polygons = .ok (w', errs')) :
    ∃ parts bb bytes, Wrote w w' name polygons parts bb bytes ∧
      errs'.map Except.ok = errs.map Except.ok ++ parts.flatten.map (pointErr w.umax (dequantBox (quantBox bb))) := by
  simp only [PWriter.writeErrs, Res.bind_ok, Res.lift_ok] at h
  obtain ⟨wrapped, h1, parts, h2, bb, h3, h4⟩ := h
  cases bb with
  | none => simp at h4
  | some bb =>
    simp only [Res.bind_ok, Res.lift_ok] at h4
    obtain ⟨bytes, h5, es, h6, h7⟩ := h4
    injection h7 with h7
    obtain ⟨rfl, rfl⟩ := Prod.mk.inj h7
    refine ⟨parts, bb, bytes, ⟨?_, h3, h5, rfl⟩, ?_⟩
    · rw [Res.mapM_ok] at h1
      rw [Py.mapM_ok] at h2
      refine (forall₂_comp h1 h2).imp ?_
      rintro poly ring ⟨m, hm, hr⟩
      rw [Res.mapM_ok] at hm
      exact ⟨m, hm.imp fun _ _ => wrapPoint_wraps, dropClosing_stored hr⟩
    · obtain ⟨es', e1, e2⟩ := pointErrs_ok w.umax (dequantBox (quantBox bb)) parts.flatten
      rw [h6] at e1
      cases e1
      rw [List.map_append, e2]

theorem writeErrs_write (w : PWriter) (errs : List ℝ) (name : List Nat) (polygons : List (List (ℝ × ℝ))) (w' : PWriter) :
    w.write name polygons = .ok w' ↔ ∃ errs', w.writeErrs errs name polygons = .ok (w', errs') := by
  simp only [PWriter.writeErrs, PWriter.write, Res.bind_ok, Res.lift_ok]
  constructor
  · rintro ⟨wrapped, h1, parts, h2, bb, h3, h4⟩
    cases bb with
    | none => simp at h4
    | some bb =>
      simp only [Res.bind_ok, Res.lift_ok] at h4
      obtain ⟨bytes, h5, h6⟩ := h4
      obtain ⟨es, e1, -⟩ := pointErrs_ok w.umax (dequantBox (quantBox bb)) parts.flatten
      refine ⟨errs ++ es, wrapped, h1, parts, h2, some bb, h3, ?_⟩
      simp only [Res.bind_ok, Res.lift_ok]
      refine ⟨bytes, h5, es, e1, ?_⟩
      injection h6 with h6
      rw [← h6]; rfl
  · rintro ⟨errs', wrapped, h1, parts, h2, bb, h3, h4⟩
    refine ⟨wrapped, h1, parts, h2, bb, h3, ?_⟩
    cases bb with
    | none => simp at h4
    | some bb =>
      simp only [Res.bind_ok, Res.lift_ok] at h4 ⊢
      obtain ⟨bytes, h5, es, -, h6⟩ := h4
      refine ⟨bytes, h5, ?_⟩
      injection h6 with h6
      rw [← (Prod.mk.inj h6).1]; rfl

theorem writeAllErrs_writeAll (w : PWriter) (errs : List ℝ) (ws : List (List Nat × List (List (ℝ × ℝ)))) (w' : PWriter) :
    w.writeAll ws = .ok w' ↔ ∃ errs', w.writeAllErrs errs ws = .ok (w', errs') := by
  induction ws generalizing w errs with
  | nil =>
    constructor
    · intro h; injection h with h; exact ⟨errs, by rw [← h]; rfl⟩
    · rintro ⟨e, h⟩; injection h with h; rw [← (Prod.mk.inj h).1]; rfl
  | cons c ws ih =>
    obtain ⟨name, polygons⟩ := c
    simp only [PWriter.writeAll, PWriter.writeAllErrs, Res.bind_ok]
    constructor
    · rintro ⟨w1, h1, h2⟩
      obtain ⟨e1, g1⟩ := (writeErrs_write w errs name polygons w1).mp h1
      obtain ⟨e2, g2⟩ := (ih w1 e1).mp h2
      exact ⟨e2, (w1, e1), g1, g2⟩
    · rintro ⟨e2, ⟨w1, e1⟩, g1, g2⟩
      exact ⟨w1, (writeErrs_write w errs name polygons w1).mpr ⟨e1, g1⟩, (ih w1 e1).mpr ⟨e2, g2⟩⟩

theorem writeAllErrs_infos {w w' : PWriter} {errs errs' : List ℝ} {ws : List (List Nat × List (List (ℝ × ℝ)))} (h : w.writeAllErrs errs ws = .ok (w', errs')) :
    ∃ infos : List (Info ℝ), List.Forall₂ (Info.Of w.size w.umax) ws infos ∧ w'.size = w.size ∧ w'.umax = w.umax ∧
      w'.entries = w.entries ++ infos.map Info.entry ∧ w'.data = w.data ++ (infos.map Info.bytes).flatten ∧
      errs'.map Except.ok = errs.map Except.ok ++ (infos.map fun i => i.parts.flatten.map (pointErr w.umax (dequantBox (quantBox i.bb)))).flatten := by
  induction ws generalizing w errs with
  | nil =>
    injection h with h
    obtain ⟨rfl, rfl⟩ := Prod.mk.inj h
    exact ⟨[], .nil, rfl, rfl, by simp, by simp, by simp⟩
  | cons c ws ih =>
    obtain ⟨name, polygons⟩ := c
    simp only [PWriter.writeAllErrs, Res.bind_ok] at h
    obtain ⟨⟨w1, e1⟩, h1, h⟩ := h
    obtain ⟨parts, bb, bytes, hw, he⟩ := writeErrs_ok h1
    obtain ⟨infos, g1, g2, g3, g4, g5, g6⟩ := ih h
    have hr := hw.result
    subst hr
    refine ⟨⟨name, parts, bb, bytes⟩ :: infos, .cons ⟨rfl, hw.stored, hw.box, packParts_encodes hw.packed⟩ g1, g2, g3, ?_, ?_, ?_⟩
    · rw [g4]; simp [Info.entry]
    · rw [g5]; simp
    · rw [g6, he]; simp

theorem forall₂_storedAs {K : Type} [Field K] [LinearOrder K] [FloorRing K] {size : Nat} {umax : Int} {q : QBox K} {l m : List (List (K × K))}
    (h : List.Forall₂ (List.Forall₂ (NearAs size umax q)) l m) : l = m.map (fun r => r.map (storedAs umax q)) := by
  induction h with
  | nil => rfl
  | cons h _ ih =>
    rw [List.map_cons, ← ih]
    congr 1
    induction h with
    | nil => rfl
    | cons h _ ih => rw [List.map_cons, ← ih, ← h.2]

/-- What the reader gives, from the contributions of the calls. -/
theorem read_infos {K : Type} [Field K] [LinearOrder K] [IsStrictOrderedRing K] [FloorRing K] {size : Nat} {umax : Int} {w : PWriter} {ws : List (List Nat × List (List (K × K)))}
    {infos : List (Info K)} {file : List Byte} (hu : getfmt size = .ok umax) (g1 : List.Forall₂ (Info.Of size umax) ws infos) (g2 : w.size = size) (g3 : w.umax = umax)
    (g4 : w.entries = infos.map Info.entry) (g5 : w.data = (infos.map Info.bytes).flatten) (hc : w.close = .ok file) (hn : ∀ c ∈ ws, ∀ b ∈ c.1, b ≠ 0) :
    ∃ r : PReader K, PReader.open file = .ok r ∧ ∀ (i : Nat) (hi : i < infos.length), ∀ pos, ∃ pos',
      r.read pos i = .ok (infos[i].parts.map (fun ring => ring.map (storedAs umax (dequantBox (quantBox infos[i].bb)))), pos') := by
  have hnames : infos.map Info.name = ws.map Prod.fst := by
    clear hc hn g4 g5
    induction g1 with
    | nil => rfl
    | cons h _ ih => simp [h.1, ih]
  obtain ⟨r, r1, r2, r3, r4, r5, r6, r7, r8⟩ := open_close (K := K) hc (by rw [g2, g3]; exact hu) (by
    intro e he c hcc
    rw [g4] at he
    obtain ⟨i, hi, rfl⟩ := List.mem_map.mp he
    have : i.name ∈ ws.map Prod.fst := hnames ▸ List.mem_map_of_mem hi
    obtain ⟨x, hx, hx'⟩ := List.mem_map.mp this
    exact hn x hx c (by rw [hx']; exact hcc))
  refine ⟨r, r1, fun i hi pos => ?_⟩
  have hof := g1.get (by rw [g1.length_eq]; exact hi) hi
  simp only [List.get_eq_getElem] at hof
  obtain ⟨o1, o2, o3, o4⟩ := hof
  obtain ⟨s1, s2⟩ := getfmt_ok hu
  have hb : r.bboxes = infos.map (fun x => dequantBox (quantBox x.bb)) := by
    rw [r5, g4]; simp [Info.entry, Function.comp_def]
  have hp : r.partlens = infos.map (fun x => x.parts.map List.length) := by
    rw [r6, g4]; simp [Info.entry, Function.comp_def]
  have rs : r.size = size := by rw [r2, g2]
  have ru : r.umax = umax := by rw [r3, g3]
  obtain ⟨t1, t2, t3⟩ := partsBox_none o3
  obtain ⟨parts, pos', e1, e2⟩ := read_entity (r := r) (infos := infos) pos i hi (by rw [ru, rs, s2])
    (by rw [rs]; simp at s1; omega) hb hp (by rw [r7, r8, g5]) t2 (by
      intro x hx
      obtain ⟨j, hj, rfl⟩ := List.getElem_of_mem hx
      have := g1.get (by rw [g1.length_eq]; exact hj) hj
      rw [rs, ru]
      exact this.2.2.2)
  refine ⟨pos', ?_⟩
  rw [e1, forall₂_storedAs e2, ru]

end Coral
