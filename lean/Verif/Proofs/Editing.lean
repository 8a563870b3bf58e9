import Verif.Model.Editing
import Verif.Proofs.ShapeZ

/-! # Saving shapes that were read from a file -/
namespace Coral
namespace Shapefile

set_option linter.unusedSectionVars false

variable {D : Type} [Double D]

/-! ### The same record again -/

theorem xy_take (p : List D) : xy (p.take 2) = xy p := by
  match p with
  | [] => rfl
  | [_] => rfl
  | _ :: _ :: _ => rfl

theorem packPoint_take (p : List D) : packPoint (p.take 2) = packPoint p := by
  match p with
  | [] => rfl
  | [_] => rfl
  | _ :: _ :: _ => rfl

theorem columns_take (ps : List (List D)) : columns (ps.map (List.take 2)) = columns ps := by
  have : (ps.map (List.take 2)).mapM xy = ps.mapM xy := by
    induction ps with
    | nil => rfl
    | cons p ps ih => rw [List.map_cons, List.mapM_cons, List.mapM_cons, ih, xy_take]
  rw [columns, this, columns]

theorem bboxOf_points {s s' : Shape D} (h : s'.points = s.points.map (List.take 2)) : bboxOf [s'] = bboxOf [s] := by
  simp only [bboxOf, List.mapM_cons, List.mapM_nil, h, columns_take]

theorem packPoints_take (ps : List (List D)) : (ps.map (List.take 2)).mapM packPoint = ps.mapM packPoint := by
  induction ps with
  | nil => rfl
  | cons p ps ih => rw [List.map_cons, List.mapM_cons, List.mapM_cons, ih, packPoint_take]

theorem packPoints_comp (ps : List (List D)) : ps.mapM (packPoint ∘ List.take 2) = ps.mapM packPoint := by
  rw [show (packPoint ∘ List.take 2 : List D → Py (List Byte)) = packPoint from funext packPoint_take]

theorem packPoints_two {ps : List (List D)} {bs : List (List Byte)} (h : ps.mapM packPoint = .ok bs) : ∀ p ∈ ps, 2 ≤ p.length := by
  induction ps generalizing bs with
  | nil => simp
  | cons p ps ih =>
    simp only [List.mapM_cons, Py.bind_ok] at h
    obtain ⟨b, hb, bs', hbs, -⟩ := h
    obtain ⟨x, y, q, rfl, -⟩ := packPoint_ok hb
    intro p' hp'
    rcases List.mem_cons.mp hp' with rfl | hp'
    · simp
    · exact ih hbs p' hp'

/-- What holds of a shape that was read from a record of type `t` made for `s`. -/
structure Again (t : Int) (s : Shape D) (bs : List Byte) (out : Shape D) : Prop where
  read : ∀ noM rest, readBody noM (bs ++ rest) = .ok out
  type : out.shapeType = some t
  content : ∃ s'', content out t = .ok (bs, s'')
  size : recordSize t out = recordSize t s
  points : out.points ≠ [] ∧ ∀ p ∈ out.points, p.length = 2
  parts : Parted t → ∃ ps, out.parts = some ps

theorem again_1 {s s' : Shape D} {bs : List Byte} (h : content s 1 = .ok (bs, s')) : ∃ out, Again 1 s bs out := by
  simp [content, body, writeIf, changeIf, boxed, parted, pointed, zed, measured, single, Py.bind_ok] at h
  obtain ⟨b0, h0, b1, h1, rfl, rfl⟩ := h
  obtain ⟨x, y, q, ps, hp, rfl⟩ := packFirst_ok h1
  have e2 := readDs_enc' (n := 2) (l := [x, y]) rfl
  refine ⟨{ shapeType := some 1, points := [[x, y]] }, ?_, rfl, ?_, by simp [recordSize], by simp, by simp [Parted]⟩
  · intro noM rest
    have e : b0 ++ encAll [x, y] ++ rest = b0 ++ (encAll [x, y] ++ rest) := by simp
    rw [e]
    simp only [readBody, readI_pack h0, ok_bind]
    simp [readIf, boxed, parted, pointed, zed, measured, single, e2, ok_bind, truthy]
  · refine ⟨{ shapeType := some 1, points := [[x, y]] }, ?_⟩
    simp [content, body, writeIf, changeIf, boxed, parted, pointed, zed, measured, single, h0, ok_bind, packFirst, encAll]

theorem again_11 {s s' : Shape D} {bs : List Byte} (h : content s 11 = .ok (bs, s')) : ∃ out, Again 11 s bs out := by
  simp [-bind_pure_comp, content, body, writeIf, changeIf, boxed, parted, pointed, zed, measured, single, Py.bind_ok] at h
  obtain ⟨b0, h0, b1, h1, b2, s1, h2, b3, s2, h3, h⟩ := h
  obtain ⟨rfl, rfl⟩ := h
  obtain ⟨x, y, q, ps, hp, rfl⟩ := packFirst_ok h1
  obtain ⟨rfl, hmz, q', hp'⟩ := pointZ_value hp h2
  obtain ⟨v, hv, rfl⟩ := pointM_value hp' h3
  have e2 := readDs_enc' (n := 2) (l := [x, y]) rfl
  have e1 := fun (d : D) => readDs_enc' (n := 1) (l := [d]) rfl
  refine ⟨{ shapeType := some 11, points := [[x, y]], z := some [elevation s], m := some [some v] }, ?_, rfl, ?_, by simp [recordSize], by simp,
    by simp [Parted]⟩
  · intro noM rest
    simp only [readBody, List.append_assoc, readI_pack h0, ok_bind]
    simp [readIf, boxed, parted, pointed, zed, measured, single, e2, e1, ok_bind, truthy]
  · refine ⟨{ shapeType := some 11, points := [[x, y]], z := some [elevation s], m := some [some v] }, ?_⟩
    simp [content, body, writeIf, changeIf, boxed, parted, pointed, zed, measured, single, h0, ok_bind, packFirst, encAll, pointZ, pointM]

theorem again_21 {s s' : Shape D} {bs : List Byte} (h : content s 21 = .ok (bs, s')) : ∃ out, Again 21 s bs out := by
  simp [-bind_pure_comp, content, body, writeIf, changeIf, boxed, parted, pointed, zed, measured, single, Py.bind_ok] at h
  obtain ⟨b0, h0, b1, h1, b3, s2, h3, h⟩ := h
  obtain ⟨rfl, rfl⟩ := h
  obtain ⟨x, y, q, ps, hp, rfl⟩ := packFirst_ok h1
  obtain ⟨v, hv, rfl⟩ := pointM_value hp h3
  have e2 := readDs_enc' (n := 2) (l := [x, y]) rfl
  have e1 := fun (d : D) => readDs_enc' (n := 1) (l := [d]) rfl
  refine ⟨{ shapeType := some 21, points := [[x, y]], m := some [some v] }, ?_, rfl, ?_, by simp [recordSize], by simp, by simp [Parted]⟩
  · intro noM rest
    simp only [readBody, List.append_assoc, readI_pack h0, ok_bind]
    simp [readIf, boxed, parted, pointed, zed, measured, single, e2, e1, ok_bind, truthy]
  · refine ⟨{ shapeType := some 21, points := [[x, y]], m := some [some v] }, ?_⟩
    simp [content, body, writeIf, changeIf, boxed, parted, pointed, zed, measured, single, h0, ok_bind, packFirst, encAll, pointZ, pointM]

theorem mapTake {s : Shape D} {bs : List (List Byte)} {box : List D} (h : s.points.mapM packPoint = .ok bs) (hb : bboxOf [s] = .ok box) :
    s.points.map (List.take 2) ≠ [] ∧ ∀ p ∈ s.points.map (List.take 2), p.length = 2 := by
  refine ⟨by simpa using bboxOf_ne_nil hb, ?_⟩
  intro p hp
  obtain ⟨q, hq, rfl⟩ := List.mem_map.mp hp
  have := packPoints_two h q hq
  rw [List.length_take]
  omega

theorem again_8 {s s' : Shape D} {bs : List Byte} (h : content s 8 = .ok (bs, s')) : ∃ out, Again 8 s bs out := by
  obtain ⟨b0, box, b3, b6, h0, hb, hbox, h3, h6, rfl, -⟩ := content_multi h
  have e4 := readDs_enc' hb
  have hne := bboxOf_ne_nil hbox
  refine ⟨{ shapeType := some 8, points := s.points.map (List.take 2), bbox := some box }, ?_, rfl, ?_, by simp [recordSize], mapTake h6 hbox,
    by simp [Parted]⟩
  · intro noM rest
    simp only [readBody, List.append_assoc, readI_pack h0, ok_bind]
    simp [readIf, boxed, parted, pointed, zed, measured, single, e4, readI_pack h3, readPoints_pack h6, ok_bind, truthy, hne]
  · refine ⟨{ shapeType := some 8, points := s.points.map (List.take 2), bbox := some box }, ?_⟩
    have hbox' : bboxOf [({ shapeType := some 8, points := s.points.map (List.take 2), bbox := some box } : Shape D)] = .ok box :=
      (bboxOf_points rfl).trans hbox
    simp [content, body, writeIf, changeIf, boxed, parted, pointed, zed, measured, single, h0, ok_bind, h3, packPoints_comp, h6, hbox']

theorem again_poly {s s' : Shape D} {t : Int} {bs : List Byte} (ht : t = 3 ∨ t = 5) (h : content s t = .ok (bs, s')) (hne : s.parts ≠ some []) :
    ∃ out, Again t s bs out := by
  obtain ⟨b0, box, parts, b2, b3, b4, b6, mm, ms, h0, hb, hbox, hp, h2, h3, h4, h6, hm, rfl, -⟩ := content_poly (by simp only [Parted]; omega) h
  rw [if_neg (by omega)] at hm
  obtain ⟨rfl, rfl⟩ := hm
  have e4 := readDs_enc' hb
  have hpn := bboxOf_ne_nil hbox
  have hz : parts ≠ [] := fun hz => hne (by rw [hp, hz])
  have eT : truthy (some (parts.length : Int)) := by simp [truthy, hz]
  have eP : truthy (some (s.points.length : Int)) := by simp [truthy, hpn]
  refine ⟨{ shapeType := some t, points := s.points.map (List.take 2), bbox := some box, parts := some parts }, ?_, rfl, ?_, by simp [recordSize, hp],
    mapTake h6 hbox, fun _ => ⟨parts, rfl⟩⟩
  · intro noM rest
    have eparts : ∀ r, readParts (some (parts.length : Int)) (b4.flatten ++ r) = .ok (parts, r) := by
      intro r
      simp [readParts, count, ok_bind, readIs_pack h4]
    simp only [readBody, List.append_assoc, readI_pack h0, ok_bind]
    rcases ht with rfl | rfl
    all_goals
      simp [readIf, boxed, parted, pointed, zed, measured, single, e4, readI_pack h2, readI_pack h3, ok_bind, eparts, eP, eT, readPoints_pack h6]
  · have hbox' : bboxOf [({ shapeType := some t, points := s.points.map (List.take 2), bbox := some box, parts := some parts } : Shape D)] = .ok box :=
      (bboxOf_points rfl).trans hbox
    refine ⟨{ shapeType := some t, points := s.points.map (List.take 2), bbox := some box, parts := some parts }, ?_⟩
    rcases ht with rfl | rfl
    all_goals
      simp [content, body, writeIf, changeIf, boxed, parted, pointed, zed, measured, single, h0, ok_bind, h2, h3, packPoints_comp, h6, hbox', attr,
        packAll, h4, encAll]

/-- The types of files that an editor can save again. -/
theorem again {s s' : Shape D} {t : Int} {bs : List Byte} (ht : t = 1 ∨ t = 3 ∨ t = 5 ∨ t = 8 ∨ t = 11 ∨ t = 21) (h : content s t = .ok (bs, s'))
    (hne : s.parts ≠ some []) : ∃ out, Again t s bs out := by
  rcases ht with rfl | rfl | rfl | rfl | rfl | rfl
  · exact again_1 h
  · exact again_poly (.inl rfl) h hne
  · exact again_poly (.inr rfl) h hne
  · exact again_8 h
  · exact again_11 h
  · exact again_21 h

/-! ### The same records again -/

theorem Recs.loop {w : Option Int} {n : Nat} {ss ss' : List (Shape D)} {rs : List (List Byte)} (h : Recs w n ss rs ss') (f : File)
    (offs lens : List Nat) (hf : f.pos = f.data.length) :
    ∃ f' offs' lens', recordsLoop w n f offs lens ss = .ok (f', offs', lens', ss') ∧ f'.data = f.data ++ rs.flatten := by
  induction h generalizing f offs lens with
  | nil => exact ⟨f, offs, lens, rfl, by simp⟩
  | cons hr _ ih =>
    rename_i n s r s' ss rs ss' _
    obtain ⟨t, bs, bn, bl, hty, hc, hn, hl, rfl⟩ := hr
    obtain ⟨b0, h0⟩ := packBI_of (v := 0) (by omega) (by omega)
    have l0 := packBI_length h0
    have ln := packBI_length hn
    have ll := packBI_length hl
    have w1 := write_end hf (bn ++ b0)
    have w2 : (f.write (bn ++ b0)).write bs = ⟨f.data ++ (bn ++ b0) ++ bs, (f.data ++ (bn ++ b0) ++ bs).length⟩ := by
      rw [w1, write_end rfl]
    have hlen : ((f.write (bn ++ b0)).write bs).pos - (f.write (bn ++ b0)).pos = bs.length := by
      rw [w2, w1]; simp; omega
    have w3 : ((((f.write (bn ++ b0)).write bs).seek ((f.write (bn ++ b0)).pos - 4)).write bl).seek ((f.write (bn ++ b0)).write bs).pos =
        ⟨f.data ++ (bn ++ (bl ++ bs)), (f.data ++ (bn ++ (bl ++ bs))).length⟩ := by
      rw [w2, w1, write_patch f.data bn b0 bl bs (by omega) _ (by simp; omega)]
      simp [File.seek]
      omega
    obtain ⟨f', offs', lens', hrec, hd⟩ := ih ⟨f.data ++ (bn ++ (bl ++ bs)), (f.data ++ (bn ++ (bl ++ bs))).length⟩ (offs ++ [f.pos])
      (lens ++ [bs.length / 2]) rfl
    refine ⟨f', offs', lens', ?_, by simpa using hd⟩
    have ht : number (retype w s).shapeType = .ok t := by rw [hty]; rfl
    simp only [recordsLoop, hn, h0, ok_bind, ht, hc, hlen, hl, w3, hrec]
    rfl

/-- What the records of a file are read as can be written again, and gives the same records. -/
theorem Recs.again {t : Int} (ht : t = 1 ∨ t = 3 ∨ t = 5 ∨ t = 8 ∨ t = 11 ∨ t = 21) {n : Nat} {ss ss' : List (Shape D)} {rs : List (List Byte)}
    (h : Recs (some t) n ss rs ss') (hne : ∀ s ∈ ss, s.parts ≠ some []) :
    ∃ outs outs', Recs (some t) n outs rs outs' ∧
      (∀ noM pre, Shapes D noM (pre ++ rs.flatten) pre.length (.ok outs)) ∧ outs.map (recordSize t) = ss.map (recordSize t) ∧
      (∀ out ∈ outs, (out.points ≠ [] ∧ ∀ p ∈ out.points, p.length = 2) ∧ (Parted t → ∃ ps, out.parts = some ps)) := by
  have h31 : t ≠ 31 := by omega
  generalize hw : some t = w at h
  induction h with
  | nil => exact ⟨[], [], .nil, fun noM pre => .done (by simp), rfl, by simp⟩
  | cons hr _ ih =>
    subst hw
    rename_i n s r s' ss rs ss' _
    obtain ⟨outs, outs', hrecs, hread, hsize, hall⟩ := ih (fun s hs => hne s (by simp [hs]))
    have hlen := hr.length.1
    obtain ⟨t', bs, bn, bl, hty, hc, hn, hl, rfl⟩ := hr
    rw [retype_ne h31] at hty hc
    cases hty
    obtain ⟨out, ha⟩ := Shapefile.again ht hc (hne s (by simp))
    obtain ⟨s'', hs''⟩ := ha.content
    have hre : retype (some t) out = out := by
      rw [retype_ne h31, ← ha.type]
    have hrec' : IsRec (some t) n out (bn ++ (bl ++ bs)) s'' := ⟨t, bs, bn, bl, by rw [hre, ha.type], by rw [hre, hs''], hn, hl, rfl⟩
    refine ⟨out :: outs, s'' :: outs', .cons hrec' hrecs, ?_, by rw [List.map_cons, List.map_cons, hsize, ha.size]; rfl, ?_⟩
    · intro noM pre
      have hrd : readShape noM ((bn ++ (bl ++ bs)) ++ rs.flatten) = .ok (out, (bs.length / 2 : Nat)) := by
        simp only [readShape, List.append_assoc, readBI_pack hn, readBI_pack hl, ok_bind, ha.read]
        rfl
      have hat := shapeAt_at (pre := pre) hrd (hrec'.next noM rs.flatten hrd)
      have := hread noM (pre ++ (bn ++ (bl ++ bs)))
      rw [List.length_append] at this
      have hlt : pre.length < (pre ++ ((bn ++ (bl ++ bs)) :: rs).flatten).length := by
        rw [List.flatten_cons, List.length_append, List.length_append]
        omega
      rw [← List.flatten_cons] at hat
      exact .next hlt hat (by simpa using this)
    · intro o ho
      rcases List.mem_cons.mp ho with rfl | ho
      · exact ⟨ha.points, ha.parts⟩
      · exact hall o ho

/-! ### What is read has two coordinates -/

theorem readDs_length {n : Nat} {rest rest' : List Byte} {l : List D} (h : readDs n rest = .ok (l, rest')) : l.length = n := by
  induction n generalizing rest l with
  | zero => cases h; rfl
  | succ n ih =>
    simp only [readDs, Py.bind_ok] at h
    obtain ⟨⟨d, r⟩, -, ⟨ds, r'⟩, h2, h⟩ := h
    cases h
    simp [ih h2]

theorem readPoints_two {n : Nat} {rest rest' : List Byte} {l : List (List D)} (h : readPoints n rest = .ok (l, rest')) : ∀ p ∈ l, p.length = 2 := by
  induction n generalizing rest l with
  | zero => cases h; simp
  | succ n ih =>
    simp only [readPoints, Py.bind_ok] at h
    obtain ⟨⟨d, r⟩, h1, ⟨ds, r'⟩, h2, h⟩ := h
    cases h
    intro p hp
    rcases List.mem_cons.mp hp with rfl | hp
    · exact readDs_length h1
    · exact ih h2 p hp

theorem readIf_ok {α : Type} {c : Prop} [Decidable c] {rd : List Byte → Py (α × List Byte)} {rest rest' : List Byte} {o : Option α}
    (h : readIf c rd rest = .ok (o, rest')) : o = none ∨ ∃ a, o = some a ∧ rd rest = .ok (a, rest') := by
  simp only [readIf] at h
  split at h
  · simp only [Py.bind_ok] at h
    obtain ⟨⟨a, r⟩, ha, h⟩ := h
    cases h
    exact .inr ⟨a, rfl, ha⟩
  · cases h
    exact .inl rfl

theorem readBody_two {noM : Bool} {rest : List Byte} {out : Shape D} (h : readBody noM rest = .ok out) : ∀ p ∈ out.points, p.length = 2 := by
  simp only [readBody, Py.bind_ok] at h
  obtain ⟨⟨t, r0⟩, -, ⟨o1, r1⟩, -, ⟨o2, r2⟩, -, ⟨o3, r3⟩, -, ⟨o4, r4⟩, -, ⟨o5, r5⟩, -, ⟨o6, r6⟩, h6, ⟨o7, r7⟩, -, ⟨o8, r8⟩, -, ⟨o9, r9⟩, h9, ⟨o10, r10⟩, -,
    ⟨o11, r11⟩, -, h⟩ := h
  cases h
  dsimp only
  rcases readIf_ok h9 with rfl | ⟨a, rfl, ha⟩
  · rcases readIf_ok h6 with rfl | ⟨a, rfl, ha⟩
    · simp
    · simpa using readPoints_two ha
  · simpa using readDs_length ha

theorem Shapes.two {noM : Bool} {data : List Byte} {pos : Nat} {r : Py (List (Shape D))} (h : Shapes D noM data pos r) :
    ∀ outs, r = .ok outs → ∀ out ∈ outs, ∀ p ∈ out.points, p.length = 2 := by
  induction h with
  | done => intro outs h; cases h; simp
  | raise => intro outs h; cases h
  | next hp hat _ ih =>
    rename_i pos pos' s r _
    intro outs h out ho
    cases r with
    | error e => cases h
    | ok l =>
      cases h
      rcases List.mem_cons.mp ho with rfl | ho
      · simp only [shapeAt, Py.bind_ok] at hat
        obtain ⟨⟨s', l'⟩, hat, h⟩ := hat
        simp only [readShape, Py.bind_ok] at hat
        obtain ⟨⟨i1, r1⟩, -, ⟨i2, r2⟩, -, s'', hs, hat⟩ := hat
        cases hat
        split at h
        · cases h
          exact readBody_two hs
        · cases h
      · exact ih l rfl out ho

/-- A record with measures needs points with four coordinates. -/
theorem content_measured {s s' : Shape D} {t : Int} {bs : List Byte} (ht : t ∈ measured) (h : content s t = .ok (bs, s')) :
    ∀ p ∈ s.points, 4 ≤ p.length := by
  simp only [content, body, Py.bind_ok] at h
  obtain ⟨_, _, _, ⟨_, _, _, _, _, _, _, _, _, _, _, _, _, _, b8, h8, _⟩, _⟩ := h
  rw [writeIf_true ht, Py.bind_ok] at h8
  obtain ⟨_, -, h8⟩ := h8
  rw [Py.bind_ok] at h8
  obtain ⟨l, h8, -⟩ := h8
  obtain ⟨ms, hm, -⟩ := packMs_ok h8
  intro p hp
  have : p[3]? ∈ ms.map some := by rw [← hm]; exact List.mem_map.mpr ⟨p, hp, rfl⟩
  obtain ⟨v, -, hv⟩ := List.mem_map.mp this
  obtain ⟨h3, -⟩ := List.getElem?_eq_some_iff.mp hv.symm
  omega

end Shapefile
end Coral
