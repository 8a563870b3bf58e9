import Verif.Proofs.PF
import Mathlib.Data.Rat.Floor

/-! # P files: C40-C44 -/
set_option linter.unusedSectionVars false

namespace Coral
section
variable {K : Type} [Field K] [LinearOrder K] [IsStrictOrderedRing K] [FloorRing K]

/-- **C40.** After any history of successful `write` calls and `close()`, opening the file gives the names in order, the
ring lengths of what was stored, and a box per entity that is on the 16-bit grid. -/
theorem C40_index_roundtrip {size : Nat} {w0 w : PWriter} {ws : List (List Nat × List (List (K × K)))}
    {file : List Byte} (h0 : PWriter.init size = .ok w0) (hw : w0.writeAll ws = .ok w) (hc : w.close = .ok file)
    (hn : ∀ c ∈ ws, ∀ b ∈ c.1, b ≠ 0) :
    ∃ r : PReader K, PReader.open file = .ok r ∧ r.size = size ∧ r.names = ws.map Prod.fst ∧
      List.Forall₂ (fun c lens => ∃ rings, List.Forall₂ StoredRing c.2 rings ∧ lens = rings.map List.length) ws r.partlens ∧
      List.Forall₂ (fun _ q => OnGrid q) ws r.bboxes := by
  simp only [PWriter.init, Py.bind_ok] at h0
  obtain ⟨umax, hu, h0⟩ := h0
  injection h0 with h0
  subst h0
  obtain ⟨infos, g1, g2, g3, g4, g5⟩ := writeAll_infos hw
  simp only [List.nil_append] at g4 g5
  have hnames : infos.map Info.name = ws.map Prod.fst := by
    clear hw hc hn g4 g5
    induction g1 with
    | nil => rfl
    | cons h _ ih => simp [h.1, ih]
  obtain ⟨r, r1, r2, r3, r4, r5, r6, r7, r8⟩ := open_close (K := K) hc (by rw [g2, g3]; exact hu) (by
    intro e he c hcc
    rw [g4] at he
    obtain ⟨i, hi, rfl⟩ := List.mem_map.mp he
    have : i.name ∈ ws.map Prod.fst := hnames ▸ List.mem_map_of_mem hi
    obtain ⟨x, hx, hx'⟩ := List.mem_map.mp this
    exact hn x hx c (by rw [hx']; exact hcc))
  refine ⟨r, r1, by rw [r2, g2], ?_, ?_, ?_⟩
  · rw [r4, g4, ← hnames]; simp [Info.entry, Function.comp_def]
  · rw [r6, g4, List.map_map, List.forall₂_map_right_iff]
    exact g1.imp fun c i h => ⟨i.parts, h.2.1, rfl⟩
  · rw [r5, g4, List.map_map, List.forall₂_map_right_iff]
    refine g1.imp fun c i h => ?_
    exact (quantBox_spec (partsBox_none h.2.2.1).1 (stored_range h.2.1)).2.1

/-- **C40/C41.** Reading entity `i` back: its rings are the stored rings, each coordinate within half a quantum of the
entity's stored box, whatever was read before (`pos` is the file position left by earlier reads). If all the rings have
positive extent the box contains all the points and each side is within one 16-bit step of a point. -/
theorem C41_read_back {size : Nat} {w0 w : PWriter} {ws : List (List Nat × List (List (K × K)))}
    {file : List Byte} (h0 : PWriter.init size = .ok w0) (hw : w0.writeAll ws = .ok w) (hc : w.close = .ok file)
    (hn : ∀ c ∈ ws, ∀ b ∈ c.1, b ≠ 0) :
    ∃ r : PReader K, PReader.open file = .ok r ∧ ∀ (i : Nat) (hi : i < ws.length), ∃ q rings,
      r.bboxes[i]? = some q ∧ List.Forall₂ StoredRing ws[i].2 rings ∧
      (∀ pos, ∃ parts pos', r.read pos i = .ok (parts, pos') ∧
        List.Forall₂ (List.Forall₂ (Near size q)) parts rings) ∧
      ((∀ ring ∈ rings, PosExtent ring) → Hugs q rings.flatten) := by
  simp only [PWriter.init, Py.bind_ok] at h0
  obtain ⟨umax, hu, h0⟩ := h0
  injection h0 with h0
  subst h0
  obtain ⟨infos, g1, g2, g3, g4, g5⟩ := writeAll_infos hw
  simp only [List.nil_append] at g2 g3 g4 g5
  have hnames : infos.map Info.name = ws.map Prod.fst := by
    clear hw hc hn g4 g5
    induction g1 with
    | nil => rfl
    | cons h _ ih => simp [h.1, ih]
  obtain ⟨r, r1, r2, r3, r4, r5, r6, r7, r8⟩ := open_close (K := K) hc (by rw [g2, g3]; exact hu) (by
    intro e he c hcc
    rw [g4] at he
    obtain ⟨i, hi, rfl⟩ := List.mem_map.mp he
    have : i.name ∈ ws.map Prod.fst := hnames ▸ List.mem_map_of_mem hi
    obtain ⟨x, hx, hx'⟩ := List.mem_map.mp this
    exact hn x hx c (by rw [hx']; exact hcc))
  refine ⟨r, r1, fun i hi => ?_⟩
  have hi' : i < infos.length := by rw [← g1.length_eq]; exact hi
  have hof := g1.get hi hi'
  simp only [List.get_eq_getElem] at hof
  obtain ⟨o1, o2, o3, o4⟩ := hof
  obtain ⟨s1, s2⟩ := getfmt_ok hu
  have hb : r.bboxes = infos.map (fun x => dequantBox (quantBox x.bb)) := by
    rw [r5, g4]; simp [Info.entry, Function.comp_def]
  have hp : r.partlens = infos.map (fun x => x.parts.map List.length) := by
    rw [r6, g4]; simp [Info.entry, Function.comp_def]
  have rs : r.size = size := by rw [r2, g2]
  have ru : r.umax = umax := by rw [r3, g3]
  obtain ⟨t1, t2, t3⟩ := partsBox_none o3
  refine ⟨dequantBox (quantBox infos[i].bb), infos[i].parts, by rw [hb]; simp [hi'], o2, ?_, ?_⟩
  · intro pos
    obtain ⟨parts, pos', e1, e2⟩ := read_entity (r := r) (infos := infos) pos i hi' (by rw [ru, rs, s2])
      (by rw [rs]; simp at s1; omega) hb hp (by rw [r7, r8, g5]) t2 (by
        intro x hx
        obtain ⟨j, hj, rfl⟩ := List.getElem_of_mem hx
        have := g1.get (by rw [g1.length_eq]; exact hj) hj
        rw [rs, ru]
        exact this.2.2.2)
    exact ⟨parts, pos', e1, by rw [rs] at e2; exact e2.imp fun _ _ h => h.imp fun _ _ h => h.1⟩
  · intro hpos
    exact (quantBox_spec t1 (stored_range o2)).2.2.1 (t3 hpos).2

/-- **C40.** The boxes of the index: one per entity, on the grid of the globe; if all the rings have positive extent the box contains all
the points stored for the entity and each side is less than a grid step away from one of them. -/
theorem C40_boxes {size : Nat} {w0 w : PWriter} {ws : List (List Nat × List (List (K × K)))}
    {file : List Byte} (h0 : PWriter.init size = .ok w0) (hw : w0.writeAll ws = .ok w) (hc : w.close = .ok file)
    (hn : ∀ c ∈ ws, ∀ b ∈ c.1, b ≠ 0) :
    ∃ r : PReader K, PReader.open file = .ok r ∧ r.bboxes.length = ws.length ∧ ∀ (i : Nat) (hi : i < ws.length), ∃ q rings,
      r.bboxes[i]? = some q ∧ List.Forall₂ StoredRing ws[i].2 rings ∧ OnGrid q ∧ ((∀ ring ∈ rings, PosExtent ring) → Hugs q rings.flatten) := by
  obtain ⟨r, r1, -, -, -, r2⟩ := C40_index_roundtrip h0 hw hc hn
  obtain ⟨r', r1', r3⟩ := C41_read_back h0 hw hc hn
  rw [r1] at r1'
  injection r1' with e
  subst e
  refine ⟨r, r1, r2.length_eq.symm, fun i hi => ?_⟩
  obtain ⟨q, rings, h1, h2, -, h3⟩ := r3 i hi
  refine ⟨q, rings, h1, h2, ?_, h3⟩
  have hb : i < r.bboxes.length := r2.length_eq ▸ hi
  have := r2.get hi hb
  rw [List.getElem?_eq_getElem hb] at h1
  injection h1 with h1
  rw [← h1]
  exact this

/-- **C41.** `write` does succeed when there is at least one ring, every latitude is at most 90 and every ring, as it
is stored, has positive extent; `close` succeeds when moreover all names are ASCII. -/
theorem C41_write_succeeds {size : Nat} {w0 : PWriter} (h0 : PWriter.init size = .ok w0)
    (ws : List (List Nat × List (List (K × K)))) (hascii : ∀ c ∈ ws, ∀ b ∈ c.1, b < 128)
    (hne : ∀ c ∈ ws, c.2 ≠ []) (hlat : ∀ c ∈ ws, ∀ poly ∈ c.2, ∀ p ∈ poly, p.2 ≤ 90)
    (hpos : ∀ c ∈ ws, ∀ poly ∈ c.2, poly ≠ [] ∧ ∀ ring, StoredRing poly ring → PosExtent ring) :
    ∃ w file, w0.writeAll ws = .ok w ∧ w.close = .ok file := by
  simp only [PWriter.init, Py.bind_ok] at h0
  obtain ⟨umax, hu, h0⟩ := h0
  injection h0 with h0
  have key : ∀ (ws : List (List Nat × List (List (K × K)))) (w : PWriter), getfmt w.size = .ok w.umax →
      (∀ c ∈ ws, c.2 ≠ []) → (∀ c ∈ ws, ∀ poly ∈ c.2, ∀ p ∈ poly, p.2 ≤ 90) →
      (∀ c ∈ ws, ∀ poly ∈ c.2, poly ≠ [] ∧ ∀ ring, StoredRing poly ring → PosExtent ring) →
      ∃ w', w.writeAll ws = .ok w' := by
    intro ws
    induction ws with
    | nil => exact fun w _ _ _ _ => ⟨w, rfl⟩
    | cons c ws ih =>
      intro w hg a1 a2 a3
      obtain ⟨w1, h1⟩ := write_ok w hg c.1 c.2 (a1 c (by simp)) (a2 c (by simp)) (a3 c (by simp))
      obtain ⟨parts, bb, bytes, hw⟩ := write_wrote h1
      have : getfmt w1.size = .ok w1.umax := by rw [hw.result]; exact hg
      obtain ⟨w2, h2⟩ := ih w1 this (fun c h => a1 c (by simp [h])) (fun c h => a2 c (by simp [h]))
        (fun c h => a3 c (by simp [h]))
      exact ⟨w2, by obtain ⟨n, p⟩ := c; simp only [PWriter.writeAll, h1]; exact h2⟩
  have hg0 : getfmt w0.size = .ok w0.umax := by rw [← h0]; exact hu
  obtain ⟨w, hw⟩ := key ws w0 hg0 hne hlat hpos
  obtain ⟨infos, g1, g2, g3, g4, g5⟩ := writeAll_infos hw
  have e0 : w0.entries = [] := by rw [← h0]
  rw [e0, List.nil_append] at g4
  obtain ⟨idx, hidx⟩ : ∃ idx, w.entries.mapM writeEntry = .ok idx := by
    apply mapM_exists
    intro e he
    rw [g4] at he
    obtain ⟨x, hx, rfl⟩ := List.mem_map.mp he
    obtain ⟨j, hj, rfl⟩ := List.getElem_of_mem hx
    have hj' : j < ws.length := by rw [g1.length_eq]; exact hj
    have := g1.get hj' hj
    simp only [List.get_eq_getElem] at this
    obtain ⟨o1, o2, o3, o4⟩ := this
    obtain ⟨⟨a, b, c, d, ha, hb, hc, hd, hq⟩, _⟩ := quantBox_spec (partsBox_none o3).1 (stored_range o2)
    have pk : ∀ n : Nat, n ≤ 65535 → packU 2 (n : Int) = .ok (beBytes 2 n) := by
      intro n hn
      rw [packU_ok]
      exact ⟨by omega, by norm_num; omega, by simp⟩
    have hname : writeascii infos[j].name = .ok (infos[j].name ++ [0]) := by
      unfold writeascii
      rw [if_pos]
      rw [o1]
      simpa using hascii ws[j] (List.getElem_mem _)
    simp only [writeEntry, Info.entry, hq, hname, pk a ha, pk b hb, pk c hc, pk d hd]
    exact ⟨_, rfl⟩
  obtain ⟨s1, s2⟩ := getfmt_ok hu
  have hsz : packU 1 (w.size : Int) = .ok (beBytes 1 w.size) := by
    rw [packU_ok]
    have : w.size = size := by rw [g2, ← h0]
    refine ⟨by omega, ?_, by simp⟩
    simp at s1
    norm_num
    omega
  obtain ⟨file, hfile⟩ : ∃ file, w.close = .ok file := by
    simp only [PWriter.close, hsz, hidx, bind, Except.bind]
    exact ⟨_, rfl⟩
  exact ⟨w, file, hw, hfile⟩

end

-- Non-vacuous: two entities, one ring crossing the date line range and closed, in ℚ.
example : (do
    let w0 ← Res.lift (PWriter.init 2)
    let w ← w0.writeAll [([65, 66], [[((10 : ℚ), 20), (190, 30), (40, 50), (10, 20)]]), ([67], [[(0, 0), (1, 1), (1, 0)]])]
    let file ← Res.lift w.close
    let r ← (PReader.open file : Res (PReader ℚ))
    return (r.names, r.partlens, file.length)) = .ok ([[65, 66], [67]], [[3], [3]], 55) := by
  decide +kernel

section
variable {K : Type} [Field K] [LinearOrder K] [IsStrictOrderedRing K] [FloorRing K]

/-- **C42.** `get(name)` is `read(i)` for the smallest `i` with that name, and raises `ValueError` if there is none. -/
theorem C42_get_first (r : PReader K) (pos : Nat) (name : List Nat) :
    (∃ i : Nat, r.names[i]? = some name ∧ (∀ j < i, r.names[j]? ≠ some name) ∧ r.get pos name = r.read pos i) ∨
    (name ∉ r.names ∧ r.get pos name = .error .valueError) := by
  have key : ∀ names : List (List Nat),
      (∃ i, names[i]? = some name ∧ (∀ j < i, names[j]? ≠ some name) ∧ indexOf name names = .ok i) ∨
      (name ∉ names ∧ indexOf name names = .error .valueError) := by
    intro names
    induction names with
    | nil => exact Or.inr ⟨by simp, rfl⟩
    | cons n ns ih =>
      by_cases h : n = name
      · exact Or.inl ⟨0, by simp [h], by simp, by simp [indexOf, h]⟩
      · rcases ih with ⟨i, h1, h2, h3⟩ | ⟨h1, h2⟩
        · refine Or.inl ⟨i + 1, by simpa using h1, ?_, by simp only [indexOf, if_neg h, h3]; rfl⟩
          intro j hj
          cases j with
          | zero => simpa using h
          | succ j => simpa using h2 j (by omega)
        · exact Or.inr ⟨by simp [h1, Ne.symm h], by simp only [indexOf, if_neg h, h2]; rfl⟩
  rcases key r.names with ⟨i, h1, h2, h3⟩ | ⟨h1, h2⟩
  · exact Or.inl ⟨i, h1, h2, by simp only [PReader.get, h3]; rfl⟩
  · exact Or.inr ⟨h1, by simp only [PReader.get, h2]; rfl⟩

example : indexOf [66] [[65], [66], [66]] = .ok 1 ∧ indexOf [67] [[65], [66]] = .error .valueError := by decide

/-- **C43 is false**: a latitude above 90 makes `write` loop forever. The loop of pf.py:174-175, started at 91, has no
terminating execution. -/
theorem C43_write_terminates_violated :
    (∀ w : PWriter, ∃ polygons : List (List (ℚ × ℚ)), ∀ name, w.write name polygons = .hang) ∧
    ¬ ∃ v, While (fun x : ℚ => 90 < x) (fun x => x + 180) 91 v := by
  refine ⟨fun w => ⟨[[(0, 91)]], fun name => (write_hang_iff w name _).mpr
    ⟨[(0, 91)], by simp, (0, 91), by simp, by norm_num⟩⟩, ?_⟩
  rintro ⟨v, hv⟩
  exact While.diverges (I := fun x : ℚ => 90 < x) (fun s hs => hs) (fun s hs => by linarith) (by norm_num) ⟨v, hv⟩

/-- **C43, what holds.** `write` loops forever exactly when some latitude exceeds 90; otherwise all four wrapping loops
end, with the angle moved into range by whole turns (`C43_wrapping_partial`). Missing from the full claim: latitudes
above 90. -/
theorem C43_write_terminates_partial (w : PWriter) (name : List Nat) (polygons : List (List (K × K))) :
    w.write name polygons = .hang ↔ ∃ poly ∈ polygons, ∃ p ∈ poly, 90 < p.2 :=
  write_hang_iff w name polygons

/-- **C43, the loops.** The longitude loops end for every number, the latitude loops for every number up to 90, each
with the number moved into range by whole turns and unchanged if it was in range. -/
theorem C43_wrapping_partial (lon lat : K) (h : lat ≤ 90) :
    (∃ mid v, While (fun x : K => x < -180) (fun x => x + 360) lon mid ∧
      While (fun x : K => 180 < x) (fun x => x - 360) mid v ∧ Wraps 180 lon v) ∧
    (∃ mid v, While (fun x : K => x < -90) (fun x => x + 180) lat mid ∧
      While (fun x : K => 90 < x) (fun x => x + 180) mid v ∧ Wraps 90 lat v) := by
  obtain ⟨m, h1, h2⟩ := wrapLon_loops lon
  obtain ⟨v, hv⟩ := wrapLat_ok h
  obtain ⟨m', h3, h4⟩ := wrapLat_loops lat v hv
  exact ⟨⟨m, _, h1, h2, wrapLon_wraps lon⟩, ⟨m', v, h3, h4, wrapLat_wraps hv⟩⟩

example : wrapLon (-500 : ℚ) = -140 ∧ wrapLon (541 : ℚ) = -179 ∧ wrapLat (-100 : ℚ) = .ok 80 := by decide +kernel

/-- A small valid file with one entity called `AB`. -/
def c44File : Res (List Byte) := do
  let w0 ← Res.lift (PWriter.init 1)
  let w ← w0.write [65, 66] [[((0 : ℚ), 0), (1, 1), (1, 0)]]
  Res.lift w.close

/-- **C44 is false**: a file cut inside an entity's name (here after `A`) makes opening it loop forever. -/
theorem C44_truncated_open_violated :
    ∃ file, c44File = .ok file ∧ file.length = 25 ∧ (PReader.open (file.take 7) : Res (PReader ℚ)) = .hang := by
  have h : (c44File >>= fun file => .ok (file.length, (PReader.open (file.take 7) : Res (PReader ℚ)))) =
      .ok (25, .hang) := by decide +kernel
  obtain ⟨file, h1, h2⟩ := Res.bind_ok.mp h
  injection h2 with h2
  exact ⟨file, h1, (Prod.mk.inj h2).1, (Prod.mk.inj h2).2⟩

/-- **C44, what holds.** Exact behaviour of opening every proper prefix of every valid file: `index` is where the first
entry starts and `data` where the points start. A cut before the index raises; a cut inside the index raises unless it
falls in an entity's name (before its NUL), in which case opening never returns; a cut after the index does not affect
opening. Missing from the full claim: the cuts in names. -/
theorem C44_truncated_open_partial {w : PWriter} {file : List Byte} (hc : w.close = .ok file)
    (hs : getfmt w.size = .ok w.umax) (hn : ∀ e ∈ w.entries, ∀ c ∈ e.name, c ≠ 0) :
    ∃ (bss : List (List Byte)) (index : Nat), w.entries.mapM writeEntry = .ok bss ∧
      file.length = index + bss.flatten.length + w.data.length ∧ (file.drop index).take bss.flatten.length = bss.flatten ∧
      ∀ n, n < file.length →
        (n < index → ∃ e, (PReader.open (file.take n) : Res (PReader K)) = .raise e) ∧
        (index ≤ n → n < index + bss.flatten.length → ¬ CutInName w.entries bss (n - index) →
          ∃ e, (PReader.open (file.take n) : Res (PReader K)) = .raise e) ∧
        (index ≤ n → n < index + bss.flatten.length → CutInName w.entries bss (n - index) →
          (PReader.open (file.take n) : Res (PReader K)) = .hang) ∧
        (index + bss.flatten.length ≤ n → ∃ r : PReader K, PReader.open (file.take n) = .ok r ∧
          r.names = w.entries.map (·.name)) := by
  obtain ⟨idx, nrows, h1, h2, h3⟩ := close_parts hc
  obtain ⟨s1, s2⟩ := getfmt_ok hs
  have ex := exact_fixed (size := w.size) (nrows := nrows) (n := w.entries.length) s1
  set fx := [0x50, 0x46, 0] ++ ([w.size] ++ (writevlv nrows ++ writevlv w.entries.length)) with hfx
  have hf : file = fx ++ (idx.flatten ++ w.data) := by rw [h3, hfx]; simp
  refine ⟨idx, fx.length, h2, by rw [hf]; simp; omega, by rw [hf]; simp, ?_⟩
  intro n hnl
  have hcut : fx.length ≤ n → n < fx.length + idx.flatten.length →
      file.take n = fx ++ idx.flatten.take (n - fx.length) := by
    intro a b
    rw [hf, List.take_append, List.take_of_length_le a, List.take_append_of_le_length (by omega)]
  refine ⟨?_, ?_, ?_, ?_⟩
  · intro hlt
    have : file.take n = fx.take n := by rw [hf, List.take_append_of_le_length hlt.le]
    obtain ⟨e, he⟩ := ex.2 (fx.take n) (List.take_prefix n fx) (by
      intro h; have := congrArg List.length h; simp at this; omega)
    exact ⟨e, by rw [this]; simp only [PReader.open, he]; rfl⟩
  · intro a b hnc
    have hlen : (idx.flatten.take (n - fx.length)).length = n - fx.length := by rw [List.length_take]; omega
    rcases readEntries_prefix h2 hn (List.take_prefix (n - fx.length) idx.flatten) (by
      intro h; have := congrArg List.length h; rw [hlen] at this; omega) with ⟨c1, c2⟩ | ⟨c1, x, c2⟩
    · rw [hlen] at c1; exact absurd c1 hnc
    · exact ⟨x, by rw [hcut a b]; simp only [PReader.open, ex.1, Res.lift, bind, Res.bind, c2]⟩
  · intro a b hnc
    have hlen : (idx.flatten.take (n - fx.length)).length = n - fx.length := by rw [List.length_take]; omega
    rcases readEntries_prefix h2 hn (List.take_prefix (n - fx.length) idx.flatten) (by
      intro h; have := congrArg List.length h; rw [hlen] at this; omega) with ⟨c1, c2⟩ | ⟨c1, x, c2⟩
    · rw [hcut a b]; simp only [PReader.open, ex.1, Res.lift, bind, Res.bind, c2]
    · rw [hlen] at c1; exact absurd hnc c1
  · intro a
    have hcut' : file.take n = fx ++ (idx.flatten ++ w.data.take (n - (fx.length + idx.flatten.length))) := by
      rw [hf, List.take_append, List.take_of_length_le (by omega), List.take_append, List.take_of_length_le (by omega),
        Nat.sub_sub]
    rw [hcut']
    simp only [PReader.open, ex.1, Res.lift, bind, Res.bind, readEntries_write h2 hn, hs]
    exact ⟨_, rfl, rfl⟩

end
end Coral
