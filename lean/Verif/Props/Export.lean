import Verif.Proofs.Shell
import Verif.Props.Vector

/-! # Properties of `Canvas.export`, `export` and `animation` (C131-C135) -/
set_option linter.unusedSectionVars false
namespace Coral
namespace Vector
open PS Shell

variable {K : Type} [Field K] [LinearOrder K] [IsStrictOrderedRing K]

/-! ### The commands -/

theorem plainWord_append {a b : Str} (ha : PlainWord a) (hb : ∀ c ∈ b, Plain c) : PlainWord (a ++ b) := by
  obtain ⟨h1, h2, h3⟩ := ha
  refine ⟨by simp [h1], ?_, ?_⟩
  · intro c hc
    rcases List.mem_append.mp hc with h | h
    · exact h2 c h
    · exact hb c h
  · intro c hc
    cases a with
    | nil => exact absurd rfl h1
    | cons x a => exact h3 c hc

/-- A decidable form, for words that are known. -/
theorem plainWord_of {w : Str} (h : (!w.isEmpty && w.all (fun c => !isBlank c && c != '\'' && c != '"' && c != '\\' && !special.contains c) &&
    w.head?.all (fun c => !specialFirst.contains c)) = true) : PlainWord w := by
  simp only [Bool.and_eq_true, List.all_eq_true, Option.all_eq_true, Bool.not_eq_true', bne_iff_ne, ne_eq, List.contains_eq_mem, decide_eq_false_iff_not,
    List.isEmpty_eq_false_iff] at h
  obtain ⟨⟨h1, h2⟩, h3⟩ := h
  exact ⟨h1, fun c hc => ⟨(h2 c hc).1.1.1.1, (h2 c hc).1.1.1.2, (h2 c hc).1.1.2, (h2 c hc).1.2, (h2 c hc).2⟩, fun c hc => h3 c hc⟩

/-- The words before the name of the image. -/
def gsWords (device : Str) : List Str :=
  ["gs".toList, "-q".toList, "-dNOPAUSE".toList, "-dBATCH".toList, "-dEPSCrop".toList, "-sDEVICE=".toList ++ device]

theorem gsHead_list (g1 g2 g3 g4 g5 g6 g7 device rest : Str) :
    g1 ++ ' ' :: (g2 ++ ' ' :: (g3 ++ ' ' :: (g4 ++ ' ' :: (g5 ++ ' ' :: g6)))) ++ device ++ ' ' :: g7 ++ rest =
      [g1, g2, g3, g4, g5, g6 ++ device].flatMap (fun p => p ++ [' ']) ++ (g7 ++ rest) := by
  simp only [List.flatMap_cons, List.flatMap_nil, List.append_assoc, List.cons_append, List.nil_append, List.append_nil]

theorem gsHead_eq (device rest : Str) :
    gsHead device ++ rest = (gsWords device).flatMap (fun p => p ++ [' ']) ++ ("-sOutputFile=".toList ++ rest) := by
  have s1 : "gs -q -dNOPAUSE -dBATCH -dEPSCrop -sDEVICE=".toList = "gs".toList ++ ' ' :: ("-q".toList ++ ' ' :: ("-dNOPAUSE".toList ++ ' ' ::
    ("-dBATCH".toList ++ ' ' :: ("-dEPSCrop".toList ++ ' ' :: "-sDEVICE=".toList)))) := by decide +kernel
  have s2 : " -sOutputFile=".toList = ' ' :: "-sOutputFile=".toList := by decide +kernel
  unfold gsHead gsWords
  rw [← gsHead_list, s1, s2]

theorem gsHead_words {device : Str} (hd : ∀ c ∈ device, Plain c) (rest : Str) :
    words (gsHead device ++ rest) = (wordsGo .no (some "-sOutputFile=".toList) rest).map (gsWords device ++ ·) := by
  rw [words, gsHead_eq, go_lead]
  · rw [go_start (plainWord_of (by decide))]
  · intro p hp
    simp only [gsWords, List.mem_cons, List.not_mem_nil, or_false] at hp
    rcases hp with rfl | rfl | rfl | rfl | rfl | rfl
    · exact plainWord_of (by decide)
    · exact plainWord_of (by decide)
    · exact plainWord_of (by decide)
    · exact plainWord_of (by decide)
    · exact plainWord_of (by decide)
    · exact plainWord_append (plainWord_of (by decide)) hd

theorem tempPs_plain : PlainWord tempPs := plainWord_of (by decide)

theorem canvasCmd_words {device path : Str} (hd : ∀ c ∈ device, Plain c) (hp : '\'' ∉ path) :
    words (canvasCmd device path) = some (gsWords device ++ ["-sOutputFile=".toList ++ path, tempPs]) := by
  rw [canvasCmd, gsHead_words hd]
  have h1 : wordsGo .no (some "-sOutputFile=".toList) ('\'' :: (path ++ '\'' :: ' ' :: tempPs)) =
      wordsGo .single (some "-sOutputFile=".toList) (path ++ '\'' :: ' ' :: tempPs) := by
    rw [go_cons]; rfl
  have h2 : wordsGo .no none tempPs = some [tempPs] := by
    have := go_start tempPs_plain []
    rw [List.append_nil] at this
    rw [this]; rfl
  rw [h1, go_single _ _ _ hp, go_blank, h2]
  rfl

/-- **C131**, exactly: `Canvas.export(path)` hands Ghostscript this path as the image to write, and the file that was just saved, if and only
if the path holds no apostrophe. (The name of the device is plain.) -/
theorem C131_path_partial {device path : Str} (hd : ∀ c ∈ device, Plain c) :
    words (canvasCmd device path) = some (gsWords device ++ ["-sOutputFile=".toList ++ path, tempPs]) ↔ '\'' ∉ path := by
  refine ⟨fun h hp => ?_, canvasCmd_words hd⟩
  obtain ⟨a, b, rfl, ha⟩ := List.eq_append_cons_of_mem hp
  rw [canvasCmd, gsHead_words hd] at h
  have h1 : wordsGo .no (some "-sOutputFile=".toList) ('\'' :: ((a ++ '\'' :: b) ++ '\'' :: ' ' :: tempPs)) =
      wordsGo .single (some "-sOutputFile=".toList) (a ++ '\'' :: (b ++ '\'' :: ' ' :: tempPs)) := by
    rw [go_cons, List.append_assoc]; rfl
  rw [h1, go_single _ _ _ ha, Option.map_eq_some_iff] at h
  obtain ⟨ws, h, e⟩ := h
  have e := List.append_cancel_left e
  subst e
  have := (total_le _ _ _ _ h).2 rfl ⟨'\'', by simp, .inl rfl⟩
  simp [total, curLen] at this
  omega

/-- **C131 fails** for an apostrophe: `it's.png` leaves a quote open, and `a' 'b` makes two images of one. -/
theorem C131_violated {device : Str} (hd : ∀ c ∈ device, Plain c) :
    words (canvasCmd device "it's.png".toList) = none ∧
    words (canvasCmd device "a' 'b".toList) = some (gsWords device ++ ["-sOutputFile=a".toList, "b".toList, tempPs]) := by
  constructor
  · rw [canvasCmd, gsHead_words hd]
    have : wordsGo .no (some "-sOutputFile=".toList) ('\'' :: ("it's.png".toList ++ '\'' :: ' ' :: tempPs)) = none := by decide +kernel
    rw [this]; rfl
  · rw [canvasCmd, gsHead_words hd]
    have : wordsGo .no (some "-sOutputFile=".toList) ('\'' :: ("a' 'b".toList ++ '\'' :: ' ' :: tempPs)) =
      some ["-sOutputFile=a".toList, "b".toList, tempPs] := by decide +kernel
    rw [this]; rfl

example : words (canvasCmd "png256".toList "/home/ana/my map (1).png".toList) =
    some (gsWords "png256".toList ++ ["-sOutputFile=/home/ana/my map (1).png".toList, tempPs]) :=
  (C131_path_partial (plainWord_of (by decide)).2.1).2 (by decide)

theorem blanks_zero {cs : Str} (h : blanks cs = 0) : ∀ c ∈ cs, isBlank c = false := by
  intro c hc
  rw [blanks, List.length_eq_zero_iff, List.filter_eq_nil_iff] at h
  simpa using h c hc

/-- **C132**, exactly: `export(pspath, output)` hands Ghostscript the two names as they are if and only if they hold nothing that means
something to a shell: no blanks, quotes, backslashes, operators, patterns. -/
theorem C132_names_partial {pspath output device : Str} (hd : ∀ c ∈ device, Plain c) :
    words (exportCmd pspath output device) = some (gsWords device ++ ["-sOutputFile=".toList ++ output, pspath]) ↔
      (∀ c ∈ output, Plain c) ∧ PlainWord pspath := by
  rw [exportCmd, List.append_assoc, gsHead_words hd]
  constructor
  · intro h
    rw [Option.map_eq_some_iff] at h
    obtain ⟨ws, h, e⟩ := h
    have e := List.append_cancel_left e
    subst e
    have hq : ∀ c ∈ output ++ ' ' :: pspath, ¬ isQuote c := by
      intro c hc hcq
      have := (total_le _ _ _ _ h).2 rfl ⟨c, hc, hcq⟩
      simp [total, curLen] at this
      omega
    obtain ⟨h1, h2⟩ := noquote _ _ _ hq h
    have hb : blanks (output ++ ' ' :: pspath) = blanks output + (1 + blanks pspath) := by
      simp [blanks, List.filter_append, isBlank]; omega
    have hlen : blanks output = 0 ∧ blanks pspath = 0 := by
      rw [hb] at h1
      simp only [curLen, List.map_cons, List.map_nil, List.sum_cons, List.sum_nil, List.length_append, List.length_cons] at h1
      omega
    have hplain : ∀ c, (c ∈ output ∨ c ∈ pspath) → Plain c := by
      intro c hc
      have hm : c ∈ output ++ ' ' :: pspath := by
        rcases hc with h | h
        · simp [h]
        · simp [h]
      have := hq c hm
      simp only [isQuote, not_or] at this
      refine ⟨?_, this.1, this.2.1, this.2.2, h2 c hm⟩
      rcases hc with h | h
      · exact blanks_zero hlen.1 c h
      · exact blanks_zero hlen.2 c h
    refine ⟨fun c hc => hplain c (.inl hc), ?_, fun c hc => hplain c (.inr hc), ?_⟩
    · rintro rfl
      rw [go_plain _ _ _ (fun c hc => hplain c (.inl hc)), go_blank] at h
      simp [wordsGo] at h
    · intro c hc hs
      rw [go_plain _ _ _ (fun c hc => hplain c (.inl hc)), go_blank] at h
      cases pspath with
      | nil => cases hc
      | cons x xs =>
        cases hc
        obtain ⟨p1, p2, p3, p4, p5⟩ := hplain c (.inr List.mem_cons_self)
        rw [go_cons] at h
        simp [p1, p2, p3, p4, p5, hs] at h
  · rintro ⟨h1, h2⟩
    have h3 : wordsGo .no none pspath = some [pspath] := by
      have := go_start h2 []
      rw [List.append_nil] at this
      rw [this]; rfl
    rw [go_plain _ _ _ h1, go_blank, h3]
    rfl

/-- **C132 fails** for a blank in a name, which `Canvas.export` can take: the image is written to another name. -/
theorem C132_violated {device : Str} (hd : ∀ c ∈ device, Plain c) :
    words (exportCmd "map.ps".toList "my map.png".toList device) = some (gsWords device ++ ["-sOutputFile=my".toList, "map.png".toList, "map.ps".toList]) ∧
    words (exportCmd "map.ps".toList "a;b".toList device) = none := by
  constructor
  · rw [exportCmd, List.append_assoc, gsHead_words hd]
    have : wordsGo .no (some "-sOutputFile=".toList) ("my map.png".toList ++ ' ' :: "map.ps".toList) =
      some ["-sOutputFile=my".toList, "map.png".toList, "map.ps".toList] := by decide +kernel
    rw [this]; rfl
  · rw [exportCmd, List.append_assoc, gsHead_words hd]
    have : wordsGo .no (some "-sOutputFile=".toList) ("a;b".toList ++ ' ' :: "map.ps".toList) = none := by decide +kernel
    rw [this]; rfl

example : words (exportCmd "map.ps".toList "map.png".toList "png256".toList) =
    some (gsWords "png256".toList ++ ["-sOutputFile=map.png".toList, "map.ps".toList]) :=
  (C132_names_partial (plainWord_of (by decide)).2.1).2 ⟨(plainWord_of (by decide)).2.1, plainWord_of (by decide)⟩

/-! ### C133: the file in between -/

/-- What an export that runs alone leaves. -/
def Disk.after (d : Disk K) (path : Str) (file : List (Line K)) : Disk K := (d.set path (some (.image file))).set tempPs none

theorem gs_run {device path : Str} (hd : ∀ c ∈ device, Plain c) (hp : '\'' ∉ path) {d : Disk K} {f : List (Line K)}
    (hf : d tempPs = some (.ps f)) : d.act (.call (canvasCmd device path)) = some (d.set path (some (.image f))) := by
  rw [Disk.act, canvasCmd_words hd hp]
  have h1 : (gsWords device ++ ["-sOutputFile=".toList ++ path, tempPs] : List Str) =
      "gs".toList :: ((gsWords device).tail ++ ["-sOutputFile=".toList ++ path, tempPs]) := rfl
  rw [h1]
  simp only [if_true]
  congr 1
  have h2 : ((gsWords device).tail ++ ["-sOutputFile=".toList ++ path, tempPs]).getLast? = some tempPs := by
    rw [List.getLast?_append]; rfl
  have h3 : ((gsWords device).tail ++ ["-sOutputFile=".toList ++ path, tempPs]).find? (fun a => "-sOutputFile=".toList.isPrefixOf a) =
      some ("-sOutputFile=".toList ++ path) := by
    simp [gsWords, List.isPrefixOf]
  rw [ghostscript, h2]
  have h4 : ("-sOutputFile=".toList ++ path).drop 13 = path := by simp
  simp only [h3, hf, h4]

theorem Disk.set_set (d : Disk K) (p : Str) (x y : Option (Doc K)) : (d.set p x).set p y = d.set p y := by
  funext q
  by_cases hq : q = p <;> simp [Disk.set, hq]

theorem Disk.set_same (d : Disk K) (p : Str) (x : Option (Doc K)) : (d.set p x) p = x := by simp [Disk.set]
theorem Disk.set_other (d : Disk K) {p q : Str} (h : q ≠ p) (x : Option (Doc K)) : (d.set p x) q = d q := by simp [Disk.set, h]

theorem Disk.set_comm (d : Disk K) {p q : Str} (h : p ≠ q) (x y : Option (Doc K)) : (d.set p x).set q y = (d.set q y).set p x := by
  funext r
  by_cases h1 : r = p
  · subst h1; simp [Disk.set, h]
  · by_cases h2 : r = q
    · subst h2; simp [Disk.set, h1]
    · simp [Disk.set, h1, h2]

theorem acts_append (a b : List (Act K)) (d : Disk K) : d.acts (a ++ b) = (d.acts a).bind (fun d => d.acts b) := by
  induction a generalizing d with
  | nil => rfl
  | cons x a ih =>
    rw [List.cons_append, Disk.acts, Disk.acts, Option.bind_assoc]
    congr 1
    funext d
    exact ih d

theorem export_acts {c : Canvas K} {path device : Str} {size : Option K} {margin : K} {acts : List (Act K)}
    (hd : ∀ ch ∈ device, Plain ch) (hp : '\'' ∉ path) (h : c.export path device size margin = .ok acts) :
    ∃ file, c.save size margin = .ok file ∧ ∀ d : Disk K, d.acts acts = some (d.after path file) := by
  rw [Canvas.export] at h
  obtain ⟨file, hf, h⟩ := Py.bind_ok.mp h
  cases h
  refine ⟨file, hf, fun d => ?_⟩
  have hg := gs_run hd hp (Disk.set_same d tempPs (some (.ps file)))
  simp only [Disk.acts]
  rw [show d.act (.write tempPs file) = some (d.set tempPs (some (.ps file))) from rfl, Option.bind_some, hg, Option.bind_some, Disk.after]
  by_cases hq : path = tempPs
  · subst hq
    simp [Disk.act, Disk.set_set, Disk.set_same]
  · rw [Disk.act, Disk.set_comm _ (Ne.symm hq), Disk.set_same]
    simp [Disk.set_set]

/-- **C133**, for a single export running at a time: the image shows the canvas, and nothing else has changed but the temporary file, which is
gone, whatever it was before. -/
theorem C133_alone_partial {c : Canvas K} {path device : Str} {size : Option K} {margin : K} {acts : List (Act K)}
    (hd : ∀ ch ∈ device, Plain ch) (hp : '\'' ∉ path) (h : c.export path device size margin = .ok acts) (d : Disk K) :
    ∃ file d', c.save size margin = .ok file ∧ d.acts acts = some d' ∧ d' tempPs = none ∧ (path ≠ tempPs → d' path = some (.image file)) ∧
      ∀ q, q ≠ path → q ≠ tempPs → d' q = d q := by
  obtain ⟨file, hf, ha⟩ := export_acts hd hp h
  refine ⟨file, _, hf, ha d, by simp [Disk.after, Disk.set], fun hne => by simp [Disk.after, Disk.set, hne], fun q h1 h2 => by
    simp [Disk.after, Disk.set, h1, h2]⟩

/-- **C133 fails** for two exports at the same time, whatever they draw: they share the temporary file, so the first image can show the
second canvas, and then one of the two fails. -/
theorem C133_violated {c1 c2 : Canvas K} {p1 p2 device : Str} {size : Option K} {margin : K} {a1 a2 : List (Act K)}
    (hd : ∀ ch ∈ device, Plain ch) (h1 : '\'' ∉ p1) (h2 : '\'' ∉ p2) (ht1 : p1 ≠ tempPs) (ht2 : p2 ≠ tempPs)
    (e1 : c1.export p1 device size margin = .ok a1) (e2 : c2.export p2 device size margin = .ok a2) (d : Disk K) :
    ∃ file1 file2 acts before last d', c1.save size margin = .ok file1 ∧ c2.save size margin = .ok file2 ∧ Mixed a1 a2 acts ∧
      acts = before ++ [last] ∧ d.acts before = some d' ∧ d' p1 = some (.image file2) ∧ d' p2 = some (.image file2) ∧ d.acts acts = none := by
  rw [Canvas.export] at e1 e2
  obtain ⟨f1, hf1, e1⟩ := Py.bind_ok.mp e1
  obtain ⟨f2, hf2, e2⟩ := Py.bind_ok.mp e2
  cases e1
  cases e2
  have hw : ∀ (d : Disk K) f, d.act (.write tempPs f) = some (d.set tempPs (some (.ps f))) := fun _ _ => rfl
  refine ⟨f1, f2, [.write tempPs f1, .write tempPs f2, .call (canvasCmd device p1), .call (canvasCmd device p2), .remove tempPs, .remove tempPs],
    [.write tempPs f1, .write tempPs f2, .call (canvasCmd device p1), .call (canvasCmd device p2), .remove tempPs], .remove tempPs, ?_⟩
  have hrun : d.acts [.write tempPs f1, .write tempPs f2, .call (canvasCmd device p1), .call (canvasCmd device p2), .remove tempPs] =
      some (((d.set p1 (some (.image f2))).set p2 (some (.image f2))).set tempPs none) := by
    have g1 := gs_run hd h1 (Disk.set_same d tempPs (some (.ps f2)))
    have g2 := gs_run hd h2 (d := (d.set tempPs (some (.ps f2))).set p1 (some (.image f2))) (f := f2)
      (by rw [Disk.set_other _ (Ne.symm ht1), Disk.set_same])
    simp only [Disk.acts, hw, Option.bind_some, Disk.set_set, g1, g2]
    rw [Disk.act, Disk.set_comm _ (Ne.symm ht1), Disk.set_comm _ (Ne.symm ht2), Disk.set_same]
    simp [Disk.set_set]
  refine ⟨_, hf1, hf2, .left (.right (.left (.right (.left (.right .nil))))), rfl, hrun, by simp [Disk.set, ht1], by simp [Disk.set, ht2], ?_⟩
  rw [show [Act.write tempPs f1, .write tempPs f2, .call (canvasCmd device p1), .call (canvasCmd device p2), .remove tempPs, .remove tempPs] =
    [.write tempPs f1, .write tempPs f2, .call (canvasCmd device p1), .call (canvasCmd device p2), .remove tempPs] ++ [.remove tempPs] from rfl,
    acts_append, hrun, Option.bind_some]
  simp [Disk.acts, Disk.act, Disk.set_same]

theorem export_of_save {c : Canvas K} {path device : Str} {size : Option K} {margin : K} {file : List (Line K)}
    (h : c.save size margin = .ok file) : ∃ acts, c.export path device size margin = .ok acts := by
  rw [Canvas.export, h]
  exact ⟨_, rfl⟩

/-- A drawing that is saved on an image of two hundred points a side. -/
theorem film : ∃ heap' c file, runCalls oneDash (Canvas.new (some (.num 1))) grayCalls = .ok (heap', c) ∧ c.save (some (200 : ℚ)) (1 / 20) = .ok file :=
  goes_through (by decide +kernel)

example (d : Disk ℚ) : ∃ (c : Canvas ℚ) (acts : List (Act ℚ)) (file : List (Line ℚ)) (d' : Disk ℚ),
    c.export "my map.png".toList "png256".toList (some 200) (1 / 20) = .ok acts ∧ d.acts acts = some d' ∧
      d' "my map.png".toList = some (.image file) := by
  obtain ⟨_, c, file, _, h⟩ := film
  obtain ⟨acts, ha⟩ := export_of_save (path := "my map.png".toList) (device := "png256".toList) h
  obtain ⟨file', d', _, h2, _, h4, _⟩ := C133_alone_partial (plainWord_of (by decide)).2.1 (by decide) ha d
  exact ⟨c, acts, file', d', ha, h2, h4 (by decide)⟩

/-! ### C134, C135: animations -/

theorem frame_last (folder : Str) (n i : Nat) : (frameName folder n i).getLast? = some 'g' := by
  rw [frameName, show ∀ (a b c : Str), folder ++ '/' :: (a ++ b ++ c) = (folder ++ '/' :: (a ++ b)) ++ c by intros; simp, List.getLast?_append]
  rfl

theorem frame_ne_temp (folder : Str) (n i : Nat) : frameName folder n i ≠ tempPs := by
  intro h
  have := frame_last folder n i
  rw [h] at this
  exact absurd this (by decide)

theorem frame_inj {folder : Str} {n i j : Nat} (h : frameName folder n i = frameName folder n j) : i = j := by
  rw [frameName, frameName] at h
  have h := List.append_cancel_left h
  rw [List.cons.injEq] at h
  have h := List.append_cancel_right h.2
  have h1 := readDigits_zeros ((decNat n).length - (decNat i).length) (decNat i)
  rw [h, readDigits_zeros, readDigits_decNat, readDigits_decNat] at h1
  exact (Option.some.inj h1).symm

theorem digit_plain : ∀ d < 10, Plain (digitChar d) := by
  intro d hd
  have : d = 0 ∨ d = 1 ∨ d = 2 ∨ d = 3 ∨ d = 4 ∨ d = 5 ∨ d = 6 ∨ d = 7 ∨ d = 8 ∨ d = 9 := by omega
  have h : ∀ c ∈ "0123456789".toList, Plain c := (plainWord_of (by decide)).2.1
  refine h _ ?_
  rcases this with rfl | rfl | rfl | rfl | rfl | rfl | rfl | rfl | rfl | rfl <;> decide +kernel

theorem frame_plain {folder : Str} (hf : PlainWord folder) (n i : Nat) : PlainWord (frameName folder n i) := by
  refine plainWord_append hf ?_
  intro c hc
  simp only [List.mem_cons, List.mem_append, List.mem_replicate] at hc
  rcases hc with rfl | ((⟨_, rfl⟩ | hc) | hc)
  · exact (plainWord_of (w := ['/']) (by decide)).2.1 _ (by simp)
  · exact digit_plain 0 (by omega)
  · obtain ⟨d, hd, rfl⟩ := decNat_digits i c hc
    exact digit_plain d hd
  · exact (plainWord_of (w := ".png".toList) (by decide)).2.1 _ hc

theorem loop_acts {bb : BBox K} {folder device : Str} {n : Nat} {size : Option K} {margin : K} (hd : ∀ ch ∈ device, Plain ch)
    (hf : PlainWord folder) {cs : List (Canvas K)} : ∀ {i : Nat} {r : List (Canvas K) × List (Act K) × List Str},
    animationLoop bb folder device n size margin i cs = .ok r →
    ∃ files, List.Forall₂ (fun (c : Canvas K) f => ({ c with bbox := bb } : Canvas K).save size margin = .ok f) cs files ∧
      r.1 = cs.map (fun c => { c with bbox := bb }) ∧ r.2.2 = (List.range' i cs.length).map (frameName folder n) ∧
      ∀ d : Disk K, ∃ d', d.acts r.2.1 = some d' ∧ (∀ q, q ≠ tempPs → q ∉ r.2.2 → d' q = d q) ∧
        List.Forall₂ (fun p f => d' p = some (.image f)) r.2.2 files := by
  induction cs with
  | nil =>
    intro i r h
    cases h
    exact ⟨[], .nil, rfl, rfl, fun d => ⟨d, rfl, fun _ _ _ => rfl, .nil⟩⟩
  | cons c cs ih =>
    intro i r h
    rw [animationLoop] at h
    obtain ⟨a1, h1, h⟩ := Py.bind_ok.mp h
    obtain ⟨r2, h2, h⟩ := Py.bind_ok.mp h
    cases h
    have hq : '\'' ∉ frameName folder n i := fun hm => ((frame_plain hf n i).2.1 _ hm).2.1 rfl
    obtain ⟨f, hs, ha⟩ := export_acts hd hq h1
    obtain ⟨fs, k1, k2, k3, k4⟩ := ih h2
    refine ⟨f :: fs, .cons hs k1, by rw [List.map_cons, ← k2], by simp [k3, List.range'_succ], fun d => ?_⟩
    obtain ⟨d', m1, m2, m3⟩ := k4 (d.after (frameName folder n i) f)
    have hnot : frameName folder n i ∉ r2.2.2 := by
      rw [k3, List.mem_map]
      rintro ⟨j, hj, e⟩
      have := frame_inj e
      subst this
      simp only [List.mem_range'] at hj
      obtain ⟨k, _, hk⟩ := hj
      omega
    refine ⟨d', ?_, ?_, .cons ?_ m3⟩
    · show d.acts (a1 ++ r2.2.1) = some d'
      rw [acts_append, ha, Option.bind_some, m1]
    · intro q q1 q2
      simp only [List.mem_cons, not_or] at q2
      rw [m2 q q1 q2.2]
      simp [Disk.after, Disk.set, q1, q2.1]
    · rw [m2 _ (frame_ne_temp _ _ _) hnot]
      simp [Disk.after, Disk.set, frame_ne_temp]

theorem join_flat {a : Str} {l : List Str} (rest : Str) : pyJoin ' ' (a :: l) ++ ' ' :: rest = (a :: l).flatMap (fun p => p ++ [' ']) ++ rest := by
  induction l generalizing a with
  | nil => simp [pyJoin]
  | cons b l ih =>
    rw [pyJoin, List.append_assoc, List.cons_append, ih]
    simp

theorem convertHead_list (g1 g2 g3 g4 delay rest : Str) :
    g1 ++ ' ' :: (g2 ++ [' ']) ++ delay ++ ' ' :: (g3 ++ ' ' :: (g4 ++ [' '])) ++ rest =
      [g1, g2, delay, g3, g4].flatMap (fun p => p ++ [' ']) ++ rest := by
  simp only [List.flatMap_cons, List.flatMap_nil, List.append_assoc, List.cons_append, List.nil_append, List.append_nil]

def convertWords (delay : Str) : List Str := ["convert".toList, "-delay".toList, delay, "-loop".toList, "0".toList]

theorem convertHead_eq (delay rest : Str) : "convert -delay ".toList ++ delay ++ " -loop 0 ".toList ++ rest =
    (convertWords delay).flatMap (fun p => p ++ [' ']) ++ rest := by
  have s1 : "convert -delay ".toList = "convert".toList ++ ' ' :: ("-delay".toList ++ [' ']) := by decide +kernel
  have s2 : " -loop 0 ".toList = ' ' :: ("-loop".toList ++ ' ' :: ("0".toList ++ [' '])) := by decide +kernel
  unfold convertWords
  rw [← convertHead_list, s1, s2]

theorem convert_words {delay gif : Str} {names : List Str} (hd : PlainWord delay) (hn : ∀ p ∈ names, PlainWord p) (hne : names ≠ []) :
    words (convertCmd delay names gif) = (wordsGo .no none gif).map (convertWords delay ++ names ++ ·) := by
  cases names with
  | nil => exact absurd rfl hne
  | cons a l =>
    have hcw : ∀ p ∈ convertWords delay, PlainWord p := by
      intro p hp
      simp only [convertWords, List.mem_cons, List.not_mem_nil, or_false] at hp
      rcases hp with rfl | rfl | rfl | rfl | rfl
      · exact plainWord_of (by decide)
      · exact plainWord_of (by decide)
      · exact hd
      · exact plainWord_of (by decide)
      · exact plainWord_of (by decide)
    have e : convertCmd delay (a :: l) gif = (convertWords delay).flatMap (fun p => p ++ [' ']) ++ ((a :: l).flatMap (fun p => p ++ [' ']) ++ gif) := by
      have h1 : convertCmd delay (a :: l) gif = "convert -delay ".toList ++ delay ++ " -loop 0 ".toList ++ (pyJoin ' ' (a :: l) ++ ' ' :: gif) :=
        List.append_assoc ..
      exact h1.trans ((congrArg _ (join_flat gif)).trans (convertHead_eq _ _))
    rw [words, e, go_lead _ _ hcw, go_lead _ _ hn, Option.map_map]
    congr 1

theorem operands_names {names : List Str} (h : ∀ p ∈ names, p ≠ "-delay".toList ∧ p ≠ "-loop".toList) (out : Str) :
    operands (names ++ [out]) = names ++ [out] := by
  induction names with
  | nil => rfl
  | cons a l ih =>
    have h1 := h a (by simp)
    have h2 := ih (fun p hp => h p (by simp [hp]))
    cases l with
    | nil =>
      rw [List.cons_append, List.nil_append, operands, if_neg (not_or.mpr h1)]
      rfl
    | cons b l =>
      rw [List.cons_append] at h2
      rw [List.cons_append, List.cons_append, operands, if_neg (not_or.mpr h1), h2]

theorem mapM_images {d : Disk K} {names : List Str} {files : List (List (Line K))} (h : List.Forall₂ (fun p f => d p = some (.image f)) names files) :
    names.mapM (fun p => (d p).bind Doc.asImage) = some files := by
  induction h with
  | nil => rfl
  | cons h1 h2 ih => rw [List.mapM_cons, h1, ih]; rfl

theorem convert_run {delay gif : Str} {names : List Str} {files : List (List (Line K))} (hd : PlainWord delay) (hg : PlainWord gif)
    (hn : ∀ p ∈ names, PlainWord p ∧ p.getLast? = some 'g') (hne : names ≠ []) {d : Disk K}
    (h : List.Forall₂ (fun p f => d p = some (.image f)) names files) :
    d.act (.call (convertCmd delay names gif)) = some (d.set gif (some (.movie files))) := by
  have h3 : wordsGo .no none gif = some [gif] := by
    have := go_start hg []
    rw [List.append_nil] at this
    rw [this]; rfl
  have hop : operands (["-delay".toList, delay, "-loop".toList, "0".toList] ++ names ++ [gif]) = names ++ [gif] := by
    rw [List.append_assoc]
    have : operands (names ++ [gif]) = names ++ [gif] := by
      refine operands_names (fun p hp => ?_) gif
      have := (hn p hp).2
      constructor <;> rintro rfl <;> exact absurd this (by decide)
    simp only [List.cons_append, List.nil_append, operands, true_or, or_true, if_true, this]
  rw [Disk.act, convert_words hd (fun p hp => (hn p hp).1) hne, h3]
  simp only [Option.map_some, convertWords, List.cons_append, List.nil_append]
  rw [if_neg (by decide), if_true]
  congr 1
  simp only [List.cons_append, List.nil_append] at hop
  rw [convert, hop, List.dropLast_concat, List.getLast?_append]
  cases names with
  | nil => exact absurd rfl hne
  | cons a l =>
    have := mapM_images h
    simp only [this, List.getLast?_singleton, Option.some_or]

theorem box_covers {frames : List (Canvas K)} {c : Canvas K} (hc : c ∈ frames) (hp : c.bbox.Proper) :
    (∀ p, c.bbox.Covers p → (animationBox frames).Covers p) ∧ (animationBox frames).x0 < c.bbox.x0 := by
  have key : ∀ (a : BBox K), (∀ p, c.bbox.Covers p → (frames.foldl (fun a c => a.union c.bbox) a).Proper ∧
      (frames.foldl (fun a c => a.union c.bbox) a).Covers p) := by
    have left : ∀ (l : List (Canvas K)) (a : BBox K) p, a.Proper → a.Covers p → (l.foldl (fun a c => a.union c.bbox) a).Proper ∧
        (l.foldl (fun a c => a.union c.bbox) a).Covers p := by
      intro l
      induction l with
      | nil => intro a p h1 h2; exact ⟨h1, h2⟩
      | cons x l ih =>
        intro a p h1 h2
        have := union_covers_left (b := x.bbox) h1 h2
        exact ih _ p this.1 this.2
    intro a p hcp
    induction frames generalizing a with
    | nil => cases hc
    | cons x l ih =>
      rcases List.mem_cons.mp hc with rfl | hc
      · have := union_covers_right (a := a) hp hcp
        exact left l _ p this.1 this.2
      · exact ih hc _
  have scale : ∀ (b : BBox K), b.Proper → ∀ p, b.Covers p → (b.scale (105 / 100)).Covers p ∧ (b.scale (105 / 100)).x0 < p.1 := by
    intro b hb p hcp
    obtain ⟨h1, h2⟩ := hb
    obtain ⟨h3, h4, h5, h6⟩ := hcp
    simp only [BBox.Covers, BBox.scale, BBox.ofCorners, BBox.center, BBox.width, BBox.height]
    refine ⟨⟨?_, ?_, ?_, ?_⟩, ?_⟩ <;> linarith
  constructor
  · intro p h
    have := key BBox.empty p h
    exact (scale _ this.1 p this.2).1
  · have := key BBox.empty (c.bbox.x0, c.bbox.y0) ⟨le_refl _, hp.1.le, le_refl _, hp.2.le⟩
    exact (scale _ this.1 _ this.2).2

/-- **C134**, for names without blanks and other characters that mean something to a shell: whatever was on the disk, there is a box that
covers the box of every canvas, and the animation shows the canvases in order, each as it is saved with that box. -/
theorem C134_movie_partial {gif folder delay device : Str} {frames frames' : List (Canvas K)} {size : Option K} {margin : K} {acts : List (Act K)}
    (hg : PlainWord gif) (hf : PlainWord folder) (hdl : PlainWord delay) (hd : ∀ ch ∈ device, Plain ch) (hne : frames ≠ [])
    (h : animation gif folder frames delay device size margin = .ok (frames', acts)) (d : Disk K) :
    ∃ (box : BBox K) (files : List (List (Line K))) (d' : Disk K),
      (∀ c ∈ frames, c.bbox.Proper → ∀ p, c.bbox.Covers p → box.Covers p) ∧
      List.Forall₂ (fun (c : Canvas K) f => ({ c with bbox := box } : Canvas K).save size margin = .ok f) frames files ∧
      d.acts acts = some d' ∧ d' gif = some (.movie files) := by
  rw [animation] at h
  obtain ⟨r, h1, h⟩ := Py.bind_ok.mp h
  cases h
  obtain ⟨files, k1, k2, k3, k4⟩ := loop_acts hd hf h1
  obtain ⟨d', m1, m2, m3⟩ := k4 d
  refine ⟨animationBox frames, files, d'.set gif (some (.movie files)), fun c hc hp p => (box_covers hc hp).1 p, k1, ?_, Disk.set_same _ _ _⟩
  rw [acts_append, m1, Option.bind_some, Disk.acts, convert_run hdl hg ?_ ?_ m3]
  · rfl
  · intro p hp
    rw [k3, List.mem_map] at hp
    obtain ⟨j, _, rfl⟩ := hp
    exact ⟨frame_plain hf _ _, frame_last _ _ _⟩
  · rw [k3]
    cases frames with
    | nil => exact absurd rfl hne
    | cons c cs => simp [List.range'_succ]

/-- **C134 fails** for a blank in the name: nothing is written to `my film.gif`. -/
theorem C134_violated {folder delay device : Str} {frames frames' : List (Canvas K)} {size : Option K} {margin : K} {acts : List (Act K)}
    (hf : PlainWord folder) (hdl : PlainWord delay) (hd : ∀ ch ∈ device, Plain ch) (hne : frames ≠ [])
    (h : animation "my film.gif".toList folder frames delay device size margin = .ok (frames', acts)) (d : Disk K) :
    ∃ d', d.acts acts = some d' ∧ d' "my film.gif".toList = d "my film.gif".toList := by
  rw [animation] at h
  obtain ⟨r, h1, h⟩ := Py.bind_ok.mp h
  cases h
  obtain ⟨files, k1, k2, k3, k4⟩ := loop_acts hd hf h1
  obtain ⟨d', m1, m2, m3⟩ := k4 d
  have hn : ∀ p ∈ r.2.2, PlainWord p ∧ p.getLast? = some 'g' := by
    intro p hp
    rw [k3, List.mem_map] at hp
    obtain ⟨j, _, rfl⟩ := hp
    exact ⟨frame_plain hf _ _, frame_last _ _ _⟩
  have hnot : "my film.gif".toList ∉ r.2.2 := fun hm => absurd (hn _ hm).2 (by decide)
  have hne : r.2.2 ≠ [] := by
    rw [k3]
    cases frames with
    | nil => exact absurd rfl hne
    | cons c cs => simp [List.range'_succ]
  rw [acts_append, m1, Option.bind_some, Disk.acts]
  have hw := convert_words (gif := "my film.gif".toList) hdl (fun p hp => (hn p hp).1) hne
  rw [show wordsGo .no none "my film.gif".toList = some ["my".toList, "film.gif".toList] by decide +kernel, Option.map_some] at hw
  rw [Disk.act, hw]
  simp only [convertWords, List.cons_append, List.nil_append]
  rw [if_neg (by decide), if_true, Option.bind_some]
  refine ⟨_, rfl, ?_⟩
  have hop : operands ("-delay".toList :: delay :: "-loop".toList :: "0".toList :: (r.2.2 ++ ["my".toList, "film.gif".toList])) =
      r.2.2 ++ ["my".toList] ++ ["film.gif".toList] := by
    have : operands (r.2.2 ++ ["my".toList] ++ ["film.gif".toList]) = r.2.2 ++ ["my".toList] ++ ["film.gif".toList] := by
      refine operands_names (fun p hp => ?_) _
      rcases List.mem_append.mp hp with hp | hp
      · have := (hn p hp).2
        constructor <;> rintro rfl <;> exact absurd this (by decide)
      · rw [List.mem_singleton] at hp
        subst hp
        decide
    rw [← this]
    simp only [operands, true_or, or_true, if_true, List.append_assoc, List.cons_append, List.nil_append]
  rw [← m2 _ (by decide) hnot, convert, hop, List.getLast?_append, List.dropLast_concat]
  cases r.2.2 ++ ["my".toList] with
  | nil => rfl
  | cons a l =>
    simp only [List.getLast?_singleton, Option.some_or]
    generalize List.mapM (fun p => (d' p).bind Doc.asImage) (a :: l) = o
    cases o with
    | none => rfl
    | some fs => exact Disk.set_other _ (by decide) _

/-- **C135**, what holds: an animation changes nothing of a canvas but its box. -/
theorem C135_rest_partial {gif folder delay device : Str} {frames frames' : List (Canvas K)} {size : Option K} {margin : K} {acts : List (Act K)}
    (hf : PlainWord folder) (hd : ∀ ch ∈ device, Plain ch)
    (h : animation gif folder frames delay device size margin = .ok (frames', acts)) :
    List.Forall₂ (fun c c' : Canvas K => ({ c' with bbox := c.bbox } : Canvas K) = c) frames frames' := by
  rw [animation] at h
  obtain ⟨r, h1, h⟩ := Py.bind_ok.mp h
  cases h
  obtain ⟨files, _, k2, _⟩ := loop_acts hd hf h1
  rw [k2, List.forall₂_map_right_iff, List.forall₂_same]
  exact fun _ _ => rfl

/-- **C135 fails** always: no canvas whose box has an extent has that box afterwards. -/
theorem C135_violated {gif folder delay device : Str} {frames frames' : List (Canvas K)} {size : Option K} {margin : K} {acts : List (Act K)}
    (hf : PlainWord folder) (hd : ∀ ch ∈ device, Plain ch)
    (h : animation gif folder frames delay device size margin = .ok (frames', acts)) :
    List.Forall₂ (fun c c' : Canvas K => c.bbox.Proper → c'.bbox ≠ c.bbox) frames frames' := by
  rw [animation] at h
  obtain ⟨r, h1, h⟩ := Py.bind_ok.mp h
  cases h
  obtain ⟨files, _, k2, _⟩ := loop_acts hd hf h1
  rw [k2, List.forall₂_map_right_iff, List.forall₂_same]
  intro c hc hp e
  have := (box_covers hc hp).2
  rw [show animationBox frames = c.bbox from e] at this
  exact lt_irrefl _ this

/-- Whether an animation of one and the same drawing twice is made, and the box of the drawing has an extent. -/
def filmOk (gif : Str) : Bool :=
  match runCalls oneDash (Canvas.new (some (.num 1))) grayCalls with
  | .error _ => false
  | .ok (_, c) =>
    match animation gif "/tmp/tmpk3w".toList [c, c] "10".toList "png256".toList (some 200) (1 / 20) with
    | .error _ => false
    | .ok _ => decide (c.bbox.x0 < c.bbox.x1) && decide (c.bbox.y0 < c.bbox.y1)

theorem film_runs {gif : Str} (h : filmOk gif = true) : ∃ (c : Canvas ℚ) (frames' : List (Canvas ℚ)) (acts : List (Act ℚ)), c.bbox.Proper ∧
    animation gif "/tmp/tmpk3w".toList [c, c] "10".toList "png256".toList (some 200) (1 / 20) = .ok (frames', acts) := by
  rw [filmOk] at h
  split at h
  · cases h
  · rename_i c _
    split at h
    · cases h
    · rename_i r e
      simp only [Bool.and_eq_true, decide_eq_true_eq] at h
      exact ⟨c, r.1, r.2, h, e⟩

theorem film_words : PlainWord "/tmp/tmpk3w".toList ∧ PlainWord "10".toList ∧ ∀ ch ∈ "png256".toList, Plain ch :=
  ⟨plainWord_of (by decide), plainWord_of (by decide), (plainWord_of (by decide)).2.1⟩

example (d : Disk ℚ) : ∃ (c : Canvas ℚ) (frames' : List (Canvas ℚ)) (acts : List (Act ℚ)) (f g : List (Line ℚ)) (d' : Disk ℚ),
    animation "film.gif".toList "/tmp/tmpk3w".toList [c, c] "10".toList "png256".toList (some 200) (1 / 20) = .ok (frames', acts) ∧
    d.acts acts = some d' ∧ d' "film.gif".toList = some (.movie [f, g]) := by
  obtain ⟨c, frames', acts, _, h⟩ := film_runs (gif := "film.gif".toList) (by decide +kernel)
  obtain ⟨_, files, d', _, h2, h3, h4⟩ := C134_movie_partial (plainWord_of (by decide)) film_words.1 film_words.2.1 film_words.2.2 (by simp) h d
  cases h2 with
  | cons _ h2 =>
    cases h2 with
    | cons _ h2 => cases h2; exact ⟨c, frames', acts, _, _, d', h, h3, h4⟩

example (d : Disk ℚ) : ∃ (c : Canvas ℚ) (frames' : List (Canvas ℚ)) (acts : List (Act ℚ)) (d' : Disk ℚ),
    animation "my film.gif".toList "/tmp/tmpk3w".toList [c, c] "10".toList "png256".toList (some 200) (1 / 20) = .ok (frames', acts) ∧
    d.acts acts = some d' ∧ d' "my film.gif".toList = d "my film.gif".toList ∧ List.Forall₂ (fun c c' : Canvas ℚ => c'.bbox ≠ c.bbox) [c, c] frames' := by
  obtain ⟨c, frames', acts, hp, h⟩ := film_runs (gif := "my film.gif".toList) (by decide +kernel)
  obtain ⟨d', h1, h2⟩ := C134_violated film_words.1 film_words.2.1 film_words.2.2 (by simp) h d
  refine ⟨c, frames', acts, d', h, h1, h2, ?_⟩
  have := C135_violated film_words.1 film_words.2.2 h
  cases this with
  | cons k1 this =>
    cases this with
    | cons k2 this => cases this; exact .cons (k1 hp) (.cons (k2 hp) .nil)

end Vector
end Coral
