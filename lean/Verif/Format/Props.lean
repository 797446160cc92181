import Verif.Format.FmtProofs
import Verif.Format.Reformat
/-!
# C65, C66: deformatting and reformatting

The statements are about all twelve formats of the repository (`formats`), all inputs that are UTF-8 without NUL bytes, all
options, and every environment that gives fresh names to the temporary files (`Env.Ok`).
-/
namespace Verif.Format

/-- What comes out when a document is deformatted and, without a translation, reformatted: the text, the temporary files that
are left, and whether the programs ended normally. -/
def roundTrip (f : Fmt) (o : Opts) (e : Env) (doc : Bytes) : ReOut :=
  reformat f (deformat f o e doc).files (deformat f o e doc).out

theorem roundTrip_pieces {f : Fmt} (hf : f.Plain) (o : Opts) {e : Env} (he : e.Ok) (doc : Bytes) (hv : isValid doc = true)
    (h0 : 0 ∉ doc) (heoh : o.markEoh = false ∨ ∀ r ∈ f.rules, r.eoh = false)
    (hd : o.noDot = false ∨ (0x2E ∉ doc ∧ ∀ p ∈ f.repls, ∀ q ∈ p.table, 0x2E ∉ q.2.1)) :
    ∃ y, roundTrip f o e doc = ⟨y, [], true⟩ ∧ Decoded f doc y := by
  obtain ⟨ps, hg, ho, hfl, hdec, hn, hh⟩ := deformat_pieces hf o he doc hv h0
  refine ⟨plainAll ps, ?_, hdec⟩
  have hdot : o.noDot = false ∨ Piece.chr 0x2E ∉ ps := by
    refine hd.imp id (fun h hc => ?_)
    have hmem : (0x2E : UInt8) ∈ plainAll ps := by
      simp only [plainAll, List.mem_flatMap]
      exact ⟨_, hc, by simp [Piece.plain]⟩
    have key : ∀ x y, Decoded f x y → (0x2E : UInt8) ∉ x → (0x2E : UInt8) ∉ y := by
      intro x y hxy
      induction hxy with
      | nil => simp
      | keep b _ ih =>
        intro hx
        simp only [List.mem_cons, not_or] at hx ⊢
        exact ⟨hx.1, ih hx.2⟩
      | repl p q hp hq _ ih =>
        intro hx
        simp only [List.mem_append, not_or] at hx ⊢
        exact ⟨h.2 p hp q hq, ih hx.2⟩
    exact key _ _ hdec h.1 hmem
  have hread : ∀ (qs : List Piece), ((filesAll qs).map (·.1)).Nodup → ∀ n c, Piece.big n c ∈ qs →
      readFile (filesAll qs) n = some c := by
    intro qs
    induction qs with
    | nil => simp
    | cons p qs ih =>
      intro hnd n c hm
      have e3 : filesAll (p :: qs) = p.file ++ filesAll qs := by simp [filesAll]
      rw [e3] at hnd ⊢
      rw [List.map_append, List.nodup_append] at hnd
      cases p with
      | big m d =>
        rcases List.mem_cons.1 hm with hm | hm
        · cases hm; simp [Piece.file, readFile]
        · have hne : m ≠ n := hnd.2.2 m (by simp [Piece.file]) n ((filesAll_names qs n).2 ⟨c, hm⟩)
          have := ih hnd.2.1 n c hm
          simp only [readFile, Piece.file, List.cons_append, List.nil_append] at this ⊢
          rw [List.find?_cons_of_neg (by simpa using hne)]
          exact this
      | _ =>
        rcases List.mem_cons.1 hm with hm | hm
        · cases hm
        · simpa [Piece.file] using ih hnd.2.1 n c hm
  unfold roundTrip reformat
  rw [ho, hfl]
  have := reGo_pieces hf o ps (filesAll ps) hg hdot (hh heoh) hn (hread ps hn) []
  unfold reGo at this
  rw [this, List.nil_append]
  congr 1
  rw [List.filter_eq_nil_iff]
  intro p hp
  simp only [Bool.not_eq_true', Bool.not_eq_false, List.contains_iff_mem]
  exact List.mem_map.2 ⟨p, hp, rfl⟩

theorem decoded_id {f : Fmt} (h : f.repls = []) {x y : Bytes} (hd : Decoded f x y) : y = x := by
  induction hd with
  | nil => rfl
  | keep b _ ih => rw [ih]
  | repl p q hp => rw [h] at hp; cases hp

/-- **C65.** Deformatting and reformatting a document gives the document back byte for byte, for the formats without
replacements (txt, html-noent, html-alt, mediawiki, xpresstag), with or without `-i`: nothing of the text or of the format is
lost or added, the large blocks come back from their temporary files, and these are removed. -/
theorem C65_round_trip {f : Fmt} (hf : f ∈ formats) (hr : f.repls = []) (o : Opts) (hn : o.noDot = false) (ho : o.markEoh = false)
    {e : Env} (he : e.Ok) (doc : Bytes) (hv : isValid doc = true) (h0 : 0 ∉ doc) :
    roundTrip f o e doc = ⟨doc, [], true⟩ := by
  obtain ⟨y, hy, hd⟩ := roundTrip_pieces (formats_plain f hf) o he doc hv h0 (.inl ho) (.inl hn)
  rw [hy, decoded_id hr hd]

/-- **C65, formats with replacements** (html, latex, odt, pptx, wxml, xlsx, rtf).  The document comes back with some of the
entities of the replacement tables in the form of their targets, and otherwise unchanged. -/
theorem C65_round_trip_entities {f : Fmt} (hf : f ∈ formats) (o : Opts) (hn : o.noDot = false) (ho : o.markEoh = false)
    {e : Env} (he : e.Ok) (doc : Bytes) (hv : isValid doc = true) (h0 : 0 ∉ doc) :
    ∃ y, roundTrip f o e doc = ⟨y, [], true⟩ ∧ Decoded f doc y :=
  roundTrip_pieces (formats_plain f hf) o he doc hv h0 (.inl ho) (.inl hn)

/-- **C65 with `-n`.** When the document has no full stop, `-n` gives it back as well. -/
theorem C65_round_trip_nodot {f : Fmt} (hf : f ∈ formats) (hr : f.repls = []) (o : Opts) (ho : o.markEoh = false)
    {e : Env} (he : e.Ok) (doc : Bytes) (hv : isValid doc = true) (h0 : 0 ∉ doc) (hd : 0x2E ∉ doc) :
    roundTrip f o e doc = ⟨doc, [], true⟩ := by
  obtain ⟨y, hy, hdd⟩ := roundTrip_pieces (formats_plain f hf) o he doc hv h0 (.inl ho) (.inr ⟨hd, by simp [hr]⟩)
  rw [hy, decoded_id hr hdd]

/-- **C65 with `-o`.** In a format without end-of-header rules (all but html, html-alt and html-noent), `-o` changes
nothing about this. -/
theorem C65_round_trip_eoh {f : Fmt} (hf : f ∈ formats) (hr : f.repls = []) (o : Opts) (hn : o.noDot = false)
    (hno : ∀ r ∈ f.rules, r.eoh = false) {e : Env} (he : e.Ok) (doc : Bytes) (hv : isValid doc = true) (h0 : 0 ∉ doc) :
    roundTrip f o e doc = ⟨doc, [], true⟩ := by
  obtain ⟨y, hy, hd⟩ := roundTrip_pieces (formats_plain f hf) o he doc hv h0 (.inr hno) (.inl hn)
  rw [hy, decoded_id hr hd]

/-! ### The hypotheses are met, and needed -/

/-- The formats without replacements, and those without end-of-header rules. -/
example : [txt, htmlNoent, htmlAlt, mediawiki, xpresstag].all (fun f => f.repls.isEmpty) = true ∧
    [txt, latex, mediawiki, odt, pptx, wxml, xlsx, xpresstag, rtf].all (fun f => f.rules.all (fun r => !r.eoh)) = true := by
  decide +kernel

/-- An environment with names like `tmpnam`'s: `/tmp/0`, `/tmp/00`, … -/
def sampleEnv : Env := { tmp := fun i => bytes "/tmp/" ++ List.replicate (i + 1) 0x30, toU := id }

theorem sampleEnv_ok : sampleEnv.Ok where
  inj := by
    intro i j h
    have := congrArg List.length h
    simpa [sampleEnv] using this
  good := by
    intro i
    have hb : bytes "/tmp/" = [0x2F, 0x74, 0x6D, 0x70, 0x2F] := by decide +kernel
    simp [sampleEnv, hb, List.mem_replicate]
  toU := fun s _ => rfl

/-- A text with a paragraph, a bracket, an at sign, two spaces and a non-ASCII letter. -/
def sampleTxt : Bytes := bytes "A [b] @ c.\n\n  d" ++ [0xC3, 0xA9] ++ bytes "\n"

example : isValid sampleTxt = true ∧ 0 ∉ sampleTxt := by decide +kernel
example : (deformat txt {} sampleEnv sampleTxt).out =
    bytes "A \\[b\\] \\@ c..[][\n\n  ]d" ++ [0xC3, 0xA9] ++ bytes ".[][\n]" := by decide +kernel
example : roundTrip txt {} sampleEnv sampleTxt = ⟨sampleTxt, [], true⟩ :=
  C65_round_trip (by simp [formats]) rfl {} rfl rfl sampleEnv_ok _ (by decide +kernel) (by decide +kernel)

/-- With a small limit, the blocks go to files. -/
example : (deformat { txt with large := 2 } {} sampleEnv sampleTxt).files = [(bytes "/tmp/0", bytes "\n\n  ")] := by
  decide +kernel

def samplePage : Bytes := bytes "<html><!-- <b> --><h1 class='x'>A</h1><p>b</p></html>"

example : (deformat htmlNoent {} sampleEnv samplePage).out =
    bytes ".[][<html><!-- <b> --><h1 class='x'>]A.[][<\\/h1><p>]b.[][<\\/p><\\/html>]" := by
  decide +kernel

/-- With `-n` the mark of the end is `[]`, and a full stop before it is taken for a part of the mark: the last full stop of every
paragraph is lost. -/
theorem C65_nodot_violation : ∃ doc, isValid doc = true ∧ 0 ∉ doc ∧
    roundTrip txt { noDot := true } sampleEnv doc = ⟨bytes "Hello\n\nBye", [], true⟩ ∧ doc = bytes "Hello.\n\nBye." :=
  ⟨bytes "Hello.\n\nBye.", by decide +kernel⟩

/-- With `-o` the mark of a header stays in the document. -/
theorem C65_eoh_violation : ∃ doc, isValid doc = true ∧ 0 ∉ doc ∧
    roundTrip htmlNoent { markEoh := true } sampleEnv doc =
      ⟨bytes "<h1>A" ++ [0xE2, 0x9D, 0xA1] ++ bytes "</h1>", [], true⟩ ∧ doc = bytes "<h1>A</h1>" :=
  ⟨bytes "<h1>A</h1>", by decide +kernel⟩

/-- With `-o` and a full stop at the end of the header, the full stop is lost as well. -/
theorem C65_eoh_dot_violation : ∃ doc, isValid doc = true ∧ 0 ∉ doc ∧
    roundTrip htmlNoent { markEoh := true } sampleEnv doc =
      ⟨bytes "<h1>A" ++ [0xE2, 0x9D, 0xA1] ++ bytes "</h1>", [], true⟩ ∧ doc = bytes "<h1>A.</h1>" :=
  ⟨bytes "<h1>A.</h1>", by decide +kernel⟩

/-- A byte that is not UTF-8 makes the rest of the text disappear: the incomplete character is never finished, and all the
ordinary characters after it are added to it. -/
theorem C65_utf8_violation : ∃ doc, 0 ∉ doc ∧ roundTrip txt {} sampleEnv doc = ⟨bytes "Caf  ", [], true⟩ ∧
    doc = bytes "Caf" ++ [0xE9] ++ bytes " con leche" :=
  ⟨bytes "Caf" ++ [0xE9] ++ bytes " con leche", by decide +kernel⟩

/-- NUL bytes are lost. -/
theorem C65_nul_violation : ∃ doc, isValid doc = true ∧ roundTrip txt {} sampleEnv doc = ⟨bytes "ab", [], true⟩ ∧
    doc = bytes "a" ++ [0] ++ bytes "b" :=
  ⟨bytes "a" ++ [0] ++ bytes "b", by decide +kernel⟩

/-- The html reformatter does not put the entities back, although they are marked as preferred: it looks up single bytes, and
these characters have two. -/
theorem C65_entity_violation : ∃ doc, isValid doc = true ∧ 0 ∉ doc ∧
    roundTrip html {} sampleEnv doc = ⟨bytes "caf" ++ [0xC3, 0xA9], [], true⟩ ∧ doc = bytes "caf&eacute;" ∧
    (bytes "&eacute;", [0xC3, 0xA9], true) ∈ htmlRepl1.table :=
  ⟨bytes "caf&eacute;", by decide +kernel⟩

/-! ## C66: the stream -/

/-- Where a reader of the stream is: in the text, in a superblank, or in a reference to a file. -/
inductive Pos where
  | text
  | blank
  | ref
  deriving DecidableEq

/-- A well-formed stream: in the text, every character with a meaning has a backslash, except the brackets around superblanks;
in a superblank the same, so superblanks are not nested; a superblank that begins with `@` is a reference, up to the closing
bracket; everything that is opened is closed. -/
def wellFormed (f : Fmt) : Pos → Bytes → Bool
  | .text, [] => true
  | _, [] => false
  | .ref, b :: r => if b = 0x5D then wellFormed f .text r else decide (b ≠ 0x5B ∧ b ≠ 0x5C) && wellFormed f .ref r
  | p, [b] => if b = 0x5D ∧ p = .blank then true else !f.escape b && decide (p = .text)
  | p, b :: c :: r =>
    if b = 0x5C then wellFormed f p r
    else if b = 0x5B ∧ p = .text then (if c = 0x40 then wellFormed f .ref r else wellFormed f .blank (c :: r))
    else if b = 0x5D ∧ p = .blank then wellFormed f .text (c :: r)
    else !f.escape b && wellFormed f p (c :: r)

theorem wf_chr {f : Fmt} (hf : f.Plain) (p : Pos) (hp : p ≠ .ref) (b : UInt8) (hb : f.escape b = false) (X : Bytes)
    (h : wellFormed f p X = true) : wellFormed f p (b :: X) = true := by
  have h1 : b ≠ 0x5C := by rintro rfl; rw [hf.bs] at hb; cases hb
  have h2 : b ≠ 0x5B := by rintro rfl; rw [hf.lb] at hb; cases hb
  have h3 : b ≠ 0x5D := by rintro rfl; rw [hf.rb] at hb; cases hb
  cases p with
  | ref => exact absurd rfl hp
  | text => cases X <;> simp_all [wellFormed]
  | blank => cases X <;> simp_all [wellFormed]

theorem wf_esc {f : Fmt} (p : Pos) (hp : p ≠ .ref) (b : UInt8) (X : Bytes) :
    wellFormed f p (0x5C :: b :: X) = wellFormed f p X := by
  cases p <;> simp_all [wellFormed]

theorem wf_quoted {f : Fmt} (hf : f.Plain) (w X : Bytes) (h : wellFormed f .text X = true) :
    wellFormed f .blank (w.flatMap (fun c => if f.escape c then [0x5C, c] else [c]) ++ 0x5D :: X) = true := by
  induction w with
  | nil => cases X <;> simp_all [wellFormed]
  | cons b w ih =>
    simp only [List.flatMap_cons, List.append_assoc]
    split
    · simp only [List.cons_append, List.nil_append]
      rw [wf_esc _ (by simp)]; exact ih
    · rename_i hb
      simp only [List.cons_append, List.nil_append]
      exact wf_chr hf _ (by simp) b (by simpa using hb) _ ih

theorem wf_ref {f : Fmt} (n X : Bytes) (hn : 0x5D ∉ n ∧ 0x5C ∉ n ∧ 0x5B ∉ n) (h : wellFormed f .text X = true) :
    wellFormed f .ref (n ++ 0x5D :: X) = true := by
  induction n with
  | nil => simp [wellFormed, h]
  | cons b n ih =>
    simp only [List.mem_cons, not_or] at hn
    have hb1 : b ≠ 0x5D := fun hh => hn.1.1 hh.symm
    have hb2 : b ≠ 0x5C := fun hh => hn.2.1.1 hh.symm
    have hb3 : b ≠ 0x5B := fun hh => hn.2.2.1 hh.symm
    simp [wellFormed, hb1, hb2, hb3, ih ⟨hn.1.2, hn.2.1.2, hn.2.2.2⟩]

theorem wf_pieces {f : Fmt} (hf : f.Plain) (o : Opts) (ps : List Piece) (hp : ∀ p ∈ ps, p.Good f) :
    wellFormed f .text (renderAll f o ps) = true := by
  induction ps with
  | nil => simp [renderAll, wellFormed]
  | cons p ps ih =>
    have ih := ih (fun q hq => hp q (by simp [hq]))
    have hp1 := hp p (by simp)
    have e1 : renderAll f o (p :: ps) = p.render f o ++ renderAll f o ps := by simp [renderAll]
    rw [e1]
    have hbr : wellFormed f .text (0x5B :: 0x5D :: renderAll f o ps) = true := by
      generalize renderAll f o ps = X at ih ⊢
      cases X <;> simp_all [wellFormed]
    cases p with
    | chr b => exact wf_chr hf _ (by simp) b hp1.1 _ ih
    | esc b => simp only [Piece.render, List.cons_append, List.nil_append]; rw [wf_esc _ (by simp)]; exact ih
    | mark =>
      simp only [Piece.render]
      split
      · exact hbr
      · exact wf_chr hf _ (by simp) _ hf.dot _ hbr
    | hmark =>
      have hhi : ∀ b : UInt8, 128 ≤ b.toNat → f.escape b = false := by
        intro b hb
        cases h : f.escape b with
        | false => rfl
        | true => have := hf.escAscii b h; omega
      have h3 := wf_chr hf .text (by simp) 0xE2 (hhi _ (by decide)) _ (wf_chr hf .text (by simp) 0x9D (hhi _ (by decide)) _
        (wf_chr hf .text (by simp) 0xA1 (hhi _ (by decide)) _ ih))
      simp only [Piece.render, List.cons_append, List.nil_append]
      simp [wellFormed] at h3 ⊢
      exact h3
    | blank w =>
      simp only [Piece.render, List.append_assoc, List.cons_append, List.nil_append]
      have hw := hp1.1
      cases w with
      | nil => exact absurd rfl hw
      | cons b w =>
        have hq := wf_quoted hf w (renderAll f o ps) ih
        simp only [quoted, List.append_assoc]
        split
        · simp only [List.cons_append, List.nil_append]
          simp only [wellFormed]
          simpa using hq
        · rename_i hb
          simp only [not_or, Bool.not_eq_true] at hb
          have h2 := wf_chr hf .blank (by simp) b hb.1 _ hq
          simp only [List.cons_append, List.nil_append, wellFormed]
          simp [hb.2]
          exact h2
    | big n c =>
      simp only [Piece.render, List.append_assoc, List.cons_append, List.nil_append]
      have := wf_ref (f := f) n (renderAll f o ps) ⟨hp1.2.1, hp1.2.2.1, hp1.2.2.2.1⟩ ih
      simp only [wellFormed]
      simpa using this

/-- **C66.** Whatever the document and the options are, the deformatter writes a well-formed stream. -/
theorem C66_well_formed {f : Fmt} (hf : f ∈ formats) (o : Opts) {e : Env} (he : e.Ok) (doc : Bytes)
    (hv : isValid doc = true) (h0 : 0 ∉ doc) : wellFormed f .text (deformat f o e doc).out = true := by
  obtain ⟨ps, hg, ho, -⟩ := deformat_pieces (formats_plain f hf) o he doc hv h0
  rw [ho]
  exact wf_pieces (formats_plain f hf) o ps hg

/-- `wellFormed` is not always true: an open bracket, a nested one, a bare circumflex. -/
example : wellFormed txt .text (bytes "a[b") = false ∧ wellFormed txt .text (bytes "[a[b]]") = false ∧
    wellFormed txt .text (bytes "a^b$") = false ∧ wellFormed txt .text (bytes "a]") = false ∧
    wellFormed txt .text (bytes "a[\\[]\\^.[][@/tmp/0]") = true := by decide +kernel

/-- **C66, back.** Whatever a translator makes of the text, as long as it writes a stream of pieces — text with its special
characters escaped, end marks, superblanks and references in any order — the reformatter gives back the text, every superblank
as it was and the content of every file, and it removes exactly these files. -/
theorem C66_reformat {f : Fmt} (hf : f ∈ formats) (ps : List Piece) (fs : List (Bytes × Bytes)) (hp : ∀ p ∈ ps, p.Good f)
    (hh : Piece.hmark ∉ ps) (hn : ((filesAll ps).map (·.1)).Nodup)
    (hfs : ∀ n c, Piece.big n c ∈ ps → readFile fs n = some c) :
    reformat f fs (renderAll f {} ps) =
      ⟨plainAll ps, fs.filter (fun p => !((filesAll ps).map (·.1)).contains p.1), true⟩ := by
  have := reGo_pieces (formats_plain f hf) {} ps fs hp (.inl rfl) hh hn hfs []
  unfold reGo at this
  unfold reformat
  rw [this, List.nil_append]

/-- A stream whose superblanks have been moved, with a file that is not used. -/
example :
    let ps := [Piece.big (bytes "/tmp/0") (bytes "<big>"), .chr 0x61, .esc 0x5B, .blank (bytes "@x]"), .mark]
    (∀ p ∈ ps, p.Good html) ∧ Piece.hmark ∉ ps ∧
    reformat html [(bytes "/tmp/1", []), (bytes "/tmp/0", bytes "<big>")] (renderAll html {} ps) =
      ⟨bytes "<big>a[@x]", [(bytes "/tmp/1", [])], true⟩ := by
  refine ⟨?_, by simp, by decide +kernel⟩
  intro p hp
  simp only [List.mem_cons, List.not_mem_nil, or_false] at hp
  rcases hp with rfl | rfl | rfl | rfl | rfl <;> simp only [Piece.Good] <;> decide +kernel

/-- A reference to a file that is not there ends the reformatter, and the rest of the document is lost. -/
theorem C66_missing_file (f : Fmt) (n X : Bytes) (fs : List (Bytes × Bytes)) (hn : n ≠ []) (hb : 0x5D ∉ n) (h0 : 0 ∉ n)
    (hm : readFile fs n = none) : reformat f fs ([0x5B, 0x40] ++ n ++ [0x5D] ++ X) = ⟨[], fs, false⟩ := by
  have htw := takeWhile_app n X hb
  have hturn : reTurn f (0x5B :: 0x40 :: (n ++ 0x5D :: X)) = (X, .file n) := by
    simp only [reTurn, if_true, reOpen, List.drop_succ_cons, List.drop_zero, htw]
    simp [hn]
  have : [0x5B, 0x40] ++ n ++ [0x5D] ++ X = 0x5B :: 0x40 :: (n ++ 0x5D :: X) := by simp
  rw [this]
  unfold reformat
  simp only [List.length_cons, reLoop, hturn, cstr_eq h0, hm]

end Verif.Format
