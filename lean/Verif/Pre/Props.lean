import Verif.Pre.Proofs
/-!
# Properties C02-C05, C10 and C36 (pretransfer)
-/
namespace Verif.Pre
open Verif.Stream

/-! ## Escaped `$` inside a word -/

/-- What is written between `^` and `$` for a word body; if the body contains `$` (escaped), the word is
taken to end there and the rest is copied. -/
def bodyOut (cs : Bool) (wb : Text) (b : Text) : Text :=
  if '$' ∈ b then
    wordText cs wb (b.takeWhile (· ≠ '$')) ++ b.dropWhile (· ≠ '$')
  else wordText cs wb b

theorem processStream_copy (sf cs : Bool) (b : List Atom) (h : ∀ a ∈ b, a.wf ['^', '[']) (rest : Text) :
    processStream sf cs (renderAtoms b ++ rest) = (processStream sf cs rest).map (renderAtoms b ++ ·) := by
  induction b with
  | nil => simp only [renderAtoms_nil, List.nil_append]; cases processStream sf cs rest <;> rfl
  | cons a b ih =>
    have ih := ih (fun x hx => h x (by simp [hx]))
    have ha := h a (by simp)
    have : processStream sf cs (a.render ++ (renderAtoms b ++ rest)) =
        (processStream sf cs (renderAtoms b ++ rest)).map (a.render ++ ·) := by
      cases a with
      | lit c =>
        simp [Atom.wf] at ha
        have : streamStep sf cs c (renderAtoms b ++ rest) = .ok ([c], renderAtoms b ++ rest) := by
          simp [streamStep, ha]
        simpa [Atom.render] using processStream_step this
      | esc c =>
        have : streamStep sf cs '\\' (c :: (renderAtoms b ++ rest)) = .ok (['\\', c], renderAtoms b ++ rest) := by
          simp [streamStep, get]
        simpa [Atom.render] using processStream_step this
    rw [renderAtoms_cons, List.append_assoc, this, ih, Outcome.map_map]
    congr 1; funext x; simp

/-- Splitting the body at its first `$`, which is escaped. -/
theorem split_dollar (b : List Atom) (h : ∀ a ∈ b, a.wf ['^', '$', '[']) (hm : '$' ∈ renderAtoms b) :
    ∃ suf : List Atom, (∀ a ∈ suf, a.wf ['^', '[']) ∧
      (renderAtoms b).dropWhile (· ≠ '$') = '$' :: renderAtoms suf ∧
      '$' ∉ (renderAtoms b).takeWhile (· ≠ '$') ∧
      renderAtoms b = (renderAtoms b).takeWhile (· ≠ '$') ++ '$' :: renderAtoms suf := by
  have weaken : ∀ l : List Atom, (∀ a ∈ l, a.wf ['^', '$', '[']) → ∀ a ∈ l, a.wf ['^', '['] := by
    intro l hl a ha
    have := hl a ha
    cases a <;> simp_all [Atom.wf]
  induction b with
  | nil => simp at hm
  | cons a b ih =>
    have hb : ∀ a ∈ b, a.wf ['^', '$', '['] := fun x hx => h x (by simp [hx])
    have ha := h a (by simp)
    cases a with
    | lit c =>
      simp [Atom.wf] at ha
      have hm' : '$' ∈ renderAtoms b := by
        simp [Atom.render] at hm
        rcases hm with e | e
        · exact absurd e.symm ha.2.2.2.1
        · exact e
      obtain ⟨suf, h1, h2, h3, h4⟩ := ih hb hm'
      refine ⟨suf, h1, ?_, ?_, ?_⟩
      · simpa [Atom.render, ha] using h2
      · have : '$' ≠ c := fun e => ha.2.2.2.1 e.symm
        simpa [Atom.render, ha, this] using h3
      · simpa [Atom.render, ha] using h4
    | esc c =>
      by_cases hc : c = '$'
      · subst hc
        exact ⟨b, weaken b hb, by simp [Atom.render], by simp [Atom.render], by simp [Atom.render]⟩
      · have hm' : '$' ∈ renderAtoms b := by
          simp [Atom.render] at hm
          rcases hm with e | e
          · exact absurd e.symm hc
          · exact e
        obtain ⟨suf, h1, h2, h3, h4⟩ := ih hb hm'
        refine ⟨suf, h1, ?_, ?_, ?_⟩
        · simpa [Atom.render, hc] using h2
        · have : '$' ≠ c := fun e => hc e.symm
          simpa [Atom.render, hc, this] using h3
        · simpa [Atom.render, hc] using h4

/-- A word item whose analysis part is `b` (any escapes), after a prefix `pre` that the surface-form loop skips. -/
theorem processStream_wordAtoms (sf cs : Bool) (wb : Option (List Atom))
    (hwb : ∀ w, wb = some w → ∀ a ∈ w, a.wf ['[', ']']) (pre : Text) (b : List Atom)
    (h : ∀ a ∈ b, a.wf ['^', '$', '['])
    (hpre : ∀ t, procWord sf cs (wbText wb) (pre ++ t) = pwLoop cs (wbText wb) {} t) (rest : Text) :
    processStream sf cs (wbText wb ++ '^' :: (pre ++ (renderAtoms b ++ '$' :: rest))) =
      (processStream sf cs rest).map
        ((wbText wb ++ '^' :: bodyOut cs (wbText wb) (renderAtoms b) ++ ['$']) ++ ·) := by
  by_cases hd : '$' ∈ renderAtoms b
  · obtain ⟨suf, h1, h2, h3, h4⟩ := split_dollar b h hd
    have hw : procWord sf cs (wbText wb) (pre ++ (renderAtoms b ++ '$' :: rest)) =
        .ok (wordText cs (wbText wb) ((renderAtoms b).takeWhile (· ≠ '$')), renderAtoms suf ++ '$' :: rest) := by
      rw [hpre, h4, List.append_assoc, List.cons_append, pwLoop_body _ _ _ h3]
      rw [← h4]; rfl
    rw [processStream_word hwb _ _ _ hw, processStream_copy _ _ suf h1]
    have h5 : processStream sf cs ('$' :: rest) = (processStream sf cs rest).map (['$'] ++ ·) := by
      have : streamStep sf cs '$' rest = .ok (['$'], rest) := by simp [streamStep]
      exact processStream_step this
    rw [h5, Outcome.map_map, Outcome.map_map]
    congr 1; funext x
    simp only [bodyOut, hd, if_true, h2]
    simp
  · have hw : procWord sf cs (wbText wb) (pre ++ (renderAtoms b ++ '$' :: rest)) =
        .ok (wordText cs (wbText wb) (renderAtoms b), rest) := by
      rw [hpre, pwLoop_body _ _ _ hd]; rfl
    rw [processStream_word hwb _ _ _ hw]
    simp [bodyOut, hd]

/-! ## C02 -/

/-- The words considered in C02: an analysis part in which `^`, `$`, `[` occur only escaped, preceded by a
surface form in which `/` occurs only escaped (dropped when the tool is told to). -/
structure Word where
  surface : List Atom
  analysis : List Atom
  deriving DecidableEq, Repr

def Word.ok (w : Word) : Prop := (∀ a ∈ w.surface, a.wf ['/']) ∧ ∀ a ∈ w.analysis, a.wf ['^', '$', '[']
instance (w : Word) : Decidable w.ok := by unfold Word.ok; infer_instance

/-- The text of a word in the input: with the surface form, or without. -/
def Word.text (withSurface : Bool) (w : Word) : Text :=
  (if withSurface then renderAtoms w.surface ++ ['/'] else []) ++ renderAtoms w.analysis

/-- C02: there is a function `W` of the word-bound blank and the word alone such that on every well-formed
stream the output is the input with the text inside each `^..$` replaced by `W`, everything else being
copied in the same order; `B` is any further input. -/
theorem C02_copies_outside_words (withSurface compoundSep : Bool) :
    ∃ W : Text → Word → Text, ∀ (is : List (PItem Word)), (∀ i ∈ is, i.wf Word.ok) → ∀ B : Text,
      processStream withSurface compoundSep (renderP (fun _ => Word.text withSurface) is ++ B) =
        (processStream withSurface compoundSep B).map (renderP (fun wb => W (wbText wb)) is ++ ·) := by
  refine ⟨fun wb w => bodyOut compoundSep wb (renderAtoms w.analysis), ?_⟩
  intro is h rest
  induction is with
  | nil =>
    simp only [renderP, List.flatMap_nil, List.nil_append]
    cases processStream withSurface compoundSep rest <;> rfl
  | cons i is ih =>
    have ih := ih (fun x hx => h x (by simp [hx]))
    have hi := h i (by simp)
    have e : ∀ g : Option (List Atom) → Word → Text, renderP g (i :: is) = i.render g ++ renderP g is := fun g => rfl
    rw [e, List.append_assoc]
    generalize renderP (fun x => Word.text withSurface) is ++ rest = R at ih
    have key : processStream withSurface compoundSep (i.render (fun _ => Word.text withSurface) ++ R) =
        (processStream withSurface compoundSep R).map
          (i.render (fun wb w => bodyOut compoundSep (wbText wb) (renderAtoms w.analysis)) ++ ·) := by
      cases i with
      | txt a => exact processStream_txt hi _
      | blank b => simpa [PItem.render] using processStream_blank (sf := withSurface) (cs := compoundSep) hi _
      | word wb w =>
        have hpre : ∀ t, procWord withSurface compoundSep (wbText wb)
            ((if withSurface then renderAtoms w.surface ++ ['/'] else []) ++ t) = pwLoop compoundSep (wbText wb) {} t := by
          intro t
          cases withSurface with
          | false => simp [procWord]
          | true => simp [procWord, skipSurface_atoms w.surface hi.2.1, Outcome.bind]
        have := processStream_wordAtoms withSurface compoundSep wb hi.1 _ w.analysis hi.2.2 hpre R
        simpa [PItem.render, Word.text] using this
      | nul => simpa [PItem.render] using processStream_nul (sf := withSurface) (cs := compoundSep) _
    rw [key, ih, Outcome.map_map]
    congr 1; funext x; simp [e]

/-- C02 without further input: on a complete well-formed stream the run ends normally. -/
theorem C02_complete_stream (withSurface compoundSep : Bool) :
    ∃ W : Text → Word → Text, ∀ (is : List (PItem Word)), (∀ i ∈ is, i.wf Word.ok) →
      processStream withSurface compoundSep (renderP (fun _ => Word.text withSurface) is) =
        .ok (renderP (fun wb => W (wbText wb)) is) := by
  obtain ⟨W, h⟩ := C02_copies_outside_words withSurface compoundSep
  refine ⟨W, fun is his => ?_⟩
  have := h is his []
  simpa [processStream_nil] using this

example : ∀ i ∈ [PItem.txt (.esc '['), .blank [.lit 'x', .esc ']'], .nul,
    .word (some [.lit 'b']) (⟨[.lit 'a', .esc '/'], [.lit 'c', .esc '$', .lit '<', .lit 'n', .lit '>']⟩ : Word)],
    i.wf Word.ok := by
  intro i hi
  simp only [List.mem_cons, List.not_mem_nil, or_false] at hi
  rcases hi with rfl | rfl | rfl | rfl
  · simp [PItem.wf, Atom.wf]
  · simp [PItem.wf, Atom.wf]
  · simp [PItem.wf]
  · simp [PItem.wf, Word.ok, Atom.wf]

/-- C10: after a complete request, what follows the NUL is processed as if it were the only input. -/
theorem C10_pretransfer_null_flush (withSurface compoundSep : Bool) (is : List (PItem Word))
    (h : ∀ i ∈ is, i.wf Word.ok) (B : Text) :
    ∃ out, processStream withSurface compoundSep (renderP (fun _ => Word.text withSurface) is) = .ok out ∧
      processStream withSurface compoundSep (renderP (fun _ => Word.text withSurface) is ++ '\x00' :: B) =
        (processStream withSurface compoundSep B).map (out ++ '\x00' :: ·) := by
  obtain ⟨W, hW⟩ := C02_copies_outside_words withSurface compoundSep
  refine ⟨renderP (fun wb => W (wbText wb)) is, ?_, ?_⟩
  · simpa [processStream_nil] using hW is h []
  · rw [hW is h, processStream_nul, Outcome.map_map]
    congr 1

/-! ## C03, C04 -/

/-- C03, C04: on every stream whose words are multiwords, each multiword is written with the queue
moved after the first lemma, split at `+` by `$ ^` (at `~` by `$^` with the compound option), each part after the
first preceded by the word-bound blank again; everything else is copied. -/
theorem C03_C04_split (compoundSep : Bool) (is : List (PItem Multi)) (h : ∀ i ∈ is, i.wf Multi.ok) :
    processStream false compoundSep (renderP (fun _ => Multi.text) is) =
      .ok (renderP (fun wb => Multi.splitText compoundSep (wbText wb)) is) := by
  have := processStream_items (β := Multi) false compoundSep Multi.ok Multi.text
    (fun wb b => Multi.splitText compoundSep wb b)
    (fun wb b rest hb => by
      simp only [procWord]
      rw [if_neg (by simp), pwLoop_body _ _ _ (multi_no_dollar b hb)]
      have := wordText_multi compoundSep wb b hb
      simp only [wordText] at this
      rw [this]) is h []
  simpa [processStream_nil] using this

/-- The same with surface forms in the input, which are dropped. -/
theorem C03_C04_split_surface (compoundSep : Bool) (is : List (PItem (List Atom × Multi)))
    (h : ∀ i ∈ is, i.wf fun w : List Atom × Multi => (∀ a ∈ w.1, a.wf ['/']) ∧ w.2.ok) :
    processStream true compoundSep (renderP (fun _ w => renderAtoms w.1 ++ '/' :: w.2.text) is) =
      .ok (renderP (fun wb w => w.2.splitText compoundSep (wbText wb)) is) := by
  have := processStream_items (β := List Atom × Multi) true compoundSep _ (fun w => renderAtoms w.1 ++ '/' :: w.2.text)
    (fun wb w => w.2.splitText compoundSep wb)
    (fun wb b rest hb => by
      simp only [procWord, if_true, List.append_assoc, List.cons_append]
      rw [skipSurface_atoms b.1 hb.1]
      simp only [Outcome.bind]
      rw [pwLoop_body _ _ _ (multi_no_dollar b.2 hb.2)]
      have := wordText_multi compoundSep wb b.2 hb.2
      simp only [wordText] at this
      rw [this]) is h []
  simpa [processStream_nil] using this

/-- `dar<vblex><inf>+lo<prn>#le` with a word-bound blank. -/
def sampleMulti : Multi :=
  ⟨⟨t!"dar", [t!"vblex", t!"inf"], none⟩, [(.plus, ⟨t!"lo", [t!"prn"], some t!" q"⟩)]⟩

example : sampleMulti.ok := by decide
example : PItem.wf Multi.ok (.word (some [.lit 't']) sampleMulti) := by
  refine ⟨?_, by decide⟩
  intro w hw; injection hw with hw; subst hw; decide
example : processStream false false t!"[[t]]^dar<vblex><inf>+lo<prn># q$" =
    .ok t!"[[t]]^dar# q<vblex><inf>$ [[t]]^lo<prn>$" := by decide

/-! ## C05 -/

theorem readUntil_ne_diverge (stop : Char) (t : Text) : readUntil stop t ≠ .diverge := by
  fun_induction readUntil stop t with
  | case1 => simp
  | case2 => simp
  | case3 => simp
  | case4 d rest' hstop ih => cases hh : readUntil stop rest' <;> simp_all
  | case5 c rest hstop hesc ih => cases hh : readUntil stop rest <;> simp_all

theorem storeWblank_ne_diverge (c o t : Text) : storeWblank c o t ≠ .diverge := by
  fun_induction storeWblank c o t <;> simp_all

theorem pwLoop_ne_diverge (cs : Bool) (wb : Text) (s : PW) (t : Text) : pwLoop cs wb s t ≠ .diverge := by
  fun_induction pwLoop cs wb s t <;> simp_all

/-- The loop that skips the surface form ends after some number of iterations iff `skipSurface` says so. -/
theorem skip_terminates_iff (t : Text) (r : Text) :
    skipSurface t = .ok r ↔ ∃ n, skipFuel n t = some r := by
  have hnil : ∀ n, skipFuel n [] = none := by
    intro n
    induction n with
    | zero => rfl
    | succ n ih => simp [skipFuel, skipStep, get, eofChar, ih]
  have key : ∀ (t : Text), (skipSurface t = .diverge ∧ ∀ n, skipFuel n t = none) ∨
      (∃ r, skipSurface t = .ok r ∧ ∃ m, ∀ n, skipFuel n t = if m ≤ n then some r else none) := by
    intro t
    fun_induction skipSurface t with
    | case1 => exact Or.inl ⟨rfl, hnil⟩
    | case2 rest =>
      refine Or.inr ⟨_, rfl, 1, ?_⟩
      intro n; cases n <;> simp [skipFuel, skipStep, get]
    | case3 =>
      refine Or.inl ⟨rfl, ?_⟩
      intro n
      cases n with
      | zero => rfl
      | succ n => simp [skipFuel, skipStep, get, hnil]
    | case4 d rest' _ ih =>
      rcases ih with ⟨h1, h2⟩ | ⟨r, h1, m, h2⟩
      · refine Or.inl ⟨h1, ?_⟩
        intro n
        cases n with
        | zero => rfl
        | succ n => simp [skipFuel, skipStep, get, h2]
      · refine Or.inr ⟨r, h1, m + 1, ?_⟩
        intro n
        cases n with
        | zero => simp [skipFuel]
        | succ n => simp [skipFuel, skipStep, get, h2]
    | case5 c rest h1 h2 ih =>
      rcases ih with ⟨h3, h4⟩ | ⟨r, h3, m, h4⟩
      · refine Or.inl ⟨h3, ?_⟩
        intro n
        cases n with
        | zero => rfl
        | succ n => simp [skipFuel, skipStep, get, h1, h2, h4]
      · refine Or.inr ⟨r, h3, m + 1, ?_⟩
        intro n
        cases n with
        | zero => simp [skipFuel]
        | succ n => simp [skipFuel, skipStep, get, h1, h2, h4]
  rcases key t with ⟨h1, h2⟩ | ⟨r', h1, m, h2⟩
  · simp [h1, h2]
  · rw [h1]
    constructor
    · intro h; injection h with h; subst h; exact ⟨m, by simp [h2]⟩
    · rintro ⟨n, hn⟩
      rw [h2] at hn
      split at hn
      · injection hn with hn; rw [hn]
      · simp at hn

theorem skipSurface_cases (t : Text) : skipSurface t = .diverge ∨ ∃ r, skipSurface t = .ok r := by
  fun_induction skipSurface t <;> simp_all

theorem streamStep_diverge {sf cs : Bool} {c : Char} {rest : Text} (h : streamStep sf cs c rest = .diverge) :
    sf = true ∧ ∃ pre suf, c :: rest = pre ++ '^' :: suf ∧ skipSurface suf = .diverge := by
  have hproc : ∀ wb t, procWord sf cs wb t = .diverge → sf = true ∧ skipSurface t = .diverge := by
    intro wb t hp
    unfold procWord at hp
    split at hp
    · rename_i hsf
      refine ⟨hsf, ?_⟩
      cases hh : skipSurface t with
      | ok p => simp only [hh, Outcome.bind] at hp; exact absurd hp (pwLoop_ne_diverge _ _ _ _)
      | fail => simp [hh, Outcome.bind] at hp
      | diverge => rfl
      | ub => simp [hh, Outcome.bind] at hp
    · exact absurd hp (pwLoop_ne_diverge _ _ _ _)
  have hsuf : ∀ (c' o' t w o r : Text), storeWblank c' o' t = .ok (w, o, r) → ∃ p, t = p ++ r := by
    intro c' o' t w o r hh
    fun_induction storeWblank c' o' t with
    | case1 => simp at hh
    | case2 => simp at hh
    | case3 c o rest' d ih => obtain ⟨p, hp⟩ := ih hh; exact ⟨'\\' :: rest' :: p, by simp [hp]⟩
    | case4 => simp at hh
    | case5 => simp at hh; exact ⟨[']', ']'], by simp [hh.2.2]⟩
    | case6 c o d rest' _ _ ih => obtain ⟨p, hp⟩ := ih hh; exact ⟨']' :: d :: p, by simp [hp]⟩
    | case7 c o x rest' _ _ ih => obtain ⟨p, hp⟩ := ih hh; exact ⟨x :: p, by simp [hp]⟩
  unfold streamStep at h
  split at h
  · rename_i hc
    split at h
    · rename_i rest'
      cases hh : storeWblank ['[', '['] [] rest' with
      | ok p =>
        obtain ⟨w, o', r'⟩ := p
        simp only [hh, Outcome.bind] at h
        split at h
        · rename_i r''
          cases hp : procWord sf cs w r'' with
          | diverge =>
            obtain ⟨h1, h2⟩ := hproc _ _ hp
            obtain ⟨p, hp'⟩ := hsuf _ _ _ _ _ _ hh
            exact ⟨h1, '[' :: '[' :: p, r'', by simp [hc, hp'], h2⟩
          | fail => simp [hp] at h
          | ok _ => simp [hp] at h
          | ub => simp [hp] at h
        · simp at h
      | diverge => exact absurd hh (storeWblank_ne_diverge _ _ _)
      | fail => simp [hh, Outcome.bind] at h
      | ub => simp [hh, Outcome.bind] at h
    · cases hh : readUntil ']' rest with
      | diverge => exact absurd hh (readUntil_ne_diverge _ _)
      | ok p => simp [hh] at h
      | fail => simp [hh] at h
      | ub => simp [hh] at h
  · split at h
    · simp at h
    · split at h
      · rename_i hc
        cases hh : procWord sf cs [] rest with
        | diverge =>
          obtain ⟨h1, h2⟩ := hproc _ _ hh
          exact ⟨h1, [], rest, by simp [hc], h2⟩
        | ok p => simp [hh] at h
        | fail => simp [hh] at h
        | ub => simp [hh] at h
      · simp at h

theorem streamStep_suffix {sf cs : Bool} {c : Char} {rest o r : Text}
    (h : streamStep sf cs c rest = .ok (o, r)) : ∃ p, c :: rest = p ++ r := by
  have h1 : ∀ {stop : Char} {t o r : Text}, readUntil stop t = .ok (o, r) → ∃ p, t = p ++ r := by
    intro stop t o r h
    fun_induction readUntil stop t generalizing o r with
    | case1 => simp at h
    | case2 rest => simp at h; exact ⟨[stop], by simp [h.2]⟩
    | case3 => simp at h
    | case4 d rest' hstop ih =>
      cases hh : readUntil stop rest' with
      | ok p => simp [hh] at h; obtain ⟨q, hq⟩ := @ih p.1 p.2 (by simp [hh]); exact ⟨'\\' :: d :: q, by simp [hq, h.2]⟩
      | fail => simp [hh] at h
      | diverge => simp [hh] at h
      | ub => simp [hh] at h
    | case5 c rest hstop hesc ih =>
      cases hh : readUntil stop rest with
      | ok p => simp [hh] at h; obtain ⟨q, hq⟩ := @ih p.1 p.2 (by simp [hh]); exact ⟨c :: q, by simp [hq, h.2]⟩
      | fail => simp [hh] at h
      | diverge => simp [hh] at h
      | ub => simp [hh] at h
  have h2 : ∀ (c' o' t w o r : Text), storeWblank c' o' t = .ok (w, o, r) → ∃ p, t = p ++ r := by
    intro c' o' t w o r hh
    fun_induction storeWblank c' o' t with
    | case1 => simp at hh
    | case2 => simp at hh
    | case3 c o rest' d ih => obtain ⟨p, hp⟩ := ih hh; exact ⟨'\\' :: rest' :: p, by simp [hp]⟩
    | case4 => simp at hh
    | case5 => simp at hh; exact ⟨[']', ']'], by simp [hh.2.2]⟩
    | case6 c o d rest' _ _ ih => obtain ⟨p, hp⟩ := ih hh; exact ⟨']' :: d :: p, by simp [hp]⟩
    | case7 c o x rest' _ _ ih => obtain ⟨p, hp⟩ := ih hh; exact ⟨x :: p, by simp [hp]⟩
  have h3 : ∀ {cs : Bool} {wb : Text} {s : PW} {t o r : Text}, pwLoop cs wb s t = .ok (o, r) → ∃ p, t = p ++ r := by
    intro cs wb s t o r h
    fun_induction pwLoop cs wb s t with
    | case1 => simp at h
    | case2 => simp at h; exact ⟨['$'], by simp [h.2]⟩
    | case3 s x rest' _ ih => obtain ⟨p, hp⟩ := ih h; exact ⟨x :: p, by simp [hp]⟩
  have h4 : ∀ {t r : Text}, skipSurface t = .ok r → ∃ p, t = p ++ r := by
    intro t r h
    fun_induction skipSurface t with
    | case1 => simp at h
    | case2 => simp at h; exact ⟨['/'], by simp [h]⟩
    | case3 => simp at h
    | case4 d rest' _ ih => obtain ⟨p, hp⟩ := ih h; exact ⟨'\\' :: d :: p, by simp [hp]⟩
    | case5 x rest' _ _ ih => obtain ⟨p, hp⟩ := ih h; exact ⟨x :: p, by simp [hp]⟩
  have h5 : ∀ {wb t o r : Text}, procWord sf cs wb t = .ok (o, r) → ∃ p, t = p ++ r := by
    intro wb t o r h
    unfold procWord at h
    split at h
    · cases hh : skipSurface t with
      | ok p =>
        simp only [hh, Outcome.bind] at h
        obtain ⟨a, ha⟩ := h4 hh; obtain ⟨b, hb⟩ := h3 h
        exact ⟨a ++ b, by simp [ha, hb]⟩
      | fail => simp [hh, Outcome.bind] at h
      | diverge => simp [hh, Outcome.bind] at h
      | ub => simp [hh, Outcome.bind] at h
    · exact h3 h
  unfold streamStep at h
  split at h
  · rename_i hc
    split at h
    · rename_i rest'
      cases hh : storeWblank ['[', '['] [] rest' with
      | ok p =>
        obtain ⟨w, o', r'⟩ := p
        obtain ⟨p1, hp1⟩ := h2 _ _ _ _ _ _ hh
        simp only [hh, Outcome.bind] at h
        split at h
        · rename_i r''
          cases hp : procWord sf cs w r'' with
          | ok q =>
            obtain ⟨a, b⟩ := q
            obtain ⟨p2, hp2⟩ := h5 hp
            simp [hp] at h
            exact ⟨'[' :: '[' :: p1 ++ '^' :: p2, by simp [hc, hp1, hp2, h.2]⟩
          | fail => simp [hp] at h
          | diverge => simp [hp] at h
          | ub => simp [hp] at h
        · simp at h
      | fail => simp [hh, Outcome.bind] at h
      | diverge => simp [hh, Outcome.bind] at h
      | ub => simp [hh, Outcome.bind] at h
    · cases hh : readUntil ']' rest with
      | ok p =>
        obtain ⟨q, hq⟩ := h1 (o := p.1) (r := p.2) hh
        simp [hh] at h
        exact ⟨c :: q, by simp [hq, h.2]⟩
      | fail => simp [hh] at h
      | diverge => simp [hh] at h
      | ub => simp [hh] at h
  · split at h
    · simp at h
      cases rest with
      | nil => exact ⟨[c], by simp [← h.2, get]⟩
      | cons d rest => exact ⟨[c, d], by simp [← h.2, get]⟩
    · split at h
      · cases hh : procWord sf cs [] rest with
        | ok p =>
          obtain ⟨q, hq⟩ := h5 (o := p.1) (r := p.2) hh
          simp [hh] at h
          exact ⟨c :: q, by simp [hq, h.2]⟩
        | fail => simp [hh] at h
        | diverge => simp [hh] at h
        | ub => simp [hh] at h
      · simp at h; exact ⟨[c], by simp [h.2]⟩

/-- C05 (partial: the full claim is `processStream … ≠ .diverge` for every input and option): if a run does not end,
surface forms are being dropped and the input contains a `^` after which the skipping loop runs for ever. -/
theorem C05_diverges_only_in_surface_skip_partial (sf cs : Bool) (inp : Text)
    (h : processStream sf cs inp = .diverge) :
    sf = true ∧ ∃ pre suf, inp = pre ++ '^' :: suf ∧ ∀ n, skipFuel n suf = none := by
  have key : ∀ (n : Nat) (inp : Text), inp.length ≤ n → streamLoop sf cs n inp = .diverge →
      sf = true ∧ ∃ pre suf, inp = pre ++ '^' :: suf ∧ skipSurface suf = .diverge := by
    intro n
    induction n with
    | zero =>
      intro inp hl h
      cases inp with
      | nil => simp [streamLoop] at h
      | cons c t => simp at hl
    | succ n ih =>
      intro inp hl h
      cases inp with
      | nil => simp [streamLoop] at h
      | cons c t =>
        simp only [streamLoop] at h
        cases hs : streamStep sf cs c t with
        | ok p =>
          obtain ⟨o, r⟩ := p
          have hlen := streamStep_length hs
          simp only [hs, Outcome.bind] at h
          simp at hl
          cases hh : streamLoop sf cs n r with
          | diverge =>
            obtain ⟨h1, pre, suf, h2, h3⟩ := ih r (by omega) hh
            obtain ⟨p, hp⟩ := streamStep_suffix hs
            exact ⟨h1, p ++ pre, suf, by rw [hp, h2]; simp, h3⟩
          | ok _ => simp [hh] at h
          | fail => simp [hh] at h
          | ub => simp [hh] at h
        | fail => simp [hs, Outcome.bind] at h
        | diverge => exact streamStep_diverge hs
        | ub => simp [hs, Outcome.bind] at h
  obtain ⟨h1, pre, suf, h2, h3⟩ := key _ inp (Nat.le_refl _) h
  refine ⟨h1, pre, suf, h2, fun n => ?_⟩
  cases hn : skipFuel n suf with
  | none => rfl
  | some r =>
    have := (skip_terminates_iff suf r).2 ⟨n, hn⟩
    rw [h3] at this; simp at this

/-- C05, without surface forms: every run ends. -/
theorem C05_terminates_partial (cs : Bool) (inp : Text) : processStream false cs inp ≠ .diverge := by
  intro h
  have := (C05_diverges_only_in_surface_skip_partial false cs inp h).1
  simp at this

/-- C05 fails with surface forms: on the truncated input `^a` the tool loops for ever. -/
theorem C05_violation (cs : Bool) :
    processStream true cs t!"^a" = .diverge ∧ ∀ n, skipFuel n t!"a" = none := by
  refine ⟨by cases cs <;> decide, fun n => ?_⟩
  cases hn : skipFuel n t!"a" with
  | none => rfl
  | some r =>
    have := (skip_terminates_iff t!"a" r).2 ⟨n, hn⟩
    have h : skipSurface t!"a" = .diverge := by decide
    rw [h] at this; simp at this

/-! ## C36 -/

/-- C36 fails: an escaped `$` inside a lemma ends the word, so the multiword is not split. -/
theorem C36_violation :
    processStream false false t!"^a\\$b<n>+c<m>$" = .ok t!"^a\\$b<n>+c<m>$" := by decide

/-- C36 (partial): a lemma may contain any escaped character other than `$` and `<` (and, after the first part, other than
`+`, `~`, `#`): the multiword is split as if it were an ordinary character. -/
theorem C36_escapes_partial (cs : Bool) (l : List Atom) (t : Text) (ts : List Text) (rest : List (Sep × Part))
    (hl : ∀ a ∈ l, a.char ≠ '$' ∧ a.char ≠ '<') (hts : tagsOk (t :: ts)) (hr : restOk none rest) :
    let m : Multi := ⟨⟨renderAtoms l, t :: ts, none⟩, rest⟩
    processStream false cs ('^' :: m.text ++ ['$']) = .ok ('^' :: m.splitText cs [] ++ ['$']) := by
  intro m
  have hm : m.ok := by
    refine ⟨?_, by simp [m], hts, trivial, hr⟩
    intro c hc
    simp only [m, renderAtoms, List.mem_flatMap] at hc
    obtain ⟨a, ha, hca⟩ := hc
    have := hl a ha
    cases a <;> simp [Atom.render, Atom.char] at hca this
    · subst hca; simpa using ⟨this.2, this.1⟩
    · rcases hca with rfl | rfl
      · decide
      · simpa using ⟨this.2, this.1⟩
  have := C03_C04_split cs [.word none m] (by intro i hi; simp at hi; subst hi; exact ⟨by simp, hm⟩)
  simpa [renderP, PItem.render, wbText] using this

example : processStream false false t!"^a\\^b<n>+c<m>$" = .ok t!"^a\\^b<n>$ ^c<m>$" := by decide

end Verif.Pre
