import Verif.Caps.RestoreProps
/-!
# Capitalisation: the way of the information through the pipeline, instances, and inputs on which the properties fail
-/
namespace Verif.Caps
open Verif.Stream

/-! ## Pieces of a word-bound blank -/

theorem splitSemi_cons (acc : Text) (c d : Char) (r : Text) : splitSemi acc (c :: d :: r) =
    if c = ';' ∧ d = ' ' then acc :: splitSemi [] r else splitSemi (acc ++ [c]) (d :: r) := by rw [splitSemi]

theorem splitSemi_acc (acc t : Text) : ∃ p ps, splitSemi [] t = p :: ps ∧ splitSemi acc t = (acc ++ p) :: ps := by
  have : ∀ (n : Nat) (t : Text), t.length ≤ n → ∀ a b, ∃ p ps, splitSemi b t = (b ++ p) :: ps ∧ splitSemi (a ++ b) t = (a ++ b ++ p) :: ps := by
    intro n
    induction n with
    | zero =>
      intro t ht a b
      have : t = [] := by simpa using ht
      subst this
      exact ⟨[], [], by simp [splitSemi], by simp [splitSemi]⟩
    | succ n ih =>
      intro t ht a b
      match t with
      | [] => exact ⟨[], [], by simp [splitSemi], by simp [splitSemi]⟩
      | [c] => exact ⟨[c], [], by simp [splitSemi], by simp [splitSemi]⟩
      | c :: d :: r =>
        rw [splitSemi_cons, splitSemi_cons]
        by_cases h : c = ';' ∧ d = ' '
        · rw [if_pos h, if_pos h]
          exact ⟨[], splitSemi [] r, by simp, by simp⟩
        · rw [if_neg h, if_neg h]
          obtain ⟨p, ps, h1, h2⟩ := ih (d :: r) (by simp at ht ⊢; omega) a (b ++ [c])
          exact ⟨c :: p, ps, by simpa using h1, by simpa using h2⟩
  obtain ⟨p, ps, h1, h2⟩ := this t.length t (Nat.le_refl _) acc []
  exact ⟨p, ps, by simpa using h1, by simpa using h2⟩

/-- Cutting is undone by joining: the pieces of a text, joined, are the text. -/
theorem joinSemi_splitSemi (t : Text) : joinSemi (splitSemi [] t) = t := by
  have : ∀ (n : Nat) (t : Text), t.length ≤ n → ∀ acc, joinSemi (splitSemi acc t) = acc ++ t := by
    intro n
    induction n with
    | zero =>
      intro t ht acc
      have : t = [] := by simpa using ht
      subst this
      simp [splitSemi, joinSemi]
    | succ n ih =>
      intro t ht acc
      match t with
      | [] => simp [splitSemi, joinSemi]
      | [c] => simp [splitSemi, joinSemi]
      | c :: d :: r =>
        rw [splitSemi_cons]
        split
        · rename_i h
          obtain ⟨p, ps, h1, _⟩ := splitSemi_acc [] r
          have := ih r (by simp at ht; omega) []
          rw [h1] at this ⊢
          simp [joinSemi, this, h]
        · rw [ih (d :: r) (by simp at ht ⊢; omega)]; simp
  simpa using this t.length t (Nat.le_refl _) []

/-- A text without `; ` is one piece. -/
theorem splitSemi_one (acc t : Text) (h : ¬ t!"; " <:+: t) : splitSemi acc t = [acc ++ t] := by
  have : ∀ (n : Nat) (t : Text), t.length ≤ n → ¬ t!"; " <:+: t → ∀ acc, splitSemi acc t = [acc ++ t] := by
    intro n
    induction n with
    | zero =>
      intro t ht _ acc
      have : t = [] := by simpa using ht
      subst this
      simp [splitSemi]
    | succ n ih =>
      intro t ht h acc
      match t with
      | [] => simp [splitSemi]
      | [c] => simp [splitSemi]
      | c :: d :: r =>
        rw [splitSemi_cons, if_neg (by rintro ⟨rfl, rfl⟩; exact h ⟨[], r, rfl⟩)]
        rw [ih (d :: r) (by simp at ht ⊢; omega) (fun hi => h (infix_cons hi))]
        simp
  exact this t.length t (Nat.le_refl _) h acc

/-- A piece added at the end. -/
theorem splitSemi_append (x m : Text) (hm : ¬ t!"; " <:+: m) : splitSemi [] (x ++ t!"; " ++ m) = splitSemi [] x ++ [m] := by
  have : ∀ (n : Nat) (t : Text), t.length ≤ n → ∀ acc, splitSemi acc (t ++ t!"; " ++ m) = splitSemi acc t ++ [m] := by
    intro n
    induction n with
    | zero =>
      intro t ht acc
      have : t = [] := by simpa using ht
      subst this
      simp [splitSemi_cons, splitSemi, splitSemi_one [] m hm]
    | succ n ih =>
      intro t ht acc
      match t with
      | [] => simp [splitSemi_cons, splitSemi, splitSemi_one [] m hm]
      | [c] =>
        have h1 := ih [] (by simp) (acc ++ [c])
        simp only [List.nil_append] at h1
        simp only [List.cons_append, List.nil_append] at h1 ⊢
        rw [splitSemi_cons, if_neg (by simp), h1]
        simp [splitSemi]
      | c :: d :: r =>
        simp only [List.cons_append]
        rw [splitSemi_cons, splitSemi_cons]
        split
        · have := ih r (by simp at ht; omega) []
          simp only [List.append_assoc, List.cons_append, List.nil_append] at this ⊢
          rw [this]
        · have := ih (d :: r) (by simp at ht ⊢; omega) (acc ++ [c])
          simpa using this
  exact this x.length x (Nat.le_refl _) []

/-- **C61** What extraction writes, restoration reads: if nothing in between changes the word-bound blank, the case of the source word is
the one that extraction recorded, and (unless the blanks are kept) the word-bound blank is again the one that was there before
extraction.  `x` is the old word-bound blank, `m` what extraction adds. -/
theorem C61_wblank_roundtrip (x m : List Atom) (hx : renderAtoms x ≠ []) (hxc : ∀ p ∈ splitSemi [] (renderAtoms x), ¬ capsPiece p)
    (k : Text) (hm : renderAtoms m = t!"c:" ++ k) (hk : ¬ t!"; " <:+: renderAtoms m) (y : List Atom)
    (hy : renderAtoms y = renderAtoms x ++ t!"; " ++ renderAtoms m) :
    sourceCase (some y) = k ∧ keptWb true (some y) = (Item.wopen x).render ∧ CapsLast (splitSemi [] (renderAtoms y)) ∧
    sourceCase (some m) = k ∧ keptWb true (some m) = [] ∧ CapsLast (splitSemi [] (renderAtoms m)) := by
  have hs : splitSemi [] (renderAtoms y) = splitSemi [] (renderAtoms x) ++ [renderAtoms m] := by
    rw [hy]; exact splitSemi_append _ _ hk
  have hcm : capsPiece (renderAtoms m) := by rw [hm]; simp [capsPiece]
  have h1m : splitSemi [] (renderAtoms m) = [renderAtoms m] := by simpa using splitSemi_one [] _ hk
  have hf1 : (splitSemi [] (renderAtoms x)).find? (fun p => decide (capsPiece p)) = none := by
    rw [List.find?_eq_none]; intro p hp; simpa using hxc p hp
  have hf2 : (splitSemi [] (renderAtoms x)).filter (fun p => decide (¬ capsPiece p)) = splitSemi [] (renderAtoms x) := by
    rw [List.filter_eq_self]; intro p hp; simpa using hxc p hp
  have hcl : ∀ ps : List Text, (∀ p ∈ ps, ¬ capsPiece p) → CapsLast (ps ++ [renderAtoms m]) := by
    intro ps
    induction ps with
    | nil => intro _; simp [CapsLast]
    | cons p ps ih => intro h; exact ⟨fun hp => absurd hp (h p (by simp)), ih fun x hx => h x (by simp [hx])⟩
  refine ⟨?_, ?_, ?_, ?_, ?_, ?_⟩
  · simp only [sourceCase, hs, List.find?_append, hf1]
    simp only [List.find?_cons, hcm, decide_true, Option.none_or]
    rw [hm]; rfl
  · simp only [keptWb, hs, List.filter_append, hf2]
    simp [hcm, joinSemi_splitSemi, hx, Item.render]
  · rw [hs]; exact hcl _ hxc
  · simp only [sourceCase, h1m]
    simp only [List.find?_cons, hcm, decide_true]
    rw [hm]; rfl
  · simp only [keptWb, h1m]
    simp [hcm, joinSemi]
  · rw [h1m]; simp [CapsLast]

/-! ## Restoration always ends -/

theorem readBlank_suffix (m : Bool) (t : Text) : (readBlank m t).2.rest <:+ t := by
  have step : ∀ (a b : Text) (l : List Char), a <:+ b → a <:+ l ++ b := fun a b l h => h.trans (List.suffix_append l b)
  fun_induction readBlank m t <;> simp_all
  all_goals first
    | exact step _ _ [_, _] ‹_›
    | exact step _ _ [_] ‹_›

theorem readSeg_le (m : Bool) (t : Text) : (readSeg m t).2.rest.length ≤ t.length := by
  fun_induction readSeg m t <;> simp_all <;> omega

theorem readSegs_le (n : Nat) (i : In) : (readSegs n i).2.rest.length ≤ i.rest.length := by
  induction n generalizing i with
  | zero => simp [readSegs]
  | succ n ih =>
    have h1 : (if i.hit = true then (([] : Text), i) else readSeg false i.rest).2.rest.length ≤ i.rest.length := by
      split
      · exact Nat.le_refl _
      · exact readSeg_le _ _
    simp only [readSegs]
    revert h1
    generalize (if i.hit = true then (([] : Text), i) else readSeg false i.rest) = p
    obtain ⟨s, i1⟩ := p
    intro h1
    simp only at h1 ⊢
    split
    · simp
    · rename_i r hr
      have := ih ⟨r, i1.hit⟩
      rw [hr] at h1
      simp only [List.length_cons, cat_snd] at h1 this ⊢
      omega
    · rename_i hr
      rw [hr] at h1
      simp only [List.length_cons] at h1 ⊢
      omega

theorem readForms_le (t : Text) : (readForms t).2.2.rest.length ≤ t.length := by
  have h1 := readSeg_le false t
  simp only [readForms]
  generalize readSeg false t = p at h1
  obtain ⟨form, i⟩ := p
  simp only at h1 ⊢
  split
  · rename_i r hr
    rw [hr] at h1
    simp only [List.length_cons] at h1 ⊢
    omega
  · have h2 := readSegs_le (t.length + 1) ⟨i.rest.tail, decide (i.hit = true ∨ i.rest = [])⟩
    simp only [List.length_tail] at h2 ⊢
    omega

/-- A word takes at least one character, or the end of the input has been met. -/
theorem readWord_progress {σ : Type} (A : Auto σ) (delete : Bool) (q : σ) (t : Text) (h : t.head? ≠ some '\x00') :
    (readWord A delete q t).2.2.rest.length < t.length ∨ (readWord A delete q t).2.2.hit = true := by
  have h1 := readBlank_suffix false t
  have h0 := readBlank_stop false t
  simp only [readWord]
  generalize readBlank false t = p at h1 h0
  obtain ⟨b, i1⟩ := p
  simp only at h1 h0 ⊢
  have hle := h1.length_le
  obtain ⟨rest, hit⟩ := i1
  cases rest with
  | nil => right; simp
  | cons c r =>
    simp only [List.length_cons] at hle
    rcases h0 c r rfl with rfl | rfl | rfl
    · left
      have := readForms_le r
      show (readForms r).2.2.rest.length < t.length
      omega
    · left
      show ('\x00' :: r).length < t.length
      simp only [List.length_cons]
      rcases Nat.lt_or_eq_of_le hle with hlt | heq
      · exact hlt
      · exfalso
        have := h1.eq_of_length (by simpa using heq)
        rw [← this] at h
        simp at h
    · left
      have hf := finishWBlank_le r.tail
      simp only [List.length_tail] at hf
      have key : ∀ i2 : In, i2.rest.length ≤ r.length - 1 → ∀ (f : Text → LU × σ × In) (g : Text → LU × σ × In),
          (∀ r', (f r').2.2.rest.length ≤ r'.length) → (∀ r', (g r').2.2.rest.length ≤ r'.length) →
          (match i2.rest with | '^' :: r' => f r' | r' => g r').2.2.rest.length < t.length := by
        intro i2 h2 f g hf hg
        split
        · rename_i r' hr'
          rw [hr'] at h2
          simp only [List.length_cons] at h2
          have := hf r'
          omega
        · have := hg i2.rest
          omega
      refine key (finishWBlank r.tail).2 hf (fun r' => _) (fun r' => _) ?_ ?_
      · intro r'; exact readForms_le r'
      · intro r'; exact Nat.le_refl _

/-- **C59** On every input, also a broken one, restoration ends normally (with rules that never look further back than the words read
since they were started). -/
theorem C59_restore_total {σ : Type} (A : Auto σ) (cs : Casing) (delete : Bool) {B : Nat → σ → Prop} (hA : Bounded A (fun _ _ => True) B) (t : Text) :
    ∃ o, restore A cs delete t = .ok o := by
  have main : ∀ (n : Nat) (i : In) (ws : List LU) (q : σ), B ws.length q → i.rest.length + 2 ≤ n ∨ (i.hit = true ∧ 1 ≤ n) →
      ∃ o, processLoop A cs delete n ws q i = .ok o := by
    intro n
    induction n with
    | zero => intro i ws q _ h; omega
    | succ n ih =>
      intro i ws q hl h
      by_cases hh : i.hit = true
      · exact ⟨outputAll cs ws, by rw [processLoop, if_pos hh]⟩
      · obtain ⟨rest, hit⟩ := i
        simp only [Bool.not_eq_true] at hh
        subst hh
        have hn : rest.length + 2 ≤ n + 1 := by simpa using h
        by_cases h0 : rest.head? = some '\x00'
        · obtain ⟨r, rfl⟩ : ∃ r, rest = '\x00' :: r := by
            cases rest with
            | nil => simp at h0
            | cons c r => simp at h0; exact ⟨r, by rw [h0]⟩
          rw [processLoop_nul]
          obtain ⟨o, ho⟩ := ih ⟨r, false⟩ [] (A.nullBoundary A.start) hA.nullBoundary (Or.inl (by simp at hn ⊢; omega))
          exact ⟨_, by rw [ho]; rfl⟩
        · rw [processLoop_word A cs delete n ws q rest h0]
          have hp := readWord_progress A delete q rest h0
          have hlen : B (ws.length + 1) (readWord A delete q rest).2.1 := by
            simp only [readWord]
            split
            · exact hA.word _ _ _ _ _ trivial hl
            · exact hA.mono _ _ _ (Nat.le_succ _) hl
          generalize readWord A delete q rest = z at hp hlen
          obtain ⟨w, q1, i'⟩ := z
          simp only at hp hlen ⊢
          have h2 := hA.wordBoundary _ q1 hlen
          obtain ⟨r, hr⟩ := addPaths_ok A [] (A.paths (A.wordBoundary q1)) (ws ++ [w])
            (fun p hp => by have := hA.paths _ _ h2 p hp; simpa only [List.length_append, List.length_singleton] using this)
          have ht := congrArg List.length (addPaths_txt A _ _ _ _ hr)
          simp at ht
          rw [hr]
          simp only [Outcome.bind]
          have hnext : i'.rest.length + 2 ≤ n ∨ (i'.hit = true ∧ 1 ≤ n) := by
            rcases hp with hp | hp
            · left; omega
            · right; exact ⟨hp, by omega⟩
          split
          · obtain ⟨o, ho⟩ := ih i' [] A.start hA.start hnext
            exact ⟨_, by rw [ho]; rfl⟩
          · exact ih i' r _ (by rw [ht]; exact hA.restart _ _ h2) hnext
  exact main _ _ _ _ hA.nullBoundary (Or.inl (Nat.le_refl _))

/-! ## Instances -/

def lits (s : Text) : List Atom := s.map .lit

/-- `[[t:b]]^Foo/foo<n>/fo<v>$, [x]^Un\/a/un<pr>+A<n>$` and NUL. -/
def exStream : List Item :=
  [.wopen (lits t!"t:b"), .lu (lits t!"Foo/foo<n>/fo<v>"), .txt (.lit ','), .txt (.lit ' '), .blank (lits t!"x"),
    .lu (lits t!"Un" ++ [.esc '/'] ++ lits t!"a/un<pr>+A<n>"), .nul]

def exMark (s r : Text) : Text := t!"c:" ++ asciiCase s ++ ['/'] ++ asciiCase (lemmaPrefix r)

theorem exMark_ok (s r p : Text) (h : UpToLastTags r p) : exMark s r = t!"c:" ++ asciiCase s ++ ['/'] ++ asciiCase p := by
  rw [C31_upToLastTags_unique h (C31_lemmaPrefix_spec r)]; rfl

example : extract asciiCase false (render exStream) = .ok (extracted exMark false none exStream) :=
  C31_extract_exact_partial asciiCase false exMark exMark_ok exStream (by decide +kernel)
    (by simp [NoCloseUnit, exStream]) (by
      intro b hb
      simp [exStream] at hb
      rcases hb with rfl | rfl <;> decide +kernel)

example : extracted exMark false none exStream =
    t!"[[t:b; c:Aa/aa]]^foo<n>$, [x][[c:Aa/aa]]^un<pr>+A<n>$\x00" := by decide +kernel

/-- A rule for two words: the first in small letters, the second in capitals.  The states count the words. -/
def twoWords : Auto Nat where
  start := 0
  nullBoundary := id
  word := fun q _ _ _ => q + 1
  wordBoundary := id
  paths := fun q => if q = 2 then [(t!"<0>", [.aa, .AA])] else []
  isEmpty := fun q => decide (3 ≤ q)
  restart := id
  weight := fun _ => 1

theorem twoWords_bounded : Bounded twoWords (fun _ _ => True) (fun n q => q ≤ n) where
  mono := fun n m q h h' => Nat.le_trans h' h
  start := Nat.le_refl _
  nullBoundary := Nat.le_refl _
  word := fun n q _ _ _ _ h => Nat.succ_le_succ h
  wordBoundary := fun n q h => h
  restart := fun n q h => h
  paths := by
    intro n q hq p hp
    simp only [twoWords] at hp
    split at hp
    · rename_i h; simp at hp; simp [hp, ← h, hq]
    · simp at hp

/-- `^A$ [[u]]^b$`. -/
def exWords : List SWord := [⟨[], none, lits t!"A"⟩, ⟨[.txt (.lit ' ')], some (lits t!"u"), lits t!"b"⟩]

example : ∃ o, restore twoWords ascii true (render (List.flatMap (fun s => s.flatMap SWord.items ++ [.nul]) [exWords, exWords])) = .ok o ∧
    ChosenAll twoWords ascii true [exWords, exWords] o :=
  C60_restore_choice_partial twoWords ascii true twoWords_bounded [exWords, exWords]
    (by simp [exWords, SWord.ok]) (fun _ _ _ _ => trivial)
    (by decide +kernel)
    (by intro b hb
        simp [exWords, SWord.items] at hb
        rcases hb with rfl | rfl | rfl | rfl <;> decide +kernel)
    (by intro x hx
        simp [exWords, SWord.items] at hx
        subst hx
        have : splitSemi [] (renderAtoms (lits t!"u")) = [t!"u"] := by decide +kernel
        rw [this]; simp [CapsLast])

example : restore twoWords ascii true t!"^A$ [[u]]^b$\x00^A$ [[u]]^b$\x00" = .ok t!"a [[u]]B[[/]]\x00a [[u]]B[[/]]\x00" := by decide +kernel

example : ∃ o, restore twoWords ascii true (render (exWords.flatMap SWord.items ++ [.blank (lits t!"z")])) = .ok o ∧
    Restored ascii true none (exWords.flatMap SWord.items ++ [.blank (lits t!"z")]) o :=
  C59_restore_text_partial twoWords ascii true twoWords_bounded _
    (by decide +kernel)
    (by intro b hb
        simp [exWords, SWord.items] at hb
        rcases hb with rfl | rfl <;> decide +kernel)
    (by intro x hx
        simp [exWords, SWord.items] at hx
        subst hx
        have : splitSemi [] (renderAtoms (lits t!"u")) = [t!"u"] := by decide +kernel
        rw [this]; simp [CapsLast])
    (fun _ _ => trivial)

example : sourceCase (some (lits t!"t:b; u; c:AA/Aa")) = t!"AA/Aa" ∧
    keptWb true (some (lits t!"t:b; u; c:AA/Aa")) = t!"[[t:b; u]]" := by decide +kernel

/-! ## Where the properties fail -/

/-- **C31 fails** for units without analysis, for all of them: the text of the unit is lost. -/
theorem C31_extract_unanalysed_violation (getcase : Text → Text) (s : List Atom) (h : ∀ a ∈ s, a.wf ['^', '$', '/']) :
    extract getcase false (render [.lu s]) =
      .ok (t!"[[c:" ++ getcase (renderAtoms s) ++ ['/'] ++ getcase [] ++ t!"]]^$") := by
  have hs : segs s = [s] := by
    clear getcase
    induction s with
    | nil => rfl
    | cons a s ih =>
      have ha : a ≠ .lit '/' := by
        rintro rfl
        have := h (.lit '/') (by simp)
        exact this.2.2 (by decide)
      rw [segs, if_neg ha, ih fun x hx => h x (by simp [hx])]
  have hw : ∀ a ∈ s, a.wf ['^', '$'] := by
    intro a ha
    have := h a ha
    cases a with
    | esc d => exact this
    | lit c => obtain ⟨h1, h2, h3⟩ := this; refine ⟨h1, h2, ?_⟩; simp at h3 ⊢; simp [h3]
  have hl : ∃ n, (render [.lu s]).length + 1 = n + 2 := ⟨(render [.lu s]).length - 1, by simp [Item.render]⟩
  obtain ⟨n, hn⟩ := hl
  unfold extract
  rw [hn]
  have := extractLoop_unit getcase false (n + 1) s hw []
  simp only [render_cons, render_nil]
  rw [this, extractLoop_nil]
  simp [hs, writeUnit, mergeWblanks, lemmaPrefix, rfindPlus, takeLt]

example : extract asciiCase false t!"a ^Foo$" = .ok t!"a [[c:Aa/aa]]^$" := by decide +kernel

/-- **C31 fails** when the closing mark of a word-bound blank is directly before a unit: the mark is taken for the word-bound blank of the
unit. -/
theorem C31_extract_close_violation : extract asciiCase false t!"[[t:b]]x[[/]]^y/y<n>$" = .ok t!"[[t:b]]x[[/; c:aa/aa]]^y<n>$" := by decide +kernel

/-- **C59 fails** for word-bound blanks that are not directly before a unit: they are not written. -/
theorem C59_restore_loose_violation : restore oneRule ascii false t!"[[t:b]]x[[/]] y" = .ok t!"x y" := by decide +kernel

/-- **C59 fails** for pieces of a word-bound blank after the one about capitals: they are deleted with it. -/
theorem C59_restore_pieces_violation : restore oneRule ascii true t!"[[t:b; c:aa/aa; t:i]]^y$" = .ok t!"[[t:b]]y[[/]]" := by decide +kernel

/-- **C59 fails** for a unit with an empty surface form: its word-bound blank is lost. -/
theorem C59_restore_empty_violation : restore oneRule ascii true t!"[[t:b]]^y<n>/$x" = .ok t!"x" := by decide +kernel

/-- **C60 fails** at the end of the input (and before NUL if the section ends with a blank): the rules that match at the last word
are counted once more, for the words before the ones they match.  The same words, with and without NUL: -/
theorem C60_restore_choice_end_violation :
    restore twoWords ascii true t!"^A$ ^b$\x00" = .ok t!"a B\x00" ∧
    restore twoWords ascii true t!"^A$ ^b$" = .ok t!"a b" ∧
    restore twoWords ascii true t!"^A$ ^b$\n\x00" = .ok t!"a b\n\x00" := by decide +kernel

end Verif.Caps
