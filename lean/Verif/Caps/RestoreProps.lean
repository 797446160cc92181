import Verif.Caps.ExtractProps
/-!
# Restoration of capitalisation (C59, C60)
-/
namespace Verif.Caps
open Verif.Stream

/-! ## The readers -/

theorem readSeg_esc (m : Bool) (d : Char) (t : Text) : readSeg m ('\\' :: d :: t) = cat ['\\', d] (readSeg m t) := by
  cases m <;> simp [readSeg]

theorem readSeg_in (c : Char) (h : c ≠ '\\') (t : Text) :
    readSeg true (c :: t) = cat [c] (readSeg (decide (c ≠ '>')) t) := by
  rw [readSeg.eq_def]
  split <;> simp_all

theorem readSeg_out (c : Char) (h : c ≠ '\\') (t : Text) :
    readSeg false (c :: t) = if c = '<' then cat [c] (readSeg true t)
      else if c = '/' ∨ c = '$' then ([], ⟨c :: t, false⟩)
      else cat [c] (readSeg false t) := by
  rw [readSeg.eq_def]
  split <;> simp_all

/-- A part of a unit in which the tags are closed. -/
theorem readSeg_ok (m : Bool) (s : List Atom) (h : ∀ a ∈ s, a.wf ['^', '$', '/']) (ht : tagsOk m s = true) (e : Char)
    (he : e = '/' ∨ e = '$') (t : Text) :
    readSeg m (renderAtoms s ++ e :: t) = (renderAtoms s, ⟨e :: t, false⟩) := by
  induction s generalizing m with
  | nil =>
    simp [tagsOk] at ht
    subst ht
    rcases he with rfl | rfl <;> simp [readSeg_out]
  | cons a s ih =>
    have ih := fun m hm => ih (fun x hx => h x (by simp [hx])) (m := m) hm
    have ha := h a (by simp)
    cases a with
    | esc d =>
      simp [tagsOk] at ht
      simp [Atom.render, readSeg_esc, ih m ht, cat]
    | lit c =>
      obtain ⟨h1, h2, h3⟩ := ha
      simp at h3
      cases m with
      | true =>
        have ht' : tagsOk (decide (c ≠ '>')) s = true := by
          simp [tagsOk, h3] at ht
          by_cases hc : c = '>'
          · simpa [hc] using ht
          · simpa [hc] using ht
        have := ih _ ht'
        simp only [renderAtoms_cons, Atom.render, List.cons_append, List.nil_append]
        rw [readSeg_in c h1, this]
        simp [cat]
      | false =>
        simp only [renderAtoms_cons, Atom.render, List.cons_append, List.nil_append]
        rw [readSeg_out c h1]
        by_cases hc : c = '<'
        · have := ih true (by simpa [tagsOk, hc] using ht)
          simp [hc, this, cat]
        · have := ih false (by simpa [tagsOk, hc] using ht)
          simp [hc, h3, this, cat]

/-- The parts of a unit with closed tags have closed tags. -/
theorem segs_tags (m : Bool) (b : List Atom) (h : tagsOk m b = true) :
    ∃ s ss, segs b = s :: ss ∧ tagsOk m s = true ∧ ∀ x ∈ ss, tagsOk false x = true := by
  induction b generalizing m with
  | nil => exact ⟨[], [], rfl, h, by simp⟩
  | cons a b ih =>
    have step : ∀ m', tagsOk m' b = true → a ≠ .lit '/' → (∀ s, tagsOk m (a :: s) = tagsOk m' s) →
        ∃ s ss, segs (a :: b) = s :: ss ∧ tagsOk m s = true ∧ ∀ x ∈ ss, tagsOk false x = true := by
      intro m' h1 h2 h3
      obtain ⟨s, ss, h4, h5, h6⟩ := ih m' h1
      exact ⟨a :: s, ss, by simp [segs, h2, h4], by rw [h3]; exact h5, h6⟩
    by_cases ha : a = .lit '/'
    · subst ha
      cases m with
      | true => simp [tagsOk] at h
      | false =>
        obtain ⟨s, ss, h4, h5, h6⟩ := ih false (by simpa [tagsOk] using h)
        refine ⟨[], s :: ss, by simp [segs, h4], rfl, ?_⟩
        intro x hx
        simp at hx
        rcases hx with rfl | hx
        · exact h5
        · exact h6 x hx
    · by_cases h1 : a = .lit '<' ∧ m = false
      · obtain ⟨rfl, rfl⟩ := h1
        exact step true (by simpa [tagsOk] using h) ha (by intro s; simp [tagsOk])
      · by_cases h2 : a = .lit '>' ∧ m = true
        · obtain ⟨rfl, rfl⟩ := h2
          exact step false (by simpa [tagsOk] using h) ha (by intro s; simp [tagsOk])
        · exact step m (by simpa [tagsOk, h1, h2, ha] using h) ha (by intro s; simp [tagsOk, h1, h2, ha])

theorem readSegs_ok (s : List Atom) (ss : List (List Atom)) (h : ∀ x ∈ s :: ss, ∀ a ∈ x, a.wf ['^', '$', '/'])
    (ht : ∀ x ∈ s :: ss, tagsOk false x = true) (t : Text) (n : Nat) (hn : ss.length < n) :
    readSegs n ⟨renderAtoms s ++ (ss.flatMap (fun s => '/' :: renderAtoms s) ++ '$' :: t), false⟩ =
      (renderAtoms s ++ ss.flatMap renderAtoms, ⟨t, false⟩) := by
  induction ss generalizing s n with
  | nil =>
    obtain ⟨n, rfl⟩ : ∃ k, n = k + 1 := ⟨n - 1, by simp at hn; omega⟩
    simp [readSegs, readSeg_ok false s (h s (by simp)) (ht s (by simp)) '$' (Or.inr rfl)]
  | cons r ss ih =>
    obtain ⟨n, rfl⟩ : ∃ k, n = k + 1 := ⟨n - 1, by simp at hn; omega⟩
    have ih := ih r (fun x hx => h x (by simp at hx ⊢; simp [hx])) (fun x hx => ht x (by simp at hx ⊢; simp [hx])) n
      (by simp at hn; omega)
    simp only [List.flatMap_cons, List.cons_append, List.append_assoc]
    simp [readSegs, readSeg_ok false s (h s (by simp)) (ht s (by simp)) '/' (Or.inl rfl), ih, cat]

theorem readForms_ok (b : List Atom) (h : ∀ a ∈ b, a.wf ['^', '$']) (ht : tagsOk false b = true) (t : Text) :
    readForms (renderAtoms b ++ '$' :: t) = (unitForm b, unitSurf b, ⟨t, false⟩) := by
  have hw := segs_wf b h
  obtain ⟨s, ss, hs, ht0, ht1⟩ := segs_tags false b ht
  rw [segs_join, unitForm, unitSurf]
  rw [hs] at hw ⊢
  have h0 := hw s (by simp)
  cases ss with
  | nil => simp [readForms, List.intercalate, readSeg_ok false s h0 ht0 '$' (Or.inr rfl)]
  | cons r rs =>
    rw [List.map_cons, intercalate_cons]
    simp only [List.map_cons, List.flatMap_cons, List.append_assoc, List.cons_append]
    have e : (List.map renderAtoms rs).flatMap (fun y => '/' :: y) = rs.flatMap (fun s => '/' :: renderAtoms s) := by
      rw [List.flatMap_map]
    rw [e]
    have hl : rs.length ≤ (rs.flatMap (fun s => '/' :: renderAtoms s)).length := by
      clear ht1 e hw hs
      induction rs with
      | nil => simp
      | cons x xs ih => simp only [List.flatMap_cons, List.length_append, List.length_cons]; omega
    unfold readForms
    rw [readSeg_ok false s h0 ht0 '/' (Or.inl rfl)]
    have := readSegs_ok r rs (fun x hx => hw x (by simp at hx ⊢; simp [hx])) ht1 t
      ((renderAtoms s ++ '/' :: (renderAtoms r ++ (rs.flatMap (fun s => '/' :: renderAtoms s) ++ '$' :: t))).length + 1)
      (by simp only [List.length_append, List.length_cons]; omega)
    simp [-List.length_append, -List.length_cons, this]

/-! ## Word-bound blanks -/

theorem wblankPieces_eq (delete : Bool) (ps : List Text) : wblankPieces delete ps =
    ((if delete then ps.takeWhile fun p => decide (¬ capsPiece p) else []),
      (ps.find? fun p => decide (capsPiece p)).map (·.drop 2)) := by
  induction ps with
  | nil => cases delete <;> rfl
  | cons p ps ih =>
    simp only [wblankPieces, ih]
    by_cases hp : p.take 2 = t!"c:"
    · have : capsPiece p := hp
      simp [hp, this]
    · have : ¬ capsPiece p := hp
      rw [if_neg hp]
      cases delete <;> simp [this]

theorem takeWhile_filter (ps : List Text) (h : CapsLast ps) :
    (ps.takeWhile fun p => decide (¬ capsPiece p)) = ps.filter fun p => decide (¬ capsPiece p) := by
  induction ps with
  | nil => rfl
  | cons p ps ih =>
    by_cases hp : capsPiece p
    · have := h.1 hp; subst this; simp [hp]
    · simp [hp]; simpa using ih h.2

/-- The text of a word-bound blank. -/
def wbT (w : Option (List Atom)) : Text := (w.map fun x => t!"[[" ++ renderAtoms x ++ t!"]]").getD []

theorem wblankCase_eq (delete : Bool) (w : Option (List Atom)) (h : ∀ x, w = some x → CapsLast (splitSemi [] (renderAtoms x))) :
    wblankCase delete (wbT w) = (sourceCase w, keptWb delete w) := by
  cases w with
  | none => rfl
  | some x =>
    have e : (List.drop 2 (t!"[[" ++ renderAtoms x ++ t!"]]")).take
        (if (t!"[[" ++ renderAtoms x ++ t!"]]").length < 4 then (t!"[[" ++ renderAtoms x ++ t!"]]").length
          else (t!"[[" ++ renderAtoms x ++ t!"]]").length - 4) = renderAtoms x := by
      rw [if_neg (by simp)]
      simp
    simp only [wbT, Option.map_some, Option.getD_some]
    unfold wblankCase
    rw [if_neg (by simp), e]
    simp only [wblankPieces_eq, sourceCase, keptWb]
    rw [takeWhile_filter _ (h x rfl)]
    cases hf : (splitSemi [] (renderAtoms x)).find? fun p => decide (capsPiece p) <;> cases delete <;> simp

/-! ## Words -/

/-- What the loop sees: words (with the blank before, the word-bound blank, the inside; without inside it is not a word), and NUL. -/
inductive Tok where
  | wd (blank : Text) (w : Option (List Atom)) (b : Option (List Atom))
  | nul

def parse : Text → Option (List Atom) → List Item → List Tok
  | b, w, [] => [.wd b w none]
  | b, none, .txt a :: is => parse (b ++ a.render) none is
  | b, some x, .txt a :: is => .wd b (some x) none :: parse a.render none is
  | b, none, .blank c :: is => parse (b ++ (Item.blank c).render) none is
  | b, some x, .blank c :: is => .wd b (some x) none :: parse (Item.blank c).render none is
  | b, none, .nul :: is => if b = [] then .nul :: parse [] none is else .wd b none none :: .nul :: parse [] none is
  | b, some x, .nul :: is => .wd b (some x) none :: .nul :: parse [] none is
  | b, w, .lu c :: is => .wd b w (some c) :: parse [] none is
  | b, none, .wopen x :: is => parse b (some x) is
  | b, some y, .wopen x :: is => .wd b (some y) none :: parse [] (some x) is
  | b, none, .wclose :: is => parse b (some [.lit '/']) is
  | b, some y, .wclose :: is => .wd b (some y) none :: parse [] (some [.lit '/']) is

section
variable {σ : Type} (A : Auto σ) (cs : Casing) (delete : Bool)

/-- The word and the state after it. -/
def tokLU (q : σ) (blank : Text) (w : Option (List Atom)) : Option (List Atom) → LU × σ
  | some b => ({ blank := blank, wblank := keptWb delete w, form := unitForm b, surf := unitSurf b },
      A.word q (sourceCase w) (unitForm b) (unitSurf b))
  | none => ({ blank := blank, wblank := wbT w, form := [], surf := [] }, q)

def runToks : List LU → σ → List Tok → Outcome Text
  | ws, _, [] => .ok (outputAll cs ws)
  | ws, _, .nul :: ts => (runToks [] (A.nullBoundary A.start) ts).map fun o => outputAll cs ws ++ '\x00' :: o
  | ws, q, .wd bl w b :: ts =>
    (addPaths A [] (A.paths (A.wordBoundary (tokLU A delete q bl w b).2)) (ws ++ [(tokLU A delete q bl w b).1])).bind fun ws' =>
      if A.isEmpty (A.wordBoundary (tokLU A delete q bl w b).2) then (runToks [] A.start ts).map fun o => outputAll cs ws' ++ o
      else runToks ws' (A.restart (A.wordBoundary (tokLU A delete q bl w b).2)) ts

theorem runToks_unit (ws : List LU) (q : σ) (bl : Text) (w : Option (List Atom)) (b : List Atom) (ts : List Tok) :
    runToks A cs delete ws q (.wd bl w (some b) :: ts) =
    (addPaths A [] (A.paths (A.wordBoundary (A.word q (sourceCase w) (unitForm b) (unitSurf b))))
        (ws ++ [({ blank := bl, wblank := keptWb delete w, form := unitForm b, surf := unitSurf b } : LU)])).bind fun ws' =>
      if A.isEmpty (A.wordBoundary (A.word q (sourceCase w) (unitForm b) (unitSurf b))) then
        (runToks A cs delete [] A.start ts).map fun o => outputAll cs ws' ++ o
      else runToks A cs delete ws' (A.restart (A.wordBoundary (A.word q (sourceCase w) (unitForm b) (unitSurf b)))) ts := rfl

theorem runToks_blank (ws : List LU) (q : σ) (bl : Text) (w : Option (List Atom)) (ts : List Tok) :
    runToks A cs delete ws q (.wd bl w none :: ts) =
    (addPaths A [] (A.paths (A.wordBoundary q)) (ws ++ [({ blank := bl, wblank := wbT w, form := [], surf := [] } : LU)])).bind fun ws' =>
      if A.isEmpty (A.wordBoundary q) then
        (runToks A cs delete [] A.start ts).map fun o => outputAll cs ws' ++ o
      else runToks A cs delete ws' (A.restart (A.wordBoundary q)) ts := rfl

/-- `b` is read as a blank, whatever follows. -/
def BlankRun (b : Text) : Prop := ∀ t, readBlank false (b ++ t) = cat b (readBlank false t)

theorem BlankRun.nil : BlankRun [] := by intro t; simp [cat]
theorem BlankRun.append {a b : Text} (ha : BlankRun a) (hb : BlankRun b) : BlankRun (a ++ b) := by
  intro t; rw [List.append_assoc, ha, hb, cat_cat]
theorem BlankRun.head {b : Text} (h : BlankRun b) (c : Char) (r : Text) (hb : b = c :: r) : c ≠ '\x00' := by
  rintro rfl
  subst hb
  have := h []
  simp [readBlank_out, cat] at this

/-- A word that is a unit. -/
theorem readWord_unit (q : σ) (b : Text) (hb : BlankRun b) (w : Option (List Atom))
    (hw : ∀ x, w = some x → (∀ a ∈ x, a.wf ['[', ']']) ∧ CapsLast (splitSemi [] (renderAtoms x)))
    (c : List Atom) (hc : ∀ a ∈ c, a.wf ['^', '$']) (ht : tagsOk false c = true) (t : Text) :
    readWord A delete q (b ++ (wbT w ++ ((Item.lu c).render ++ t))) =
      ((tokLU A delete q b w (some c)).1, (tokLU A delete q b w (some c)).2, ⟨t, false⟩) := by
  have hwc := wblankCase_eq delete w (fun x hx => (hw x hx).2)
  have hf := readForms_ok c hc ht t
  have e : (Item.lu c).render ++ t = '^' :: (renderAtoms c ++ '$' :: t) := by simp [Item.render]
  rw [e]
  cases w with
  | none =>
    simp only [wbT, Option.map_none, Option.getD_none, List.nil_append] at hwc ⊢
    simp [readWord, hb _, readBlank_hat, hf, hwc, tokLU]
  | some x =>
    have hfin := finishWBlank_ok x (hw x rfl).1 ('^' :: (renderAtoms c ++ '$' :: t))
    have e2 : wbT (some x) ++ '^' :: (renderAtoms c ++ '$' :: t) = '[' :: '[' :: (renderAtoms x ++ ']' :: ']' :: '^' :: (renderAtoms c ++ '$' :: t)) := by
      simp [wbT]
    have e3 : t!"[[" ++ (renderAtoms x ++ t!"]]") = wbT (some x) := by simp [wbT]
    rw [e2]
    simp only [readWord, hb _, readBlank_wb, cat, List.tail_cons, hfin, e3, hf, hwc, tokLU, List.append_nil]

/-- A word that is not a unit. -/
theorem readWord_blank (q : σ) (b : Text) (hb : BlankRun b) (w : Option (List Atom))
    (hw : ∀ x, w = some x → (∀ a ∈ x, a.wf ['[', ']']))
    (t : Text) (ht : t.head? ≠ some '^') (hn : w = none → t = [] ∨ t.head? = some '\x00') :
    readWord A delete q (b ++ (wbT w ++ t)) = ((tokLU A delete q b w none).1, q, ⟨t, decide (t = [])⟩) := by
  cases w with
  | none =>
    simp only [wbT, Option.map_none, Option.getD_none, List.nil_append]
    rcases hn rfl with rfl | hn
    · have e : readBlank false (b ++ []) = (b, ⟨[], true⟩) := by rw [hb, readBlank_nil]; simp [cat]
      simp only [readWord, e, tokLU, wbT]
      rfl
    · obtain ⟨r, rfl⟩ : ∃ r, t = '\x00' :: r := by
        cases t with
        | nil => simp at hn
        | cons c r => simp at hn; exact ⟨r, by rw [hn]⟩
      simp [readWord, hb _, readBlank_nul, tokLU, wbT]
  | some x =>
    have hfin := finishWBlank_ok x (hw x rfl) t
    have e2 : wbT (some x) ++ t = '[' :: '[' :: (renderAtoms x ++ ']' :: ']' :: t) := by simp [wbT]
    have e3 : t!"[[" ++ (renderAtoms x ++ t!"]]") = wbT (some x) := by simp [wbT]
    rw [e2]
    simp only [readWord, hb _, readBlank_wb, cat, List.tail_cons, hfin, e3, tokLU, List.append_nil]
    split
    · rename_i r hr; simp at ht
    · simp

theorem processLoop_word (n : Nat) (ws : List LU) (q : σ) (t : Text) (ht : t.head? ≠ some '\x00') :
    processLoop A cs delete (n + 1) ws q ⟨t, false⟩ =
      (addPaths A [] (A.paths (A.wordBoundary (readWord A delete q t).2.1)) (ws ++ [(readWord A delete q t).1])).bind fun ws' =>
          if A.isEmpty (A.wordBoundary (readWord A delete q t).2.1) then
            (processLoop A cs delete n [] A.start (readWord A delete q t).2.2).map fun o => outputAll cs ws' ++ o
          else processLoop A cs delete n ws' (A.restart (A.wordBoundary (readWord A delete q t).2.1)) (readWord A delete q t).2.2 := by
  rw [processLoop]
  simp only [Bool.false_eq_true, if_false]
  split
  · simp at ht
  · rfl

theorem processLoop_nul (n : Nat) (ws : List LU) (q : σ) (t : Text) :
    processLoop A cs delete (n + 1) ws q ⟨'\x00' :: t, false⟩ =
      (processLoop A cs delete n [] (A.nullBoundary A.start) ⟨t, false⟩).map fun o => outputAll cs ws ++ '\x00' :: o := by
  simp [processLoop]

theorem bind_congr {α β : Type} (x : Outcome α) (f g : α → Outcome β) (h : ∀ a, f a = g a) : x.bind f = x.bind g := by
  cases x <;> simp [Outcome.bind, h]

/-- The loop on a text is the loop on its words. -/
theorem processLoop_parse (is : List Item) (hwf : WF is) (htag : TagsOk is) (hcl : AllCapsLast is) :
    ∀ (b : Text) (w : Option (List Atom)), BlankRun b →
    (∀ x, w = some x → (∀ a ∈ x, a.wf ['[', ']']) ∧ CapsLast (splitSemi [] (renderAtoms x))) →
    ∀ (n : Nat) (ws : List LU) (q : σ), (b ++ (wbT w ++ render is)).length + 2 ≤ n →
    processLoop A cs delete n ws q ⟨b ++ (wbT w ++ render is), false⟩ = runToks A cs delete ws q (parse b w is) := by
  have head_ne : ∀ (b : Text) (w : Option (List Atom)) (t : Text), BlankRun b → (b ≠ [] ∨ w ≠ none ∨ t.head? ≠ some '\x00') →
      (b ++ (wbT w ++ t)).head? ≠ some '\x00' := by
    intro b w t hb h
    cases b with
    | cons c b => simp; exact hb.head c b rfl
    | nil =>
      cases w with
      | some x => simp [wbT]
      | none => simpa [wbT] using h
  -- a word that is no unit, then the loop goes on with `t`
  have pause : ∀ (b : Text) (w : Option (List Atom)), BlankRun b → (∀ x, w = some x → (∀ a ∈ x, a.wf ['[', ']'])) →
      ∀ (t : Text), t ≠ [] → t.head? ≠ some '^' → (w = none → b ≠ [] ∧ t.head? = some '\x00') →
      ∀ (ts : List Tok), (∀ n ws q, t.length + 2 ≤ n → processLoop A cs delete n ws q ⟨t, false⟩ = runToks A cs delete ws q ts) →
      ∀ n ws q, (b ++ (wbT w ++ t)).length + 2 ≤ n →
      processLoop A cs delete n ws q ⟨b ++ (wbT w ++ t), false⟩ = runToks A cs delete ws q (.wd b w none :: ts) := by
    intro b w hb hw t ht hh hn ts hts n ws q hl
    obtain ⟨n, rfl⟩ : ∃ m, n = m + 1 := ⟨n - 1, by omega⟩
    rw [processLoop_word A cs delete n ws q _ (head_ne b w t hb (by
      cases w with
      | none => exact Or.inl (hn rfl).1
      | some x => exact Or.inr (Or.inl (by simp))))]
    rw [readWord_blank A delete q b hb w hw t hh (fun h => Or.inr (hn h).2)]
    have hpos : t.length + 2 ≤ n := by
      cases w with
      | none =>
        have := List.length_pos_iff.2 (hn rfl).1
        simp only [List.length_append] at hl
        omega
      | some x => simp [wbT] at hl; omega
    simp only [runToks, tokLU, ht, decide_false]
    apply bind_congr
    intro ws'
    rw [hts n _ _ hpos, hts n _ _ hpos]
    rfl
  induction is with
  | nil =>
    intro b w hb hw n ws q hl
    obtain ⟨n, rfl⟩ : ∃ m, n = m + 2 := ⟨n - 2, by omega⟩
    simp only [render_nil, parse] at *
    rw [processLoop_word A cs delete (n + 1) ws q _ (head_ne b w [] hb (by simp))]
    rw [readWord_blank A delete q b hb w (fun x hx => (hw x hx).1) [] (by simp) (by simp)]
    simp only [runToks, tokLU]
    apply bind_congr
    intro ws'
    have e : ∀ ws q, processLoop A cs delete (n + 1) ws q ⟨[], decide True⟩ = .ok (outputAll cs ws) := by
      intro ws q; rfl
    rw [e, e]
    rfl
  | cons i is ih =>
    intro b w hb hw n ws q hl
    have hwi := hwf i (by simp)
    have ih := ih (WF_cons.1 hwf).2 (fun c hc => htag c (by simp [hc])) (fun x hx => hcl x (by simp [hx]))
    have nulCase : ∀ n ws q, (render (.nul :: is)).length + 2 ≤ n →
        processLoop A cs delete n ws q ⟨render (.nul :: is), false⟩ = runToks A cs delete ws q (.nul :: parse [] none is) := by
      intro n ws q hl
      obtain ⟨n, rfl⟩ : ∃ m, n = m + 1 := ⟨n - 1, by omega⟩
      simp only [render_cons, Item.render, List.cons_append, List.nil_append] at hl ⊢
      rw [processLoop_nul, runToks]
      have := ih [] none .nil (by simp) n [] (A.nullBoundary A.start) (by simp [wbT] at hl ⊢; omega)
      simp only [wbT, Option.map_none, Option.getD_none, List.nil_append] at this
      rw [this]
    -- an item that is a blank
    have blankCase : ∀ (x : Text), BlankRun x → x ≠ [] → x.head? ≠ some '^' → i.render = x →
        (∀ w', w = some w' → parse b w (i :: is) = .wd b w none :: parse x none is) →
        (w = none → parse b w (i :: is) = parse (b ++ x) none is) →
        processLoop A cs delete n ws q ⟨b ++ (wbT w ++ render (i :: is)), false⟩ = runToks A cs delete ws q (parse b w (i :: is)) := by
      intro x hx hne hh hr h1 h2
      rw [render_cons, hr] at hl ⊢
      cases w with
      | none =>
        rw [h2 rfl]
        have := ih (b ++ x) none (hb.append hx) (by simp) n ws q (by simpa [wbT] using hl)
        simpa [wbT] using this
      | some y =>
        rw [h1 y rfl]
        refine pause b (some y) hb (fun x hx => (hw x hx).1) (x ++ render is) (by simp [hne]) ?_ (by simp) _ ?_ n ws q hl
        · cases x with
          | nil => exact absurd rfl hne
          | cons c x => simpa using hh
        · intro n ws q hl
          have := ih x none hx (by simp) n ws q (by simpa [wbT] using hl)
          simpa [wbT] using this
    -- a word-bound blank
    have wbCase : ∀ (x : List Atom), (∀ a ∈ x, a.wf ['[', ']']) → CapsLast (splitSemi [] (renderAtoms x)) →
        i.render = t!"[[" ++ renderAtoms x ++ t!"]]" →
        (∀ w', w = some w' → parse b w (i :: is) = .wd b w none :: parse [] (some x) is) →
        (w = none → parse b w (i :: is) = parse b (some x) is) →
        processLoop A cs delete n ws q ⟨b ++ (wbT w ++ render (i :: is)), false⟩ = runToks A cs delete ws q (parse b w (i :: is)) := by
      intro x hx hxl hr h1 h2
      have hwx : ∀ y, some x = some y → (∀ a ∈ y, a.wf ['[', ']']) ∧ CapsLast (splitSemi [] (renderAtoms y)) := by
        intro y hy; cases hy; exact ⟨hx, hxl⟩
      rw [render_cons, hr] at hl ⊢
      cases w with
      | none =>
        rw [h2 rfl]
        have := ih b (some x) hb hwx n ws q (by simpa [wbT] using hl)
        simpa [wbT] using this
      | some y =>
        rw [h1 y rfl]
        refine pause b (some y) hb (fun x hx => (hw x hx).1) _ (by simp) (by simp) (by simp) _ ?_ n ws q hl
        intro n ws q hl
        have := ih [] (some x) .nil hwx n ws q (by simpa [wbT] using hl)
        simpa [wbT] using this
    cases i with
    | txt a =>
      have hr := readBlank_txt a hwi
      refine blankCase a.render hr ?_ ?_ rfl ?_ ?_
      · cases a <;> simp [Atom.render]
      · cases a with
        | esc d => simp [Atom.render]
        | lit c => simp [Atom.render]; rintro rfl; exact hwi.2.2 (by decide)
      · rintro w' rfl; rfl
      · rintro rfl; rfl
    | blank c =>
      have hr := readBlank_blank c hwi
      refine blankCase _ hr (by simp [Item.render]) (by simp [Item.render]) rfl ?_ ?_
      · rintro w' rfl; rfl
      · rintro rfl; rfl
    | nul =>
      cases w with
      | none =>
        by_cases hb0 : b = []
        · subst hb0
          have := nulCase n ws q (by simpa [wbT] using hl)
          simpa [wbT, parse] using this
        · simp only [parse, hb0, if_false]
          exact pause b none hb (by simp) _ (by simp [Item.render]) (by simp [Item.render]) (fun _ => ⟨hb0, by simp [Item.render]⟩)
            _ nulCase n ws q hl
      | some y =>
        simp only [parse]
        exact pause b (some y) hb (fun x hx => (hw x hx).1) _ (by simp [Item.render]) (by simp [Item.render]) (by simp)
            _ nulCase n ws q hl
    | lu c =>
      obtain ⟨n, rfl⟩ : ∃ m, n = m + 1 := ⟨n - 1, by omega⟩
      have hp : parse b w (.lu c :: is) = .wd b w (some c) :: parse [] none is := by cases w <;> rfl
      rw [hp, render_cons] at *
      rw [processLoop_word A cs delete n ws q _ (head_ne b w _ hb (by simp [Item.render]))]
      rw [readWord_unit A delete q b hb w hw c hwi (htag c (by simp))]
      simp only [runToks]
      apply bind_congr
      intro ws'
      have hl' : (render is).length + 2 ≤ n := by simp [Item.render] at hl; omega
      have h1 := ih [] none .nil (by simp) n [] A.start (by simpa [wbT] using hl')
      have h2 := fun q => ih [] none .nil (by simp) n ws' q (by simpa [wbT] using hl')
      simp only [wbT, Option.map_none, Option.getD_none, List.nil_append] at h1 h2
      rw [h1, h2]
    | wopen x =>
      refine wbCase x hwi.1 (hcl x (by simp)) (by simp [Item.render]) ?_ ?_
      · rintro w' rfl; rfl
      · rintro rfl; rfl
    | wclose =>
      have h2 : CapsLast (splitSemi [] (renderAtoms [.lit '/'])) := by
        have : splitSemi [] (renderAtoms [.lit '/']) = [t!"/"] := by decide +kernel
        rw [this]; simp [CapsLast]
      refine wbCase [.lit '/'] (by decide) h2 rfl ?_ ?_
      · rintro w' rfl; rfl
      · rintro rfl; rfl

/-- The whole program on a text is the loop on its words. -/
theorem restore_parse (is : List Item) (hwf : WF is) (htag : TagsOk is) (hcl : AllCapsLast is) :
    restore A cs delete (render is) = runToks A cs delete [] (A.nullBoundary A.start) (parse [] none is) := by
  have := processLoop_parse A cs delete is hwf htag hcl [] none .nil (by simp) ((render is).length + 2) [] (A.nullBoundary A.start)
    (by simp [wbT])
  simpa [wbT, restore] using this
end

/-! ## The text is kept (C59) -/

/-- What does not depend on the weights. -/
def LU.txt (w : LU) : Text × Text × Text := (w.blank, w.wblank, w.surf)

theorem LU.add_txt (w : LU) (m : Mark) (x : Int) : (w.add m x).txt = w.txt := by cases m <;> rfl

theorem addPath_txt (x : Int) (p : List Mark) (ws ws' : List LU) (h : addPath x p ws = .ok ws') : ws'.map LU.txt = ws.map LU.txt := by
  induction p generalizing ws ws' with
  | nil => simp [addPath] at h; rw [h]
  | cons m p ih =>
    cases ws with
    | nil => simp [addPath] at h
    | cons w ws =>
      simp only [addPath] at h
      cases hr : addPath x p ws with
      | ok r =>
        rw [hr] at h
        simp at h
        rw [← h]
        simp [LU.add_txt, ih ws r hr]
      | _ => rw [hr] at h; simp at h

section
variable {σ : Type} (A : Auto σ) (cs : Casing) (delete : Bool)

theorem addPaths_txt (seen : List Text) (ps : List (Text × List Mark)) (ws ws' : List LU) (h : addPaths A seen ps ws = .ok ws') :
    ws'.map LU.txt = ws.map LU.txt := by
  induction ps generalizing seen ws with
  | nil => simp [addPaths] at h; rw [h]
  | cons p ps ih =>
    obtain ⟨r, p⟩ := p
    simp only [addPaths] at h
    split at h
    · exact ih _ _ h
    · cases hr : addPath (A.weight r) p.reverse ws.reverse with
      | ok w =>
        rw [hr] at h
        simp only [Outcome.bind] at h
        rw [ih _ _ h]
        have := addPath_txt _ _ _ _ hr
        rw [List.map_reverse, this, List.map_reverse, List.reverse_reverse]
      | _ => rw [hr] at h; simp [Outcome.bind] at h

theorem addPath_ok (x : Int) (p : List Mark) (ws : List LU) (h : p.length ≤ ws.length) : ∃ ws', addPath x p ws = .ok ws' := by
  induction p generalizing ws with
  | nil => exact ⟨ws, rfl⟩
  | cons m p ih =>
    cases ws with
    | nil => simp at h
    | cons w ws =>
      obtain ⟨r, hr⟩ := ih ws (by simpa using h)
      exact ⟨_, by rw [addPath, hr]; rfl⟩

theorem addPaths_ok (seen : List Text) (ps : List (Text × List Mark)) (ws : List LU) (h : ∀ p ∈ ps, p.2.length ≤ ws.length) :
    ∃ ws', addPaths A seen ps ws = .ok ws' := by
  induction ps generalizing seen ws with
  | nil => exact ⟨ws, rfl⟩
  | cons p ps ih =>
    obtain ⟨r, p⟩ := p
    have h0 := h (r, p) (by simp)
    have h1 : ∀ p ∈ ps, p.2.length ≤ ws.length := fun x hx => h x (by simp [hx])
    simp only [addPaths]
    split
    · exact ih _ _ h1
    · obtain ⟨w, hw⟩ := addPath_ok (A.weight r) p.reverse ws.reverse (by simpa using h0)
      have := congrArg List.length (addPath_txt _ _ _ _ hw)
      simp at this
      rw [hw]
      exact ih _ _ (by simpa [this] using h1)

theorem LU.choice_ne (w : LU) : w.choice ≠ .skip := by
  unfold LU.choice
  split
  · simp
  · split
    · simp
    · split <;> simp

theorem apply_eq_variant (cs : Casing) (m : Mark) (t : Text) : cs.apply m t = variant cs m t := by cases m <;> rfl

theorem output_unit (w : LU) (bl : Text) (wb : Option (List Atom)) (b : List Atom)
    (h : w.txt = (bl, keptWb delete wb, unitSurf b)) : w.output cs = bl ++ unitOut cs delete w.choice wb b := by
  simp only [LU.txt, Prod.mk.injEq] at h
  obtain ⟨h1, h2, h3⟩ := h
  unfold LU.output unitOut
  simp only [apply_eq_variant]
  rw [h1, h2, h3]

/-- Text for the words, with any variants. -/
inductive ToksOut : List Tok → Text → Prop
  | nil : ToksOut [] []
  | nul {ts o} : ToksOut ts o → ToksOut (.nul :: ts) ('\x00' :: o)
  | blank {bl w ts o} : ToksOut ts o → ToksOut (.wd bl w none :: ts) (bl ++ o)
  | unit {bl w b ts o} (m : Mark) : m ≠ .skip → ToksOut ts o →
      ToksOut (.wd bl w (some b) :: ts) (bl ++ unitOut cs delete m w b ++ o)

theorem runToks_shape (ts : List Tok) (ws : List LU) (q : σ) (o : Text) (h : runToks A cs delete ws q ts = .ok o) :
    ∃ ws' o', ws'.map LU.txt = ws.map LU.txt ∧ o = outputAll cs ws' ++ o' ∧ ToksOut cs delete ts o' := by
  induction ts generalizing ws q o with
  | nil =>
    simp [runToks] at h
    exact ⟨ws, [], rfl, by simp [h], .nil⟩
  | cons t ts ih =>
    cases t with
    | nul =>
      simp only [runToks] at h
      cases hr : runToks A cs delete [] (A.nullBoundary A.start) ts with
      | ok r =>
        rw [hr] at h
        simp at h
        obtain ⟨ws', o', h1, h2, h3⟩ := ih _ _ _ hr
        simp at h1
        subst h1
        refine ⟨ws, '\x00' :: o', rfl, ?_, .nul h3⟩
        rw [← h, h2]; simp [outputAll]
      | _ => rw [hr] at h; simp at h
    | wd bl w b =>
      simp only [runToks] at h
      have key : ∃ ws' o', ws'.map LU.txt = (ws ++ [(tokLU A delete q bl w b).1]).map LU.txt ∧ o = outputAll cs ws' ++ o' ∧
          ToksOut cs delete ts o' := by
        cases hr : addPaths A [] (A.paths (A.wordBoundary (tokLU A delete q bl w b).2)) (ws ++ [(tokLU A delete q bl w b).1]) with
        | ok r =>
          rw [hr] at h
          simp only [Outcome.bind] at h
          have ht := addPaths_txt A _ _ _ _ hr
          split at h
          · cases hr2 : runToks A cs delete [] A.start ts with
            | ok r2 =>
              rw [hr2] at h
              simp at h
              obtain ⟨ws', o', h1, h2, h3⟩ := ih _ _ _ hr2
              simp at h1
              subst h1
              exact ⟨r, o', ht, by rw [← h, h2]; simp [outputAll], h3⟩
            | _ => rw [hr2] at h; simp at h
          · obtain ⟨ws', o', h1, h2, h3⟩ := ih _ _ _ h
            exact ⟨ws', o', by rw [h1, ht], h2, h3⟩
        | _ => rw [hr] at h; simp [Outcome.bind] at h
      obtain ⟨ws', o', h1, h2, h3⟩ := key
      rw [List.map_append, List.map_eq_append_iff] at h1
      obtain ⟨ws1, ws2, rfl, h4, h5⟩ := h1
      obtain ⟨w2, rfl⟩ : ∃ x, ws2 = [x] := by
        have := congrArg List.length h5
        simp at this
        exact List.length_eq_one_iff.1 this
      refine ⟨ws1, w2.output cs ++ o', h4, by simp [h2, outputAll], ?_⟩
      cases b with
      | none =>
        have : w2.txt = (bl, wbT w, []) := by simpa [tokLU, LU.txt] using h5
        have e : w2.output cs = bl := by
          simp only [LU.txt, Prod.mk.injEq] at this
          simp [LU.output, this]
        rw [e]
        exact .blank h3
      | some b =>
        have : w2.txt = (bl, keptWb delete w, unitSurf b) := by simpa [tokLU, LU.txt] using h5
        rw [output_unit cs delete w2 bl w b this]
        exact .unit _ w2.choice_ne h3

theorem parse_shape (is : List Item) (b : Text) (w : Option (List Atom)) (o : Text) (h : ToksOut cs delete (parse b w is) o) :
    ∃ o', o = b ++ o' ∧ Restored cs delete w is o' := by
  have stop : ∀ (b : Text) (x : Option (List Atom)) (ts : List Tok) (o : Text), ToksOut cs delete (.wd b x none :: ts) o →
      ∃ o', o = b ++ o' ∧ ToksOut cs delete ts o' := by
    intro b x ts o h
    cases h with
    | blank h => exact ⟨_, rfl, h⟩
  induction is generalizing b w o with
  | nil =>
    simp only [parse] at h
    obtain ⟨o', h1, h2⟩ := stop _ _ _ _ h
    cases h2
    exact ⟨[], h1, .nil⟩
  | cons i is ih =>
    cases i with
    | txt a =>
      cases w with
      | none =>
        simp only [parse] at h
        obtain ⟨o', rfl, h2⟩ := ih _ _ _ h
        exact ⟨a.render ++ o', by simp, .txt h2⟩
      | some x =>
        simp only [parse] at h
        obtain ⟨o1, rfl, h1⟩ := stop _ _ _ _ h
        obtain ⟨o', rfl, h2⟩ := ih _ _ _ h1
        exact ⟨a.render ++ o', by simp, .txt h2⟩
    | blank c =>
      cases w with
      | none =>
        simp only [parse] at h
        obtain ⟨o', rfl, h2⟩ := ih _ _ _ h
        exact ⟨(Item.blank c).render ++ o', by simp, .blank h2⟩
      | some x =>
        simp only [parse] at h
        obtain ⟨o1, rfl, h1⟩ := stop _ _ _ _ h
        obtain ⟨o', rfl, h2⟩ := ih _ _ _ h1
        exact ⟨(Item.blank c).render ++ o', rfl, .blank h2⟩
    | nul =>
      have nulC : ∀ o, ToksOut cs delete (.nul :: parse [] none is) o → Restored cs delete w (.nul :: is) o := by
        intro o h
        cases h with
        | nul h => obtain ⟨o', rfl, h2⟩ := ih _ _ _ h; exact .nul h2
      cases w with
      | none =>
        simp only [parse] at h
        split at h
        · rename_i hb; subst hb
          exact ⟨o, rfl, nulC _ h⟩
        · obtain ⟨o1, rfl, h1⟩ := stop _ _ _ _ h
          exact ⟨o1, rfl, nulC _ h1⟩
      | some x =>
        simp only [parse] at h
        obtain ⟨o1, rfl, h1⟩ := stop _ _ _ _ h
        exact ⟨o1, rfl, nulC _ h1⟩
    | lu c =>
      have hp : parse b w (.lu c :: is) = .wd b w (some c) :: parse [] none is := by cases w <;> rfl
      rw [hp] at h
      cases h with
      | unit m hm h =>
        obtain ⟨o2, ho2, h2⟩ := ih _ _ _ h
        rw [List.nil_append] at ho2
        subst ho2
        exact ⟨unitOut cs delete m w c ++ _, by rw [List.append_assoc], .lu m hm h2⟩
    | wopen x =>
      cases w with
      | none =>
        simp only [parse] at h
        obtain ⟨o', rfl, h2⟩ := ih _ _ _ h
        exact ⟨o', rfl, .wopen h2⟩
      | some y =>
        simp only [parse] at h
        obtain ⟨o1, rfl, h1⟩ := stop _ _ _ _ h
        obtain ⟨o2, ho2, h2⟩ := ih _ _ _ h1
        rw [List.nil_append] at ho2
        subst ho2
        exact ⟨_, rfl, .wopen h2⟩
    | wclose =>
      cases w with
      | none =>
        simp only [parse] at h
        obtain ⟨o', rfl, h2⟩ := ih _ _ _ h
        exact ⟨o', rfl, .wclose h2⟩
      | some y =>
        simp only [parse] at h
        obtain ⟨o1, rfl, h1⟩ := stop _ _ _ _ h
        obtain ⟨o2, ho2, h2⟩ := ih _ _ _ h1
        rw [List.nil_append] at ho2
        subst ho2
        exact ⟨_, rfl, .wclose h2⟩

theorem tokLU_len {ok : Text → Text → Prop} {B : Nat → σ → Prop} (hA : Bounded A ok B) {n : Nat} {q : σ} (hq : B n q) (bl : Text) (w b : Option (List Atom))
    (hb : ∀ c, b = some c → ok (unitForm c) (unitSurf c)) : B (n + 1) (tokLU A delete q bl w b).2 := by
  cases b with
  | none => exact hA.mono _ _ _ (Nat.le_succ _) hq
  | some b => exact hA.word _ _ _ _ _ (hb b rfl) hq

theorem parse_units (is : List Item) (b0 : Text) (w0 : Option (List Atom)) (bl : Text) (w : Option (List Atom)) (b : List Atom)
    (h : Tok.wd bl w (some b) ∈ parse b0 w0 is) : Item.lu b ∈ is := by
  induction is generalizing b0 w0 with
  | nil => simp [parse] at h
  | cons i is ih =>
    cases i <;> cases w0 <;> simp only [parse] at h
    all_goals first
      | exact List.mem_cons_of_mem _ (ih _ _ h)
      | (split at h
         · simp only [List.mem_cons, reduceCtorEq, false_or] at h
           exact List.mem_cons_of_mem _ (ih _ _ h)
         · simp only [List.mem_cons, reduceCtorEq, false_or, Tok.wd.injEq, and_false] at h
           exact List.mem_cons_of_mem _ (ih _ _ h))
      | (simp only [List.mem_cons, reduceCtorEq, false_or, Tok.wd.injEq, and_false] at h
         exact List.mem_cons_of_mem _ (ih _ _ h))
      | (simp only [List.mem_cons, Tok.wd.injEq, Option.some.injEq] at h
         rcases h with ⟨_, _, rfl⟩ | h
         · simp
         · exact List.mem_cons_of_mem _ (ih _ _ h))

theorem runToks_ok {ok : Text → Text → Prop} {B : Nat → σ → Prop} (hA : Bounded A ok B) (ts : List Tok)
    (hok : ∀ bl w b, Tok.wd bl w (some b) ∈ ts → ok (unitForm b) (unitSurf b)) (ws : List LU) (q : σ) (h : B ws.length q) :
    ∃ o, runToks A cs delete ws q ts = .ok o := by
  induction ts generalizing ws q with
  | nil => exact ⟨_, rfl⟩
  | cons t ts ih =>
    have ih := ih (fun bl w b hx => hok bl w b (by simp [hx]))
    cases t with
    | nul =>
      obtain ⟨o, ho⟩ := ih [] (A.nullBoundary A.start) hA.nullBoundary
      exact ⟨_, by rw [runToks, ho]; rfl⟩
    | wd bl w b =>
      have h1 := tokLU_len A delete hA h bl w b (fun c hc => hok bl w c (by simp [hc]))
      have h2 := hA.wordBoundary _ _ h1
      obtain ⟨r, hr⟩ := addPaths_ok A [] (A.paths (A.wordBoundary (tokLU A delete q bl w b).2)) (ws ++ [(tokLU A delete q bl w b).1])
        (fun p hp => by have := hA.paths _ _ h2 p hp; simpa only [List.length_append, List.length_singleton] using this)
      have ht := congrArg List.length (addPaths_txt A _ _ _ _ hr)
      simp at ht
      rw [runToks, hr]
      simp only [Outcome.bind]
      split
      · obtain ⟨o, ho⟩ := ih [] A.start hA.start
        exact ⟨_, by rw [ho]; rfl⟩
      · exact ih _ _ (by rw [ht]; exact hA.restart _ _ h2)

/-- **C59** Restoration on every well-formed stream, for any rules that never look further back than the words read since they were
started: it ends normally, and the output is the text outside the units as it is and in the same order, with each unit replaced by its
surface form in one of the four variants. -/
theorem C59_restore_text_partial {ok : Text → Text → Prop} {B : Nat → σ → Prop} (hA : Bounded A ok B) (is : List Item) (hwf : WF is) (htag : TagsOk is)
    (hcl : AllCapsLast is) (hok : ∀ b, Item.lu b ∈ is → ok (unitForm b) (unitSurf b)) :
    ∃ o, restore A cs delete (render is) = .ok o ∧ Restored cs delete none is o := by
  rw [restore_parse A cs delete is hwf htag hcl]
  obtain ⟨o, ho⟩ := runToks_ok A cs delete hA (parse [] none is) (fun bl w b hb => hok b (parse_units is _ _ bl w b hb)) [] (A.nullBoundary A.start) hA.nullBoundary
  obtain ⟨ws', o', h1, h2, h3⟩ := runToks_shape A cs delete _ _ _ _ ho
  simp at h1
  subst h1
  obtain ⟨o2, h4, h5⟩ := parse_shape cs delete is [] none o' h3
  refine ⟨o, ho, ?_⟩
  rw [h2, h4]
  simpa [outputAll] using h5

/-! ## The variant (C60) -/

/-- The weight of a mark. -/
def LU.wt (w : LU) : Mark → Int
  | .AA => w.AA
  | .Aa => w.Aa
  | .aa => w.aa
  | .dix => w.dix
  | .skip => 0

theorem LU.add_wt (w : LU) (m n : Mark) (x : Int) (hn : n ≠ .skip) : (w.add m x).wt n = w.wt n + if m = n then x else 0 := by
  cases m <;> cases n <;> simp_all [LU.add, LU.wt]

theorem LU.choice_best (w : LU) : IsBest w.wt w.choice := by
  unfold LU.choice
  split
  · exact ⟨[], [.aa, .Aa, .AA], rfl, by simp, by simp [LU.wt]; omega⟩
  · split
    · exact ⟨[.dix], [.Aa, .AA], rfl, by simp [LU.wt]; omega, by simp [LU.wt]; omega⟩
    · split
      · exact ⟨[.dix, .aa], [.AA], rfl, by simp [LU.wt]; omega, by simp [LU.wt]; omega⟩
      · exact ⟨[.dix, .aa, .Aa], [], rfl, by simp [LU.wt]; omega, by simp⟩

theorem addPath_wt (x : Int) (p : List Mark) (ws ws' : List LU) (h : addPath x p ws = .ok ws') (m : Mark) (hm : m ≠ .skip) (j : Nat) :
    ws'[j]?.map (fun w => w.wt m) = ws[j]?.map fun w => w.wt m + if p[j]? = some m then x else 0 := by
  induction p generalizing ws ws' j with
  | nil => simp [addPath] at h; simp [h]
  | cons n p ih =>
    cases ws with
    | nil => simp [addPath] at h
    | cons w ws =>
      simp only [addPath] at h
      cases hr : addPath x p ws with
      | ok r =>
        rw [hr] at h
        simp at h
        rw [← h]
        cases j with
        | zero => simp [LU.add_wt _ _ _ _ hm]
        | succ j => simpa using ih ws r hr j
      | _ => rw [hr] at h; simp at h

theorem hits_cons (m : Mark) (j : Nat) (r : Text) (p : List Mark) (l : List (Text × List Mark)) :
    hits A m j ((r, p) :: l) = (if p.reverse[j]? = some m then A.weight r else 0) + hits A m j l := by simp [hits]

theorem addPaths_wt (seen : List Text) (ps : List (Text × List Mark)) (ws ws' : List LU) (h : addPaths A seen ps ws = .ok ws')
    (m : Mark) (hm : m ≠ .skip) (j : Nat) :
    ws'.reverse[j]?.map (fun w => w.wt m) = ws.reverse[j]?.map fun w => w.wt m + hits A m j (firstPaths seen ps) := by
  induction ps generalizing seen ws with
  | nil => simp [addPaths] at h; simp [h, firstPaths, hits]
  | cons p ps ih =>
    obtain ⟨r, p⟩ := p
    simp only [addPaths] at h
    simp only [firstPaths]
    split at h
    · rename_i hr; rw [if_pos hr]; exact ih _ _ h
    · rename_i hs
      rw [if_neg hs]
      cases hr : addPath (A.weight r) p.reverse ws.reverse with
      | ok w =>
        rw [hr] at h
        simp only [Outcome.bind] at h
        rw [ih _ _ h, List.reverse_reverse]
        have := addPath_wt _ _ _ _ hr m hm j
        generalize w[j]? = a at this
        generalize ws.reverse[j]? = b at this
        cases a with
        | none => cases b with
          | none => rfl
          | some b => simp at this
        | some a => cases b with
          | none => simp at this
          | some b =>
            simp only [Option.map_some, Option.some.injEq] at this ⊢
            rw [hits_cons, this]
            omega
      | _ => rw [hr] at h; simp [Outcome.bind] at h

theorem firstPaths_sub (seen : List Text) (ps : List (Text × List Mark)) : ∀ p ∈ firstPaths seen ps, p ∈ ps := by
  induction ps generalizing seen with
  | nil => simp [firstPaths]
  | cons p ps ih =>
    obtain ⟨r, p⟩ := p
    simp only [firstPaths]
    split
    · intro x hx; exact List.mem_cons_of_mem _ (ih _ x hx)
    · intro x hx
      rcases List.mem_cons.1 hx with rfl | hx
      · simp
      · exact List.mem_cons_of_mem _ (ih _ x hx)

theorem hits_zero (m : Mark) (j : Nat) (l : List (Text × List Mark)) (h : ∀ p ∈ l, p.2.length ≤ j) : hits A m j l = 0 := by
  induction l with
  | nil => rfl
  | cons p l ih =>
    obtain ⟨r, p⟩ := p
    have h0 := h (r, p) (by simp)
    rw [hits_cons, ih (fun x hx => h x (by simp [hx]))]
    rw [List.getElem?_eq_none (by simpa using h0)]
    simp

/-- Rules started after a word do not match it. -/
theorem credit_zero {ok : Text → Text → Prop} {B : Nat → σ → Prop} (hA : Bounded A ok B) (m : Mark) (ws : List SWord)
    (hok : ∀ w ∈ ws, ok (unitForm w.inside) (unitSurf w.inside)) (q : σ) (n j : Nat) (hq : B n q) (h : n < j) : credit A m j (matchesAt A q ws) = 0 := by
  induction ws generalizing q n j with
  | nil => rfl
  | cons w ws ih =>
    simp only [matchesAt, credit]
    have h1 := hA.word n q (sourceCase w.wb) (unitForm w.inside) (unitSurf w.inside) (hok w (by simp)) hq
    have h2 := hA.wordBoundary _ _ h1
    rw [hits_zero A m j _ (fun p hp => by have := hA.paths _ _ h2 p (firstPaths_sub _ _ p hp); omega)]
    rw [ih (fun x hx => hok x (by simp [hx])) _ (n + 1) (j + 1) (by
      split
      · exact hA.mono _ _ _ (Nat.zero_le _) hA.start
      · exact hA.restart _ _ h2) (by omega)]
    rfl

/-- The words as the loop sees them. -/
def SWord.tok (w : SWord) : Tok := .wd (render w.before) w.wb (some w.inside)

theorem isBest_congr {f g : Mark → Int} (h : ∀ m, m ≠ .skip → f m = g m) {m : Mark} (hm : IsBest f m) : IsBest g m := by
  obtain ⟨a, b, h1, h2, h3⟩ := hm
  have hs : ∀ x ∈ a ++ m :: b, x ≠ .skip := by rw [← h1]; simp
  refine ⟨a, b, h1, ?_, ?_⟩
  · intro x hx
    rw [← h x (hs x (by simp [hx])), ← h m (hs m (by simp))]; exact h2 x hx
  · intro x hx
    rw [← h x (hs x (by simp [hx])), ← h m (hs m (by simp))]; exact h3 x hx

/-- The loop over the words of a section. -/
theorem runToks_section {ok : Text → Text → Prop} {B : Nat → σ → Prop} (hA : Bounded A ok B) (sw : List SWord)
    (hok : ∀ w ∈ sw, ok (unitForm w.inside) (unitSurf w.inside)) (ts : List Tok) (o' : Text) (ho : runToks A cs delete [] (A.nullBoundary A.start) ts = .ok o') :
    ∀ (ws : List LU) (q : σ), B ws.length q →
    ∃ ws' o, runToks A cs delete ws q (sw.map SWord.tok ++ .nul :: ts) = .ok (outputAll cs ws' ++ o ++ '\x00' :: o') ∧
      ws'.map LU.txt = ws.map LU.txt ∧
      (∀ m, m ≠ .skip → ∀ j : Nat, ws'.reverse[j]?.map (fun w => w.wt m) =
        ws.reverse[j]?.map fun w => w.wt m + credit A m (j + 1) (matchesAt A q sw)) ∧
      Chosen A cs delete sw (matchesAt A q sw) o := by
  induction sw with
  | nil =>
    intro ws q _
    refine ⟨ws, [], ?_, rfl, ?_, .nil⟩
    · simp [runToks, ho]
    · intro m _ j; simp [matchesAt, credit]
  | cons s sw ih =>
    intro ws q hl
    have ih := ih (fun x hx => hok x (by simp [hx]))
    have h1 := hA.word _ q (sourceCase s.wb) (unitForm s.inside) (unitSurf s.inside) (hok s (by simp)) hl
    have h2 := hA.wordBoundary _ _ h1
    simp only [List.map_cons, List.cons_append, SWord.tok, matchesAt]
    rw [runToks_unit]
    generalize A.wordBoundary (A.word q (sourceCase s.wb) (unitForm s.inside) (unitSurf s.inside)) = s2 at h2 ⊢
    generalize hnew : ({ blank := render s.before, wblank := keptWb delete s.wb, form := unitForm s.inside, surf := unitSurf s.inside } : LU) = new
    have hnt : new.txt = (render s.before, keptWb delete s.wb, unitSurf s.inside) := by rw [← hnew]; rfl
    have hnw : ∀ m, new.wt m = 0 := by intro m; rw [← hnew]; cases m <;> rfl
    obtain ⟨r, hr⟩ := addPaths_ok A [] (A.paths s2) (ws ++ [new])
      (fun p hp => by have := hA.paths _ _ h2 p hp; simpa only [List.length_append, List.length_singleton] using this)
    have ht := addPaths_txt A _ _ _ _ hr
    have hw := addPaths_wt A _ _ _ _ hr
    rw [hr]
    simp only [Outcome.bind]
    -- the words, after everything
    have final : ∀ (r' : List LU) (ls : List (List (Text × List Mark))) (o : Text), r'.map LU.txt = r.map LU.txt →
        (∀ m, m ≠ .skip → ∀ j : Nat, r'.reverse[j]?.map (fun w => w.wt m) = r.reverse[j]?.map fun w => w.wt m + credit A m (j + 1) ls) →
        Chosen A cs delete sw ls o →
        ∃ ws' o2, outputAll cs r' ++ o = outputAll cs ws' ++ o2 ∧ ws'.map LU.txt = ws.map LU.txt ∧
          (∀ m, m ≠ .skip → ∀ j : Nat, ws'.reverse[j]?.map (fun w => w.wt m) =
            ws.reverse[j]?.map fun w => w.wt m + credit A m (j + 1) (A.paths s2 :: ls)) ∧
          Chosen A cs delete (s :: sw) (A.paths s2 :: ls) o2 := by
      intro r' ls o h3 h4 h5
      have h6 : r'.map LU.txt = ws.map LU.txt ++ [new.txt] := by rw [h3, ht]; simp
      rw [List.map_eq_append_iff] at h6
      obtain ⟨ws1, ws2, rfl, h7, h8⟩ := h6
      obtain ⟨w2, rfl⟩ : ∃ x, ws2 = [x] := by
        have := congrArg List.length h8
        simp at this
        exact List.length_eq_one_iff.1 this
      have h9 : w2.txt = new.txt := by simpa using h8
      -- weights
      have hwt : ∀ m, m ≠ .skip → ∀ j : Nat, (ws1 ++ [w2]).reverse[j]?.map (fun w => w.wt m) =
          (ws ++ [new]).reverse[j]?.map fun w => w.wt m + credit A m j (A.paths s2 :: ls) := by
        intro m hm j
        rw [h4 m hm j]
        have := hw m hm j
        generalize r.reverse[j]? = a at this ⊢
        generalize (ws ++ [new]).reverse[j]? = b at this ⊢
        cases a with
        | none => cases b with
          | none => rfl
          | some b => simp at this
        | some a => cases b with
          | none => simp at this
          | some b =>
            simp only [Option.map_some, Option.some.injEq, credit] at this ⊢
            rw [this]; omega
      refine ⟨ws1, w2.output cs ++ o, by simp [outputAll], h7, ?_, ?_⟩
      · intro m hm j
        have := hwt m hm (j + 1)
        simpa using this
      · rw [output_unit cs delete w2 _ s.wb s.inside (h9.trans hnt)]
        have hb : IsBest (fun x => credit A x 0 (A.paths s2 :: ls)) w2.choice := by
          refine isBest_congr (fun m hm => ?_) w2.choice_best
          have := hwt m hm 0
          simp [hnw] at this
          exact this
        exact .cons hb h5
    split
    · obtain ⟨ws', o, h3, h4, h5, h6⟩ := ih [] A.start hA.start
      simp at h4
      subst h4
      rw [h3]
      obtain ⟨ws', o2, h7, h8, h9, h10⟩ := final r (matchesAt A A.start sw) o rfl (by
        intro m hm j
        rw [credit_zero A hA m sw (fun x hx => hok x (by simp [hx])) A.start 0 (j + 1) hA.start (by omega)]
        simp) h6
      exact ⟨ws', o2, by simp [outputAll] at h7 ⊢; rw [← List.append_assoc, h7]; simp, h8, h9, h10⟩
    · have hlen := congrArg List.length ht
      simp at hlen
      obtain ⟨ws', o, h3, h4, h5, h6⟩ := ih r (A.restart s2) (by rw [hlen]; exact hA.restart _ _ h2)
      rw [h3]
      obtain ⟨ws', o2, h7, h8, h9, h10⟩ := final ws' (matchesAt A (A.restart s2) sw) o h4 h5 h6
      exact ⟨ws', o2, by rw [h7], h8, h9, h10⟩

theorem parse_before (bl : List Item) (h : ∀ i ∈ bl, (∃ a, i = .txt a) ∨ ∃ b, i = .blank b) (b : Text) (is : List Item) :
    parse b none (bl ++ is) = parse (b ++ render bl) none is := by
  induction bl generalizing b with
  | nil => simp
  | cons i bl ih =>
    have ih := fun b => ih (fun x hx => h x (by simp [hx])) b
    rcases h i (by simp) with ⟨a, rfl⟩ | ⟨c, rfl⟩ <;> simp [parse, ih, Item.render]

theorem parse_section (sw : List SWord) (h : ∀ w ∈ sw, w.ok) (is : List Item) :
    parse [] none (sw.flatMap SWord.items ++ .nul :: is) = sw.map SWord.tok ++ .nul :: parse [] none is := by
  induction sw with
  | nil => simp [parse]
  | cons s sw ih =>
    have ih := ih (fun x hx => h x (by simp [hx]))
    obtain ⟨bl, wb, b⟩ := s
    have hs := h ⟨bl, wb, b⟩ (by simp)
    simp only [List.flatMap_cons, SWord.items, List.append_assoc]
    rw [parse_before bl hs]
    cases wb with
    | none => simp [parse, SWord.tok, ih]
    | some x => simp [parse, SWord.tok, ih]

/-- **C60** Sections that end with NUL, made of words with blanks and word-bound blanks before them: every word is written as the variant for
which the rules matching it have the greatest total weight (the dictionary form if that is not less than the others, then small letters,
title case, capitals), each section on its own. -/
theorem C60_restore_choice_partial {ok : Text → Text → Prop} {B : Nat → σ → Prop} (hA : Bounded A ok B) (secs : List (List SWord))
    (hok : ∀ s ∈ secs, ∀ w ∈ s, w.ok) (hw : ∀ s ∈ secs, ∀ w ∈ s, ok (unitForm w.inside) (unitSurf w.inside))
    (hwf : WF (secs.flatMap fun s => s.flatMap SWord.items ++ [.nul]))
    (htag : TagsOk (secs.flatMap fun s => s.flatMap SWord.items ++ [.nul]))
    (hcl : AllCapsLast (secs.flatMap fun s => s.flatMap SWord.items ++ [.nul])) :
    ∃ o, restore A cs delete (render (secs.flatMap fun s => s.flatMap SWord.items ++ [.nul])) = .ok o ∧ ChosenAll A cs delete secs o := by
  rw [restore_parse A cs delete _ hwf htag hcl]
  clear hwf htag hcl
  induction secs with
  | nil =>
    have h0 := hA.wordBoundary _ _ hA.nullBoundary
    refine ⟨[], ?_, .nil⟩
    simp only [List.flatMap_nil, parse]
    rw [runToks_blank]
    simp only [wbT, List.nil_append]
    obtain ⟨r, hr⟩ := addPaths_ok A [] (A.paths (A.wordBoundary (A.nullBoundary A.start)))
      [({ blank := [], wblank := [], form := [], surf := [] } : LU)]
      (fun p hp => by have := hA.paths _ _ h0 p hp; omega)
    have ht := addPaths_txt A _ _ _ _ hr
    obtain ⟨w, rfl⟩ : ∃ x, r = [x] := by
      have := congrArg List.length ht
      simp at this
      exact List.length_eq_one_iff.1 this
    have hw : w.output cs = [] := by
      simp [LU.txt] at ht
      simp [LU.output, ht]
    simp only [Option.map_none, Option.getD_none]
    rw [hr]
    simp only [Outcome.bind]
    split <;> simp [runToks, outputAll, hw]
  | cons s secs ih =>
    obtain ⟨o', h1, h2⟩ := ih (fun x hx => hok x (by simp [hx])) (fun x hx => hw x (by simp [hx]))
    have hp : parse [] none ((s :: secs).flatMap fun s => s.flatMap SWord.items ++ [.nul]) =
        s.map SWord.tok ++ .nul :: parse [] none (secs.flatMap fun s => s.flatMap SWord.items ++ [.nul]) := by
      rw [List.flatMap_cons, List.append_assoc, List.singleton_append]
      exact parse_section s (hok s (by simp)) _
    rw [hp]
    obtain ⟨ws', o, h3, h4, _, h6⟩ := runToks_section A cs delete hA s (hw s (by simp)) _ o' h1 [] (A.nullBoundary A.start) hA.nullBoundary
    simp at h4
    subst h4
    rw [h3]
    exact ⟨_, rfl, by simpa [outputAll] using ChosenAll.cons h6 h2⟩
end

end Verif.Caps
