import Verif.Tmx.BuilderSpec
/-!
# C63, C64: the segments and the sentences of a translation memory
-/
namespace Verif.Tmx

/-! ## C64: sentences -/

theorem restOfBlank_inside (b rest : Text) (h : Inside b) : restOfBlank (b ++ ']' :: rest) = some (b, rest) := by
  induction h with
  | nil => rw [List.nil_append, restOfBlank.eq_def]; simp
  | lit h1 h2 _ ih => rw [List.cons_append, restOfBlank.eq_def]; simp only; rw [if_neg h2, if_neg h1, ih]; rfl
  | esc _ ih => rw [List.cons_append, List.cons_append, restOfBlank.eq_def]; simp [ih]

theorem noEnd_cons (k : Ctype) (x : Elem) (xs after : List Elem) (h1 : ¬ EndsSentence k x (xs ++ after)) (h2 : NoEnd k xs after) : NoEnd k (x :: xs) after := by
  intro a e b h
  cases a with
  | nil => injection h with e1 e2; subst e1 e2; exact h1
  | cons y a => injection h with e1 e2; exact h2 a e b e2

theorem noEnd_nil (k : Ctype) (after : List Elem) : NoEnd k [] after := by
  intro a e b h
  cases a <;> simp at h

/-- What `nextTU` reads. -/
def Reads (k : Ctype) (cur : Text) (es : List Elem) (r : Outcome (Text × Option Text)) : Prop :=
  (NoEnd k es [] ∧ r = .ok (cur ++ es.flatMap Elem.text, none)) ∨
  ∃ s e after, es = s ++ e :: after ∧ NoEnd k s (e :: after) ∧ EndsSentence k e after ∧
    r = .ok (cur ++ (s ++ [e]).flatMap Elem.text, some (after.flatMap Elem.source))

theorem Reads.cons {k : Ctype} {cur : Text} {x : Elem} {xs : List Elem} {r : Outcome (Text × Option Text)} (hx : ¬ EndsSentence k x xs)
    (h : Reads k (cur ++ x.text) xs r) : Reads k cur (x :: xs) r := by
  rcases h with ⟨h1, h2⟩ | ⟨s, e, after, h1, h2, h3, h4⟩
  · exact .inl ⟨noEnd_cons k x xs [] (by simpa using hx) h1, by rw [h2]; simp⟩
  · refine .inr ⟨x :: s, e, after, by rw [h1]; rfl, noEnd_cons k x s _ (by rw [← h1]; exact hx) h2, h3, ?_⟩
    rw [h4]; simp

theorem nextTU_reads (k : Ctype) (hk : k.Ok) (es : List Elem) (hes : ∀ e ∈ es, e.Ok) : ∀ (n : Nat) (cur : Text), (es.flatMap Elem.source).length < n →
    Reads k cur es (nextTU k n cur (es.flatMap Elem.source)) := by
  induction es with
  | nil =>
    intro n cur hn
    obtain ⟨m, rfl⟩ : ∃ m, n = m + 1 := ⟨n - 1, by omega⟩
    refine .inl ⟨noEnd_nil _ _, ?_⟩
    simp [nextTU]
  | cons x xs ih =>
    intro n cur hn
    obtain ⟨m, rfl⟩ : ∃ m, n = m + 1 := ⟨n - 1, by omega⟩
    have ih := ih fun e he => hes e (List.mem_cons_of_mem _ he)
    have hx := hes x (by simp)
    rw [List.flatMap_cons, List.length_append] at hn
    rw [List.flatMap_cons]
    cases x with
    | esc c =>
      refine Reads.cons (by simp [EndsSentence]) ?_
      simp only [Elem.source, List.length_cons, List.length_nil] at hn
      simp only [Elem.source, Elem.text, List.cons_append, List.nil_append, nextTU, if_true]
      exact ih m _ (by omega)
    | blank b =>
      refine Reads.cons (by simp [EndsSentence]) ?_
      simp only [Elem.source, List.length_cons, List.length_append, List.length_nil] at hn
      simp only [Elem.source, List.cons_append, List.append_assoc, List.nil_append, nextTU]
      rw [if_neg (by decide), if_pos trivial, restOfBlank_inside _ _ hx]
      exact ih m _ (by omega)
    | lit c =>
      obtain ⟨h1, h2⟩ := hx
      simp only [Elem.source, List.length_cons, List.length_nil] at hn
      simp only [Elem.source, List.cons_append, List.nil_append]
      by_cases hd : c = '.'
      · subst hd
        cases xs with
        | nil =>
          refine .inl ⟨noEnd_cons _ _ _ _ (by simp [EndsSentence]) (noEnd_nil _ _), ?_⟩
          simp [nextTU, Elem.text]
        | cons y ys =>
          have hy := hes y (by simp)
          rw [List.flatMap_cons] at ih hn ⊢
          cases y with
          | esc d =>
            refine Reads.cons (by simp [EndsSentence]) ?_
            simp only [Elem.source, List.cons_append, List.nil_append] at ih hn ⊢
            rw [nextTU.eq_def]
            simp only
            rw [if_neg (by decide), if_neg (by decide), if_pos trivial, if_neg (by rw [hk.back]; decide)]
            exact ih m _ (by simp only [List.length_cons] at hn ⊢; omega)
          | blank b =>
            refine .inr ⟨[], .lit '.', .blank b :: ys, rfl, noEnd_nil _ _, .inr (.inr ⟨rfl, .inl ⟨b, ys, rfl⟩⟩), ?_⟩
            rw [nextTU.eq_def]
            simp [Elem.source, Elem.text]
          | lit d =>
            by_cases hs : k.space d = true
            · refine .inr ⟨[], .lit '.', .lit d :: ys, rfl, noEnd_nil _ _, .inr (.inr ⟨rfl, .inr ⟨d, ys, rfl, hs⟩⟩), ?_⟩
              rw [nextTU.eq_def]
              simp [Elem.source, Elem.text, hs]
            · refine Reads.cons ?_ ?_
              · rintro (e | e | ⟨_, ⟨b, rest, e⟩ | ⟨c', rest, e, hc⟩⟩)
                · simp at e
                · simp at e
                · simp at e
                · injection e with e1 _
                  injection e1 with e1
                  exact hs (e1 ▸ hc)
              · simp only [Elem.source, List.cons_append, List.nil_append] at ih hn ⊢
                rw [nextTU.eq_def]
                simp only
                rw [if_neg (by decide), if_neg (by decide), if_pos trivial, if_neg (by
                  rintro (e | e)
                  · exact hy.2 e
                  · exact hs e)]
                exact ih m _ (by simp only [List.length_cons] at hn ⊢; omega)
      · by_cases hq : c = '?' ∨ c = '!'
        · refine .inr ⟨[], .lit c, xs, rfl, noEnd_nil _ _, ?_, ?_⟩
          · rcases hq with e | e <;> subst e <;> simp [EndsSentence]
          · rw [nextTU.eq_def]
            simp only
            rw [if_neg h1, if_neg h2, if_neg hd, if_pos hq]
            simp [Elem.text]
        · refine Reads.cons ?_ ?_
          · simp only [EndsSentence, Elem.lit.injEq, hd, false_and, or_false]
            exact hq
          · rw [nextTU.eq_def]
            simp only
            rw [if_neg h1, if_neg h2, if_neg hd, if_neg hq]
            exact ih m _ (by omega)

theorem sentenceList_split (k : Ctype) (hk : k.Ok) (n : Nat) : ∀ es : List Elem, (∀ e ∈ es, e.Ok) → (es.flatMap Elem.source).length < n →
    ∃ l r, Split k es l r ∧ sentenceList k n (es.flatMap Elem.source) = .ok (l.map fun s => s.flatMap Elem.text) := by
  induction n with
  | zero => intro es _ h; omega
  | succ n ih =>
    intro es hes hn
    rw [sentenceList]
    rcases nextTU_reads k hk es hes ((es.flatMap Elem.source).length + 1) [] (by omega) with ⟨h1, h2⟩ | ⟨s, e, after, h1, h2, h3, h4⟩
    · refine ⟨[], es, .rest _ h1, ?_⟩
      rw [h2]
      rfl
    · subst h1
      have hlen : (after.flatMap Elem.source).length < n := by
        rw [List.flatMap_append, List.flatMap_cons, List.length_append, List.length_append] at hn
        have : 0 < e.source.length := by cases e <;> simp [Elem.source]
        omega
      obtain ⟨l, r, h5, h6⟩ := ih after (fun x hx => hes x (by simp [hx])) hlen
      refine ⟨(s ++ [e]) :: l, r, .sentence s e after l r h2 h3 h5, ?_⟩
      rw [h4]
      simp only [Outcome.bind_ok]
      rw [h6]
      simp

/-- C64: the text is cut after every end of a sentence and nowhere else; all of the text up to the last end of a sentence is kept, in order; blanks become placeholders. -/
theorem C64_sentences_partial (k : Ctype) (hk : k.Ok) (es : List Elem) (hes : ∀ e ∈ es, e.Ok) :
    ∃ sentences rest, Split k es sentences rest ∧ es = sentences.flatten ++ rest ∧
      sentencesOf k (es.flatMap Elem.source) = .ok (sentences.map fun s => s.flatMap Elem.text) := by
  obtain ⟨l, r, h1, h2⟩ := sentenceList_split k hk _ es hes (Nat.lt_succ_self _)
  refine ⟨l, r, h1, ?_, h2⟩
  clear h2 hes
  induction h1 with
  | rest es _ => rfl
  | sentence s e after l r _ _ _ ih => rw [ih]; simp

/-- C64 fails: the end of a text without full stop is lost (a title, for example). -/
theorem C64_last_violation (k : Ctype) (hk : k.Ok) (es : List Elem) (hes : ∀ e ∈ es, e.Ok) (h : NoEnd k es []) : sentencesOf k (es.flatMap Elem.source) = .ok [] := by
  rcases nextTU_reads k hk es hes ((es.flatMap Elem.source).length + 1) [] (by omega) with ⟨_, h2⟩ | ⟨s, e, after, h1, _, h3, _⟩
  · rw [sentencesOf, sentenceList, h2]; rfl
  · subst h1
    exact absurd (by simpa using h3) (h s e after rfl)

example : sentencesOf ascii t!"A title" = .ok [] := by decide +kernel
/-- C64 fails: also the last sentence, if nothing follows its full stop. -/
theorem C64_stop_violation : sentencesOf ascii t!"One. Two." = .ok [t!"One."] := by decide +kernel
/-- C64 fails: in a blank that does not end, the program aborts. -/
theorem C64_blank_violation : sentencesOf ascii t!"One [two" = .fail := by decide +kernel

/-- A text for the hypotheses. -/
def sample : List Elem := [.lit 'H', .lit 'i', .blank t!" <b>", .lit 'x', .lit '.', .lit ' ', .esc '[', .lit '?', .blank t!"", .lit 'N']

example : ∀ e ∈ sample, e.Ok := by
  intro e he
  simp only [sample, List.mem_cons, List.not_mem_nil, or_false] at he
  rcases he with h | h | h | h | h | h | h | h | h | h <;> subst h
  all_goals first
    | exact trivial
    | exact ⟨by decide, by decide⟩
    | exact .nil
    | exact .lit (by decide) (by decide) (.lit (by decide) (by decide) (.lit (by decide) (by decide) (.lit (by decide) (by decide) .nil)))
example : sentencesOf ascii (sample.flatMap Elem.source) = .ok [t!"Hi <ph/>x.", t!" [?"] := by decide +kernel

/-! ## C63: segments -/

theorem escape_cons (c : Char) (t : Text) (h : ∀ u, c :: t ≠ '<' :: 'p' :: 'h' :: '/' :: '>' :: u) : escape (c :: t) = (Item.chr c).xml ++ escape t := by
  rw [escape.eq_def]
  split
  · rename_i h1; cases h1
  · rename_i u h1; exact absurd h1 (h u)
  · rename_i h1; injection h1 with h1 h2; subst h1 h2; rfl

theorem source_inj (l : List Item) (w u : Text) (hw : '<' ∉ w) (h : l.flatMap Item.source = w ++ u) : ∃ r, l = w.map Item.chr ++ r ∧ r.flatMap Item.source = u := by
  induction w generalizing l with
  | nil => exact ⟨l, rfl, h⟩
  | cons c w ih =>
    cases l with
    | nil => simp at h
    | cons x l =>
      cases x with
      | chr d =>
        simp only [List.flatMap_cons, Item.source, List.cons_append, List.nil_append] at h
        injection h with h1 h2
        obtain ⟨r, h3, h4⟩ := ih l (fun hh => hw (List.mem_cons_of_mem _ hh)) h2
        exact ⟨r, by rw [h1, h3]; rfl, h4⟩
      | ph =>
        simp only [List.flatMap_cons, Item.source, List.cons_append] at h
        injection h with h1 _
        exact absurd (h1 ▸ List.mem_cons_self) hw

theorem escape_items (l : List Item) (h : NoFake l) : escape (l.flatMap Item.source) = l.flatMap Item.xml := by
  induction l with
  | nil => rfl
  | cons x l ih =>
    have hl : NoFake l := fun a b e => h (x :: a) b (by rw [e]; rfl)
    cases x with
    | ph =>
      rw [List.flatMap_cons, List.flatMap_cons, ← ih hl]
      rfl
    | chr c =>
      rw [List.flatMap_cons, List.flatMap_cons, ← ih hl, Item.source]
      refine escape_cons c _ ?_
      intro u e
      injection e with e1 e2
      obtain ⟨r, h1, _⟩ := source_inj l t!"ph/>" u (by decide) e2
      exact h [] r (by rw [e1, h1]; rfl)

theorem dropPh_phs (n : Nat) (t : Text) : dropPh ((List.replicate n Item.ph).flatMap Item.xml ++ t) = dropPh t := by
  induction n with
  | zero => rfl
  | succ n ih =>
    rw [List.replicate_succ, List.flatMap_cons, List.append_assoc, ← ih]
    rfl

theorem dropPh_stop (t : Text) (h : t.head? ≠ some '<') : dropPh t = t := by
  rw [dropPh.eq_def]
  split
  · simp at h
  · rfl

theorem dropPhEnd_phs (n : Nat) (t : Text) (h : t ≠ []) : dropPhEnd (((List.replicate n Item.ph).flatMap Item.xml).reverse ++ t) = dropPhEnd t := by
  induction n with
  | zero => rfl
  | succ n ih =>
    have e : ((List.replicate (n + 1) Item.ph).flatMap Item.xml).reverse ++ t = t!">/hp<" ++ (((List.replicate n Item.ph).flatMap Item.xml).reverse ++ t) := by
      rw [List.replicate_succ', List.flatMap_append, List.reverse_append, List.append_assoc]
      rfl
    rw [e, ← ih]
    cases hh : ((List.replicate n Item.ph).flatMap Item.xml).reverse ++ t with
    | nil => exact absurd (List.append_eq_nil_iff.mp hh).2 h
    | cons c r => rfl

theorem dropPhEnd_stop (t : Text) (h : t.head? ≠ some '>') : dropPhEnd t = t := by
  rw [dropPhEnd.eq_def]
  split
  · simp at h
  · rfl

theorem strip_front (k : Ctype) (a : Nat) (bad X : Text) (hb : ∀ c ∈ bad, c ≠ '<' ∧ k.word c = false) (c : Char) (hc : X.head? = some c) (h1 : c ≠ '<') (h2 : k.word c = true)
    (n : Nat) (hn : 2 ≤ n) : stripFront k n ((List.replicate a Item.ph).flatMap Item.xml ++ bad ++ X) = X := by
  obtain ⟨m, rfl⟩ : ∃ m, n = m + 1 + 1 := ⟨n - 2, by omega⟩
  obtain ⟨Y, rfl⟩ : ∃ Y, X = c :: Y := by
    cases X with
    | nil => simp at hc
    | cons d Y => simp at hc; subst hc; exact ⟨Y, rfl⟩
  have hX : dropPh (c :: Y) = c :: Y := dropPh_stop _ (by simpa using h1)
  have hW : (c :: Y).dropWhile (fun c => !k.word c) = c :: Y := by rw [List.dropWhile_cons, if_neg (by simp [h2])]
  have e : (dropPh ((List.replicate a Item.ph).flatMap Item.xml ++ bad ++ c :: Y)).dropWhile (fun c => !k.word c) = c :: Y := by
    rw [List.append_assoc, dropPh_phs, dropPh_stop]
    · rw [List.dropWhile_append_of_pos]
      · exact hW
      · intro x hx; simp [(hb x hx).2]
    · cases bad with
      | nil => simpa using h1
      | cons x bad => simpa using (hb x (by simp)).1
  rw [stripFront, e]
  split
  · rfl
  · rw [stripFront, hX, hW]
    simp

theorem strip_end (k : Ctype) (a : Nat) (bad X : Text) (hb : ∀ c ∈ bad, c ≠ '>' ∧ k.word c = false) (c : Char) (hc : X.head? = some c) (h1 : c ≠ '>') (h2 : k.word c = true)
    (n : Nat) (hn : 2 ≤ n) : stripEnd k n (((List.replicate a Item.ph).flatMap Item.xml).reverse ++ bad ++ X) = X := by
  obtain ⟨m, rfl⟩ : ∃ m, n = m + 1 + 1 := ⟨n - 2, by omega⟩
  obtain ⟨Y, rfl⟩ : ∃ Y, X = c :: Y := by
    cases X with
    | nil => simp at hc
    | cons d Y => simp at hc; subst hc; exact ⟨Y, rfl⟩
  have hX : dropPhEnd (c :: Y) = c :: Y := dropPhEnd_stop _ (by simpa using h1)
  have hW : (c :: Y).dropWhile (fun c => !k.word c) = c :: Y := by rw [List.dropWhile_cons, if_neg (by simp [h2])]
  have e : (dropPhEnd (((List.replicate a Item.ph).flatMap Item.xml).reverse ++ bad ++ c :: Y)).dropWhile (fun c => !k.word c) = c :: Y := by
    rw [List.append_assoc, dropPhEnd_phs _ _ (by simp), dropPhEnd_stop]
    · rw [List.dropWhile_append_of_pos]
      · exact hW
      · intro x hx; simp [(hb x hx).2]
    · cases bad with
      | nil => simpa using h1
      | cons x bad => simpa using (hb x (by simp)).1
  rw [stripEnd, e]
  split
  · rfl
  · rw [stripEnd, hX, hW]
    simp

theorem cutDots_spec (t u : Text) (h : cutDots t = some u) : u = t.dropWhile fun c => decide (c = '.') := by
  fun_induction cutDots t with
  | case1 => simp at h
  | case2 => simp at h
  | case3 t hx ih => rw [ih h, List.dropWhile_cons, if_pos (by simp)]
  | case4 x t hx hn => simp at h; subst h; rw [List.dropWhile_cons, if_neg (by simpa using hn)]

theorem dropWhile_idem (p : Char → Bool) (t : Text) : (t.dropWhile p).dropWhile p = t.dropWhile p := by
  induction t with
  | nil => rfl
  | cons c t ih =>
    rw [List.dropWhile_cons]
    split
    · exact ih
    · rename_i h; rw [List.dropWhile_cons, if_neg h]

theorem stripDots_eq (t : Text) : stripDots t = t.dropWhile fun c => decide (c = '.') := by
  unfold stripDots
  cases h : cutDots t with
  | none => rfl
  | some u => rw [Option.getD_some, cutDots_spec t u h, dropWhile_idem]

theorem dots_items (l : List Item) : (((l.flatMap Item.xml).reverse).dropWhile fun c => decide (c = '.')).reverse = (dropStops l).flatMap Item.xml := by
  have key : ∀ r : List Item, ((r.reverse.flatMap Item.xml).reverse.dropWhile fun c => decide (c = '.')).reverse =
      ((r.dropWhile fun x => decide (x = Item.chr '.')).reverse).flatMap Item.xml := by
    intro r
    induction r with
    | nil => rfl
    | cons x r ih =>
      rw [List.reverse_cons, List.flatMap_append, List.reverse_append, List.dropWhile_cons]
      by_cases hx : x = .chr '.'
      · subst hx
        rw [if_pos (by simp), ← ih]
        have e : (([Item.chr '.'].flatMap Item.xml).reverse) = t!"." := by decide
        rw [e, List.cons_append, List.nil_append, List.dropWhile_cons, if_pos (by simp)]
      · rw [if_neg (by simpa using hx)]
        have e : ∃ c y, ([x].flatMap Item.xml).reverse = c :: y ∧ c ≠ '.' := by
          cases x with
          | ph => exact ⟨'>', t!"/hp<", by decide, by decide⟩
          | chr c =>
            have hc : c ≠ '.' := fun e => hx (by rw [e])
            simp only [List.flatMap_cons, List.flatMap_nil, Item.xml, List.append_nil]
            by_cases c1 : c = '<'
            · rw [if_pos c1]; exact ⟨';', t!"tl&", by decide, by decide⟩
            · rw [if_neg c1]
              by_cases c2 : c = '>'
              · rw [if_pos c2]; exact ⟨';', t!"tg&", by decide, by decide⟩
              · rw [if_neg c2]
                by_cases c3 : c = '&'
                · rw [if_pos c3]; exact ⟨';', t!"pma&", by decide, by decide⟩
                · rw [if_neg c3]; exact ⟨c, [], rfl, hc⟩
        obtain ⟨c, y, e1, e2⟩ := e
        rw [e1, List.cons_append, List.dropWhile_cons, if_neg (by simpa using e2), ← List.cons_append, ← e1, ← List.reverse_append, List.reverse_reverse,
          List.reverse_cons, List.flatMap_append]
  have := key l.reverse
  rw [List.reverse_reverse] at this
  exact this

theorem removed_xml (k : Ctype) (l : List Item) (h : ∀ x ∈ l, x.Removed k) : ∀ c ∈ l.flatMap Item.xml, c ≠ '<' ∧ c ≠ '>' ∧ k.word c = false := by
  intro c hc
  obtain ⟨x, h1, h2⟩ := List.mem_flatMap.mp hc
  have hx := h x h1
  cases x with
  | ph => exact hx.elim
  | chr d =>
    obtain ⟨a1, a2, a3, a4⟩ := hx
    simp only [Item.xml, if_neg a1, if_neg a2, if_neg a3, List.mem_singleton] at h2
    subst h2
    exact ⟨a1, a2, a4⟩

theorem kept_xml (k : Ctype) (hk : k.Ok) (x : Item) (h : x.Kept k) :
    (∃ c y, x.xml = c :: y ∧ c ≠ '<' ∧ k.word c = true) ∧ (∃ c y, x.xml = y ++ [c] ∧ c ≠ '>' ∧ k.word c = true) := by
  cases x with
  | ph => exact h.elim
  | chr c =>
    simp only [Item.xml]
    by_cases c1 : c = '<'
    · rw [if_pos c1]; exact ⟨⟨'&', t!"lt;", rfl, by decide, hk.amp⟩, ⟨';', t!"&lt", rfl, by decide, hk.semi⟩⟩
    · rw [if_neg c1]
      by_cases c2 : c = '>'
      · rw [if_pos c2]; exact ⟨⟨'&', t!"gt;", rfl, by decide, hk.amp⟩, ⟨';', t!"&gt", rfl, by decide, hk.semi⟩⟩
      · rw [if_neg c2]
        by_cases c3 : c = '&'
        · rw [if_pos c3]; exact ⟨⟨'&', t!"amp;", rfl, by decide, hk.amp⟩, ⟨';', t!"&amp", rfl, by decide, hk.semi⟩⟩
        · rw [if_neg c3]
          have hw : k.word c = true := by
            rcases h with h | h | h | h
            · exact absurd h c1
            · exact absurd h c2
            · exact absurd h c3
            · exact h
          exact ⟨⟨c, [], rfl, c1, hw⟩, ⟨c, [], rfl, c2, hw⟩⟩

/-- C63: the text of a segment is the sentence, with its characters escaped as XML wants, without the placeholders and spaces at both ends and without full stops at
the end.  Partial: at both ends, no placeholder may follow a space (see `C63_placeholder_violation`). -/
theorem C63_segment_partial (k : Ctype) (hk : k.Ok) (a b : Nat) (pre core post : List Item) (hpre : ∀ x ∈ pre, x.Removed k) (hpost : ∀ x ∈ post, x.Removed k)
    (x y : Item) (hx : core.head? = some x) (hy : core.getLast? = some y) (kx : x.Kept k) (ky : y.Kept k)
    (hf : NoFake (List.replicate a Item.ph ++ pre ++ core ++ post ++ List.replicate b Item.ph)) :
    xmlize k ((List.replicate a Item.ph ++ pre ++ core ++ post ++ List.replicate b Item.ph).flatMap Item.source) = (dropStops core).flatMap Item.xml := by
  have hne : core ≠ [] := by intro e; rw [e] at hx; simp at hx
  obtain ⟨cx, tx, e1, n1, w1⟩ := (kept_xml k hk x kx).1
  obtain ⟨cy, ty, e2, n2, w2⟩ := (kept_xml k hk y ky).2
  have hX : (core.flatMap Item.xml).head? = some cx := by
    cases core with
    | nil => exact absurd rfl hne
    | cons z core => simp at hx; subst hx; rw [List.flatMap_cons, e1]; rfl
  have hY : (core.flatMap Item.xml).reverse.head? = some cy := by
    obtain ⟨l, hl⟩ := List.getLast?_eq_some_iff.mp hy
    rw [hl, List.flatMap_append, List.reverse_append]
    simp [e2]
  simp only [xmlize]
  rw [escape_items _ hf]
  have s1 : (List.replicate a Item.ph ++ pre ++ core ++ post ++ List.replicate b Item.ph).flatMap Item.xml =
      (List.replicate a Item.ph).flatMap Item.xml ++ pre.flatMap Item.xml ++ (core.flatMap Item.xml ++ post.flatMap Item.xml ++ (List.replicate b Item.ph).flatMap Item.xml) := by
    simp only [List.flatMap_append, List.append_assoc]
  have hpos : 0 < (core.flatMap Item.xml).length := by
    cases hc : core.flatMap Item.xml with
    | nil => rw [hc] at hX; simp at hX
    | cons _ _ => simp
  rw [s1, strip_front k a (pre.flatMap Item.xml) _ (fun c hc => ⟨(removed_xml k pre hpre c hc).1, (removed_xml k pre hpre c hc).2.2⟩) cx ?_ n1 w1 _
    (by simp only [List.length_append]; omega)]
  · have s2 : (core.flatMap Item.xml ++ post.flatMap Item.xml ++ (List.replicate b Item.ph).flatMap Item.xml).reverse =
        ((List.replicate b Item.ph).flatMap Item.xml).reverse ++ (post.flatMap Item.xml).reverse ++ (core.flatMap Item.xml).reverse := by
      simp only [List.reverse_append, List.append_assoc]
    rw [s2, strip_end k b _ _ (fun c hc => ⟨(removed_xml k post hpost c (List.mem_reverse.mp hc)).2.1, (removed_xml k post hpost c (List.mem_reverse.mp hc)).2.2⟩) cy hY n2 w2 _
      (by simp only [List.length_append]; omega), stripDots_eq, dots_items]
  · cases hc : core.flatMap Item.xml with
    | nil => rw [hc] at hX; simp at hX
    | cons c t => rw [hc] at hX; simpa using hX

/-- A case with everything: a placeholder, a space, text with a placeholder inside, a full stop, a space, a placeholder. -/
example : xmlize ascii t!"<ph/> a<b <ph/> c. <ph/>" = t!"a&lt;b <ph/> c" := by
  have h := C63_segment_partial ascii ascii_ok 1 1 [.chr ' '] [.chr 'a', .chr '<', .chr 'b', .chr ' ', .ph, .chr ' ', .chr 'c', .chr '.'] [.chr ' ']
    (by intro x hx; simp at hx; subst hx; exact ⟨by decide, by decide, by decide, by decide⟩)
    (by intro x hx; simp at hx; subst hx; exact ⟨by decide, by decide, by decide, by decide⟩)
    (.chr 'a') (.chr '.') rfl rfl (.inr (.inr (.inr (by decide)))) (.inr (.inr (.inr (by decide)))) (by
      intro a b e
      have h1 : Item.chr 'h' ∈ a ++ [.chr '<', .chr 'p', .chr 'h', .chr '/', .chr '>'] ++ b := by simp
      rw [← e] at h1
      exact absurd h1 (by decide))
  exact h

/-- C63 fails: a placeholder after a space at the start is cut in two, and one before a space at the end too; the latter is not well-formed XML. -/
theorem C63_placeholder_violation :
    xmlize ascii t!" <ph/>Hello" = t!"ph/>Hello" ∧ xmlize ascii t!"Hello<ph/> " = t!"Hello<ph/" := by decide +kernel

/-! ## C63: the units -/

theorem readPairs_append (s : Parts) (t u : Text) : readPairs s (t ++ u) = readPairs s t ++ readPairs (t.foldl (fun s c => (s.step c).1) s) u := by
  induction t generalizing s with
  | nil => rfl
  | cons c t ih => simp [readPairs, ih]

/-- C63: `printTU` is called for every line that the aligner writes, with both columns of it (only a first line with an empty first column is left out); but the first
column starts with the end of the line before, and the second one with the tab. -/
theorem C63_lines_partial (p : Text) (lines : List (Text × Text × Text))
    (h : ∀ l ∈ lines, '\t' ∉ l.1 ∧ '\n' ∉ l.1 ∧ '\t' ∉ l.2.1 ∧ '\n' ∉ l.2.1 ∧ '\t' ∉ l.2.2 ∧ '\n' ∉ l.2.2) :
    readPairs ⟨0, p, []⟩ (lines.flatMap fun l => l.1 ++ '\t' :: l.2.1 ++ '\t' :: l.2.2 ++ ['\n']) =
      match lines with
      | [] => []
      | l :: rest => (if p ++ l.1 = [] then [] else [(p ++ l.1, '\t' :: l.2.1)]) ++ rest.map fun l => ('\n' :: l.1, '\t' :: l.2.1) := by
  have run : ∀ (t : Text) (s : Parts), '\t' ∉ t → '\n' ∉ t → readPairs s t = [] ∧
      t.foldl (fun s c => (s.step c).1) s = (if s.conta = 0 then ⟨s.conta, s.p0 ++ t, s.p1⟩ else if s.conta = 1 then ⟨s.conta, s.p0, s.p1 ++ t⟩ else s) := by
    intro t
    induction t with
    | nil => intro s _ _; refine ⟨rfl, ?_⟩; obtain ⟨c, x, y⟩ := s; simp
    | cons d t ih =>
      intro s h1 h2
      simp only [List.mem_cons, not_or] at h1 h2
      have hd1 : d ≠ '\t' := fun e => h1.1 e.symm
      have hd2 : d ≠ '\n' := fun e => h2.1 e.symm
      have e : s.step d = ((if s.conta = 0 then { s with p0 := s.p0 ++ [d] } else if s.conta = 1 then { s with p1 := s.p1 ++ [d] } else s), none) := by
        simp [Parts.step, hd1, hd2]
      obtain ⟨i1, i2⟩ := ih (s.step d).1 h1.2 h2.2
      refine ⟨by rw [readPairs, i1, e]; rfl, ?_⟩
      rw [List.foldl_cons, i2, e]
      obtain ⟨c, x, y⟩ := s
      by_cases c0 : c = 0
      · simp [c0]
      · by_cases c1 : c = 1
        · simp [c1]
        · simp [c0, c1]
  have step : ∀ (p : Text) (l : Text × Text × Text), ('\t' ∉ l.1 ∧ '\n' ∉ l.1 ∧ '\t' ∉ l.2.1 ∧ '\n' ∉ l.2.1 ∧ '\t' ∉ l.2.2 ∧ '\n' ∉ l.2.2) → ∀ u,
      readPairs ⟨0, p, []⟩ ((l.1 ++ '\t' :: l.2.1 ++ '\t' :: l.2.2 ++ ['\n']) ++ u) =
        (if p ++ l.1 = [] then [] else [(p ++ l.1, '\t' :: l.2.1)]) ++ readPairs ⟨0, ['\n'], []⟩ u := by
    intro p l hl u
    obtain ⟨h1, h2, h3, h4, h5, h6⟩ := hl
    have e : (l.1 ++ '\t' :: l.2.1 ++ '\t' :: l.2.2 ++ ['\n']) ++ u = l.1 ++ (['\t'] ++ (l.2.1 ++ (['\t'] ++ (l.2.2 ++ ('\n' :: u))))) := by simp
    rw [e, readPairs_append, (run l.1 _ h1 h2).1, (run l.1 _ h1 h2).2, readPairs_append, readPairs_append, readPairs_append, readPairs_append]
    have s1 : readPairs ⟨0, p ++ l.1, []⟩ ['\t'] = [] ∧ (['\t'].foldl (fun s c => (s.step c).1) (⟨0, p ++ l.1, []⟩ : Parts)) = ⟨1, p ++ l.1, ['\t']⟩ := by
      simp [readPairs, Parts.step]
    have s2 := run l.2.1 ⟨1, p ++ l.1, ['\t']⟩ h3 h4
    have s3 : readPairs ⟨1, p ++ l.1, ['\t'] ++ l.2.1⟩ ['\t'] = [] ∧
        (['\t'].foldl (fun s c => (s.step c).1) (⟨1, p ++ l.1, ['\t'] ++ l.2.1⟩ : Parts)) = ⟨2, p ++ l.1, ['\t'] ++ l.2.1⟩ := by
      simp [readPairs, Parts.step]
    have s4 := run l.2.2 ⟨2, p ++ l.1, ['\t'] ++ l.2.1⟩ h5 h6
    simp only [if_true]
    rw [s1.1, s1.2, s2.1, s2.2]
    simp only [Nat.one_ne_zero, if_true, if_false]
    rw [s3.1, s3.2, s4.1, s4.2]
    simp only [show ¬ (2 : Nat) = 0 by decide, show ¬ (2 : Nat) = 1 by decide, if_false, List.nil_append]
    rw [readPairs]
    by_cases hp : p ++ l.1 = []
    · simp [Parts.step, hp]
    · simp [Parts.step, hp]
  have all : ∀ (lines : List (Text × Text × Text)),
      (∀ l ∈ lines, '\t' ∉ l.1 ∧ '\n' ∉ l.1 ∧ '\t' ∉ l.2.1 ∧ '\n' ∉ l.2.1 ∧ '\t' ∉ l.2.2 ∧ '\n' ∉ l.2.2) →
      readPairs ⟨0, ['\n'], []⟩ (lines.flatMap fun l => l.1 ++ '\t' :: l.2.1 ++ '\t' :: l.2.2 ++ ['\n']) = lines.map fun l => ('\n' :: l.1, '\t' :: l.2.1) := by
    intro lines
    induction lines with
    | nil => intro _; rfl
    | cons l lines ih =>
      intro h
      rw [List.flatMap_cons, step _ l (h l (by simp)), ih fun x hx => h x (List.mem_cons_of_mem _ hx)]
      simp
  cases lines with
  | nil => rfl
  | cons l lines =>
    rw [List.flatMap_cons, step p l (h l (by simp)), all lines fun x hx => h x (List.mem_cons_of_mem _ hx)]

theorem countBlank_true (k : Ctype) (n : Nat) (t : Text) : countBlank k true n t = (true, n + t.countP fun c => !k.alpha c && k.space c) := by
  induction t generalizing n with
  | nil => rfl
  | cons c t ih =>
    rw [countBlank, List.countP_cons]
    cases ha : k.alpha c <;> cases hs : k.space c <;> simp [ih] <;> omega

theorem countBlank_none (k : Ctype) (n : Nat) (a t : Text) (h : ∀ c ∈ a, k.alpha c = false) : countBlank k false n (a ++ t) = countBlank k false n t := by
  induction a with
  | nil => rfl
  | cons c a ih =>
    rw [List.cons_append, countBlank, h c (by simp)]
    simp only [Bool.false_and, Bool.false_eq_true, if_false]
    exact ih fun d hd => h d (List.mem_cons_of_mem _ hd)

/-- C63: only sentences with a letter and at least three spaces after the first letter are kept. -/
theorem C63_filter (k : Ctype) :
    (∀ t, (∀ c ∈ t, k.alpha c = false) → filter k t = []) ∧
    (∀ a c b, (∀ x ∈ a, k.alpha x = false) → k.alpha c = true →
      filter k (a ++ c :: b) = if 3 ≤ b.countP (fun x => !k.alpha x && k.space x) then xmlize k (a ++ c :: b) else []) := by
  constructor
  · intro t h
    have := countBlank_none k 0 t [] h
    rw [List.append_nil] at this
    simp [filter, this, countBlank]
  · intro a c b ha hc
    have h1 := countBlank_none k 0 a (c :: b) ha
    rw [countBlank, if_pos hc, countBlank_true] at h1
    simp only [filter, h1, Nat.zero_add]
    split <;> split <;> simp_all <;> omega

example : filter ascii t!"- one two three four" = t!"- one two three four" ∧ filter ascii t!"one two three" = [] := by decide +kernel

/-- C63 fails: whatever the aligner found, every unit that is written has an empty first segment: the condition before the output is the wrong way round, and a pair of
two sentences with text is never written. -/
theorem C63_unit_violation (k : Ctype) (aligned : Text) : ∀ u ∈ outputUnits k aligned, u.1 = [] ∧ u.2 ≠ [] := by
  intro u hu
  obtain ⟨p, _, h⟩ := List.mem_filterMap.mp hu
  simp only [printTU] at h
  split at h
  · rename_i hc
    injection h with h
    subst h
    simp only [Bool.and_eq_true, List.isEmpty_iff, Bool.not_eq_true'] at hc
    exact ⟨hc.1, fun e => by dsimp only at e; rw [e] at hc; simp at hc⟩
  · simp at h

example : outputUnits ascii t!"This is a good sentence\tEsta es una buena frase\t0.9\nNo\tThis is not the same\t0.1\n" = [(t!"", t!"This is not the same")] := by
  decide +kernel

end Verif.Tmx
