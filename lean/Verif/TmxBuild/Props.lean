import Verif.TmxBuild.Spec
import Verif.TmxSim.Props
import Verif.Tmx.BuilderProps
import Verif.Tmx.OutputProps
/-!
# C96: proofs
-/
namespace Verif.TmxBuild
open Verif.Tmx (Ctype Elem Split NoEnd EndsSentence Options Choices)

/-! ## Reading lines -/

theorem blank_space {c : Char} (h : c = ' ' ∨ c = '\t') : isSpace c = true := by
  simp only [isSpace, decide_eq_true_eq]
  rcases h with h | h <;> simp [h]

theorem eatwhite_blank {b : Text} (h : Blank b) (t : Text) : eatwhite (b ++ t) = eatwhite t := by
  induction b with
  | nil => rfl
  | cons c b ih =>
    rw [List.cons_append, eatwhite, if_pos (h c (by simp))]
    exact ih fun d hd => h d (by simp [hd])

theorem skipSpace_blank {b : Text} (h : Blank b) (t : Text) : skipSpace (b ++ t) = skipSpace t := by
  induction b with
  | nil => rfl
  | cons c b ih =>
    rw [List.cons_append, skipSpace, if_pos (blank_space (h c (by simp)))]
    exact ih fun d hd => h d (by simp [hd])

theorem eatwhite_word {c : Char} {t : Text} (h : isSpace c = false) : eatwhite (c :: t) = c :: t := by
  rw [eatwhite, if_neg]
  intro hc
  rw [blank_space hc] at h
  exact absurd h (by simp)

theorem skipSpace_word {c : Char} {t : Text} (h : isSpace c = false) : skipSpace (c :: t) = c :: t := by
  rw [skipSpace, if_neg (by simp [h])]

theorem takeWord_word {w : Text} (h : ∀ c ∈ w, isSpace c = false) {d : Char} (hd : isSpace d = true) (t : Text) : takeWord (w ++ d :: t) = (w, d :: t) := by
  induction w with
  | nil => rw [List.nil_append, takeWord, if_pos hd]
  | cons c w ih =>
    rw [List.cons_append, takeWord, if_neg (by simp [h c (by simp)]), ih fun e he => h e (by simp [he])]

theorem space_nl : isSpace '\n' = true := by decide

/-- What follows a word begins with white space. -/
theorem after_word {r : Text} (h : r = [] ∨ r.head? = some ' ' ∨ r.head? = some '\t') (t : Text) : ∃ d u, r ++ '\n' :: t = d :: u ∧ isSpace d = true := by
  cases r with
  | nil => exact ⟨'\n', t, rfl, space_nl⟩
  | cons d r =>
    refine ⟨d, r ++ '\n' :: t, rfl, ?_⟩
    simp only [List.cons_ne_nil, List.head?_cons, Option.some.injEq, false_or] at h
    exact blank_space h

theorem not_cr {c : Char} (h : isSpace c = false) : c ≠ '\r' ∧ c ≠ '\n' := by
  constructor <;> rintro rfl <;> revert h <;> decide

theorem read_nl (n : Nat) (t : Text) : read (n + 1) ('\n' :: t) = ([], some t) := by
  simp [read, stripCr]

theorem read_word (n : Nat) {c : Char} {w t : Text} (h : ∀ x ∈ c :: w, isSpace x = false) {d : Char} (hd : isSpace d = true) :
    read (n + 1) (c :: w ++ d :: t) = (((c :: w)) :: (read n (eatwhite (d :: t))).1, (read n (eatwhite (d :: t))).2) := by
  have hc := h c (by simp)
  have h1 : stripCr (c :: w ++ d :: t) = c :: (w ++ d :: t) := by
    rw [List.cons_append, stripCr, if_neg (not_cr hc).1]
  have h2 : takeWord (skipSpace (c :: (w ++ d :: t))) = (c :: w, d :: t) := by
    rw [skipSpace_word hc]
    exact takeWord_word h hd t
  rw [read, h1]
  simp only [if_neg (not_cr hc).2, h2, List.cons_ne_nil, if_false]

/-- After the blanks that come next, the words of a line and the rest after its end are read. -/
theorem read_spaced {l : Text} {ws : List Text} (h : Spaced l ws) (t : Text) : ∀ n, ws.length < n → read n (eatwhite (l ++ '\n' :: t)) = (ws, some t) := by
  induction h with
  | nil b hb =>
    intro n hn
    rw [eatwhite_blank hb]
    obtain ⟨m, rfl⟩ : ∃ m, n = m + 1 := ⟨n - 1, by simp at hn; omega⟩
    have : eatwhite ('\n' :: t) = '\n' :: t := by rw [eatwhite, if_neg (by decide)]
    rw [this, read_nl]
  | cons b w r ws hb hw hs hr hsp ih =>
    intro n hn
    obtain ⟨m, rfl⟩ : ∃ m, n = m + 1 := ⟨n - 1, by simp at hn; omega⟩
    obtain ⟨c, w', rfl⟩ : ∃ c w', w = c :: w' := by
      cases w with
      | nil => exact absurd rfl hw
      | cons c w' => exact ⟨c, w', rfl⟩
    obtain ⟨d, u, e, hd⟩ := after_word hr t
    rw [List.append_assoc, List.append_assoc, eatwhite_blank hb, List.cons_append, eatwhite_word (hs c (by simp)), ← List.cons_append, e, read_word m hs hd, ← e,
      ih m (by simpa using hn)]

/-- The words of a line are read, if there are any or the line is empty; the blanks at its beginning do not matter. -/
theorem read_line {l : Text} {ws : List Text} (h : Spaced l ws) (hl : l = [] ∨ ws ≠ []) (t : Text) : ∀ n, ws.length < n → read n (l ++ '\n' :: t) = (ws, some t) := by
  intro n hn
  cases h with
  | nil b hb =>
    rcases hl with rfl | hl
    · obtain ⟨m, rfl⟩ : ∃ m, n = m + 1 := ⟨n - 1, by simp at hn; omega⟩
      exact read_nl m t
    · exact absurd rfl hl
  | cons b w r ws hb hw hs hr hsp =>
    cases b with
    | nil =>
      have := read_spaced (Spaced.cons [] w r ws hb hw hs hr hsp) t n hn
      obtain ⟨c, w', rfl⟩ : ∃ c w', w = c :: w' := by
        cases w with
        | nil => exact absurd rfl hw
        | cons c w' => exact ⟨c, w', rfl⟩
      rwa [List.nil_append, List.cons_append, List.cons_append, eatwhite_word (hs c (by simp))] at this
    | cons b0 b =>
      obtain ⟨m, rfl⟩ : ∃ m, n = m + 1 := ⟨n - 1, by simp at hn; omega⟩
      obtain ⟨c, w', rfl⟩ : ∃ c w', w = c :: w' := by
        cases w with
        | nil => exact absurd rfl hw
        | cons c w' => exact ⟨c, w', rfl⟩
      obtain ⟨d, u, e, hd⟩ := after_word hr t
      have hb0 := hb b0 (by simp)
      have h0 : b0 ≠ '\r' ∧ b0 ≠ '\n' := by rcases hb0 with rfl | rfl <;> decide
      have h1 : stripCr ((b0 :: b) ++ (c :: w') ++ r ++ '\n' :: t) = b0 :: (b ++ (c :: w' ++ (r ++ '\n' :: t))) := by
        simp only [List.cons_append, List.append_assoc, stripCr, if_neg h0.1]
      have h2 : takeWord (skipSpace (b0 :: (b ++ (c :: w' ++ (r ++ '\n' :: t))))) = (c :: w', r ++ '\n' :: t) := by
        rw [← List.cons_append, skipSpace_blank hb, List.cons_append, skipSpace_word (hs c (by simp)), e]
        exact takeWord_word hs hd u
      rw [read, h1]
      simp only [if_neg h0.2, h2, List.cons_ne_nil, if_false]
      rw [read_spaced hsp t m (by simpa using hn)]

theorem spaced_length {l : Text} {ws : List Text} (h : Spaced l ws) : ws.length ≤ l.length := by
  induction h with
  | nil => simp
  | cons b w r ws hb hw _ _ _ ih =>
    have : 0 < w.length := List.length_pos_of_ne_nil hw
    simp only [List.length_cons, List.length_append]
    omega

/-- A line is read as a sentence of its words, and the end of the last line begins one more sentence without words. -/
theorem C96_lines_partial {ls : List Text} {W : List (List Text)} (h : List.Forall₂ (fun l ws => Spaced l ws ∧ (l = [] ∨ ws ≠ [])) ls W) :
    readNoIds (fileOf ls) = W ++ [[]] := by
  have main : ∀ n, (fileOf ls).length < n → readLoop n (fileOf ls) = W ++ [[]] := by
    induction h with
    | nil =>
      intro n hn
      obtain ⟨m, rfl⟩ : ∃ m, n = m + 1 := ⟨n - 1, by simp [fileOf] at hn; omega⟩
      simp [readLoop, fileOf, read, stripCr]
    | cons h1 _ ih =>
      rename_i l ws ls W _
      intro n hn
      obtain ⟨m, rfl⟩ : ∃ m, n = m + 1 := ⟨n - 1, by simp [fileOf] at hn; omega⟩
      have hlen := spaced_length h1.1
      simp only [fileOf, List.length_append, List.length_cons] at hn
      have := read_line h1.1 h1.2 (fileOf ls) ((l ++ '\n' :: fileOf ls).length + 1) (by simp only [List.length_append, List.length_cons]; omega)
      simp only [readLoop, fileOf, this]
      rw [ih m (by omega)]
      rfl
  exact main _ (by omega)

/-- Every line without white space other than spaces and tabs is made of words. -/
theorem spaced_exists : ∀ (l : Text), (∀ c ∈ l, isSpace c = true → c = ' ' ∨ c = '\t') → ∃ ws, Spaced l ws ∧ ((∃ c ∈ l, isSpace c = false) → ws ≠ [])
  | [], _ => ⟨[], .nil [] (by intro c hc; simp at hc), by simp⟩
  | c :: r, h => by
    obtain ⟨ws, hws, hne⟩ := spaced_exists r fun d hd => h d (by simp [hd])
    by_cases hc : isSpace c = true
    · have hb := h c (by simp) hc
      refine ⟨ws, ?_, ?_⟩
      · cases hws with
        | nil b hb' => exact .nil _ (by intro d hd; rcases List.mem_cons.1 hd with rfl | hd; exacts [hb, hb' d hd])
        | cons b w r ws hb' hw hs hr hsp =>
          have := Spaced.cons (c :: b) w r ws (by intro d hd; rcases List.mem_cons.1 hd with rfl | hd; exacts [hb, hb' d hd]) hw hs hr hsp
          simpa using this
      · rintro ⟨d, hd, hd2⟩
        rcases List.mem_cons.1 hd with rfl | hd
        · rw [hc] at hd2; exact absurd hd2 (by simp)
        · exact hne ⟨d, hd, hd2⟩
    · have hc' : isSpace c = false := by simpa using hc
      cases hws with
      | nil b hb =>
        refine ⟨[[c]], ?_, by simp⟩
        have := Spaced.cons [] [c] r [] (by intro d hd; simp at hd) (by simp) (by simpa using hc') ?_ (.nil r hb)
        · simpa using this
        · cases r with
          | nil => exact .inl rfl
          | cons d r => exact .inr (by simpa using hb d (by simp))
      | cons b w r' ws hb hw hs hr hsp =>
        cases b with
        | nil =>
          refine ⟨(c :: w) :: ws, ?_, by simp⟩
          have := Spaced.cons [] (c :: w) r' ws (by intro d hd; simp at hd) (by simp)
            (by intro d hd; rcases List.mem_cons.1 hd with rfl | hd; exacts [hc', hs d hd]) hr hsp
          simpa using this
        | cons b0 b =>
          refine ⟨[c] :: w :: ws, ?_, by simp⟩
          have := Spaced.cons [] [c] ((b0 :: b) ++ w ++ r') (w :: ws) (by intro d hd; simp at hd) (by simp) (by simpa using hc')
            (.inr (by simpa using hb b0 (by simp))) (.cons (b0 :: b) w r' ws hb hw hs hr hsp)
          simpa using this

/-! ## The sentences of a text -/

/-- The text has no white space but spaces and tabs (and what is in its blanks). -/
def Clean (es : List Elem) : Prop := ∀ e ∈ es, ∀ c, e = .lit c ∨ e = .esc c → isSpace c = true → c = ' ' ∨ c = '\t'

theorem text_clean {es : List Elem} (h : Clean es) : ∀ c ∈ es.flatMap Elem.text, isSpace c = true → c = ' ' ∨ c = '\t' := by
  intro c hc hs
  obtain ⟨e, he, hc⟩ := List.mem_flatMap.1 hc
  cases e with
  | lit d =>
    simp only [Elem.text, List.mem_singleton] at hc
    exact h _ he c (.inl (by rw [hc])) hs
  | esc d =>
    simp only [Elem.text, List.mem_singleton] at hc
    exact h _ he c (.inr (by rw [hc])) hs
  | blank b =>
    simp only [Elem.text, List.mem_append] at hc
    rcases hc with (hc | hc) | hc
    · split at hc
      · exact .inl (by simpa using hc)
      · simp at hc
    · exfalso
      have : ∀ d ∈ t!"<ph/>", isSpace d = false := by decide
      rw [this c hc] at hs
      exact absurd hs (by simp)
    · split at hc
      · exact .inl (by simpa using hc)
      · simp at hc

theorem split_words {k : Ctype} {es : List Elem} {l : List (List Elem)} {r : List Elem} (h : Split k es l r) : Clean es →
    ∃ W, List.Forall₂ (fun l ws => Spaced l ws ∧ ws ≠ []) (l.map fun s => s.flatMap Elem.text) W := by
  induction h with
  | rest => exact fun _ => ⟨[], .nil⟩
  | sentence s e after l r _ he _ ih =>
    intro hc
    obtain ⟨W, hW⟩ := ih fun x hx => hc x (by simp [hx])
    have hc' : Clean (s ++ [e]) := fun x hx => hc x (by
      simp only [List.mem_append, List.mem_cons] at hx ⊢
      rcases hx with hx | hx | hx
      · exact .inl hx
      · exact .inr (.inl hx)
      · simp at hx)
    obtain ⟨ws, h1, h2⟩ := spaced_exists _ (text_clean hc')
    refine ⟨ws :: W, .cons ⟨h1, h2 ?_⟩ hW⟩
    have : ∃ c, e = .lit c ∧ isSpace c = false := by
      rcases he with he | he | ⟨he, _⟩
      · exact ⟨_, he, by decide⟩
      · exact ⟨_, he, by decide⟩
      · exact ⟨_, he, by decide⟩
    obtain ⟨c, rfl, hsp⟩ := this
    exact ⟨c, by simp [Elem.text], hsp⟩

/-! ## The lines of the aligner -/

theorem spaced_eq : ∀ (l : List Text), spaced l = t!" ".intercalate l
  | [] => rfl
  | [x] => by simp [spaced, List.intercalate]
  | x :: y :: r => by
    rw [spaced, spaced_eq (y :: r)]
    simp [List.intercalate]

theorem side_eq (l : List (List Text)) : side l = plainText l := by
  unfold side plainText
  rw [spaced_eq]
  congr 1
  exact List.map_congr_left fun p _ => spaced_eq p

/-- Neither a tab nor a newline. -/
def Flat (t : Text) : Prop := '\t' ∉ t ∧ '\n' ∉ t

theorem spaced_flat : ∀ {l : List Text}, (∀ w ∈ l, Flat w) → Flat (spaced l)
  | [], _ => by simp [spaced, Flat]
  | [x], h => h x (by simp)
  | x :: y :: r, h => by
    have h1 := h x (by simp)
    have h2 := spaced_flat (l := y :: r) fun w hw => h w (by simp [List.mem_cons.1 hw])
    simp only [Flat, spaced, List.mem_append, List.mem_cons, not_or] at h1 h2 ⊢
    exact ⟨⟨h1.1, by decide, h2.1⟩, h1.2, by decide, h2.2⟩

theorem side_flat {l : List (List Text)} (h : ∀ p ∈ l, ∀ w ∈ p, Flat w) : Flat (side l) := by
  apply spaced_flat
  intro w hw
  obtain ⟨p, hp, rfl⟩ := List.mem_map.1 hw
  exact spaced_flat (h p hp)

/-- The fields of the lines. -/
def fields (num : Nat → Text) : Nat → List (List (List Text) × List (List Text)) → List (Text × Text × Text)
  | _, [] => []
  | i, l :: r => (side l.1, side l.2, num i) :: fields num (i + 1) r

theorem outText_eq (num : Nat → Text) : ∀ (i : Nat) (ls : List (List (List Text) × List (List Text))),
    outText num i ls = (fields num i ls).flatMap fun l => l.1 ++ '\t' :: l.2.1 ++ '\t' :: l.2.2 ++ ['\n']
  | _, [] => rfl
  | i, l :: r => by
    rw [outText, fields, outText_eq num (i + 1) r]
    simp

theorem fields_flat {num : Nat → Text} (hn : ∀ i, Flat (num i)) : ∀ (i : Nat) {ls : List (List (List Text) × List (List Text))},
    (∀ l ∈ ls, Flat (side l.1) ∧ Flat (side l.2)) → ∀ l ∈ fields num i ls, Flat l.1 ∧ Flat l.2.1 ∧ Flat l.2.2
  | _, [], _, _, h => by simp [fields] at h
  | i, l :: r, hl, x, hx => by
    rcases List.mem_cons.1 hx with rfl | hx
    · exact ⟨(hl l (by simp)).1, (hl l (by simp)).2, hn i⟩
    · exact fields_flat hn (i + 1) (fun y hy => hl y (by simp [hy])) x hx

theorem fields_map (num : Nat → Text) : ∀ (i : Nat) (ls : List (List (List Text) × List (List Text))),
    (fields num i ls).map (fun l => ('\n' :: l.1, '\t' :: l.2.1)) = ls.map fun l => ('\n' :: plainText l.1, '\t' :: plainText l.2)
  | _, [] => rfl
  | i, l :: r => by rw [fields, List.map_cons, fields_map num (i + 1) r, side_eq, side_eq]; rfl

theorem readPairs_eq {num : Nat → Text} (hn : ∀ i, Flat (num i)) {ls : List (List (List Text) × List (List Text))}
    (h : ∀ l ∈ ls, Flat (side l.1) ∧ Flat (side l.2)) : Tmx.readPairs ⟨0, [], []⟩ (outText num 0 ls) = expected ls := by
  rw [outText_eq, Tmx.C63_lines_partial [] _ fun l hl => ⟨(fields_flat hn 0 h l hl).1.1, (fields_flat hn 0 h l hl).1.2, (fields_flat hn 0 h l hl).2.1.1,
    (fields_flat hn 0 h l hl).2.1.2, (fields_flat hn 0 h l hl).2.2.1, (fields_flat hn 0 h l hl).2.2.2⟩]
  cases ls with
  | nil => rfl
  | cons l r =>
    simp only [fields, List.nil_append, fields_map, expected, side_eq]

/-! ## The program -/

theorem tool_eq {utf : Bool} {hu en : List TmxSim.Phrase} (hh : 0 < hu.length) (size : hu.length ≤ 200000) (size' : hu.length + en.length ≤ 3000000)
    (ratio : ¬ (en.length < hu.length / 5 ∨ hu.length < en.length / 5)) :
    TmxSim.tool utf hu en = some (Tmx.align (TmxSim.book utf hu en)) ∧ Tmx.Sound (TmxSim.book utf hu en) := by
  have ht : 500 ≤ TmxSim.thickness hu.length en.length := by
    unfold TmxSim.thickness
    have : 500 ≤ 41943040000 / (408 * hu.length) := by
      rw [Nat.le_div_iff_mul_le (by omega)]
      omega
    omega
  refine ⟨by unfold TmxSim.tool; rw [if_neg ratio], ?_⟩
  exact Tmx.sound_of _ (fun x hx => by
      simp only [TmxSim.book, List.mem_map] at hx
      obtain ⟨p, _, rfl⟩ := hx
      exact TmxSim.phraseLength_nonneg utf p) (fun x hx => by
      simp only [TmxSim.book, List.mem_map] at hx
      obtain ⟨p, _, rfl⟩ := hx
      exact TmxSim.phraseLength_nonneg utf p) (fun i j => TmxSim.matrix_le hu en _ i j) (by simpa [TmxSim.book] using size') (by simp only [TmxSim.book, List.length_map]; omega) ht

theorem words_flat {l : Text} {ws : List Text} (h : Spaced l ws) : ∀ w ∈ ws, Flat w := by
  induction h with
  | nil => simp
  | cons b w r ws _ _ hs _ _ ih =>
    intro x hx
    rcases List.mem_cons.1 hx with rfl | hx
    · constructor <;> intro hm <;> have := hs _ hm <;> revert this <;> decide
    · exact ih x hx

theorem forall2_flat {ls : List Text} {W : List (List Text)} (h : List.Forall₂ (fun l ws => Spaced l ws ∧ ws ≠ []) ls W) : ∀ p ∈ W ++ [[]], ∀ w ∈ p, Flat w := by
  induction h with
  | nil => simp
  | cons h1 _ ih =>
    intro p hp
    rcases List.mem_cons.1 hp with rfl | hp
    · exact words_flat h1.1
    · exact ih p hp

/-- Each pair that is written to the TMX file, or would be if it were long enough, is made of the words of sentences that were aligned with each other.  Both texts are there
completely and in order, from a point on where one of them begins. -/
theorem C96_program_partial (k : Ctype) (hk : k.Ok) (utf : Bool) (o : Options) (ho : o.cautious = false) (c : Choices) (num : Nat → Text) (hn : ∀ i, Flat (num i))
    (e1 e2 : List Elem) (ok1 : ∀ e ∈ e1, e.Ok) (ok2 : ∀ e ∈ e2, e.Ok) (c1 : Clean e1) (c2 : Clean e2) :
    ∃ s1 r1 s2 r2 W1 W2, Split k e1 s1 r1 ∧ Split k e2 s2 r2 ∧ List.Forall₂ (fun s ws => Spaced (s.flatMap Elem.text) ws) s1 W1 ∧
      List.Forall₂ (fun s ws => Spaced (s.flatMap Elem.text) ws) s2 W2 ∧
      (s1.length < 200000 → s1.length + s2.length < 2999999 → ¬ (s2.length + 1 < (s1.length + 1) / 5 ∨ s1.length + 1 < (s2.length + 1) / 5) →
        ∃ lines i j, (i = 0 ∨ j = 0) ∧ lines.flatMap Prod.fst = (W1 ++ [[]]).drop i ∧ lines.flatMap Prod.snd = (W2 ++ [[]]).drop j ∧
          pairs k utf o c num (e1.flatMap Elem.source) (e2.flatMap Elem.source) = .ok (some (expected lines))) := by
  obtain ⟨s1, r1, h1, _, q1⟩ := Tmx.C64_sentences_partial k hk e1 ok1
  obtain ⟨s2, r2, h2, _, q2⟩ := Tmx.C64_sentences_partial k hk e2 ok2
  obtain ⟨W1, hW1⟩ := split_words h1 c1
  obtain ⟨W2, hW2⟩ := split_words h2 c2
  have l1 := hW1.length_eq
  have l2 := hW2.length_eq
  rw [List.length_map] at l1 l2
  have rd1 := C96_lines_partial (hW1.imp fun _ _ h => ⟨h.1, .inr h.2⟩)
  have rd2 := C96_lines_partial (hW2.imp fun _ _ h => ⟨h.1, .inr h.2⟩)
  refine ⟨s1, r1, s2, r2, W1, W2, h1, h2, ?_, ?_, ?_⟩
  · exact (List.forall₂_map_left_iff.1 hW1).imp fun _ _ h => h.1
  · exact (List.forall₂_map_left_iff.1 hW2).imp fun _ _ h => h.1
  intro n1 n2 n3
  have hl1 : ((W1 ++ [[]]).map fun p : List Text => p.map bytes).length = s1.length + 1 := by simp [l1]
  have hl2 : ((W2 ++ [[]]).map fun p : List Text => p.map bytes).length = s2.length + 1 := by simp [l2]
  obtain ⟨t1, t2⟩ := tool_eq (utf := utf) (hu := (W1 ++ [[]]).map fun p : List Text => p.map bytes) (en := (W2 ++ [[]]).map fun p : List Text => p.map bytes) (by omega) (by omega) (by omega)
    (by rw [hl1, hl2]; exact n3)
  obtain ⟨lines, i, j, g1, g2, g3, g4⟩ := Tmx.C62_text_partial _ t2 o c ho (W1 ++ [[]]) (W2 ++ [[]]) (by simp [TmxSim.book]) (by simp [TmxSim.book]) (by simp) (by simp)
  refine ⟨lines, i, j, g2, g3, g4, ?_⟩
  unfold pairs
  rw [q1, q2]
  simp only [Outcome.bind, rd1, rd2]
  have ha : align utf o c (W1 ++ [[]]) (W2 ++ [[]]) = some lines := by
    unfold align
    rw [t1]
    exact g1
  rw [ha]
  simp only [Option.map]
  rw [readPairs_eq hn]
  intro l hl
  constructor
  · apply side_flat
    intro p hp
    apply forall2_flat hW1 p
    apply List.mem_of_mem_drop (i := i)
    rw [← g3]
    exact List.mem_flatMap.2 ⟨l, hl, hp⟩
  · apply side_flat
    intro p hp
    apply forall2_flat hW2 p
    apply List.mem_of_mem_drop (i := j)
    rw [← g4]
    exact List.mem_flatMap.2 ⟨l, hl, hp⟩

/-! ## Cases -/

/-- Two texts for the hypotheses. -/
def exText1 : List Elem := [.lit 'H', .lit 'i', .blank t!" <b>", .lit 'x', .lit '.', .lit ' ', .lit 'A', .lit '?', .lit '\t']
def exText2 : List Elem := [.lit 'E', .lit ' ', .esc '[', .lit '!', .lit 'O', .lit '?']

theorem inside_ex : Tmx.Inside t!" <b>" := .lit (by decide) (by decide) (.lit (by decide) (by decide) (.lit (by decide) (by decide) (.lit (by decide) (by decide) .nil)))

theorem ex_ok1 : ∀ e ∈ exText1, e.Ok := by
  intro e he
  simp only [exText1, List.mem_cons, List.not_mem_nil, or_false] at he
  rcases he with rfl | rfl | rfl | rfl | rfl | rfl | rfl | rfl | rfl
  all_goals first
    | exact inside_ex
    | exact ⟨by decide, by decide⟩

theorem ex_ok2 : ∀ e ∈ exText2, e.Ok := by
  intro e he
  simp only [exText2, List.mem_cons, List.not_mem_nil, or_false] at he
  rcases he with rfl | rfl | rfl | rfl | rfl | rfl
  all_goals first
    | trivial
    | exact ⟨by decide, by decide⟩

theorem ex_clean : Clean exText1 ∧ Clean exText2 := by
  constructor
  all_goals
    intro e he c h hs
    simp only [exText1, exText2, List.mem_cons, List.not_mem_nil, or_false] at he
    rcases he with rfl | rfl | rfl | rfl | rfl | rfl | rfl | rfl | rfl
    all_goals
      simp only [Elem.lit.injEq, Elem.esc.injEq, reduceCtorEq, or_false, false_or] at h
    all_goals first
      | (subst h; first | exact .inl rfl | exact .inr rfl | (exfalso; revert hs; decide))
      | exact absurd h (by simp)

/-- The hypotheses of `C96_program_partial` are met. -/
example (k : Ctype) (hk : k.Ok) := C96_program_partial k hk false ⟨none, none, none, false, -100000⟩ rfl ⟨fun _ _ => 0, fun _ _ _ _ => .keep⟩ (fun _ => t!"0.3")
  (fun _ => ⟨by decide, by decide⟩) exText1 exText2 ex_ok1 ex_ok2 ex_clean.1 ex_clean.2

example : Tmx.sentencesOf Tmx.ascii (exText1.flatMap Elem.source) = .ok [t!"Hi <ph/>x.", t!" A?"] ∧
    readNoIds (fileOf [t!"Hi <ph/>x.", t!" A?"]) = [[t!"Hi", t!"<ph/>x."], [t!"A?"], []] := by decide +kernel

/-- A newline in a sentence makes two sentences of it for the aligner, and the newline between two sentences an empty one. -/
theorem C96_newline_violation : readNoIds (fileOf [t!"One\ntwo.", t!"\nThree."]) = [[t!"One"], [t!"two."], [], [t!"Three."], []] := by decide +kernel

/-- White space before such a newline hides it: the words of the next line belong to the same sentence, but nothing shows where the line ended. -/
theorem C96_blank_violation : readNoIds (fileOf [t!"One.", t!" \nTwo.", t!"Three."]) = [[t!"One."], [t!"Two."], [t!"Three."], []] ∧
    readNoIds (fileOf [t!"One.", t!"  ", t!"Two."]) = [[t!"One."], [t!"Two."], []] := by decide +kernel

end Verif.TmxBuild
