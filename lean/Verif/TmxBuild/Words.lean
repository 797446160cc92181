import Verif.TmxBuild.Props
/-!
# C96: all white space

For any text, whatever white space is in it, the aligner gets all of its words in order, and the pairs contain them, though the sentences may be cut at newlines.
-/
namespace Verif.TmxBuild
open Verif.Tmx (Ctype Elem Split NoEnd EndsSentence Options Choices)

theorem wordsOf_nil : wordsOf [] = [] := by simp [wordsOf]

theorem wordsOf_space {c : Char} (h : isSpace c = true) (t : Text) : wordsOf (c :: t) = wordsOf t := by
  simp [wordsOf, List.splitOnP_cons_eq_if_modifyHead, h]

theorem splitOnP_word {w : Text} (h : ∀ c ∈ w, isSpace c = false) : w.splitOnP isSpace = [w] := by
  induction w with
  | nil => simp
  | cons c w ih => rw [List.splitOnP_cons_eq_if_modifyHead, if_neg (by simp [h c (by simp)]), ih fun d hd => h d (by simp [hd])]; rfl

theorem splitOnP_word_append {w : Text} (h : ∀ c ∈ w, isSpace c = false) {d : Char} (hd : isSpace d = true) (r : Text) :
    (w ++ d :: r).splitOnP isSpace = w :: r.splitOnP isSpace := by
  induction w with
  | nil => rw [List.nil_append, List.splitOnP_cons_eq_if_modifyHead, if_pos hd]
  | cons c w ih =>
    rw [List.cons_append, List.splitOnP_cons_eq_if_modifyHead, if_neg (by simp [h c (by simp)]), ih fun d hd => h d (by simp [hd])]; rfl

theorem wordsOf_word {w : Text} (h : ∀ c ∈ w, isSpace c = false) (hw : w ≠ []) {r : Text} (hr : ∀ d, r.head? = some d → isSpace d = true) :
    wordsOf (w ++ r) = w :: wordsOf r := by
  cases r with
  | nil => simp [wordsOf, splitOnP_word h, hw]
  | cons d r =>
    have hd := hr d rfl
    rw [wordsOf_space hd]
    unfold wordsOf
    rw [splitOnP_word_append h hd, List.filter_cons_of_pos (by simpa using hw)]

theorem splitOnP_append (t r : Text) {d : Char} (hd : isSpace d = true) : (t ++ d :: r).splitOnP isSpace = t.splitOnP isSpace ++ r.splitOnP isSpace := by
  induction t with
  | nil => rw [List.nil_append, List.splitOnP_cons_eq_if_modifyHead, if_pos hd]; simp
  | cons c t ih =>
    rw [List.cons_append, List.splitOnP_cons_eq_if_modifyHead, List.splitOnP_cons_eq_if_modifyHead c t, ih]
    have hne : t.splitOnP isSpace ≠ [] := fun h => List.splitOnP_ne_nil _ _ h
    split
    · simp
    · cases hs : t.splitOnP isSpace with
      | nil => exact absurd hs hne
      | cons x l => rfl

/-- The words of two texts with white space between them. -/
theorem wordsOf_append (t r : Text) {d : Char} (hd : isSpace d = true) : wordsOf (t ++ d :: r) = wordsOf t ++ wordsOf r := by
  simp [wordsOf, splitOnP_append t r hd]

theorem wordsOf_file (ls : List Text) : wordsOf (fileOf ls) = ls.flatMap wordsOf := by
  induction ls with
  | nil => exact wordsOf_nil
  | cons s r ih => rw [fileOf, wordsOf_append _ _ space_nl, ih, List.flatMap_cons]

/-! ## Reading any file -/

theorem skipSpace_words (t : Text) : wordsOf (skipSpace t) = wordsOf t ∧ (skipSpace t).length ≤ t.length ∧ (skipSpace t).count '\n' ≤ t.count '\n' ∧
    ∀ d, (skipSpace t).head? = some d → isSpace d = false := by
  induction t with
  | nil => simp [skipSpace]
  | cons c r ih =>
    rw [skipSpace]
    by_cases h : isSpace c = true
    · rw [if_pos h, wordsOf_space h]
      have : r.count '\n' ≤ (c :: r).count '\n' := List.count_le_count_cons
      exact ⟨ih.1, by simp only [List.length_cons]; omega, by omega, ih.2.2.2⟩
    · rw [if_neg h]
      refine ⟨rfl, le_rfl, le_rfl, ?_⟩
      intro d hd
      simp only [List.head?_cons, Option.some.injEq] at hd
      subst hd
      simpa using h

theorem takeWord_spec (t : Text) : t = (takeWord t).1 ++ (takeWord t).2 ∧ (∀ c ∈ (takeWord t).1, isSpace c = false) ∧ ∀ d, (takeWord t).2.head? = some d → isSpace d = true := by
  induction t with
  | nil => simp [takeWord]
  | cons c r ih =>
    rw [takeWord]
    by_cases h : isSpace c = true
    · rw [if_pos h]
      refine ⟨rfl, by simp, ?_⟩
      intro d hd
      simp only [List.head?_cons, Option.some.injEq] at hd
      subst hd
      exact h
    · rw [if_neg h]
      refine ⟨by rw [List.cons_append, ← ih.1], ?_, ih.2.2⟩
      intro d hd
      rcases List.mem_cons.1 hd with rfl | hd
      · simpa using h
      · exact ih.2.1 d hd

theorem eatwhite_words (t : Text) : wordsOf (eatwhite t) = wordsOf t ∧ (eatwhite t).length ≤ t.length ∧ (eatwhite t).count '\n' ≤ t.count '\n' := by
  induction t with
  | nil => simp [eatwhite]
  | cons c r ih =>
    rw [eatwhite]
    by_cases h : c = ' ' ∨ c = '\t'
    · rw [if_pos h, wordsOf_space (blank_space h)]
      have : r.count '\n' ≤ (c :: r).count '\n' := List.count_le_count_cons
      exact ⟨ih.1, by simp only [List.length_cons]; omega, by omega⟩
    · rw [if_neg h]; simp

theorem stripCr_words (t : Text) : wordsOf (stripCr t) = wordsOf t ∧ (stripCr t).length ≤ t.length ∧ (stripCr t).count '\n' ≤ t.count '\n' := by
  cases t with
  | nil => simp [stripCr]
  | cons c r =>
    rw [stripCr]
    by_cases h : c = '\r'
    · have : r.count '\n' ≤ (c :: r).count '\n' := List.count_le_count_cons
      rw [if_pos h, wordsOf_space (by rw [h]; decide)]
      exact ⟨rfl, by simp, this⟩
    · rw [if_neg h]; simp

/-- A sentence and what is left of the file. -/
theorem read_words : ∀ (n : Nat) (t : Text), t.length < n →
    match (read n t).2 with
    | none => wordsOf t = (read n t).1
    | some r => wordsOf t = (read n t).1 ++ wordsOf r ∧ r.length < t.length ∧ r.count '\n' < t.count '\n' := by
  intro n
  induction n with
  | zero => intro t h; omega
  | succ n ih =>
    intro t hn
    obtain ⟨s1, s2, s3⟩ := stripCr_words t
    rw [read]
    generalize hs : stripCr t = u at s1 s2 s3
    cases u with
    | nil => simp only []; rw [← s1, wordsOf_nil]
    | cons c r =>
      simp only []
      by_cases hc : c = '\n'
      · subst hc
        rw [if_pos rfl]
        simp only [List.length_cons, List.count_cons_self] at s2 s3
        exact ⟨by rw [← s1, wordsOf_space space_nl]; rfl, by omega, by omega⟩
      · rw [if_neg hc]
        obtain ⟨p1, p2, p3, p4⟩ := skipSpace_words (c :: r)
        obtain ⟨q1, q2, q3⟩ := takeWord_spec (skipSpace (c :: r))
        by_cases hw : (takeWord (skipSpace (c :: r))).1 = []
        · rw [if_pos hw]
          simp only []
          rw [hw, List.nil_append] at q1
          cases hk : skipSpace (c :: r) with
          | nil => rw [← s1, ← p1, hk, wordsOf_nil]
          | cons d v =>
            have a := p4 d (by rw [hk]; rfl)
            have b := q3 d (by rw [← q1, hk]; rfl)
            rw [a] at b; exact absurd b (by simp)
        · rw [if_neg hw]
          have hlen : (skipSpace (c :: r)).length = (takeWord (skipSpace (c :: r))).1.length + (takeWord (skipSpace (c :: r))).2.length := by
            conv => lhs; rw [q1]
            rw [List.length_append]
          have hcnt : (takeWord (skipSpace (c :: r))).2.count '\n' ≤ (skipSpace (c :: r)).count '\n' := by
            conv => rhs; rw [q1]
            rw [List.count_append]; omega
          have hpos := List.length_pos_of_ne_nil hw
          obtain ⟨e1, e2, e3⟩ := eatwhite_words (takeWord (skipSpace (c :: r))).2
          have hwords : wordsOf t = (takeWord (skipSpace (c :: r))).1 :: wordsOf (eatwhite (takeWord (skipSpace (c :: r))).2) := by
            rw [← s1, ← p1, e1]
            conv => lhs; rw [q1]
            exact wordsOf_word q2 hw q3
          have := ih (eatwhite (takeWord (skipSpace (c :: r))).2) (by omega)
          simp only []
          revert this
          cases hx : (read n (eatwhite (takeWord (skipSpace (c :: r))).2)).2 with
          | none => intro h; simp only [] at h ⊢; rw [hwords, h]
          | some v =>
            intro h
            simp only [] at h ⊢
            exact ⟨by rw [hwords, h.1]; rfl, by omega, by omega⟩

/-- Whatever is in the file, the sentences together have its words, in order; there are not more of them than lines. -/
theorem C96_words (t : Text) : (readNoIds t).flatten = wordsOf t ∧ (readNoIds t).length ≤ t.count '\n' + 1 ∧ readNoIds t ≠ [] := by
  have : ∀ (n : Nat) (t : Text), t.length < n → (readLoop n t).flatten = wordsOf t ∧ (readLoop n t).length ≤ t.count '\n' + 1 ∧ readLoop n t ≠ [] := by
    intro n
    induction n with
    | zero => intro t h; omega
    | succ n ih =>
      intro t hn
      have h := read_words (t.length + 1) t (by omega)
      rw [readLoop]
      revert h
      cases hx : (read (t.length + 1) t).2 with
      | none => intro h; simp only [] at h ⊢; exact ⟨by simp [h], by simp, by simp⟩
      | some r =>
        intro h
        simp only [] at h ⊢
        obtain ⟨i1, i2, _⟩ := ih r (by omega)
        exact ⟨by rw [List.flatten_cons, i1, h.1], by simp only [List.length_cons]; omega, by simp⟩
  exact this _ t (by omega)

theorem splitOnP_nonspace (t : Text) : ∀ x ∈ t.splitOnP isSpace, ∀ c ∈ x, isSpace c = false := by
  induction t with
  | nil => simp
  | cons c t ih =>
    rw [List.splitOnP_cons_eq_if_modifyHead]
    split
    · intro x hx
      rcases List.mem_cons.1 hx with rfl | hx
      · simp
      · exact ih x hx
    · rename_i h
      cases hs : t.splitOnP isSpace with
      | nil => simp [List.modifyHead]
      | cons y l =>
        rw [hs] at ih
        intro x hx d hd
        rcases List.mem_cons.1 hx with rfl | hx
        · rcases List.mem_cons.1 hd with rfl | hd
          · simpa using h
          · exact ih y (by simp) d hd
        · exact ih x (by simp [hx]) d hd

theorem wordsOf_flat {t w : Text} (h : w ∈ wordsOf t) : Flat w := by
  have hw := splitOnP_nonspace t w (List.mem_filter.1 h).1
  constructor <;> intro hm <;> have := hw _ hm <;> revert this <;> decide

/-- The whole program, for texts with any white space: `P1` and `P2` are what the aligner takes for the sentences; together they are the words of the sentences. -/
theorem C96_white_partial (k : Ctype) (hk : k.Ok) (utf : Bool) (o : Options) (ho : o.cautious = false) (c : Choices) (num : Nat → Text) (hn : ∀ i, Flat (num i))
    (e1 e2 : List Elem) (ok1 : ∀ e ∈ e1, e.Ok) (ok2 : ∀ e ∈ e2, e.Ok) :
    ∃ s1 r1 s2 r2, ∃ P1 P2 : List (List Text), Split k e1 s1 r1 ∧ Split k e2 s2 r2 ∧
      P1.flatten = s1.flatMap (fun s => wordsOf (s.flatMap Elem.text)) ∧ P2.flatten = s2.flatMap (fun s => wordsOf (s.flatMap Elem.text)) ∧
      P1.length ≤ (fileOf (s1.map fun s => s.flatMap Elem.text)).count '\n' + 1 ∧ P2.length ≤ (fileOf (s2.map fun s => s.flatMap Elem.text)).count '\n' + 1 ∧
      (P1.length ≤ 200000 → P1.length + P2.length ≤ 3000000 → ¬ (P2.length < P1.length / 5 ∨ P1.length < P2.length / 5) →
        ∃ lines i j, (i = 0 ∨ j = 0) ∧ lines.flatMap Prod.fst = P1.drop i ∧ lines.flatMap Prod.snd = P2.drop j ∧
          pairs k utf o c num (e1.flatMap Elem.source) (e2.flatMap Elem.source) = .ok (some (expected lines))) := by
  obtain ⟨s1, r1, h1, _, q1⟩ := Tmx.C64_sentences_partial k hk e1 ok1
  obtain ⟨s2, r2, h2, _, q2⟩ := Tmx.C64_sentences_partial k hk e2 ok2
  obtain ⟨w1, n1, m1⟩ := C96_words (fileOf (s1.map fun s => s.flatMap Elem.text))
  obtain ⟨w2, n2, m2⟩ := C96_words (fileOf (s2.map fun s => s.flatMap Elem.text))
  have f1 : ∀ p ∈ readNoIds (fileOf (s1.map fun s => s.flatMap Elem.text)), ∀ w ∈ p, Flat w := fun p hp w hw =>
    wordsOf_flat (w1 ▸ List.mem_flatten.2 ⟨p, hp, hw⟩)
  have f2 : ∀ p ∈ readNoIds (fileOf (s2.map fun s => s.flatMap Elem.text)), ∀ w ∈ p, Flat w := fun p hp w hw =>
    wordsOf_flat (w2 ▸ List.mem_flatten.2 ⟨p, hp, hw⟩)
  refine ⟨s1, r1, s2, r2, _, _, h1, h2, ?_, ?_, n1, n2, ?_⟩
  · rw [w1, wordsOf_file, List.flatMap_map]
  · rw [w2, wordsOf_file, List.flatMap_map]
  unfold pairs
  rw [q1, q2]
  simp only [Outcome.bind]
  generalize readNoIds (fileOf (s1.map fun s => s.flatMap Elem.text)) = P1 at *
  generalize readNoIds (fileOf (s2.map fun s => s.flatMap Elem.text)) = P2 at *
  intro b1 b2 b3
  have hp1 := List.length_pos_of_ne_nil m1
  have hp2 := List.length_pos_of_ne_nil m2
  obtain ⟨t1, t2⟩ := tool_eq (utf := utf) (hu := P1.map fun p : List Text => p.map bytes) (en := P2.map fun p : List Text => p.map bytes)
    (by rw [List.length_map]; exact hp1) (by rw [List.length_map]; exact b1) (by rw [List.length_map, List.length_map]; exact b2)
    (by rw [List.length_map, List.length_map]; exact b3)
  obtain ⟨lines, i, j, g1, g2, g3, g4⟩ := Tmx.C62_text_partial _ t2 o c ho P1 P2 (by simp [TmxSim.book]) (by simp [TmxSim.book]) m1 m2
  refine ⟨lines, i, j, g2, g3, g4, ?_⟩
  have ha : align utf o c P1 P2 = some lines := by
    unfold align
    rw [t1]
    exact g1
  rw [ha]
  simp only [Option.map]
  rw [readPairs_eq hn]
  intro l hl
  constructor
  · apply side_flat
    intro p hp
    apply f1 p
    apply List.mem_of_mem_drop (i := i)
    rw [← g3]
    exact List.mem_flatMap.2 ⟨l, hl, hp⟩
  · apply side_flat
    intro p hp
    apply f2 p
    apply List.mem_of_mem_drop (i := j)
    rw [← g4]
    exact List.mem_flatMap.2 ⟨l, hl, hp⟩

/-- A text with newlines, and one that ends within a sentence. -/
example (k : Ctype) (hk : k.Ok) := C96_white_partial k hk true ⟨none, none, none, false, -100000⟩ rfl ⟨fun _ _ => 0, fun _ _ _ _ => .keep⟩ (fun _ => t!"0.3")
  (fun _ => ⟨by decide, by decide⟩) [.lit 'A', .lit '\n', .lit 'b', .lit '.', .lit '\r', .lit '\n', .lit 'C'] exText2
  (by intro e he; simp only [List.mem_cons, List.not_mem_nil, or_false] at he; rcases he with rfl | rfl | rfl | rfl | rfl | rfl | rfl <;> exact ⟨by decide, by decide⟩) ex_ok2
example : readNoIds (fileOf [t!"A\nb.", t!"\r\nC"]) = [[t!"A"], [t!"b."], [], [t!"C"], []] ∧ wordsOf (fileOf [t!"A\nb.", t!"\r\nC"]) = [t!"A", t!"b.", t!"C"] := by decide +kernel

end Verif.TmxBuild
