import Verif.Unigram.Spec
/-!
# The reader and the writer of lexical units (C28), the unigram tagger on a stream (C27, C30, C53)
-/
namespace Verif.Unigram

theorem Closed.append {s : List Char} {t u : Text} (ht : Closed s t) (hu : Closed s u) : Closed s (t ++ u) := by
  induction ht with
  | nil => exact hu
  | lit a b c _ ih => exact .lit a b c ih
  | esc a _ ih => exact .esc a ih

/-! ### reading what was printed -/

theorem readBlock_closed (e : Char) (he : e ≠ '\\') (t rest : Text) (h : Closed [e] t) :
    readBlock e (t ++ e :: rest) = (t ++ [e], rest) := by
  induction h with
  | nil => cases rest <;> simp [readBlock]
  | @lit c t h1 h2 h3 _ ih =>
    have hc : c ≠ e := by simpa using h3
    cases t with
    | nil => simp only [List.nil_append] at ih; simp [readBlock, h1, hc, ih]
    | cons d t => simp only [List.cons_append] at ih; simp [readBlock, h1, hc, ih]
  | @esc d t h1 _ ih =>
    have hc : '\\' ≠ e := fun h => he h.symm
    simp [readBlock, hc, ih]

theorem readLemma_closed (st : List Char) (hst : '\\' ∉ st) (t : Text) (h : Closed st t) (acc : Text) (c : Char)
    (rest : Text) (hc : c ∈ st) :
    readLemma st acc (t ++ c :: rest) = .ok (acc ++ t, c :: rest) := by
  induction h generalizing acc with
  | nil => cases rest <;> simp [readLemma, hc]
  | @lit d t h1 h2 h3 _ ih =>
    cases t with
    | nil =>
      simp only [List.nil_append] at ih
      simp [readLemma, h1, h3, ih]
    | cons e t =>
      simp only [List.cons_append] at ih
      simp [readLemma, h1, h3, ih]
  | @esc d t h1 _ ih =>
    simp [readLemma, hst, h1, ih]

theorem Closed.mono {s s' : List Char} (hs : ∀ c ∈ s', c ∈ s ∨ c = '\x00') {t : Text} (h : Closed s t) : Closed s' t := by
  induction h with
  | nil => exact .nil
  | @lit c t h1 h2 h3 _ ih =>
    refine .lit h1 h2 (fun hc => ?_) ih
    rcases hs c hc with h | h
    · exact h3 h
    · exact h2 h
  | esc a _ ih => exact .esc a ih

def tagsText (ts : List Text) : Text := ts.flatMap (fun t => '<' :: t ++ ['>'])

theorem readTags_ok (ts : List Text) (hts : ∀ t ∈ ts, t ≠ [] ∧ Closed ['>'] t) (rest : Text)
    (hr : rest.head? ≠ some '<') (n : Nat) (acc : List Text) :
    readTags (n + ts.length) acc (tagsText ts ++ rest) = .ok (acc ++ ts, rest) := by
  induction ts generalizing acc with
  | nil =>
    cases rest with
    | nil => simp [tagsText, readTags]
    | cons c rest =>
      have : c ≠ '<' := by simpa using hr
      simp only [tagsText, List.flatMap_nil, List.nil_append, List.length_nil, Nat.add_zero, List.append_nil]
      rw [readTags.eq_def]
      simp [this]
  | cons t ts ih =>
    obtain ⟨hne, hcl⟩ := hts t (by simp)
    have h2 := ih (fun x hx => hts x (by simp [hx])) (acc ++ [t])
    have hlen : t.length ≠ 0 := by simpa using hne
    have hsplit : tagsText (t :: ts) ++ rest = '<' :: (t ++ '>' :: (tagsText ts ++ rest)) := by
      simp [tagsText]
    rw [hsplit, show n + (t :: ts).length = (n + ts.length) + 1 by simp; omega]
    rw [readTags.eq_def]
    simp only [if_pos, readBlock_closed '>' (by decide) t _ hcl]
    simp [hne, h2]

theorem tagsText_length (ts : List Text) : ts.length ≤ (tagsText ts).length := by
  induction ts with
  | nil => simp
  | cons t ts ih => simp [tagsText] at *; omega

theorem Morpheme.text_eq (m : Morpheme) : m.text = m.lemma ++ tagsText m.tags := rfl

/-- What may follow a morpheme. -/
theorem readMorpheme_ok (m : Morpheme) (hm : m.wf) (c : Char) (rest : Text) (hc : c ≠ '<') (hc' : c ≠ '#') :
    readMorpheme (m.text ++ c :: rest) = .ok (m, c :: rest) := by
  obtain ⟨h1, h2, h3, h4⟩ := hm
  rcases m with ⟨lemma, tags⟩
  simp only at h1 h2 h3 h4
  cases tags with
  | nil => exact absurd rfl h3
  | cons t ts =>
    have e : (Morpheme.text ⟨lemma, t :: ts⟩) ++ c :: rest = lemma ++ '<' :: (t ++ '>' :: (tagsText ts ++ c :: rest)) := by
      simp [Morpheme.text_eq, tagsText]
    have hl := readLemma_closed lemmaStops (by decide) lemma (h2.mono (by
      intro c hc; simp [lemmaStops] at hc ⊢; rcases hc with h | h | h | h <;> simp [h])) [] '<'
      (t ++ '>' :: (tagsText ts ++ c :: rest)) (by decide)
    have ht := readTags_ok (t :: ts) h4 (c :: rest) (by simpa using hc)
      (('<' :: (t ++ '>' :: (tagsText ts ++ c :: rest))).length - (t :: ts).length) []
    have hlen : (t :: ts).length ≤ ('<' :: (t ++ '>' :: (tagsText ts ++ c :: rest))).length := by
      have := tagsText_length ts
      simp; omega
    rw [Nat.sub_add_cancel hlen] at ht
    have e2 : tagsText (t :: ts) ++ c :: rest = '<' :: (t ++ '>' :: (tagsText ts ++ c :: rest)) := by simp [tagsText]
    rw [e2] at ht
    rw [e]
    unfold readMorpheme
    rw [hl]
    simp only [Outcome.bind_ok, List.nil_append, h1, if_false, ht]
    simp [hc']

theorem Morpheme.text_ne {m : Morpheme} (hm : m.wf) : m.text ≠ [] := by
  rw [Morpheme.text_eq]; intro h; exact hm.1 (List.append_eq_nil_iff.mp h).1

/-- The text of the morphemes after the first. -/
def moreText (ms : List Morpheme) : Text := ms.flatMap (fun m => '+' :: m.text)

theorem Analysis.text_cons (m : Morpheme) (ms : List Morpheme) :
    Analysis.text ⟨m :: ms⟩ = m.text ++ moreText ms := by
  induction ms generalizing m with
  | nil => simp [Analysis.text, moreText]
  | cons m' ms ih =>
    have := ih m'
    simp only [Analysis.text, moreText, List.map_cons, List.flatMap_cons] at this ⊢
    rw [List.intercalate_cons_cons, this]
    simp

theorem readAnalysis_ok (m : Morpheme) (ms : List Morpheme) (hm : m.wf) (hms : ∀ x ∈ ms, x.wf) (n : Nat)
    (acc : List Morpheme) (c : Char) (rest : Text) (hc : c = '/' ∨ c = '$') :
    readAnalysis (n + ms.length + 1) acc (m.text ++ moreText ms ++ c :: rest) = .ok (⟨acc ++ m :: ms⟩, c :: rest) := by
  have hc1 : c ≠ '<' ∧ c ≠ '#' ∧ c ≠ '+' ∧ c ≠ '\x00' := by rcases hc with h | h <;> subst h <;> decide
  induction ms generalizing m acc with
  | nil =>
    have h := readMorpheme_ok m hm c rest hc1.1 hc1.2.1
    simp [moreText, readAnalysis, h, hc1]
  | cons m' ms ih =>
    have h := readMorpheme_ok m hm '+' (m'.text ++ moreText ms ++ c :: rest) (by decide) (by decide)
    have e : m.text ++ moreText (m' :: ms) ++ c :: rest = m.text ++ '+' :: (m'.text ++ moreText ms ++ c :: rest) := by
      simp [moreText]
    have h2 := ih m' (hms m' (by simp)) (fun x hx => hms x (by simp [hx])) (acc ++ [m])
    rw [e, readAnalysis, h]
    simp only [Outcome.bind_ok, if_pos]
    rw [show n + (m' :: ms).length = n + ms.length + 1 by simp; omega, h2]
    simp

theorem moreText_length (ms : List Morpheme) : ms.length ≤ (moreText ms).length := by
  induction ms with
  | nil => simp
  | cons t ts ih => simp [moreText] at *; omega

theorem printMorpheme_ok (m : Morpheme) (hm : m.wf) : printMorpheme m = .ok m.text := by
  simp [printMorpheme, hm.1, hm.2.2.1, Morpheme.text]

theorem printMore_ok (ms : List Morpheme) (h : ∀ m ∈ ms, m.wf) : printMore ms = .ok (moreText ms) := by
  induction ms with
  | nil => rfl
  | cons m ms ih =>
    simp [printMore, printMorpheme_ok m (h m (by simp)), ih (fun x hx => h x (by simp [hx])), moreText]

theorem printAnalysis_ok (a : Analysis) (ha : a.wf) : printAnalysis a = .ok a.text := by
  rcases a with ⟨ms⟩
  cases ms with
  | nil => exact absurd rfl ha.1
  | cons m ms =>
    simp [printAnalysis, printMorpheme_ok m (ha.2 m (by simp)), printMore_ok ms (fun x hx => ha.2 x (by simp [hx])),
      Analysis.text_cons]

theorem readAnalysis_text (a : Analysis) (ha : a.wf) (c : Char) (rest : Text) (hc : c = '/' ∨ c = '$') (k : Nat) :
    readAnalysis (a.text.length + 1 + k) [] (a.text ++ c :: rest) = .ok (a, c :: rest) := by
  rcases a with ⟨ms⟩
  cases ms with
  | nil => exact absurd rfl ha.1
  | cons m ms =>
    rw [Analysis.text_cons]
    have := readAnalysis_ok m ms (ha.2 m (by simp)) (fun x hx => ha.2 x (by simp [hx]))
      ((m.text ++ moreText ms).length - ms.length + k) [] c rest hc
    have hl : ms.length ≤ (m.text ++ moreText ms).length := by
      have := moreText_length ms
      simp; omega
    rw [show (m.text ++ moreText ms).length - ms.length + k + ms.length + 1 = (m.text ++ moreText ms).length + 1 + k by omega] at this
    simpa using this

/-- **C28** printing an analysis and reading the text gives the analysis back, whatever follows in the unit
(`/` and another analysis, or `$`). -/
theorem C28_roundtrip (a : Analysis) (ha : a.wf) (c : Char) (rest : Text) (hc : c = '/' ∨ c = '$') :
    printAnalysis a = .ok a.text ∧
      readAnalysis (a.text ++ c :: rest).length [] (a.text ++ c :: rest) = .ok (a, c :: rest) := by
  refine ⟨printAnalysis_ok a ha, ?_⟩
  have := readAnalysis_text a ha c rest hc rest.length
  rwa [show (a.text ++ c :: rest).length = a.text.length + 1 + rest.length by simp; omega]

/-! ### what the reader accepts -/

theorem readBlock_sound (e : Char) (t : Text) (hn : '\x00' ∉ t) (b r : Text) (h : readBlock e t = (b, r)) (hr : r ≠ []) :
    ∃ x, b = x ++ [e] ∧ Closed [e] x ∧ t = x ++ e :: r := by
  fun_induction readBlock e t generalizing b r with
  | case1 => simp at h; exact absurd h.2 hr
  | case2 => simp at h; exact absurd h.2 hr
  | case3 d rest =>
    simp at h
    exact ⟨[], by simp [← h.1], .nil, by simp [← h.2]⟩
  | case4 d rest hc ih1 =>
    simp at hn
    obtain ⟨x, h1, h2, h3⟩ := ih1 hn.2 (readBlock e rest).1 r (by simp at h; rw [← h.2]) hr
    simp at h
    refine ⟨'\\' :: d :: x, ?_, .esc (fun hh => hn.1 hh.symm) h2, ?_⟩
    · rw [← h.1, h1]; rfl
    · rw [h3]; rfl
  | case5 c d rest hc1 hc2 ih1 =>
    simp at hn
    obtain ⟨x, h1, h2, h3⟩ := ih1 (by simp; exact hn.2) (readBlock e (d :: rest)).1 r (by simp at h; rw [← h.2]) hr
    simp at h
    refine ⟨c :: x, ?_, .lit hc2 (fun hh => hn.1 hh.symm) (by simpa using hc1) h2, ?_⟩
    · rw [← h.1, h1]; rfl
    · rw [h3]; rfl

theorem readLemma_sound (st : List Char) (acc t l r : Text) (hn : '\x00' ∉ t) (h : readLemma st acc t = .ok (l, r)) :
    ∃ x c r', l = acc ++ x ∧ Closed st x ∧ r = c :: r' ∧ c ∈ st ∧ t = x ++ c :: r' := by
  fun_induction readLemma st acc t generalizing l r with
  | case1 => simp at h
  | case2 acc c hc => simp at h; exact ⟨[], c, [], by simp [h.1], .nil, h.2.symm, hc, rfl⟩
  | case3 => simp at h
  | case4 acc c d rest hc => simp at h; exact ⟨[], c, d :: rest, by simp [h.1], .nil, h.2.symm, hc, rfl⟩
  | case5 => simp at h
  | case6 acc d rest hc hd ih1 =>
    simp at hn
    obtain ⟨x, c, r', h1, h2, h3, h4, h5⟩ := ih1 l r hn.2 h
    exact ⟨'\\' :: d :: x, c, r', by simp [h1], .esc (fun hh => hn.1 hh.symm) h2, h3, h4, by simp [h5]⟩
  | case7 acc c d rest hc hb ih1 =>
    simp at hn
    obtain ⟨x, c', r', h1, h2, h3, h4, h5⟩ := ih1 l r (by simp; exact hn.2) h
    exact ⟨c :: x, c', r', by simp [h1], .lit hb (fun hh => hn.1 hh.symm) hc h2, h3, h4, by simp [h5]⟩

theorem readTags_sound (n : Nat) (acc : List Text) (t : Text) (ts : List Text) (r : Text) (hn : '\x00' ∉ t)
    (h : readTags n acc t = .ok (ts, r)) (hr : r ≠ []) :
    ∃ us, ts = acc ++ us ∧ (∀ u ∈ us, u ≠ [] ∧ Closed ['>'] u) ∧ t = tagsText us ++ r ∧ r.head? ≠ some '<' := by
  induction n generalizing acc t with
  | zero =>
    cases t with
    | nil => rw [readTags.eq_def] at h; simp at h; exact absurd h.2 hr
    | cons c rest =>
      rw [readTags.eq_def] at h
      by_cases hc : c = '<'
      · simp [hc] at h
      · simp [hc] at h
        exact ⟨[], by simp [h.1], by simp, by simp [tagsText, h.2], by simpa [← h.2] using hc⟩
  | succ n ih =>
    cases t with
    | nil => rw [readTags.eq_def] at h; simp at h; exact absurd h.2 hr
    | cons c rest =>
      rw [readTags.eq_def] at h
      by_cases hc : c = '<'
      · simp only [hc, if_true] at h
        split at h
        · simp at h
        · rename_i hlen
          have hn2 : '\x00' ∉ rest := fun hh => hn (by simp [hh])
          by_cases hr2 : (readBlock '>' rest).2 = []
          · rw [hr2] at h
            rw [readTags.eq_def] at h
            simp at h
            exact absurd h.2 hr
          · obtain ⟨x, h1, h2, h3⟩ := readBlock_sound '>' rest hn2 _ _ rfl hr2
            have hn3 : '\x00' ∉ (readBlock '>' rest).2 := by
              intro hh; apply hn2; rw [h3]; simp [hh]
            obtain ⟨us, g1, g2, g3, g4⟩ := ih _ _ hn3 h
            have hx : x ≠ [] := by intro hx; apply hlen; rw [h1, hx]; rfl
            have ht : List.take ((readBlock '>' rest).1.length - 1) (readBlock '>' rest).1 = x := by
              rw [h1]; simp
            refine ⟨x :: us, by rw [g1, ht]; simp, ?_, ?_, g4⟩
            · intro u hu
              rcases List.mem_cons.mp hu with rfl | hu
              · exact ⟨hx, h2⟩
              · exact g2 u hu
            · rw [hc, h3, g3]; simp [tagsText]
      · simp [hc] at h
        exact ⟨[], by simp [h.1], by simp, by simp [tagsText, h.2], by simpa [← h.2] using hc⟩

theorem readMorpheme_sound (t : Text) (hn : '\x00' ∉ t) (m : Morpheme) (r : Text) (h : readMorpheme t = .ok (m, r))
    (hr : r ≠ []) : m.wf ∧ ∃ w, m.written w ∧ t = w ++ r := by
  unfold readMorpheme at h
  cases hl : readLemma lemmaStops [] t with
  | fail => simp [hl] at h
  | diverge => simp [hl] at h
  | ub => simp [hl] at h
  | ok p =>
    obtain ⟨l, t1⟩ := p
    rw [hl] at h
    simp only [Outcome.bind_ok] at h
    obtain ⟨x, c, r', h1, h2, h3, h4, h5⟩ := readLemma_sound _ _ _ _ _ hn hl
    simp only [List.nil_append] at h1
    subst h1
    have hx : l ≠ [] := by intro hx; simp [hx] at h
    rw [if_neg hx] at h
    have hn1 : '\x00' ∉ t1 := by intro hh; apply hn; rw [h5, ← h3]; simp [hh]
    have hcl : Closed ['<', '$', '/'] l := h2.mono (by intro c hc; left; simp [lemmaStops] at hc ⊢; rcases hc with h | h | h <;> simp [h])
    cases ht : readTags t1.length [] t1 with
    | fail => simp [ht] at h
    | diverge => simp [ht] at h
    | ub => simp [ht] at h
    | ok p =>
      obtain ⟨ts, t2⟩ := p
      rw [ht] at h
      simp only [Outcome.bind_ok] at h
      have hts : ts ≠ [] := by intro hx; simp [hx] at h
      rw [if_neg hts] at h
      cases t2 with
      | nil => simp at h; exact absurd h.2 hr
      | cons d t2 =>
        obtain ⟨us, g1, g2, g3, g4⟩ := readTags_sound _ _ _ _ _ hn1 ht (by simp)
        simp only [List.nil_append] at g1
        subst g1
        have et : t = l ++ t1 := by rw [h5, h3]
        by_cases hd : d = '#'
        · simp only [hd, if_true] at h
          rw [← hd] at h
          cases hq : readLemma queueStops l (d :: t2) with
          | fail => simp [hq] at h
          | diverge => simp [hq] at h
          | ub => simp [hq] at h
          | ok p =>
            obtain ⟨l', t3⟩ := p
            rw [hq] at h
            simp only [Outcome.bind_ok] at h
            have hn2 : '\x00' ∉ d :: t2 := by intro hh; apply hn1; rw [g3]; simp only [List.mem_append]; right; exact hh
            obtain ⟨y, c2, r2, k1, k2, k3, k4, k5⟩ := readLemma_sound _ _ _ _ _ hn2 hq
            subst k3
            have hc2 : c2 ≠ '<' := by intro hh; simp [hh] at h
            simp only [hc2, if_false, Outcome.ok.injEq, Prod.mk.injEq] at h
            obtain ⟨hm, hrr⟩ := h
            have hy : y.head? = some '#' := by
              cases y with
              | nil =>
                simp at k5
                rw [← k5.1, hd] at k4
                exact absurd k4 (by decide)
              | cons y0 y => simp at k5; simp [← k5.1, hd]
            have hqc : Closed ['<', '$', '/', '+'] y :=
              k2.mono (by intro c hc; left; simp [queueStops] at hc ⊢; rcases hc with h | h | h | h <;> simp [h])
            have hqc' : Closed ['<', '$', '/'] y :=
              hqc.mono (by intro c hc; left; simp at hc ⊢; rcases hc with h | h | h <;> simp [h])
            subst hm
            refine ⟨⟨?_, ?_, hts, g2⟩, l ++ tagsText ts ++ y, ⟨l, y, k1, hx, Or.inr ⟨hy, hqc⟩, rfl⟩, ?_⟩
            · simp [k1, hx]
            · simp only [k1]; exact hcl.append hqc'
            · rw [et, g3, k5, ← hrr]; simp
        · simp only [hd, if_false, Outcome.ok.injEq, Prod.mk.injEq] at h
          obtain ⟨hm, hrr⟩ := h
          subst hm
          refine ⟨⟨hx, hcl, hts, g2⟩, l ++ tagsText ts, ⟨l, [], by simp, hx, Or.inl rfl, by simp [tagsText]⟩, ?_⟩
          rw [et, g3, ← hrr]; simp

theorem readAnalysis_sound (n : Nat) (acc : List Morpheme) (t : Text) (hn : '\x00' ∉ t) (a : Analysis) (r : Text)
    (h : readAnalysis n acc t = .ok (a, r)) :
    ∃ ms ws, a.morphemes = acc ++ ms ∧ ms ≠ [] ∧ (∀ m ∈ ms, m.wf) ∧ WrittenAll ms ws ∧
      t = List.intercalate ['+'] ws ++ r ∧ r ≠ [] := by
  induction n generalizing acc t with
  | zero => simp [readAnalysis] at h
  | succ n ih =>
    rw [readAnalysis] at h
    cases hm : readMorpheme t with
    | fail => simp [hm] at h
    | diverge => simp [hm] at h
    | ub => simp [hm] at h
    | ok p =>
      obtain ⟨m, t1⟩ := p
      rw [hm] at h
      simp only [Outcome.bind_ok] at h
      cases t1 with
      | nil => simp at h
      | cons c rest =>
        obtain ⟨h1, w, h2, h3⟩ := readMorpheme_sound t hn m _ hm (by simp)
        by_cases hc : c = '+'
        · simp only [hc, if_true] at h
          have hn2 : '\x00' ∉ rest := by intro hh; apply hn; rw [h3]; simp [hh]
          obtain ⟨ms, ws, g1, g2, g3, g4, g5, g6⟩ := ih _ _ hn2 h
          refine ⟨m :: ms, w :: ws, by rw [g1]; simp, by simp, ?_, .cons h2 g4, ?_, g6⟩
          · intro x hx
            rcases List.mem_cons.mp hx with rfl | hx
            · exact h1
            · exact g3 x hx
          · cases g4 with
            | nil => exact absurd rfl g2
            | cons _ _ =>
              rw [h3, hc, g5, List.intercalate_cons_cons]
              simp
        · simp only [hc, if_false] at h
          split at h
          · simp at h
          · simp only [Outcome.ok.injEq, Prod.mk.injEq] at h
            obtain ⟨ha, hrr⟩ := h
            subst ha hrr
            refine ⟨[m], [w], rfl, by simp, ?_, .cons h2 .nil, by simp [h3], by simp⟩
            intro x hx
            rw [List.mem_singleton.mp hx]
            exact h1

/-- **C28** what the reader accepts: the text before what is left is the analysis' morphemes joined by `+`, each one
written as `head<tag>..<tag>queue`; the analysis it returns is well formed (so `C28_roundtrip` applies to it). -/
theorem C28_reader_sound (t : Text) (hn : '\x00' ∉ t) (n : Nat) (a : Analysis) (r : Text)
    (h : readAnalysis n [] t = .ok (a, r)) :
    a.wf ∧ ∃ ws, WrittenAll a.morphemes ws ∧ t = List.intercalate ['+'] ws ++ r := by
  obtain ⟨ms, ws, h1, h2, h3, h4, h5, _⟩ := readAnalysis_sound n [] t hn a r h
  simp only [List.nil_append] at h1
  refine ⟨⟨by rw [h1]; exact h2, by rw [h1]; exact h3⟩, ws, by rw [h1]; exact h4, h5⟩

/-- **C28 fails in the other direction**: reading and printing does not give the text back when a lemma queue
stands after the tags: it is moved before the tags. -/
theorem C28_reprint_violation :
    readAnalysis 17 [] t!"take<vblex># out$" = .ok (⟨[⟨t!"take# out", [t!"vblex"]⟩]⟩, ['$']) ∧
    printAnalysis ⟨[⟨t!"take# out", [t!"vblex"]⟩]⟩ = .ok t!"take# out<vblex>" := by
  constructor <;> decide +kernel

/-- **C28** for lemmas without `#`, reading and printing gives the text back. -/
theorem C28_reprint (t : Text) (hn : '\x00' ∉ t) (n : Nat) (a : Analysis) (r : Text)
    (h : readAnalysis n [] t = .ok (a, r)) (hq : ∀ m ∈ a.morphemes, '#' ∉ m.lemma) :
    printAnalysis a = .ok a.text ∧ t = a.text ++ r := by
  obtain ⟨h1, ws, h2, h3⟩ := C28_reader_sound t hn n a r h
  refine ⟨printAnalysis_ok a h1, ?_⟩
  rw [h3]
  congr 1
  unfold Analysis.text
  congr 1
  have : ∀ ms ws, WrittenAll ms ws → (∀ m ∈ ms, '#' ∉ m.lemma) → ws = ms.map Morpheme.text := by
    intro ms ws hw
    induction hw with
    | nil => intro; rfl
    | @cons m ms w ws hw _ ih =>
      intro hm
      obtain ⟨hd, q, k1, k2, k3, k4⟩ := hw
      have hq0 : q = [] := by
        rcases k3 with k3 | k3
        · exact k3
        · exfalso
          apply hm m (by simp)
          rw [k1]
          cases q with
          | nil => simp at k3
          | cons c q => simp at k3; simp [k3.1]
      subst hq0
      simp only [List.append_nil] at k1 k4
      rw [List.map_cons, ih (fun x hx => hm x (by simp [hx])), k4, Morpheme.text, k1]
  exact this _ _ h2 hq

end Verif.Unigram
