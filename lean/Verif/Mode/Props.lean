import Verif.Mode.Model
/-!
# C33: rewriting a mode
-/
namespace Verif.Mode

/-! ### Specification -/

/-- White space only. -/
def Blank (s : Text) : Prop := ∀ c ∈ s, isSpace c = true

/-- The program that the stage `t` becomes: itself, followed by `apertium-wblank-attach` if it is the analyser, or
preceded by `apertium-wblank-detach` if it is the generator (and nothing else detaches). -/
def withHelper (helpers caps : Prop) [Decidable helpers] [Decidable caps] (t : Text) : List Text :=
  if helpers then [t]
  else if t!"automorf.bin" <:+: t ∨ t!"automorf.hfst" <:+: t then [t, t!"apertium-wblank-attach"]
  else if ¬ caps ∧ (t!"autogen.bin" <:+: t ∨ t!"autogen.hfst" <:+: t) then [t!"apertium-wblank-detach", t]
  else [t]

/-- A place of the text where the regular expression for old-style transfer matches:
`apertium-transfer 'a' 'b' 'c'` with `c` longer than its end `autobil.bin`. -/
def OldTransfer (g1 g2 g3 m : Text) : Prop :=
  ∃ w1 w2 w3 p : Text, (w1 ≠ [] ∧ Blank w1) ∧ (w2 ≠ [] ∧ Blank w2) ∧ (w3 ≠ [] ∧ Blank w3) ∧
    (g1 ≠ [] ∧ '\'' ∉ g1) ∧ (g2 ≠ [] ∧ '\'' ∉ g2) ∧ (p ≠ [] ∧ '\'' ∉ p ∧ g3 = p ++ t!"autobil.bin") ∧
    m = t!"apertium-transfer" ++ w1 ++ '\'' :: g1 ++ '\'' :: w2 ++ '\'' :: g2 ++ '\'' :: w3 ++ '\'' :: g3 ++ ['\'']

/-- The text has an old-style call of `apertium-transfer` somewhere. -/
def HasOld (s : Text) : Prop := ∃ a m b g1 g2 g3, s = a ++ m ++ b ∧ OldTransfer g1 g2 g3 m

/-! ### Lists -/

theorem hasSub_iff (pat s : Text) : hasSub pat s = true ↔ pat <:+: s := by
  induction s with
  | nil =>
    simp [hasSub]
  | cons c s ih =>
    rw [hasSub, Bool.or_eq_true, ih, List.isPrefixOf_iff_prefix, List.infix_cons_iff]

instance (pat s : Text) : Decidable (pat <:+: s) := decidable_of_iff _ (hasSub_iff pat s)

theorem hasSub_eq (pat s : Text) : hasSub pat s = decide (pat <:+: s) := by
  rw [Bool.eq_iff_iff, hasSub_iff, decide_eq_true_iff]

theorem trim_spec (s : Text) : ∃ l r, s = l ++ trim s ++ r ∧ Blank l ∧ Blank r := by
  refine ⟨((s.reverse.dropWhile isSpace).reverse).takeWhile isSpace, (s.reverse.takeWhile isSpace).reverse, ?_, ?_, ?_⟩
  · unfold trim
    rw [List.takeWhile_append_dropWhile, ← List.reverse_append, List.takeWhile_append_dropWhile, List.reverse_reverse]
  · intro c hc
    exact List.all_takeWhile (p := isSpace) (l := (s.reverse.dropWhile isSpace).reverse) |> (List.all_eq_true.1 · c hc)
  · intro c hc
    exact List.all_takeWhile (p := isSpace) (l := s.reverse) |> (List.all_eq_true.1 · c (List.mem_reverse.1 hc))

theorem dropWhile_blank {l : Text} (h : Blank l) (s : Text) : (l ++ s).dropWhile isSpace = s.dropWhile isSpace := by
  induction l with
  | nil => rfl
  | cons c l ih =>
    rw [List.cons_append, List.dropWhile_cons, if_pos (h c (by simp))]
    exact ih (fun d hd => h d (by simp [hd]))

theorem dropWhile_snoc (s : Text) (r : Text) :
    (∃ c ∈ s, isSpace c = false) → (s ++ r).dropWhile isSpace = s.dropWhile isSpace ++ r := by
  induction s with
  | nil => rintro ⟨c, hc, -⟩; simp at hc
  | cons c s ih =>
    rintro ⟨d, hd, h⟩
    rw [List.cons_append, List.dropWhile_cons, List.dropWhile_cons]
    cases hc : isSpace c
    · simp
    · simp only [if_true]
      rcases List.mem_cons.1 hd with rfl | hd
      · rw [hc] at h; exact absurd h (by decide)
      · exact ih ⟨d, hd, h⟩

/-- Trimming forgets white space at both ends. -/
theorem trim_blank {l r : Text} (hl : Blank l) (hr : Blank r) (s : Text) : trim (l ++ s ++ r) = trim s := by
  have h1 : trim (l ++ s ++ r) = trim (l ++ s) := by
    unfold trim
    rw [List.reverse_append, dropWhile_blank (fun c hc => hr c (List.mem_reverse.1 hc))]
  rw [h1]
  by_cases h : ∃ c ∈ s, isSpace c = false
  · unfold trim
    obtain ⟨c, hc, h⟩ := h
    rw [List.reverse_append, dropWhile_snoc _ _ ⟨c, by simpa using hc, h⟩, List.reverse_append, List.reverse_reverse,
      dropWhile_blank hl]
  · have hb : Blank s := fun c hc => by
      cases h' : isSpace c
      · exact absurd ⟨c, hc, h'⟩ h
      · rfl
    have e : ∀ x : Text, Blank x → trim x = [] := by
      intro x hx
      unfold trim
      have := dropWhile_blank (l := x.reverse) (fun c hc => hx c (List.mem_reverse.1 hc)) []
      rw [List.append_nil] at this
      rw [this]; rfl
    rw [e _ (fun c hc => (List.mem_append.1 hc).elim (hl c) (hb c)), e _ hb]

theorem trim_trim (s : Text) : trim (trim s) = trim s := by
  obtain ⟨l, r, h, hl, hr⟩ := trim_spec s
  conv => rhs; rw [h, trim_blank hl hr]

theorem trim_mem {s : Text} {c : Char} (h : c ∈ trim s) : c ∈ s := by
  obtain ⟨l, r, e, -, -⟩ := trim_spec s
  rw [e]; simp [h]

/-- A text that is neither empty nor has white space at its ends. -/
def Solid (p : Text) : Prop := ∃ (c d : Char) (x y : Text), p = c :: x ∧ p = y ++ [d] ∧ isSpace c = false ∧ isSpace d = false

theorem infix_blank {p s l r : Text} (hp : Solid p) (hl : Blank l) (hr : Blank r) (h : p <:+: l ++ s ++ r) : p <:+: s := by
  obtain ⟨c, d, x, y, e1, e2, hc, hd⟩ := hp
  have h1 : p <:+: s ++ r := by
    clear hr
    induction l with
    | nil => simpa using h
    | cons b l ih =>
      rw [List.cons_append, List.cons_append, List.infix_cons_iff] at h
      rcases h with h | h
      · rw [e1] at h
        obtain ⟨t, ht⟩ := h
        simp at ht
        have := hl b (by simp)
        rw [← ht.1, hc] at this
        exact absurd this (by decide)
      · exact ih (fun c' hc' => hl c' (by simp [hc'])) h
  have h2 : p.reverse <:+: r.reverse ++ s.reverse := by
    rw [← List.reverse_append]; exact List.reverse_infix.2 h1
  have h3 : p.reverse <:+: s.reverse := by
    have hr' : Blank r.reverse := fun c hc => hr c (List.mem_reverse.1 hc)
    clear h1 h hr
    generalize r.reverse = q at h2 hr'
    induction q with
    | nil => simpa using h2
    | cons b q ih =>
      rw [List.cons_append, List.infix_cons_iff] at h2
      rcases h2 with h2 | h2
      · rw [e2, List.reverse_append] at h2
        obtain ⟨t, ht⟩ := h2
        simp at ht
        have := hr' b (by simp)
        rw [← ht.1, hd] at this
        exact absurd this (by decide)
      · exact ih h2 (fun c' hc' => hr' c' (by simp [hc']))
  exact List.reverse_infix.1 h3

theorem infix_trim {p s : Text} (hp : Solid p) : p <:+: trim s ↔ p <:+: s := by
  obtain ⟨l, r, e, hl, hr⟩ := trim_spec s
  constructor
  · intro h
    rw [e]
    exact h.trans ⟨l, r, rfl⟩
  · intro h
    rw [e] at h
    exact infix_blank hp hl hr h

/-- An occurrence of `p` in `x ++ c :: y` with `c` not in `p` lies on one side. -/
theorem infix_split {p x y : Text} {c : Char} (hc : c ∉ p) (h : p <:+: x ++ c :: y) : p <:+: x ∨ p <:+: y := by
  induction x with
  | nil =>
    rw [List.nil_append, List.infix_cons_iff] at h
    rcases h with h | h
    · cases p with
      | nil => exact Or.inl (List.nil_infix)
      | cons a p => obtain ⟨t, ht⟩ := h; simp at ht; exact absurd (by simp [ht.1]) hc
    · exact Or.inr h
  | cons a x ih =>
    rw [List.cons_append, List.infix_cons_iff] at h
    rcases h with h | h
    · obtain ⟨t, ht⟩ := h
      rw [← List.cons_append, List.append_eq_append_iff] at ht
      rcases ht with ⟨q, e, -⟩ | ⟨q, e, hq⟩
      · exact Or.inl ⟨[], q, by simp [e]⟩
      · cases q with
        | nil => exact Or.inl ⟨[], [], by simp [e]⟩
        | cons b q => simp at hq; exact absurd (by simp [e, hq.1]) hc
    · exact (ih h).imp (fun h => h.trans (List.suffix_cons a x).isInfix) id

/-! ### Splitting and joining -/

theorem splitBar_ne (s : Text) : splitBar s ≠ [] := by
  cases s with
  | nil => simp [splitBar]
  | cons c s =>
    rw [splitBar]
    split
    · simp
    · split <;> simp

theorem splitBar_free (p : Text) (h : '|' ∉ p) : splitBar p = [p] := by
  induction p with
  | nil => rfl
  | cons c p ih =>
    have hc : ¬ c = '|' := fun e => h (by simp [e])
    rw [splitBar, if_neg hc, ih (fun h' => h (by simp [h']))]

theorem splitBar_append (p s : Text) (h : '|' ∉ p) : splitBar (p ++ '|' :: s) = p :: splitBar s := by
  induction p with
  | nil => rw [List.nil_append, splitBar, if_pos rfl]
  | cons c p ih =>
    have hc : ¬ c = '|' := fun e => h (by simp [e])
    rw [List.cons_append, splitBar, if_neg hc, ih (fun h' => h (by simp [h']))]

/-- Every text is pieces without bars joined with bars. -/
theorem splitBar_spec (s : Text) : List.intercalate ['|'] (splitBar s) = s ∧ ∀ p ∈ splitBar s, '|' ∉ p := by
  induction s with
  | nil => simp [splitBar, List.intercalate]
  | cons c s ih =>
    obtain ⟨h1, h2⟩ := ih
    rw [splitBar]
    split
    · rename_i hc
      refine ⟨?_, ?_⟩
      · cases hs : splitBar s with
        | nil => exact absurd hs (splitBar_ne s)
        | cons p ps =>
          rw [hs] at h1
          simp [List.intercalate, List.intersperse, hc] at h1 ⊢
          exact h1
      · intro p hp
        rcases List.mem_cons.1 hp with rfl | hp
        · simp
        · exact h2 p hp
    · rename_i hc
      cases hs : splitBar s with
      | nil => exact absurd hs (splitBar_ne s)
      | cons p ps =>
        rw [hs] at h1 h2
        refine ⟨?_, ?_⟩
        · simp only
          cases ps with
          | nil => simp [List.intercalate, List.intersperse] at h1 ⊢; exact h1
          | cons q qs => simp [List.intercalate, List.intersperse] at h1 ⊢; exact h1
        · intro q hq
          simp only [List.mem_cons] at hq
          rcases hq with rfl | hq
          · have := h2 p (by simp)
            simp [Ne.symm hc, this]
          · exact h2 q (by simp [hq])

theorem intercalate_cons₂ (sep p q : Text) (ps : List Text) :
    List.intercalate sep (p :: q :: ps) = p ++ sep ++ List.intercalate sep (q :: ps) := by
  simp [List.intercalate, List.intersperse]

theorem intercalate_one (sep p : Text) : List.intercalate sep [p] = p := by
  simp [List.intercalate, List.intersperse]

theorem splitBar_intercalate (ps : List Text) (hne : ps ≠ []) (h : ∀ p ∈ ps, '|' ∉ p) :
    splitBar (List.intercalate ['|'] ps) = ps := by
  induction ps with
  | nil => exact absurd rfl hne
  | cons p ps ih =>
    cases ps with
    | nil => rw [intercalate_one, splitBar_free p (h p (by simp))]
    | cons q ps =>
      rw [intercalate_cons₂, List.append_assoc, List.singleton_append, splitBar_append p _ (h p (by simp)), ih (by simp) (fun p hp => h p (by simp [hp]))]

theorem join_eq (ps : List Text) : join ps = List.intercalate t!" | " ps := by
  induction ps with
  | nil => rfl
  | cons p ps ih =>
    cases ps with
    | nil => rw [intercalate_one]; rfl
    | cons q ps => rw [intercalate_cons₂, ← ih]; rfl

/-- The trimmed pieces of a text. -/
def stages (s : Text) : List Text := (splitBar s).map trim

theorem blank_bar {l : Text} (h : Blank l) : '|' ∉ l := fun hc => absurd (h _ hc) (by decide)

theorem stages_lead {l : Text} (h : Blank l) (s : Text) : stages (l ++ s) = stages s := by
  obtain ⟨h1, h2⟩ := splitBar_spec s
  cases hs : splitBar s with
  | nil => exact absurd hs (splitBar_ne s)
  | cons p ps =>
    rw [hs] at h1 h2
    have e : l ++ s = List.intercalate ['|'] ((l ++ p) :: ps) := by
      rw [← h1]
      cases ps with
      | nil => rw [intercalate_one, intercalate_one]
      | cons q qs => rw [intercalate_cons₂, intercalate_cons₂]; simp
    unfold stages
    rw [e, splitBar_intercalate _ (by simp), hs]
    · have := trim_blank h (r := []) (by simp [Blank]) p
      simp only [List.append_nil] at this
      simp [this]
    · intro q hq
      rcases List.mem_cons.1 hq with rfl | hq
      · simp [blank_bar h, h2 p (by simp)]
      · exact h2 q (by simp [hq])

theorem first_bar {s : Text} (h : '|' ∈ s) : ∃ a b, s = a ++ '|' :: b ∧ '|' ∉ a := by
  induction s with
  | nil => simp at h
  | cons x s ih =>
    by_cases hx : x = '|'
    · exact ⟨[], s, by simp [hx], by simp⟩
    · obtain ⟨a, b, e, ha⟩ := ih (by simpa [Ne.symm hx] using h)
      exact ⟨x :: a, b, by simp [e], by simp [Ne.symm hx, ha]⟩

theorem stages_trail {r : Text} (h : Blank r) (s : Text) : stages (s ++ r) = stages s := by
  induction s with
  | nil =>
    rw [List.nil_append]
    unfold stages
    rw [splitBar_free r (blank_bar h)]
    have := trim_blank (l := []) (by simp [Blank]) h []
    simpa [splitBar] using this
  | cons c s ih =>
    unfold stages at *
    rw [List.cons_append, splitBar, splitBar]
    split
    · simp [ih]
    · obtain ⟨l, r', e, hl, hr⟩ := trim_spec s
      cases hs : splitBar s with
      | nil => exact absurd hs (splitBar_ne s)
      | cons p ps =>
        cases hsr : splitBar (s ++ r) with
        | nil => exact absurd hsr (splitBar_ne _)
        | cons q qs =>
          rw [hs, hsr] at ih
          simp only [List.map_cons, List.cons.injEq] at ih ⊢
          refine ⟨?_, ih.2⟩
          -- the first pieces are the same, or differ by the white space at the end
          have hd : q = p ∨ q = p ++ r := by
            by_cases hb : '|' ∈ s
            · obtain ⟨a, b, e, ha⟩ := first_bar hb
              left
              rw [e, splitBar_append a b ha] at hs
              rw [e, List.append_assoc, List.cons_append, splitBar_append a _ ha] at hsr
              simp at hs hsr
              rw [← hs.1, ← hsr.1]
            · right
              rw [splitBar_free s hb] at hs
              rw [splitBar_free (s ++ r) (by simp [hb, blank_bar h])] at hsr
              simp at hs hsr
              rw [← hs.1, ← hsr.1]
          rcases hd with rfl | rfl
          · rfl
          · have := trim_blank (l := []) (by simp [Blank]) h (c :: p)
            simpa using this

theorem stages_trim (s : Text) : stages (trim s) = stages s := by
  obtain ⟨l, r, e, hl, hr⟩ := trim_spec s
  conv => rhs; rw [e, stages_trail hr, stages_lead hl]

/-- Joining trimmed pieces and cutting again gives them back. -/
theorem stages_join (ts : List Text) (hne : ts ≠ []) (h : ∀ t ∈ ts, '|' ∉ t ∧ trim t = t) :
    stages (List.intercalate t!" | " ts) = ts := by
  induction ts with
  | nil => exact absurd rfl hne
  | cons p ts ih =>
    cases ts with
    | nil =>
      rw [intercalate_one]; unfold stages; rw [splitBar_free p (h p (by simp)).1]; simp [(h p (by simp)).2]
    | cons q ts =>
      have hp := h p (by simp)
      have hsp : Blank [' '] := by intro c hc; simp at hc; rw [hc]; rfl
      have e : List.intercalate t!" | " (p :: q :: ts) = (p ++ [' ']) ++ '|' :: ([' '] ++ List.intercalate t!" | " (q :: ts)) := by
        rw [intercalate_cons₂]; simp
      have ih := ih (by simp) (fun t ht => h t (by simp [ht]))
      rw [← stages_lead hsp] at ih
      rw [e]
      unfold stages at ih ⊢
      rw [splitBar_append _ _ (by simp [hp.1]), List.map_cons, ih]
      have := trim_blank (l := []) (by simp [Blank]) hsp p
      simp only [List.nil_append] at this
      rw [this, hp.2]

/-! ### The regular expression -/

theorem literal_iff (p s r : Text) : literal p s = some r ↔ s = p ++ r := by
  induction p generalizing s with
  | nil => simp [literal]
  | cons a p ih =>
    cases s with
    | nil => simp [literal]
    | cons c s =>
      rw [literal]
      split
      · rename_i h; rw [ih]; simp [h]
      · rename_i h
        simp only [reduceCtorEq, false_iff, List.cons_append, List.cons.injEq, not_and]
        intro e; exact absurd e.symm h

theorem takeWhile_stop {q : Char → Bool} {w : Text} (h : ∀ c ∈ w, q c = true) {d : Char} (hd : q d = false) (r : Text) :
    (w ++ d :: r).takeWhile q = w ∧ (w ++ d :: r).dropWhile q = d :: r := by
  induction w with
  | nil => simp [hd]
  | cons c w ih =>
    have := ih (fun d hd => h d (by simp [hd]))
    simp [h c (by simp), this.1, this.2]

theorem takeWhile_all (q : Char → Bool) (s : Text) : ∀ c ∈ s.takeWhile q, q c = true := fun c hc =>
  List.all_takeWhile (p := q) (l := s) |> (List.all_eq_true.1 · c hc)

theorem spaceQuote_iff (s r : Text) : spaceQuote s = some r ↔ ∃ w, w ≠ [] ∧ Blank w ∧ s = w ++ '\'' :: r := by
  constructor
  · intro h
    unfold spaceQuote at h
    split at h
    · simp at h
    · rename_i hne
      split at h
      · simp at h
      · rename_i c t hd
        split at h
        · rename_i hc
          simp at h
          refine ⟨_, hne, takeWhile_all _ s, ?_⟩
          rw [← h, ← hc, ← hd, List.takeWhile_append_dropWhile]
        · simp at h
  · rintro ⟨w, hne, hw, rfl⟩
    obtain ⟨h1, h2⟩ := takeWhile_stop hw (d := '\'') (by decide) r
    unfold spaceQuote
    rw [h1, h2, if_neg hne]
    simp

theorem quoted_iff (s g r : Text) : quoted s = some (g, r) ↔ g ≠ [] ∧ '\'' ∉ g ∧ s = g ++ '\'' :: r := by
  constructor
  · intro h
    unfold quoted at h
    simp only at h
    split at h
    · simp at h
    · rename_i hne
      split at h
      · simp at h
      · rename_i c t hd
        simp at h
        have hc : c = '\'' := by
          have h3 := List.head_dropWhile_not (p := (fun c : Char => !decide (c = '\''))) (l := s) (by rw [hd]; simp)
          simp only [hd, List.head_cons] at h3
          simpa using h3
        obtain ⟨h1, h2⟩ := h
        subst h1
        refine ⟨hne, ?_, ?_⟩
        · intro hm
          have := takeWhile_all _ s _ hm
          simp at this
        · rw [hc, h2] at hd
          rw [← hd, List.takeWhile_append_dropWhile]
  · rintro ⟨hne, hq, rfl⟩
    obtain ⟨h1, h2⟩ := takeWhile_stop (q := (fun c : Char => !decide (c = '\''))) (w := g) (d := '\'')
      (fun c hc => by simp; intro e; exact hq (e ▸ hc)) (by decide) r
    unfold quoted
    simp only [h1, h2, if_neg hne]

theorem matchAt_iff (s g1 g2 g3 r : Text) :
    matchAt s = some (g1, g2, g3, r) ↔ ∃ m, s = m ++ r ∧ OldTransfer g1 g2 g3 m := by
  constructor
  · intro h
    unfold matchAt at h
    split at h
    · simp at h
    rename_i s1 h1
    split at h
    · simp at h
    rename_i s2 h2
    split at h
    · simp at h
    rename_i a1 s3 h3
    split at h
    · simp at h
    rename_i s4 h4
    split at h
    · simp at h
    rename_i a2 s5 h5
    split at h
    · simp at h
    rename_i s6 h6
    split at h
    · simp at h
    rename_i a3 s7 h7
    split at h
    · rename_i hs
      simp only [Option.some.injEq, Prod.mk.injEq] at h
      obtain ⟨rfl, rfl, rfl, rfl⟩ := h
      rw [literal_iff] at h1
      rw [spaceQuote_iff] at h2 h4 h6
      rw [quoted_iff] at h3 h5 h7
      obtain ⟨w1, n1, b1, e2⟩ := h2
      obtain ⟨w2, n2, b2, e4⟩ := h4
      obtain ⟨w3, n3, b3, e6⟩ := h6
      obtain ⟨q1, q1', e3⟩ := h3
      obtain ⟨q2, q2', e5⟩ := h5
      obtain ⟨q3, q3', e7⟩ := h7
      obtain ⟨p, hp⟩ := List.isSuffixOf_iff_suffix.1 hs.1
      have hl := hs.2
      refine ⟨_, ?_, w1, w2, w3, p, ⟨n1, b1⟩, ⟨n2, b2⟩, ⟨n3, b3⟩, ⟨q1, q1'⟩, ⟨q2, q2'⟩, ⟨?_, ?_, hp.symm⟩, rfl⟩
      · rw [h1, e2, e3, e4, e5, e6, e7]
        simp
      · intro e
        subst e
        rw [← hp] at hl
        simp at hl
      · intro hm
        exact q3' (by rw [← hp]; simp [hm])
    · simp at h
  · rintro ⟨m, rfl, w1, w2, w3, p, ⟨n1, b1⟩, ⟨n2, b2⟩, ⟨n3, b3⟩, ⟨q1, q1'⟩, ⟨q2, q2'⟩, ⟨hp, q3', rfl⟩, rfl⟩
    unfold matchAt
    have h1 := (literal_iff t!"apertium-transfer" _ _).2 (rfl : t!"apertium-transfer" ++
      (w1 ++ '\'' :: (g1 ++ '\'' :: (w2 ++ '\'' :: (g2 ++ '\'' :: (w3 ++ '\'' :: ((p ++ t!"autobil.bin") ++ '\'' :: r)))))) = _)
    have h2 := (spaceQuote_iff _ _).2 ⟨w1, n1, b1, (rfl : w1 ++ '\'' :: (g1 ++ '\'' :: (w2 ++ '\'' :: (g2 ++ '\'' :: (w3 ++ '\'' :: ((p ++ t!"autobil.bin") ++ '\'' :: r))))) = _)⟩
    have h3 := (quoted_iff _ _ _).2 ⟨q1, q1', (rfl : g1 ++ '\'' :: (w2 ++ '\'' :: (g2 ++ '\'' :: (w3 ++ '\'' :: ((p ++ t!"autobil.bin") ++ '\'' :: r)))) = _)⟩
    have h4 := (spaceQuote_iff _ _).2 ⟨w2, n2, b2, (rfl : w2 ++ '\'' :: (g2 ++ '\'' :: (w3 ++ '\'' :: ((p ++ t!"autobil.bin") ++ '\'' :: r))) = _)⟩
    have h5 := (quoted_iff _ _ _).2 ⟨q2, q2', (rfl : g2 ++ '\'' :: (w3 ++ '\'' :: ((p ++ t!"autobil.bin") ++ '\'' :: r)) = _)⟩
    have h6 := (spaceQuote_iff _ _).2 ⟨w3, n3, b3, (rfl : w3 ++ '\'' :: ((p ++ t!"autobil.bin") ++ '\'' :: r) = _)⟩
    have h7 := (quoted_iff _ _ _).2 ⟨(by simp : p ++ t!"autobil.bin" ≠ []),
      (by simp only [List.mem_append, not_or]; exact ⟨q3', by decide⟩), (rfl : (p ++ t!"autobil.bin") ++ '\'' :: r = _)⟩
    have e : (t!"apertium-transfer" ++ w1 ++ '\'' :: g1 ++ '\'' :: w2 ++ '\'' :: g2 ++ '\'' :: w3 ++ '\'' :: (p ++ t!"autobil.bin") ++ ['\'']) ++ r
      = t!"apertium-transfer" ++
      (w1 ++ '\'' :: (g1 ++ '\'' :: (w2 ++ '\'' :: (g2 ++ '\'' :: (w3 ++ '\'' :: ((p ++ t!"autobil.bin") ++ '\'' :: r)))))) := by
      simp only [List.append_assoc, List.cons_append, List.nil_append]
    rw [e, h1]
    simp only [h2, h3, h4, h5, h6, h7]
    rw [if_pos]
    refine ⟨List.isSuffixOf_iff_suffix.2 ⟨p, rfl⟩, ?_⟩
    have : 0 < p.length := List.length_pos_iff.2 hp
    simp only [List.length_append]
    omega

theorem matchAt_none {s : Text} (h : ¬ HasOld s) : matchAt s = none := by
  cases hm : matchAt s with
  | none => rfl
  | some x =>
    obtain ⟨g1, g2, g3, r⟩ := x
    obtain ⟨m, e, ho⟩ := (matchAt_iff _ _ _ _ _).1 hm
    exact absurd ⟨[], m, r, g1, g2, g3, by simp [e], ho⟩ h

theorem convertN_id (n : Nat) (s : Text) (h : ¬ HasOld s) : convertN n s = s := by
  induction n generalizing s with
  | zero => rfl
  | succ n ih =>
    cases s with
    | nil => rfl
    | cons c s =>
      rw [convertN, matchAt_none h]
      simp only
      rw [ih]
      rintro ⟨a, m, b, g1, g2, g3, e, ho⟩
      exact h ⟨c :: a, m, b, g1, g2, g3, by simp [e], ho⟩

/-- The length of a match. -/
theorem old_length {g1 g2 g3 m : Text} (h : OldTransfer g1 g2 g3 m) : 0 < m.length := by
  obtain ⟨w1, w2, w3, p, -, -, -, -, -, -, rfl⟩ := h
  simp

/-- More places than the text has make no difference. -/
theorem convertN_fuel (n : Nat) (s : Text) (h : s.length ≤ n) : convertN n s = convert s := by
  unfold convert
  suffices H : ∀ (n k : Nat) (s : Text), s.length ≤ n → s.length ≤ k → convertN n s = convertN k s from
    H n _ s h (Nat.le_refl _)
  clear h n s
  intro n
  induction n with
  | zero =>
    intro k s h1 h2
    have : s = [] := List.length_eq_zero_iff.1 (by omega)
    subst this
    cases k <;> rfl
  | succ n ih =>
    intro k s h1 h2
    cases s with
    | nil => cases k <;> rfl
    | cons c s =>
      cases k with
      | zero => simp at h2
      | succ k =>
        rw [convertN, convertN]
        cases hm : matchAt (c :: s) with
        | none => simp only; rw [ih k s (by simpa using h1) (by simpa using h2)]
        | some x =>
          obtain ⟨g1, g2, g3, r⟩ := x
          obtain ⟨m, e, ho⟩ := (matchAt_iff _ _ _ _ _).1 hm
          have hl := old_length ho
          have he := congrArg List.length e
          simp only [List.length_append, List.length_cons] at he h1 h2
          simp only
          rw [ih k r (by omega) (by omega)]

theorem convert_step (c : Char) (s : Text) (h : matchAt (c :: s) = none) : convert (c :: s) = c :: convert s := by
  unfold convert
  rw [List.length_cons, convertN, h]

theorem convert_match {s g1 g2 g3 r : Text} (h : matchAt s = some (g1, g2, g3, r)) :
    convert s = replacement g1 g2 g3 ++ convert r := by
  obtain ⟨m, e, ho⟩ := (matchAt_iff _ _ _ _ _).1 h
  have hl := old_length ho
  have he := congrArg List.length e
  simp only [List.length_append] at he
  cases s with
  | nil => simp at he; omega
  | cons c s =>
    rw [convert, List.length_cons, convertN, h]
    simp only
    rw [convertN_fuel]
    simp at he; omega

/-! ### A match in the result comes from a match in the mode -/

/-- The text written in place of a bar. -/
structure Block (b : Text) : Prop where
  start : ∃ x, b = ' ' :: '|' :: x
  stop : ∃ x, b = x ++ [' ']
  quote : '\'' ∉ b
  name : ¬ t!"apertium-transfer" <:+: b

/-- `Sim m o`: `o` is `m` with blocks in place of bars and of the white space around them. -/
inductive Sim : Text → Text → Prop
  | nil : Sim [] []
  | keep (c : Char) {s t : Text} : Sim s t → Sim (c :: s) (c :: t)
  | bar {l r b s t : Text} : Blank l → Blank r → Block b → Sim s t → Sim (l ++ '|' :: (r ++ s)) (b ++ t)

theorem Sim.refl (s : Text) : Sim s s := by
  induction s with
  | nil => exact .nil
  | cons c s ih => exact .keep c ih

theorem Sim.append_left (p : Text) {s t : Text} (h : Sim s t) : Sim (p ++ s) (p ++ t) := by
  induction p with
  | nil => exact h
  | cons c p ih => exact .keep c ih

/-- A character that does not begin a block comes from the mode. -/
theorem Sim.char {m t : Text} {c : Char} (h : Sim m (c :: t)) (hc : c ≠ ' ' ∨ ∀ x, t ≠ '|' :: x) :
    ∃ s, m = c :: s ∧ Sim s t := by
  generalize ho : c :: t = o at h
  cases h with
  | nil => simp at ho
  | keep d h => simp at ho; obtain ⟨rfl, rfl⟩ := ho; exact ⟨_, rfl, h⟩
  | bar hl hr hb h =>
    obtain ⟨x, rfl⟩ := hb.start
    simp at ho
    rcases hc with hc | hc
    · exact absurd ho.1 hc
    · exact absurd ho.2 (hc _)

theorem Sim.chars {m r : Text} (p : Text) (hp : ' ' ∉ p) (h : Sim m (p ++ r)) : ∃ s, m = p ++ s ∧ Sim s r := by
  induction p generalizing m with
  | nil => exact ⟨m, rfl, h⟩
  | cons c p ih =>
    obtain ⟨s, rfl, hs⟩ := h.char (Or.inl (fun e => hp (by simp [e])))
    obtain ⟨s', rfl, hs'⟩ := ih (fun h => hp (by simp [h])) hs
    exact ⟨s', rfl, hs'⟩

theorem Sim.spaces {m r : Text} {w : Text} (hw : Blank w) (h : Sim m (w ++ '\'' :: r)) : ∃ s, m = w ++ '\'' :: s ∧ Sim s r := by
  induction w generalizing m with
  | nil =>
    obtain ⟨s, rfl, hs⟩ := h.char (Or.inl (by decide))
    exact ⟨s, rfl, hs⟩
  | cons c w ih =>
    have hw' : Blank w := fun d hd => hw d (by simp [hd])
    obtain ⟨s, rfl, hs⟩ := h.char (Or.inr (by
      intro x e
      cases w with
      | nil => simp at e
      | cons d w => simp at e; exact absurd (hw' d (by simp)) (by rw [e.1]; decide)))
    obtain ⟨s', rfl, hs'⟩ := ih hw' hs
    exact ⟨s', rfl, hs'⟩

theorem blank_quote {l : Text} (h : Blank l) : '\'' ∉ l := fun hc => absurd (h _ hc) (by decide)

/-- A quote comes from the mode, and so does what is before it. -/
theorem Sim.quote {m g r : Text} (hg : '\'' ∉ g) (h : Sim m (g ++ '\'' :: r)) :
    ∃ g' s, m = g' ++ '\'' :: s ∧ Sim g' g ∧ Sim s r ∧ '\'' ∉ g' := by
  generalize ho : g ++ '\'' :: r = o at h
  induction h generalizing g with
  | nil => simp at ho
  | keep c h ih =>
    cases g with
    | nil => simp at ho; obtain ⟨rfl, rfl⟩ := ho; exact ⟨[], _, rfl, .nil, h, by simp⟩
    | cons d g =>
      simp at ho
      obtain ⟨rfl, ho⟩ := ho
      obtain ⟨g', s, rfl, h1, h2, h3⟩ := ih (fun h => hg (by simp [h])) ho
      refine ⟨d :: g', s, rfl, .keep d h1, h2, ?_⟩
      have : ¬ '\'' = d := fun e => hg (by rw [e]; simp)
      simp [this, h3]
  | @bar l r' b s t hl hr hb h ih =>
    rw [List.append_eq_append_iff] at ho
    rcases ho with ⟨q, e, hq⟩ | ⟨q, e, hq⟩
    · cases q with
      | nil =>
        rw [List.append_nil] at e
        subst e
        obtain ⟨g', s', rfl, h1, h2, h3⟩ := ih (g := []) (by simp) (by simpa using hq)
        refine ⟨l ++ '|' :: (r' ++ g'), s', by simp, ?_, h2, by simp [blank_quote hl, blank_quote hr, h3]⟩
        simpa using Sim.bar hl hr hb h1
      | cons d q => simp at hq; exact absurd (by rw [e, hq.1]; simp) hb.quote
    · obtain ⟨g', s', rfl, h1, h2, h3⟩ := ih (g := q) (fun h => hg (by rw [e]; simp [h])) hq.symm
      refine ⟨l ++ '|' :: (r' ++ g'), s', by simp, ?_, h2, by simp [blank_quote hl, blank_quote hr, h3]⟩
      rw [e]
      exact Sim.bar hl hr hb h1

theorem last_mem {u v q : Text} {z x : Char} (h : u ++ [z] = v ++ x :: q) : z ∈ x :: q := by
  have h2 := congrArg List.getLast? h
  rw [List.getLast?_append, List.getLast?_append] at h2
  cases hgl : (x :: q).getLast? with
  | none => simp at hgl
  | some y => rw [hgl] at h2; simp at h2; exact h2 ▸ List.mem_of_getLast? hgl

/-- A word at the end of the result comes from the mode. -/
theorem Sim.suffix {m p w : Text} (hw : ' ' ∉ w) (h : Sim m (p ++ w)) : ∃ p', m = p' ++ w ∧ Sim p' p := by
  generalize ho : p ++ w = o at h
  induction h generalizing p with
  | nil => simp at ho; obtain ⟨rfl, rfl⟩ := ho; exact ⟨[], rfl, .nil⟩
  | @keep c s t h ih =>
    cases p with
    | nil =>
      simp at ho
      have := Sim.keep c h
      rw [← ho] at this
      have h2 := this
      rw [← List.append_nil w] at h2
      obtain ⟨s', e, hs⟩ := h2.chars w hw
      generalize hnil : ([] : Text) = z at hs
      cases hs with
      | nil => exact ⟨[], by simpa using e, .nil⟩
      | keep => simp at hnil
      | bar _ _ hb _ => obtain ⟨x, rfl⟩ := hb.start; simp at hnil
    | cons d p =>
      simp at ho
      obtain ⟨rfl, ho⟩ := ho
      obtain ⟨p', rfl, h1⟩ := ih ho
      exact ⟨d :: p', rfl, .keep d h1⟩
  | @bar l r' b s t hl hr hb h ih =>
    have : ∃ q, p = b ++ q ∧ t = q ++ w := by
      rw [List.append_eq_append_iff] at ho
      rcases ho with ⟨q, e, hq⟩ | ⟨q, e, hq⟩
      · obtain ⟨x, hx⟩ := hb.stop
        cases q with
        | nil => exact ⟨[], by simpa using e.symm, by simpa using hq.symm⟩
        | cons d q =>
          have : ' ' ∈ d :: q := by
            rw [hx] at e
            exact last_mem e
          exact absurd (by rw [hq]; simp only [List.mem_append]; exact Or.inl this) hw
      · exact ⟨q, e, hq⟩
    obtain ⟨q, rfl, rfl⟩ := this
    obtain ⟨p', rfl, h1⟩ := ih (p := q) rfl
    exact ⟨l ++ '|' :: (r' ++ p'), by simp, .bar hl hr hb h1⟩

/-- The place where the name of the program begins comes from the mode. -/
theorem Sim.place {m a r : Text} (h : Sim m (a ++ (t!"apertium-transfer" ++ r))) :
    ∃ a' s, m = a' ++ s ∧ Sim s (t!"apertium-transfer" ++ r) := by
  generalize ho : a ++ (t!"apertium-transfer" ++ r) = o at h
  induction h generalizing a with
  | nil => simp at ho
  | @keep c s t h ih =>
    cases a with
    | nil => rw [List.nil_append] at ho; exact ⟨[], c :: s, rfl, by rw [ho]; exact .keep c h⟩
    | cons d a =>
      rw [List.cons_append, List.cons.injEq] at ho
      obtain ⟨a', s', rfl, h1⟩ := ih ho.2
      exact ⟨c :: a', s', rfl, h1⟩
  | @bar l r' b s t hl hr hb h ih =>
    have : ∃ q, t = q ++ (t!"apertium-transfer" ++ r) := by
      rw [List.append_eq_append_iff] at ho
      rcases ho with ⟨q, e, hq⟩ | ⟨q, e, hq⟩
      · cases q with
        | nil => exact ⟨[], by rw [List.nil_append] at hq; rw [hq, List.nil_append]⟩
        | cons d q =>
          exfalso
          obtain ⟨x, hx⟩ := hb.stop
          have hsp : ' ' ∈ d :: q := by
            rw [hx] at e
            exact last_mem e
          rw [List.append_eq_append_iff] at hq
          rcases hq with ⟨z, e2, -⟩ | ⟨z, e2, -⟩
          · exact hb.name ⟨a, z, by rw [e, e2]; simp⟩
          · have : ' ' ∈ t!"apertium-transfer" := by rw [e2]; exact List.mem_append_left _ hsp
            exact absurd this (by decide)
      · exact ⟨q, hq⟩
    obtain ⟨q, hq⟩ := this
    obtain ⟨a', s', rfl, h1⟩ := ih hq.symm
    exact ⟨l ++ '|' :: (r' ++ a'), s', by simp, h1⟩

theorem Sim.ne {g' g : Text} (h : Sim g' g) (hg : g ≠ []) : g' ≠ [] := by
  cases h with
  | nil => exact absurd rfl hg
  | keep => simp
  | bar => simp

theorem Sim.old {m o : Text} (h : Sim m o) (ho : HasOld o) : HasOld m := by
  obtain ⟨a, _, b, g1, g2, g3, rfl, w1, w2, w3, p, ⟨n1, b1⟩, ⟨n2, b2⟩, ⟨n3, b3⟩, ⟨q1, q1'⟩, ⟨q2, q2'⟩, ⟨hp, q3', rfl⟩, rfl⟩ := ho
  have e : a ++ (t!"apertium-transfer" ++ w1 ++ '\'' :: g1 ++ '\'' :: w2 ++ '\'' :: g2 ++ '\'' :: w3 ++ '\'' :: (p ++ t!"autobil.bin") ++ ['\'']) ++ b
      = a ++ (t!"apertium-transfer" ++
      (w1 ++ '\'' :: (g1 ++ '\'' :: (w2 ++ '\'' :: (g2 ++ '\'' :: (w3 ++ '\'' :: ((p ++ t!"autobil.bin") ++ '\'' :: b))))))) := by
      simp only [List.append_assoc, List.cons_append, List.nil_append]
  rw [e] at h
  obtain ⟨a', s0, rfl, j0⟩ := h.place
  obtain ⟨s1, rfl, j1⟩ := j0.chars t!"apertium-transfer" (by decide)
  obtain ⟨s2, rfl, j2⟩ := j1.spaces b1
  obtain ⟨g1', s3, rfl, h1, j3, k1⟩ := j2.quote q1'
  obtain ⟨s4, rfl, j4⟩ := j3.spaces b2
  obtain ⟨g2', s5, rfl, h2, j5, k2⟩ := j4.quote q2'
  obtain ⟨s6, rfl, j6⟩ := j5.spaces b3
  obtain ⟨g3', s, rfl, h3, -, k3⟩ := j6.quote (g := p ++ t!"autobil.bin") (by simp only [List.mem_append, not_or]; exact ⟨q3', by decide⟩)
  obtain ⟨p', rfl, h4⟩ := h3.suffix (by decide)
  refine ⟨a', _, s, g1', g2', _, ?_, w1, w2, w3, p', ⟨n1, b1⟩, ⟨n2, b2⟩, ⟨n3, b3⟩, ⟨h1.ne q1, k1⟩, ⟨h2.ne q2, k2⟩,
    ⟨h4.ne hp, fun h => k3 (by simp [h]), rfl⟩, rfl⟩
  simp only [List.append_assoc, List.cons_append, List.nil_append]

/-- What is added before the first stage and after the last one brings no match. -/
theorem old_ends {d o e : Text} (hd : d = [] ∨ d = t!"apertium-wblank-detach | ") (he : '\'' ∉ e) (h : HasOld (d ++ o ++ e)) :
    HasOld o := by
  obtain ⟨a, m, b, g1, g2, g3, hm, ho⟩ := h
  have ho' := ho
  obtain ⟨w1, w2, w3, p, -, -, -, -, -, -, em⟩ := ho
  -- the match ends with a quote
  have h1 : ∃ b', d ++ o = a ++ m ++ b' := by
    rw [List.append_eq_append_iff] at hm
    rcases hm with ⟨q, e1, e2⟩ | ⟨q, e1, e2⟩
    · cases q with
      | nil => exact ⟨[], by simpa using e1.symm⟩
      | cons x q =>
        exfalso
        have : '\'' ∈ x :: q := by
          rw [em, ← List.append_assoc] at e1
          exact last_mem e1
        exact he (by rw [e2]; exact List.mem_append_left _ this)
    · exact ⟨q, e1⟩
  obtain ⟨b', h1⟩ := h1
  rcases hd with rfl | hd
  · exact ⟨a, m, b', g1, g2, g3, by simpa using h1, ho'⟩
  · rw [List.append_assoc, List.append_eq_append_iff] at h1
    rcases h1 with ⟨q, e1, e2⟩ | ⟨q, e1, e2⟩
    · exact ⟨q, m, b', g1, g2, g3, by simpa using e2, ho'⟩
    · cases q with
      | nil => exact ⟨[], m, b', g1, g2, g3, by simpa using e2.symm, ho'⟩
      | cons x q =>
        exfalso
        have e3 : ∃ z, (x :: q) ++ o = t!"apertium-transfer" ++ z := by
          rw [← e2, em]
          simp only [List.append_assoc]
          exact ⟨_, rfl⟩
        obtain ⟨z, e3⟩ := e3
        have hsp : ' ' ∈ x :: q := by
          rw [hd] at e1
          exact last_mem (u := t!"apertium-wblank-detach |") e1
        rw [List.append_eq_append_iff] at e3
        rcases e3 with ⟨y, e4, -⟩ | ⟨y, e4, -⟩
        · have : ' ' ∈ t!"apertium-transfer" := by rw [e4]; exact List.mem_append_left _ hsp
          exact absurd this (by decide)
        · have : t!"apertium-transfer" <:+: d := ⟨a, y, by rw [e1, e4]; simp⟩
          rw [hd] at this
          exact absurd this (by decide)

/-! ### The stages of the result -/

theorem intercalate_append (sep : Text) (xs ys : List Text) (hx : xs ≠ []) (hy : ys ≠ []) :
    List.intercalate sep (xs ++ ys) = List.intercalate sep xs ++ sep ++ List.intercalate sep ys := by
  induction xs with
  | nil => exact absurd rfl hx
  | cons x xs ih =>
    cases xs with
    | nil =>
      cases ys with
      | nil => exact absurd rfl hy
      | cons y ys => rw [List.singleton_append, intercalate_cons₂, intercalate_one]
    | cons x' xs =>
      rw [List.cons_append, List.cons_append, intercalate_cons₂, intercalate_cons₂, ← List.cons_append, ih (by simp)]
      simp

theorem withHelper_ne (h c : Prop) [Decidable h] [Decidable c] (t : Text) : withHelper h c t ≠ [] := by
  unfold withHelper
  split
  · simp
  · split
    · simp
    · split <;> simp

theorem addHelper_eq (h c : Prop) [Decidable h] [Decidable c] (t : Text) :
    addHelper (decide h) (decide c) t = List.intercalate t!" | " (withHelper h c t) := by
  unfold addHelper withHelper
  simp only [hasSub_eq, decide_eq_true_iff, Bool.or_eq_true, Bool.and_eq_true, Bool.not_eq_true', decide_eq_false_iff_not]
  split
  · rw [intercalate_one]
  · split
    · rw [intercalate_cons₂, intercalate_one]; simp
    · split
      · rw [intercalate_cons₂, intercalate_one]; simp
      · rw [intercalate_one]

theorem join_helpers (h c : Prop) [Decidable h] [Decidable c] (ts : List Text) :
    join (ts.map (addHelper (decide h) (decide c))) = List.intercalate t!" | " (ts.flatMap (withHelper h c)) := by
  rw [join_eq]
  induction ts with
  | nil => rfl
  | cons t ts ih =>
    cases ts with
    | nil => simp only [List.map_cons, List.map_nil, List.flatMap_cons, List.flatMap_nil, List.append_nil, intercalate_one, addHelper_eq]
    | cons t' ts =>
      have hne : (t' :: ts).flatMap (withHelper h c) ≠ [] := by simp [List.flatMap_cons, withHelper_ne]
      rw [List.flatMap_cons (x := t), intercalate_append _ _ _ (withHelper_ne h c t) hne, ← ih, ← addHelper_eq]
      simp only [List.map_cons, intercalate_cons₂]

/-- The ends of a stage with its helper. -/
theorem addHelper_parts (h c : Bool) (t : Text) : ∃ d e, addHelper h c t = d ++ t ++ e ∧
    (d = [] ∨ d = t!"apertium-wblank-detach | ") ∧ (e = [] ∨ e = t!" | apertium-wblank-attach") := by
  unfold addHelper
  split
  · exact ⟨[], [], by simp, Or.inl rfl, Or.inl rfl⟩
  · split
    · exact ⟨[], _, by rw [List.nil_append], Or.inl rfl, Or.inr rfl⟩
    · split
      · exact ⟨_, [], by rw [List.append_nil], Or.inr rfl, Or.inl rfl⟩
      · exact ⟨[], [], by simp, Or.inl rfl, Or.inl rfl⟩

theorem block_parts {d e : Text} (hd : d = [] ∨ d = t!"apertium-wblank-detach | ") (he : e = [] ∨ e = t!" | apertium-wblank-attach") :
    Block (e ++ t!" | " ++ d) := by
  rcases hd with rfl | rfl <;> rcases he with rfl | rfl
  · exact ⟨⟨_, rfl⟩, ⟨t!" |", rfl⟩, by decide, by decide⟩
  · exact ⟨⟨_, rfl⟩, ⟨t!" | apertium-wblank-attach |", rfl⟩, by decide, by decide⟩
  · exact ⟨⟨_, rfl⟩, ⟨t!" | apertium-wblank-detach |", rfl⟩, by decide, by decide⟩
  · exact ⟨⟨_, rfl⟩, ⟨t!" | apertium-wblank-attach | apertium-wblank-detach |", rfl⟩, by decide, by decide⟩

theorem sim_stages (h c : Bool) (ps : List Text) (hne : ps ≠ []) :
    ∃ l core r d o e, List.intercalate ['|'] ps = l ++ core ++ r ∧ Blank l ∧
      List.intercalate t!" | " (ps.map (fun p => addHelper h c (trim p))) = d ++ o ++ e ∧ Sim core o ∧
      (d = [] ∨ d = t!"apertium-wblank-detach | ") ∧ (e = [] ∨ e = t!" | apertium-wblank-attach") := by
  induction ps with
  | nil => exact absurd rfl hne
  | cons p ps ih =>
    obtain ⟨l, r, hp, hl, hr⟩ := trim_spec p
    obtain ⟨d, e, hh, hd, he⟩ := addHelper_parts h c (trim p)
    cases ps with
    | nil =>
      refine ⟨l, trim p, r, d, trim p, e, ?_, hl, ?_, Sim.refl _, hd, he⟩
      · rw [intercalate_one]; exact hp
      · rw [List.map_cons, List.map_nil, intercalate_one]; exact hh
    | cons q ps =>
      obtain ⟨l2, core2, r2, d2, o2, e2, k1, k2, k3, k4, k5, k6⟩ := ih (by simp)
      refine ⟨l, trim p ++ (r ++ '|' :: (l2 ++ core2)), r2, d, trim p ++ ((e ++ t!" | " ++ d2) ++ o2), e2, ?_, hl, ?_,
        Sim.append_left _ (Sim.bar hr k2 (block_parts k5 he) k4), hd, k6⟩
      · rw [intercalate_cons₂, k1]
        conv => lhs; rw [hp]
        simp
      · simp only [List.map_cons] at k3 ⊢
        rw [intercalate_cons₂, k3, hh]
        simp

/-- If the mode has no old-style transfer, the result has none. -/
theorem old_result (h c : Bool) (m : Text) (hm : ¬ HasOld m) :
    ¬ HasOld (List.intercalate t!" | " ((splitBar m).map (fun p => addHelper h c (trim p)))) := by
  obtain ⟨l, core, r, d, o, e, h1, -, h3, h4, h5, h6⟩ := sim_stages h c (splitBar m) (splitBar_ne m)
  rw [h3]
  intro ho
  have ho := old_ends h5 (by rcases h6 with rfl | rfl <;> decide) ho
  obtain ⟨a, x, b, g1, g2, g3, hx, hox⟩ := h4.old ho
  rw [(splitBar_spec m).1] at h1
  exact hm ⟨l ++ a, x, b ++ r, g1, g2, g3, by rw [h1, hx]; simp, hox⟩

/-! ### Occurrences that survive -/

theorem infix_stage {p s : Text} (hp : Solid p) (hb : '|' ∉ p) (h : p <:+: s) : ∃ t ∈ stages s, p <:+: t := by
  have key : ∀ ps : List Text, ps ≠ [] → p <:+: List.intercalate ['|'] ps → ∃ q ∈ ps, p <:+: q := by
    intro ps
    induction ps with
    | nil => intro h; exact absurd rfl h
    | cons q ps ih =>
      intro _ hq
      cases ps with
      | nil => rw [intercalate_one] at hq; exact ⟨q, by simp, hq⟩
      | cons q' ps =>
        rw [intercalate_cons₂, List.append_assoc, List.singleton_append] at hq
        rcases infix_split hb hq with h | h
        · exact ⟨q, by simp, h⟩
        · obtain ⟨x, hx, hx'⟩ := ih (by simp) h
          exact ⟨x, by simp [hx], hx'⟩
  rw [← (splitBar_spec s).1] at h
  obtain ⟨q, hq, hq'⟩ := key _ (splitBar_ne s) h
  exact ⟨trim q, List.mem_map.2 ⟨q, hq, rfl⟩, (infix_trim hp).2 hq'⟩

theorem stage_infix {ts : List Text} {t : Text} (h : t ∈ ts) : t <:+: List.intercalate t!" | " ts := by
  induction ts with
  | nil => simp at h
  | cons q ts ih =>
    cases ts with
    | nil => rw [intercalate_one]; simp at h; rw [h]; exact List.infix_rfl
    | cons q' ts =>
      rw [intercalate_cons₂]
      rcases List.mem_cons.1 h with rfl | h
      · exact ⟨[], t!" | " ++ List.intercalate t!" | " (q' :: ts), by simp⟩
      · exact (ih h).trans ⟨q ++ t!" | ", [], by simp⟩

/-- A word that no match can cut. -/
structure Safe (p : Text) : Prop where
  quote : '\'' ∉ p
  space : ∀ c ∈ p, isSpace c = false
  ne : p ≠ []
  name : ¬ p <:+: t!"apertium-transfer"
  over : ∀ q, q ≠ [] → q <:+ p → ∀ t z, q ++ t ≠ t!"apertium-transfer" ++ z

theorem convert_prefix {p : Text} (hover : ∀ q, q ≠ [] → q <:+ p → ∀ t z, q ++ t ≠ t!"apertium-transfer" ++ z) (t : Text) :
    convert (p ++ t) = p ++ convert t := by
  induction p with
  | nil => rfl
  | cons c p ih =>
    have hn : matchAt (c :: (p ++ t)) = none := by
      cases hm : matchAt (c :: (p ++ t)) with
      | none => rfl
      | some x =>
        obtain ⟨g1, g2, g3, r⟩ := x
        obtain ⟨m, e, w1, w2, w3, p', -, -, -, -, -, -, rfl⟩ := (matchAt_iff _ _ _ _ _).1 hm
        refine absurd ?_ (hover (c :: p) (by simp) List.suffix_rfl t
          (w1 ++ '\'' :: g1 ++ '\'' :: w2 ++ '\'' :: g2 ++ '\'' :: w3 ++ '\'' :: g3 ++ ['\''] ++ r))
        rw [List.cons_append, e]
        simp only [List.append_assoc]
    rw [List.cons_append, convert_step _ _ hn, ih (fun q hq hs => hover q hq (hs.trans (List.suffix_cons c p)))]
    rfl

theorem infix_blank_not {p w : Text} (hp : Safe p) (hw : Blank w) : ¬ p <:+: w := by
  intro h
  obtain ⟨c, hc⟩ := List.exists_mem_of_ne_nil p hp.ne
  have h1 := hp.space c hc
  have h2 := hw c (h.subset hc)
  rw [h1] at h2
  exact absurd h2 (by decide)

theorem infix_append_blank {p x w : Text} (hp : Safe p) (hn : w ≠ []) (hw : Blank w) (h : p <:+: x ++ w) : p <:+: x := by
  cases w with
  | nil => exact absurd rfl hn
  | cons c w =>
    have hc : c ∉ p := fun hc => by
      have h1 := hp.space c hc
      have h2 := hw c (by simp)
      rw [h1] at h2
      exact absurd h2 (by decide)
    rcases infix_split hc h with h | h
    · exact h
    · exact absurd h (infix_blank_not hp (fun d hd => hw d (by simp [hd])))

theorem convertN_infix {p : Text} (hp : Safe p) (n : Nat) (s : Text) (hn : s.length ≤ n) (h : p <:+: s) : p <:+: convert s := by
  induction n generalizing s with
  | zero =>
    have : s = [] := List.length_eq_zero_iff.1 (by omega)
    subst this
    exact absurd (List.infix_nil.1 h) hp.ne
  | succ n ih =>
    cases s with
    | nil => exact absurd (List.infix_nil.1 h) hp.ne
    | cons c s =>
      cases hm : matchAt (c :: s) with
      | none =>
        rcases List.infix_cons_iff.1 h with h | h
        · obtain ⟨t, ht⟩ := h
          rw [← ht, convert_prefix hp.over]
          exact ⟨[], convert t, by simp⟩
        · rw [convert_step _ _ hm]
          exact (ih s (by simpa using hn) h).trans (List.suffix_cons _ _).isInfix
      | some x =>
        obtain ⟨g1, g2, g3, r⟩ := x
        have hm' := hm
        obtain ⟨m, e, ho⟩ := (matchAt_iff _ _ _ _ _).1 hm
        have hl := old_length ho
        have he := congrArg List.length e
        simp only [List.length_append] at he
        obtain ⟨w1, w2, w3, p', ⟨n1, b1⟩, ⟨n2, b2⟩, ⟨n3, b3⟩, ⟨q1, q1'⟩, ⟨q2, q2'⟩, ⟨hp', q3', -⟩, rfl⟩ := ho
        rw [convert_match hm']
        have e' : c :: s = (t!"apertium-transfer" ++
          w1) ++ '\'' :: (g1 ++ '\'' :: (w2 ++ '\'' :: (g2 ++ '\'' :: (w3 ++ '\'' :: (g3 ++ '\'' :: r))))) := by
          rw [e]; simp only [List.append_assoc, List.cons_append, List.nil_append]
        rw [e'] at h
        have hrep : ∀ {x : Text}, p <:+: x → x <:+: replacement g1 g2 g3 → p <:+: replacement g1 g2 g3 ++ convert r :=
          fun h1 h2 => (h1.trans h2).trans ⟨[], convert r, by simp⟩
        rcases infix_split hp.quote h with h | h
        · exact absurd (infix_append_blank hp n1 b1 h) hp.name
        rcases infix_split hp.quote h with h | h
        · exact hrep h ⟨t!"lt-proc -b '" ++ g3 ++ t!"' | apertium-transfer -b '", t!"' '" ++ g2 ++ t!"'", by simp [replacement]⟩
        rcases infix_split hp.quote h with h | h
        · exact absurd h (infix_blank_not hp b2)
        rcases infix_split hp.quote h with h | h
        · exact hrep h ⟨t!"lt-proc -b '" ++ g3 ++ t!"' | apertium-transfer -b '" ++ g1 ++ t!"' '", t!"'", by simp [replacement]⟩
        rcases infix_split hp.quote h with h | h
        · exact absurd h (infix_blank_not hp b3)
        rcases infix_split hp.quote h with h | h
        · exact hrep h ⟨t!"lt-proc -b '", t!"' | apertium-transfer -b '" ++ g1 ++ t!"' '" ++ g2 ++ t!"'", by simp [replacement]⟩
        · have : p <:+: convert r := ih r (by simp only [List.length_cons] at he hn; omega) h
          exact this.trans ⟨replacement g1 g2 g3, [], by simp⟩

theorem modernise_infix {p s : Text} (hp : Safe p) (h : p <:+: s) : p <:+: modernise s := by
  unfold modernise
  split
  · exact h
  · exact convertN_infix hp _ s (Nat.le_refl _) h

/-- A check of `over` for words without the first letters of `apertium-transfer` inside. -/
theorem over_of_prefix {p : Text} (h : ∀ i, i < p.length → ¬ ((p.drop i).isPrefixOf t!"apertium-transfer" ∨ t!"apertium-transfer".isPrefixOf (p.drop i))) :
    ∀ q, q ≠ [] → q <:+ p → ∀ t z, q ++ t ≠ t!"apertium-transfer" ++ z := by
  intro q hq hs t z e
  have hd := List.suffix_iff_eq_drop.1 hs
  have hl := hs.length_le
  have hq' : 0 < q.length := List.length_pos_iff.2 hq
  refine absurd ?_ (h (p.length - q.length) (by omega))
  rw [← hd]
  rw [List.append_eq_append_iff] at e
  rcases e with ⟨x, e, -⟩ | ⟨x, e, -⟩
  · exact Or.inl (List.isPrefixOf_iff_prefix.2 ⟨x, e.symm⟩)
  · exact Or.inr (List.isPrefixOf_iff_prefix.2 ⟨x, e.symm⟩)

theorem safe_helpers : Safe t!"apertium-wblank-" :=
  ⟨by decide, by decide, by decide, by decide, over_of_prefix (by decide)⟩
theorem safe_caps : Safe t!"apertium-restore-caps" :=
  ⟨by decide, by decide, by decide, by decide, over_of_prefix (by decide)⟩

theorem solid_of (p : Text) (h : ∃ c d x y, p = c :: x ∧ p = y ++ [d] ∧ isSpace c = false ∧ isSpace d = false) : Solid p := h

/-! ### The theorems -/

/-- The text that `rewrite` cuts into stages. -/
def prepared (input : Text) : Text := modernise (trim (joinLines input))

theorem rewrite_eq (z : Bool) (input : Text) : rewrite z input =
    List.intercalate t!" | " (((stages (prepared input)).map (addZ z)).flatMap
      (withHelper (t!"apertium-wblank-" <:+: trim (joinLines input)) (t!"apertium-restore-caps" <:+: trim (joinLines input)))) := by
  rw [← join_helpers]
  unfold rewrite stages prepared
  simp only [hasSub_eq, List.map_map]
  rfl

theorem stages_free (s : Text) : ∀ t ∈ stages s, '|' ∉ t ∧ trim t = t := by
  intro t ht
  obtain ⟨p, hp, rfl⟩ := List.mem_map.1 ht
  exact ⟨fun h => (splitBar_spec s).2 p hp (trim_mem h), trim_trim p⟩

theorem stages_ne (s : Text) : stages s ≠ [] := by simp [stages, splitBar_ne]

theorem withHelper_mem {h c : Prop} [Decidable h] [Decidable c] {t x : Text} (hx : x ∈ withHelper h c t) :
    x = t ∨ x = t!"apertium-wblank-attach" ∨ x = t!"apertium-wblank-detach" := by
  unfold withHelper at hx
  split at hx
  · simp at hx; exact Or.inl hx
  · split at hx
    · simp only [List.mem_cons, List.not_mem_nil, or_false] at hx; exact hx.elim (fun h => by simp [h]) (fun h => by simp [h])
    · split at hx
      · simp only [List.mem_cons, List.not_mem_nil, or_false] at hx; exact hx.elim (fun h => by simp [h]) (fun h => by simp [h])
      · simp at hx; exact Or.inl hx

theorem mem_withHelper (h c : Prop) [Decidable h] [Decidable c] (t : Text) : t ∈ withHelper h c t := by
  unfold withHelper
  split
  · simp
  · split
    · simp
    · split <;> simp

theorem joinLines_id {s : Text} (h : '\n' ∉ s) : joinLines s = s := by
  unfold joinLines
  rw [List.filter_eq_self]
  intro c hc
  simp
  intro e
  exact h (e ▸ hc)

theorem intercalate_mem {sep : Text} {ts : List Text} {c : Char} (h : c ∈ List.intercalate sep ts) :
    c ∈ sep ∨ ∃ t ∈ ts, c ∈ t := by
  induction ts with
  | nil => simp [List.intercalate] at h
  | cons t ts ih =>
    cases ts with
    | nil => rw [intercalate_one] at h; exact Or.inr ⟨t, by simp, h⟩
    | cons t' ts =>
      rw [intercalate_cons₂] at h
      rcases List.mem_append.1 h with h | h
      · rcases List.mem_append.1 h with h | h
        · exact Or.inr ⟨t, by simp, h⟩
        · exact Or.inl h
      · rcases ih h with h | ⟨x, hx, hx'⟩
        · exact Or.inl h
        · exact Or.inr ⟨x, by simp [hx], hx'⟩

theorem withHelper_congr {h h' c c' : Prop} [Decidable h] [Decidable h'] [Decidable c] [Decidable c'] (e1 : h ↔ h') (e2 : c ↔ c')
    (t : Text) : withHelper h c t = withHelper h' c' t := by
  unfold withHelper
  by_cases h1 : h
  · rw [if_pos h1, if_pos (e1.1 h1)]
  · rw [if_neg h1, if_neg (fun h => h1 (e1.2 h))]
    split
    · rfl
    · by_cases h2 : c
      · rw [if_neg (fun h => h.1 h2), if_neg (fun h => h.1 (e2.1 h2))]
      · have h3 : ¬ c' := fun h => h2 (e2.2 h)
        simp only [h2, h3, not_false_eq_true, true_and]

theorem flatMap_congr' {f g : Text → List Text} (h : ∀ t, f t = g t) (ts : List Text) : ts.flatMap f = ts.flatMap g := by
  rw [show f = g from funext h]

theorem flatMap_id {f : Text → List Text} (ss : List Text) (h : ∀ t ∈ ss, f t = [t]) : ss.flatMap f = ss := by
  induction ss with
  | nil => rfl
  | cons t ss ih => rw [List.flatMap_cons, h t (by simp), ih (fun t ht => h t (by simp [ht]))]; rfl

/-- **C33, the stages**: a mode written as stages separated by bars, with any white space, comes out as the same
stages in the same order, trimmed, with `apertium-wblank-attach` after the analyser and `apertium-wblank-detach` before the
generator, unless the mode has such helpers.  (For modes that are not converted from old-style transfer.) -/
theorem C33_stages (ps : List Text) (hne : ps ≠ []) (hb : ∀ p ∈ ps, '|' ∉ p ∧ '\n' ∉ p)
    (mode : Text) (hmode : mode = List.intercalate ['|'] ps) (hold : t!"lt-proc -b" <:+: mode ∨ ¬ HasOld mode) :
    rewrite false mode = List.intercalate t!" | " ((ps.map trim).flatMap
      (withHelper (t!"apertium-wblank-" <:+: mode) (t!"apertium-restore-caps" <:+: mode))) := by
  have hnl : '\n' ∉ mode := by
    rw [hmode]
    intro h
    rcases intercalate_mem h with h | ⟨p, hp, h⟩
    · simp at h
    · exact (hb p hp).2 h
  have hs : stages mode = ps.map trim := by
    rw [hmode]; unfold stages; rw [splitBar_intercalate ps hne (fun p hp => (hb p hp).1)]
  have hz : (addZ false) = id := by funext t; simp [addZ]
  have hmod : modernise (trim mode) = trim mode := by
    unfold modernise
    split
    · rfl
    · rename_i h
      have sLt : Solid t!"lt-proc -b" := ⟨'l', 'b', _, t!"lt-proc -", rfl, rfl, by decide, by decide⟩
      rw [hasSub_iff, infix_trim sLt] at h
      have ho := hold.resolve_left h
      unfold convert
      rw [convertN_id]
      rintro ⟨a, m, b, g1, g2, g3, e, ho'⟩
      obtain ⟨l, r, e2, -, -⟩ := trim_spec mode
      exact ho ⟨l ++ a, m, b ++ r, g1, g2, g3, by rw [e2, e]; simp, ho'⟩
  rw [rewrite_eq]
  unfold prepared
  rw [joinLines_id hnl, hmod, stages_trim, hs, hz, List.map_id]
  rw [flatMap_congr' (fun t => withHelper_congr
    (infix_trim (s := mode) (p := t!"apertium-wblank-") ⟨'a', '-', _, t!"apertium-wblank", rfl, rfl, by decide, by decide⟩)
    (infix_trim (s := mode) (p := t!"apertium-restore-caps") ⟨'a', 's', _, t!"apertium-restore-cap", rfl, rfl, by decide, by decide⟩) t)]

/-- **C33, the stages are kept**: without the helper programs, the result has the stages of the mode in their order. -/
theorem C33_kept (helpers caps : Prop) [Decidable helpers] [Decidable caps] (ts : List Text)
    (h : ∀ t ∈ ts, t ≠ t!"apertium-wblank-attach" ∧ t ≠ t!"apertium-wblank-detach") :
    (ts.flatMap (withHelper helpers caps)).filter
      (fun t => !decide (t = t!"apertium-wblank-attach") && !decide (t = t!"apertium-wblank-detach")) = ts := by
  induction ts with
  | nil => rfl
  | cons t ts ih =>
    rw [List.flatMap_cons, List.filter_append, ih (fun t ht => h t (by simp [ht]))]
    have ht := h t (by simp)
    unfold withHelper
    split
    · simp [ht.1, ht.2]
    · split
      · simp [ht.1, ht.2]
      · split
        · simp [ht.1, ht.2]
        · simp [ht.1, ht.2]

theorem convert_lt (s : Text) : HasOld s → t!"lt-proc -b" <:+: convert s := by
  suffices H : ∀ n (s : Text), s.length ≤ n → HasOld s → t!"lt-proc -b" <:+: convert s from H _ s (Nat.le_refl _)
  intro n
  induction n with
  | zero =>
    rintro s hs ⟨a, m, b, g1, g2, g3, e, ho⟩
    have := old_length ho
    have := congrArg List.length e
    simp at this; omega
  | succ n ih =>
    intro s hs ho
    cases hm : matchAt s with
    | some x =>
      obtain ⟨g1, g2, g3, r⟩ := x
      rw [convert_match hm]
      exact ⟨[], t!" '" ++ g3 ++ t!"' | apertium-transfer -b '" ++ g1 ++ t!"' '" ++ g2 ++ t!"'" ++ convert r, by simp [replacement]⟩
    | none =>
      obtain ⟨a, m, b, g1, g2, g3, e, ho⟩ := ho
      cases a with
      | nil =>
        have := (matchAt_iff s g1 g2 g3 b).2 ⟨m, by simpa using e, ho⟩
        rw [hm] at this
        exact absurd this (by simp)
      | cons c a =>
        rw [e] at hm hs ⊢
        simp only [List.cons_append] at hm hs ⊢
        rw [convert_step _ _ hm]
        refine (ih _ (by simpa using hs) ⟨a, m, b, g1, g2, g3, rfl, ho⟩).trans (List.suffix_cons _ _).isInfix

/-- Every occurrence of a word in a stage is found in the result. -/
theorem result_infix {p s : Text} (hp : Solid p) (hb : '|' ∉ p) (h c : Prop) [Decidable h] [Decidable c] (hs : p <:+: s) :
    p <:+: List.intercalate t!" | " ((stages s).flatMap (withHelper h c)) := by
  obtain ⟨t, ht, hpt⟩ := infix_stage hp hb hs
  exact hpt.trans (stage_infix (List.mem_flatMap.2 ⟨t, ht, mem_withHelper h c t⟩))

theorem modernise_chars {s : Text} (hn : '\n' ∉ s) : '\n' ∉ modernise s := by
  unfold modernise
  split
  · exact hn
  · suffices H : ∀ n (s : Text), s.length ≤ n → '\n' ∉ s → '\n' ∉ convert s from H _ s (Nat.le_refl _) hn
    clear hn
    intro n
    induction n with
    | zero => intro s hs _; rw [List.length_eq_zero_iff.1 (Nat.le_zero.1 hs)]; simp [convert, convertN]
    | succ n ih =>
      intro s hs hn
      cases s with
      | nil => simp [convert, convertN]
      | cons c s =>
        cases hm : matchAt (c :: s) with
        | none =>
          rw [convert_step _ _ hm]
          have := ih s (by simpa using hs) (fun h => hn (by simp [h]))
          intro h
          rcases List.mem_cons.1 h with h | h
          · exact hn (by rw [h]; simp)
          · exact this h
        | some x =>
          obtain ⟨g1, g2, g3, r⟩ := x
          rw [convert_match hm]
          obtain ⟨m, e, ho⟩ := (matchAt_iff _ _ _ _ _).1 hm
          have hl := old_length ho
          have he := congrArg List.length e
          simp only [List.length_append] at he
          obtain ⟨w1, w2, w3, p, -, -, -, -, -, -, em⟩ := ho
          rw [e, em] at hn
          have := ih r (by omega) (fun h => hn (by simp [h]))
          have h1 : '\n' ∉ g1 := fun h => hn (by simp [h])
          have h2 : '\n' ∉ g2 := fun h => hn (by simp [h])
          have h3 : '\n' ∉ g3 := fun h => hn (by simp [h])
          simp [replacement, h1, h2, h3, this]

theorem withHelper_true {h c : Prop} [Decidable h] [Decidable c] (hh : h) (ts : List Text) :
    ts.flatMap (withHelper h c) = ts := by
  induction ts with
  | nil => rfl
  | cons t ts ih => rw [List.flatMap_cons, ih]; simp [withHelper, hh]

/-- **C33, idempotence**: rewriting a rewritten mode changes nothing, for every text of a mode file. -/
theorem C33_idempotent_partial (input : Text) : rewrite false (rewrite false input) = rewrite false input := by
  have hz : (addZ false) = id := by funext t; simp [addZ]
  -- the first run
  have h0 := rewrite_eq false input
  rw [hz, List.map_id] at h0
  have hmnl : '\n' ∉ trim (joinLines input) := by
    intro h
    have := trim_mem h
    simp [joinLines] at this
  have hprep : prepared input = modernise (trim (joinLines input)) := rfl
  generalize trim (joinLines input) = m at h0 hmnl hprep
  generalize hts : (stages (prepared input)).flatMap
    (withHelper (t!"apertium-wblank-" <:+: m) (t!"apertium-restore-caps" <:+: m)) = ts at h0
  have hfree : ∀ t ∈ ts, '|' ∉ t ∧ trim t = t := by
    intro t ht
    rw [← hts] at ht
    obtain ⟨x, hx, hxt⟩ := List.mem_flatMap.1 ht
    rcases withHelper_mem hxt with rfl | rfl | rfl
    · exact stages_free _ _ hx
    · exact ⟨by decide, by decide⟩
    · exact ⟨by decide, by decide⟩
  have htsne : ts ≠ [] := by
    rw [← hts]
    cases hs : stages (prepared input) with
    | nil => exact absurd hs (stages_ne _)
    | cons t r => simp [withHelper_ne]
  have hstages := stages_join ts htsne hfree
  have hpnl : '\n' ∉ prepared input := by rw [hprep]; exact modernise_chars hmnl
  have hmem : ∀ t ∈ stages (prepared input), '\n' ∉ t := by
    intro t ht hnl
    obtain ⟨p, hp, rfl⟩ := List.mem_map.1 ht
    apply hpnl
    rw [← (splitBar_spec (prepared input)).1]
    have : ∀ ps : List Text, p ∈ ps → p <:+: List.intercalate ['|'] ps := by
      intro ps
      induction ps with
      | nil => intro h; simp at h
      | cons q ps ih =>
        intro h
        cases ps with
        | nil => rw [intercalate_one]; simp at h; rw [h]; exact List.infix_rfl
        | cons q' ps =>
          rw [intercalate_cons₂]
          rcases List.mem_cons.1 h with rfl | h
          · exact ⟨[], ['|'] ++ List.intercalate ['|'] (q' :: ps), by simp⟩
          · exact (ih h).trans ⟨q ++ ['|'], [], by simp⟩
    exact (this _ hp).subset (trim_mem hnl)
  have honl : '\n' ∉ rewrite false input := by
    rw [h0]
    intro h
    rcases intercalate_mem h with h | ⟨t, ht, h⟩
    · exact absurd h (by decide)
    · rw [← hts] at ht
      obtain ⟨x, hx, hxt⟩ := List.mem_flatMap.1 ht
      rcases withHelper_mem hxt with rfl | rfl | rfl
      · exact hmem _ hx h
      · exact absurd h (by decide)
      · exact absurd h (by decide)
  -- the second run
  have h1 := rewrite_eq false (rewrite false input)
  rw [hz, List.map_id] at h1
  rw [h1]
  have hp2 : prepared (rewrite false input) = modernise (trim (rewrite false input)) := by
    unfold prepared; rw [joinLines_id honl]
  rw [joinLines_id honl]
  have sLt : Solid t!"lt-proc -b" := ⟨'l', 'b', _, t!"lt-proc -", rfl, rfl, by decide, by decide⟩
  have sH : Solid t!"apertium-wblank-" := ⟨'a', '-', _, t!"apertium-wblank", rfl, rfl, by decide, by decide⟩
  have sC : Solid t!"apertium-restore-caps" := ⟨'a', 's', _, t!"apertium-restore-cap", rfl, rfl, by decide, by decide⟩
  -- no conversion
  have hmod : modernise (trim (rewrite false input)) = trim (rewrite false input) := by
    by_cases hlt : t!"lt-proc -b" <:+: prepared input
    · have : t!"lt-proc -b" <:+: trim (rewrite false input) := by
        rw [infix_trim sLt, h0, ← hts]
        exact result_infix sLt (by decide) _ _ hlt
      unfold modernise
      rw [if_pos ((hasSub_iff _ _).2 this)]
    · have hnlt : ¬ t!"lt-proc -b" <:+: m := by
        intro h
        apply hlt
        rw [hprep]
        unfold modernise
        rw [if_pos ((hasSub_iff _ _).2 h)]
        exact h
      have hpc : prepared input = convert m := by
        rw [hprep]
        unfold modernise
        rw [if_neg (by rw [hasSub_iff]; exact hnlt)]
      have hno : ¬ HasOld m := fun h => hlt (by rw [hpc]; exact convert_lt m h)
      have hpm : prepared input = m := by
        rw [hpc]; exact convertN_id _ _ hno
      have hno2 := old_result (decide (t!"apertium-wblank-" <:+: m)) (decide (t!"apertium-restore-caps" <:+: m)) m hno
      have e2 : rewrite false input = List.intercalate t!" | " ((splitBar m).map (fun p =>
          addHelper (decide (t!"apertium-wblank-" <:+: m)) (decide (t!"apertium-restore-caps" <:+: m)) (trim p))) := by
        rw [h0, ← hts, hpm, ← join_helpers, join_eq]
        unfold stages
        rw [List.map_map]
        rfl
      rw [← e2] at hno2
      unfold modernise
      split
      · rfl
      · unfold convert
        rw [convertN_id]
        rintro ⟨a, x, b, g1, g2, g3, e, ho⟩
        obtain ⟨l, r, e3, -, -⟩ := trim_spec (rewrite false input)
        exact hno2 ⟨l ++ a, x, b ++ r, g1, g2, g3, by rw [e3, e]; simp, ho⟩
  rw [hp2, hmod, stages_trim, h0, hstages]
  -- no helper is added
  by_cases hh2 : t!"apertium-wblank-" <:+: trim (List.intercalate t!" | " ts)
  · rw [withHelper_true hh2]
  · have hh2' := hh2
    rw [infix_trim sH] at hh2'
    have hhm : ¬ t!"apertium-wblank-" <:+: m := by
      intro h
      apply hh2'
      rw [← hts]
      exact result_infix sH (by decide) _ _ (by rw [hprep]; exact modernise_infix safe_helpers h)
    have hsame : ∀ t ∈ stages (prepared input), withHelper (t!"apertium-wblank-" <:+: m) (t!"apertium-restore-caps" <:+: m) t = [t] := by
      intro t ht
      have hx : ∀ x ∈ withHelper (t!"apertium-wblank-" <:+: m) (t!"apertium-restore-caps" <:+: m) t, ¬ t!"apertium-wblank-" <:+: x := by
        intro x hx hi
        apply hh2'
        refine hi.trans (stage_infix ?_)
        rw [← hts]
        exact List.mem_flatMap.2 ⟨t, ht, hx⟩
      unfold withHelper at hx ⊢
      split
      · rfl
      · rename_i h1
        rw [if_neg h1] at hx
        split
        · rename_i h2
          rw [if_pos h2] at hx
          exact absurd (by decide) (hx t!"apertium-wblank-attach" (by simp))
        · rename_i h2
          rw [if_neg h2] at hx
          split
          · rename_i h3
            rw [if_pos h3] at hx
            exact absurd (by decide) (hx t!"apertium-wblank-detach" (by simp))
          · rfl
    have hts2 : ts = stages (prepared input) := by rw [← hts, flatMap_id _ hsame]
    have hcaps : t!"apertium-restore-caps" <:+: m → t!"apertium-restore-caps" <:+: trim (List.intercalate t!" | " ts) := by
      intro h
      rw [infix_trim sC, ← hts]
      exact result_infix sC (by decide) _ _ (by rw [hprep]; exact modernise_infix safe_caps h)
    have : ∀ t ∈ ts, withHelper (t!"apertium-wblank-" <:+: trim (List.intercalate t!" | " ts))
        (t!"apertium-restore-caps" <:+: trim (List.intercalate t!" | " ts)) t = [t] := by
      intro t ht
      rw [hts2] at ht
      have hs := hsame t ht
      unfold withHelper at hs ⊢
      rw [if_neg hhm] at hs
      rw [if_neg hh2]
      split at hs
      · simp at hs
      · rename_i h2
        rw [if_neg h2]
        split at hs
        · simp at hs
        · rename_i h3
          rw [if_neg]
          rintro ⟨h4, h5⟩
          exact h3 ⟨fun h => h4 (hcaps h), h5⟩
    rw [flatMap_id _ this]

/-- **C33, old-style transfer**: the first call `apertium-transfer 'a' 'b' 'c'` with a bilingual dictionary `c` becomes
`lt-proc -b 'c' | apertium-transfer -b 'a' 'b'`, the text before stays, and the text after is treated in the same way. -/
theorem C33_modern (a m b g1 g2 g3 : Text) (hm : OldTransfer g1 g2 g3 m)
    (hfirst : ∀ x y, a = x ++ y → y ≠ [] → ¬ ∃ m' b' g1' g2' g3', y ++ m ++ b = m' ++ b' ∧ OldTransfer g1' g2' g3' m') :
    convert (a ++ m ++ b) =
      a ++ (t!"lt-proc -b '" ++ g3 ++ t!"' | apertium-transfer -b '" ++ g1 ++ t!"' '" ++ g2 ++ t!"'") ++ convert b := by
  induction a with
  | nil =>
    rw [List.nil_append, convert_match ((matchAt_iff _ _ _ _ _).2 ⟨m, rfl, hm⟩)]
    rfl
  | cons c a ih =>
    have hn : matchAt (c :: (a ++ m ++ b)) = none := by
      cases hx : matchAt (c :: (a ++ m ++ b)) with
      | none => rfl
      | some x =>
        obtain ⟨g1', g2', g3', b'⟩ := x
        obtain ⟨m', e, ho⟩ := (matchAt_iff _ _ _ _ _).1 hx
        exact absurd ⟨m', b', g1', g2', g3', by simpa using e, ho⟩ (hfirst [] (c :: a) rfl (by simp))
    have := ih (fun x y e hy => hfirst (c :: x) y (by rw [e]; rfl) hy)
    simp only [List.cons_append] at this ⊢
    rw [convert_step _ _ hn, this]

/-- **C33, the option `-z`**: a stage without it gets it after the name of the program. -/
theorem C33_option (name args : Text) (hname : ∀ c ∈ name, isBreak c = false) (hargs : args = [] ∨ ∃ x, args = ' ' :: x)
    (h : ¬ t!" -z" <:+: name ++ args) : addZ true (name ++ args) = name ++ t!" -z" ++ args := by
  have h1 : (name ++ args).takeWhile (fun c => !isBreak c) = name ∧ (name ++ args).dropWhile (fun c => !isBreak c) = args := by
    rcases hargs with rfl | ⟨x, rfl⟩
    · rw [List.append_nil]
      clear h
      induction name with
      | nil => exact ⟨rfl, rfl⟩
      | cons c n ih =>
        have := ih (fun d hd => hname d (by simp [hd]))
        simp [hname c (by simp), this.1, this.2]
    · exact takeWhile_stop (fun c hc => by simp [hname c hc]) (by decide) x
  unfold addZ
  rw [if_pos ⟨rfl, by rw [hasSub_iff]; exact h⟩, h1.1, h1.2]

/-- **C33 fails with the option `-z`**: the helper programs are added after the option, so they get it only in a second
rewriting.  (They ignore it, and flush at every NUL anyway.) -/
theorem C33_option_violation :
    rewrite true t!"lt-proc 'a.automorf.bin' | x" = t!"lt-proc -z 'a.automorf.bin' | apertium-wblank-attach | x -z" ∧
    rewrite true (rewrite true t!"lt-proc 'a.automorf.bin' | x") =
      t!"lt-proc -z 'a.automorf.bin' | apertium-wblank-attach -z | x -z" := by
  constructor <;> decide +kernel

/-- The lines of a mode are put together without a separator: two words can become one. -/
theorem C33_lines_violation : rewrite false t!"cat\nfile | x" = t!"catfile | x" := by decide +kernel

/-! ### Examples -/

/-- A mode of a language pair. -/
def exMode : Text := t!"lt-proc 'a.automorf.bin' |  apertium-tagger -g 'a.prob'|apertium-transfer 'a.t1x' 'a.t1x.bin'  'a.autobil.bin' | lt-proc -g 'a.autogen.bin'\n"

example : rewrite false exMode = t!"lt-proc 'a.automorf.bin' | apertium-wblank-attach | apertium-tagger -g 'a.prob' | lt-proc -b 'a.autobil.bin' | apertium-transfer -b 'a.t1x' 'a.t1x.bin' | apertium-wblank-detach | lt-proc -g 'a.autogen.bin'" := by
  decide +kernel

/-- The hypotheses of `C33_stages` hold of a mode with an analyser and a generator. -/
example : ([t!"lt-proc 'a.automorf.bin' ", t!" lt-proc -b 'a.autobil.bin'", t!"lt-proc -g 'a.autogen.bin'"] : List Text) ≠ [] ∧
    (∀ p ∈ [t!"lt-proc 'a.automorf.bin' ", t!" lt-proc -b 'a.autobil.bin'", t!"lt-proc -g 'a.autogen.bin'"], '|' ∉ p ∧ '\n' ∉ p) ∧
    t!"lt-proc -b" <:+: List.intercalate ['|'] [t!"lt-proc 'a.automorf.bin' ", t!" lt-proc -b 'a.autobil.bin'", t!"lt-proc -g 'a.autogen.bin'"] := by
  decide

/-- An old-style call. -/
example : OldTransfer t!"a" t!"b" t!"c.autobil.bin" t!"apertium-transfer 'a' 'b'  'c.autobil.bin'" :=
  ⟨t!" ", t!" ", t!"  ", t!"c.", by simp [Blank, isSpace], by simp [Blank, isSpace], by simp [Blank, isSpace], by simp, by simp, by simp, rfl⟩

end Verif.Mode
