import Verif.Parts.Props
/-!
# C77: the parts that the rules define (`def-attr`)
-/
namespace Verif.Parts
open Verif.Transfer
open Verif.Regex (PlainItems Same tagText itemText optimizeRegex reOf search)

/-- The tags, but for case, are one of the listed sequences. -/
def Listed (fold : Char → Char) (items : List (List Text)) (ts : List Text) : Prop := ∃ it ∈ items, ts.map (·.map fold) = it.map (·.map fold)

variable {fold : Char → Char}

theorem tagText_cons (t : Text) (ts : List Text) : tagText (t :: ts) = '<' :: t ++ '>' :: tagText ts := by simp [tagText]

/-- What comes before the first `>`. -/
theorem split_gt {a b s t : Text} (ha : '>' ∉ a) (hb : '>' ∉ b) (h : a ++ '>' :: s = b ++ '>' :: t) : a = b ∧ s = t := by
  induction a generalizing b with
  | nil =>
    cases b with
    | nil => exact ⟨rfl, by simpa using h⟩
    | cons c b =>
      simp only [List.nil_append, List.cons_append, List.cons.injEq] at h
      exact absurd (by rw [h.1]; simp) hb
  | cons d a ih =>
    cases b with
    | nil =>
      simp only [List.nil_append, List.cons_append, List.cons.injEq] at h
      exact absurd (by simp [h.1]) ha
    | cons c b =>
      simp only [List.cons_append, List.cons.injEq] at h
      obtain ⟨h1, h2⟩ := ih (fun hx => ha (by simp [hx])) (fun hx => hb (by simp [hx])) h.2
      exact ⟨by rw [h.1, h1], h2⟩

/-- A text that is a sequence of tags, but for case, at the beginning of a sequence of tags. -/
theorem align_tags (hf : ∀ c, fold c = fold '<' ∨ fold c = fold '>' → c = '<' ∨ c = '>') (hne : fold '<' ≠ fold '>') :
    ∀ (it tags : List Text) (m post : Text), (∀ t ∈ it, ∀ c ∈ t, c ≠ '<' ∧ c ≠ '>') → (∀ t ∈ tags, ∀ c ∈ t, c ≠ '<' ∧ c ≠ '>') → tagText tags = m ++ post → Same fold m (tagText it) →
      ∃ ts tq, tags = ts ++ tq ∧ m = tagText ts ∧ post = tagText tq ∧ ts.map (·.map fold) = it.map (·.map fold)
  | [], tags, m, post, _, _, h, hs => by
    have : m = [] := by simpa [Same, tagText] using hs
    subst this
    exact ⟨[], tags, rfl, rfl, by simpa using h.symm, rfl⟩
  | t :: it, tags, m, post, hi, ht, h, hs => by
    have hlt : ∀ c, fold c = fold '<' → c = '<' := fun c hc => by
      rcases hf c (Or.inl hc) with rfl | rfl
      · rfl
      · exact absurd hc.symm hne
    have hgt : ∀ c, fold c = fold '>' → c = '>' := fun c hc => by
      rcases hf c (Or.inr hc) with rfl | rfl
      · exact absurd hc hne
      · rfl
    unfold Same at hs
    rw [tagText_cons, List.cons_append, List.map_cons, List.map_append, List.map_cons] at hs
    obtain ⟨c, m1, rfl, h1, h2⟩ := List.map_eq_cons_iff.1 hs
    have := hlt c h1
    subst this
    obtain ⟨a, m2, rfl, h3, h4⟩ := List.map_eq_append_iff.1 h2
    obtain ⟨d, m3, rfl, h5, h6⟩ := List.map_eq_cons_iff.1 h4
    have := hgt d h5
    subst this
    have ha : '>' ∉ a := by
      intro hx
      have : fold '>' ∈ t.map fold := by rw [← h3]; exact List.mem_map.2 ⟨_, hx, rfl⟩
      obtain ⟨y, hy, e⟩ := List.mem_map.1 this
      exact (hi t (by simp) y hy).2 (hgt y e)
    cases tags with
    | nil => simp [tagText] at h
    | cons u us =>
      rw [tagText_cons] at h
      simp only [List.cons_append, List.append_assoc, List.cons.injEq, true_and] at h
      obtain ⟨rfl, h7⟩ := split_gt (fun hx => (ht u (by simp) _ hx).2 rfl) ha h
      obtain ⟨ts, tq, rfl, rfl, rfl, h8⟩ := align_tags hf hne it us m3 post (fun t h => hi t (by simp [h])) (fun t h => ht t (by simp [h])) h7 h6
      exact ⟨u :: ts, tq, rfl, by rw [tagText_cons]; simp, rfl, by simp [h8, h3]⟩

/-- The same anywhere in a sequence of tags. -/
theorem align_pre (hf : ∀ c, fold c = fold '<' ∨ fold c = fold '>' → c = '<' ∨ c = '>') (hne : fold '<' ≠ fold '>') {it : List Text} (hn : it ≠ [])
    (hi : ∀ t ∈ it, ∀ c ∈ t, c ≠ '<' ∧ c ≠ '>') (m post : Text) (hs : Same fold m (tagText it)) (hm : ∃ m', m = '<' :: m') :
    ∀ (tags : List Text) (pre : Text), (∀ t ∈ tags, ∀ c ∈ t, c ≠ '<' ∧ c ≠ '>') → tagText tags = pre ++ m ++ post →
      ∃ tp ts tq, tags = tp ++ ts ++ tq ∧ pre = tagText tp ∧ m = tagText ts ∧ post = tagText tq ∧ ts.map (·.map fold) = it.map (·.map fold)
  | [], pre, _, h => by
    obtain ⟨m', rfl⟩ := hm
    simp [tagText] at h
  | u :: us, pre, ht, h => by
    cases pre with
    | nil =>
      obtain ⟨ts, tq, e, h1, h2, h3⟩ := align_tags hf hne it (u :: us) m post hi ht h hs
      exact ⟨[], ts, tq, by simpa using e, rfl, h1, h2, h3⟩
    | cons c pre =>
      rw [tagText_cons] at h
      simp only [List.cons_append, List.cons.injEq, List.append_assoc] at h
      obtain ⟨rfl, h⟩ := h
      -- `m` begins with `<`, which is not in `u`
      have key : ∀ (u pre : Text), '<' ∉ u → u ++ '>' :: tagText us = pre ++ (m ++ post) → ∃ pre', pre = u ++ '>' :: pre' ∧ tagText us = pre' ++ m ++ post := by
        obtain ⟨m', rfl⟩ := hm
        intro u
        induction u with
        | nil =>
          intro pre _ h
          cases pre with
          | nil => simp at h
          | cons d pre =>
            simp only [List.nil_append, List.cons_append, List.cons.injEq] at h
            exact ⟨pre, by rw [← h.1]; rfl, by simpa using h.2⟩
        | cons e u ih =>
          intro pre hu h
          cases pre with
          | nil =>
            simp only [List.nil_append, List.cons_append, List.cons.injEq] at h
            exact absurd (by simp [h.1]) hu
          | cons d pre =>
            simp only [List.cons_append, List.cons.injEq] at h
            obtain ⟨pre', h1, h2⟩ := ih pre (fun hx => hu (by simp [hx])) (by simpa using h.2)
            exact ⟨pre', by rw [← h.1, h1]; rfl, h2⟩
      obtain ⟨pre', rfl, h2⟩ := key u pre (fun hx => (ht u (by simp) _ hx).1 rfl) h
      obtain ⟨tp, ts, tq, rfl, rfl, h3, h4, h5⟩ := align_pre hf hne hn hi m post hs hm us pre' (fun t h => ht t (by simp [h])) h2
      exact ⟨u :: tp, ts, tq, by simp, by rw [tagText_cons]; simp, h3, h4, h5⟩

/-- The same in a word: nothing is found in the lemma. -/
theorem align (hf : ∀ c, fold c = fold '<' ∨ fold c = fold '>' → c = '<' ∨ c = '>') (hne : fold '<' ≠ fold '>') {it : List Text} (hn : it ≠ [])
    (hi : ∀ t ∈ it, ∀ c ∈ t, c ≠ '<' ∧ c ≠ '>') {l : Lu} (hl : l.Fine) {pre m post : Text} (hs : Same fold m (tagText it)) (h : l.render = pre ++ m ++ post) :
    ∃ tp ts tq, l.tags = tp ++ ts ++ tq ∧ pre = l.head ++ l.queueText ++ tagText tp ∧ m = tagText ts ∧ post = tagText tq ∧ ts.map (·.map fold) = it.map (·.map fold) := by
  have hm : ∃ m', m = '<' :: m' := by
    cases it with
    | nil => exact absurd rfl hn
    | cons t it =>
      unfold Same at hs
      rw [tagText_cons, List.cons_append, List.map_cons] at hs
      obtain ⟨c, m1, rfl, h1, _⟩ := List.map_eq_cons_iff.1 hs
      rcases hf c (Or.inl h1) with rfl | rfl
      · exact ⟨m1, rfl⟩
      · exact absurd h1.symm hne
  have key : ∀ (a pre : Text), (∀ c ∈ a, c ≠ '<') → a ++ l.tagText = pre ++ m ++ post → ∃ pre', pre = a ++ pre' ∧ l.tagText = pre' ++ m ++ post := by
    obtain ⟨m', rfl⟩ := hm
    intro a
    induction a with
    | nil => intro pre _ h; exact ⟨pre, rfl, h⟩
    | cons e a ih =>
      intro pre ha h
      cases pre with
      | nil =>
        simp only [List.nil_append, List.cons_append, List.cons.injEq] at h
        exact absurd h.1 (ha e (by simp))
      | cons d pre =>
        simp only [List.cons_append, List.cons.injEq] at h
        obtain ⟨pre', h1, h2⟩ := ih pre (fun c hc => ha c (by simp [hc])) (by simpa using h.2)
        exact ⟨pre', by rw [← h.1, h1]; rfl, h2⟩
  obtain ⟨pre', rfl, h2⟩ := key _ pre hl.noLt h
  obtain ⟨tp, ts, tq, h3, rfl, h4, h5, h6⟩ := align_pre hf hne hn hi m post hs hm l.tags pre' (fun t ht c hc => ⟨((hl.tags t ht).2.1 c hc).1, ((hl.tags t ht).2.1 c hc).2.1⟩) h2
  exact ⟨tp, ts, tq, h3, rfl, h4, h5, h6⟩

/-- **C77.** A part that the rules define (`def-attr`) is, of a word, the first sequence of tags that is listed, and of those that begin at the same tag the longest; it is absent if no
sequence of the word's tags is listed. -/
theorem C77_attr_partial {items : List (List Text)} (h : PlainItems fold items) (hi : ∀ it ∈ items, ∀ t ∈ it, ∀ c ∈ t, c ≠ '<' ∧ c ≠ '>')
    (hf : ∀ c, fold c = fold '<' ∨ fold c = fold '>' → c = '<' ∨ c = '>') (hne : fold '<' ≠ fold '>') {l : Lu} (hl : l.Fine) :
    ∃ re, reOf (optimizeRegex (items.map itemText)) = some re ∧
      ((search fold re l.render = none ∧ ∀ tp ts tq, l.tags = tp ++ ts ++ tq → ¬ Listed fold items ts) ∨
       ∃ tp ts tq, l.tags = tp ++ ts ++ tq ∧ Listed fold items ts ∧ search fold re l.render = some (l.head ++ l.queueText ++ tagText tp, tagText ts, tagText tq) ∧
         ∀ tp' ts' tq', l.tags = tp' ++ ts' ++ tq' → Listed fold items ts' → tp.length ≤ tp'.length ∧ (tp'.length = tp.length → ts'.length ≤ ts.length)) := by
  obtain ⟨re, hre, hs⟩ := Regex.C17_search_partial h
  refine ⟨re, hre, ?_⟩
  -- a listed sequence of tags is a place where the text of an item occurs
  have htags : ∀ ts, Listed fold items ts → ∃ it ∈ items, Same fold (tagText ts) (tagText it) := by
    rintro ts ⟨it, h1, h2⟩
    refine ⟨it, h1, ?_⟩
    have : ∀ ts it : List Text, ts.map (·.map fold) = it.map (·.map fold) → Same fold (tagText ts) (tagText it) := by
      intro ts
      induction ts with
      | nil =>
        intro it h
        have : it = [] := by simpa using h.symm
        subst this; rfl
      | cons t ts ih =>
        intro it h
        cases it with
        | nil => simp at h
        | cons u it =>
          simp only [List.map_cons, List.cons.injEq] at h
          have := ih it h.2
          unfold Same at this ⊢
          rw [tagText_cons, tagText_cons]
          simp [h.1, this]
    exact this ts it h2
  have hrender : ∀ tp ts tq, l.tags = tp ++ ts ++ tq → l.render = (l.head ++ l.queueText ++ tagText tp) ++ tagText ts ++ tagText tq := by
    intro tp ts tq e
    simp [Lu.render, Lu.tagText, e, tagText]
  rcases hs l.render with ⟨h1, h2⟩ | ⟨pre, m, post, h1, h2, ⟨it, h3, h4⟩, h5⟩
  · left
    refine ⟨h1, fun tp ts tq e hx => h2 _ _ _ (hrender tp ts tq e) (htags ts hx)⟩
  · right
    obtain ⟨tp, ts, tq, e, rfl, rfl, rfl, h6⟩ := align hf hne (h.ne it h3) (hi it h3) hl h4 h2
    refine ⟨tp, ts, tq, e, ⟨it, h3, h6⟩, h1, fun tp' ts' tq' e' hx => ?_⟩
    obtain ⟨h7, h8⟩ := h5 _ _ _ (hrender tp' ts' tq' e') (htags ts' hx)
    have mono : ∀ a b : List Text, a <+: b → a ≠ b → (tagText a).length < (tagText b).length := by
      rintro a b ⟨c, rfl⟩ hab
      cases c with
      | nil => exact absurd (by simp) hab
      | cons t c => simp [tagText]
    have hp1 : tp <+: l.tags := ⟨ts ++ tq, by rw [e]; simp⟩
    have hp2 : tp' <+: l.tags := ⟨ts' ++ tq', by rw [e']; simp⟩
    constructor
    · rcases Nat.lt_or_ge tp'.length tp.length with hlt | hge
      · have := mono tp' tp (List.prefix_of_prefix_length_le hp2 hp1 (by omega)) (by intro hx; rw [hx] at hlt; omega)
        simp only [List.length_append] at h7
        omega
      · exact hge
    · intro heq
      have : tp' = tp := (List.prefix_of_prefix_length_le hp2 hp1 (by omega)).eq_of_length heq
      subst this
      have h9 := h8 rfl
      rcases Nat.lt_or_ge ts.length ts'.length with hlt | hge
      · have hts : ts ++ tq = ts' ++ tq' := by
          have := e.symm.trans e'
          simpa using this
        have := mono ts ts' (List.prefix_of_prefix_length_le ⟨tq, rfl⟩ ⟨tq', hts.symm⟩ (by omega)) (by intro hx; rw [hx] at hlt; omega)
        omega
      · exact hge

/-- The hypotheses are met: the attribute `number` in `take# out<vblex><past>`, and in a word that has it. -/
example : PlainItems id [[t!"sg"], [t!"pl"], [t!"pl", t!"def"]] ∧ (∀ it ∈ [[t!"sg"], [t!"pl"], [t!"pl", t!"def"]], ∀ t ∈ it, ∀ c ∈ t, c ≠ '<' ∧ c ≠ '>') ∧
    Listed id [[t!"sg"], [t!"pl"], [t!"pl", t!"def"]] [t!"pl", t!"def"] :=
  ⟨⟨by decide, by decide, by decide, fun c d _ _ h => h⟩, by decide, ⟨[t!"pl", t!"def"], by simp, rfl⟩⟩

end Verif.Parts
