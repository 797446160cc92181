import Verif.Unigram.StreamProps
/-!
# The unigram tagger on a stream (C27, C30, C53)
-/
namespace Verif.Unigram

/-! ### reading lexical units -/

theorem readSurface_closed (t : Text) (h : Closed ['/', '$'] t) (acc : Text) (c : Char) (rest : Text)
    (hc : c = '/' ∨ c = '$') : readSurface acc (t ++ c :: rest) = .ok (acc ++ t, c :: rest) := by
  induction h generalizing acc with
  | nil => cases rest <;> simp [readSurface, hc]
  | @lit d t h1 h2 h3 _ ih =>
    have h3' : ¬ (d = '/' ∨ d = '$') := by simpa using h3
    cases t with
    | nil =>
      simp only [List.nil_append] at ih
      simp [readSurface, h1, h3', ih]
    | cons e t =>
      simp only [List.cons_append] at ih
      simp [readSurface, h1, h3', ih]
  | @esc d t h1 _ ih => simp [readSurface, ih]

/-- The texts of the analyses after the first. -/
def othersText (as : List Analysis) : Text := as.flatMap (fun a => '/' :: a.text)

theorem othersText_length (as : List Analysis) : as.length ≤ (othersText as).length := by
  induction as with
  | nil => simp
  | cons a as ih => simp [othersText] at *; omega

theorem readAnalyses_ok (a : Analysis) (as : List Analysis) (ha : a.wf) (has : ∀ x ∈ as, x.wf) (n : Nat)
    (acc : List Analysis) (rest : Text) :
    readAnalyses (n + as.length + 1) acc (a.text ++ othersText as ++ '$' :: rest) = .ok (acc ++ a :: as, rest) := by
  induction as generalizing a acc with
  | nil =>
    have h := (C28_roundtrip a ha '$' rest (Or.inr rfl)).2
    simp only [othersText, List.flatMap_nil, List.append_nil]
    rw [readAnalyses, h]
    simp
  | cons b as ih =>
    have e : a.text ++ othersText (b :: as) ++ '$' :: rest = a.text ++ '/' :: (b.text ++ othersText as ++ '$' :: rest) := by
      simp [othersText]
    have h := (C28_roundtrip a ha '/' (b.text ++ othersText as ++ '$' :: rest) (Or.inl rfl)).2
    have h2 := ih b (has b (by simp)) (fun x hx => has x (by simp [hx])) (acc ++ [a])
    rw [e, readAnalyses, h]
    simp only [Outcome.bind_ok, if_pos]
    rw [show n + (b :: as).length = n + as.length + 1 by simp; omega, h2]
    simp

theorem Analysis.text_ne {a : Analysis} (ha : a.wf) : a.text ≠ [] := by
  rcases a with ⟨ms⟩
  cases ms with
  | nil => exact absurd rfl ha.1
  | cons m ms =>
    rw [Analysis.text_cons]
    intro h
    exact Morpheme.text_ne (ha.2 m (by simp)) (List.append_eq_nil_iff.mp h).1

theorem Closed.head {s : List Char} {c : Char} {t : Text} (h : Closed s (c :: t)) : c = '\\' ∨ c ∉ s := by
  cases h with
  | lit a b c _ => exact Or.inr c
  | esc _ _ => exact Or.inl rfl

theorem Analysis.text_head {a : Analysis} (ha : a.wf) : a.text.head? ≠ some '$' := by
  rcases a with ⟨ms⟩
  cases ms with
  | nil => exact absurd rfl ha.1
  | cons m ms =>
    obtain ⟨h1, h2, _, _⟩ := ha.2 m (by simp)
    rw [Analysis.text_cons, Morpheme.text_eq]
    cases hl : m.lemma with
    | nil => exact absurd hl h1
    | cons c l =>
      rw [hl] at h2
      rcases h2.head with h | h
      · simp [h]
      · simp at h; simp [h]

theorem readUnit_ok (u : LexicalUnit) (hu : u.wf) (rest : Text) :
    ∃ body, u.text = '^' :: body ∧ readUnit (body ++ rest) = .ok (u, rest) := by
  obtain ⟨h1, h2, h3, h4⟩ := hu
  rcases u with ⟨sf, as⟩
  simp only at h1 h2 h3 h4
  refine ⟨sf ++ (if as = [] then '/' :: '*' :: sf else as.flatMap (fun a => '/' :: a.text)) ++ ['$'], by simp [LexicalUnit.text], ?_⟩
  cases as with
  | nil =>
    have hs := readSurface_closed sf h2 [] '/' ('*' :: (sf ++ '$' :: rest)) (Or.inl rfl)
    have e : sf ++ (if ([] : List Analysis) = [] then '/' :: '*' :: sf else ([] : List Analysis).flatMap (fun a => '/' :: a.text)) ++ ['$'] ++ rest
        = sf ++ '/' :: '*' :: (sf ++ '$' :: rest) := by simp
    rw [e]
    unfold readUnit
    rw [hs]
    have hb := readBlock_closed '$' (by decide) sf rest (h2.mono (by simp))
    simp [h1, hb]
  | cons a as =>
    have ha := h3 a (by simp)
    have hs := readSurface_closed sf h2 [] '/' (a.text ++ othersText as ++ '$' :: rest) (Or.inl rfl)
    have e : sf ++ (if (a :: as : List Analysis) = [] then '/' :: '*' :: sf else (a :: as).flatMap (fun a => '/' :: a.text)) ++ ['$'] ++ rest
        = sf ++ '/' :: (a.text ++ othersText as ++ '$' :: rest) := by simp [othersText]
    rw [e]
    unfold readUnit
    rw [hs]
    have ht1 := h4 a (by simp)
    have ht2 := Analysis.text_head ha
    have hl := readAnalyses_ok a as ha (fun x hx => h3 x (by simp [hx]))
      ((a.text ++ othersText as ++ '$' :: rest).length - (as.length + 1)) [] rest
    have hlen : as.length + 1 ≤ (a.text ++ othersText as ++ '$' :: rest).length := by
      have := othersText_length as
      simp; omega
    rw [Nat.add_assoc, Nat.sub_add_cancel hlen] at hl
    generalize hT : a.text ++ othersText as ++ '$' :: rest = T at hl
    cases hat : a.text with
    | nil => exact absurd hat (Analysis.text_ne ha)
    | cons c at' =>
      rw [hat] at ht1 ht2 hT
      simp at ht1 ht2
      simp only [List.cons_append] at hT
      rw [← hT] at hl ⊢
      simp [h1, ht1, ht2]
      simp at hl
      rw [hl]
      simp

/-! ### blanks -/

theorem readBlock_length (e : Char) (t : Text) : (readBlock e t).2.length ≤ t.length := by
  fun_induction readBlock e t <;> simp_all <;> omega

theorem readBlank_cons (n : Nat) (c : Char) (rest : Text) : readBlank (n + 1) (c :: rest) =
    if c = '^' ∨ c = '\x00' then ([], c :: rest)
    else if c = '\\' then
      match rest with
      | [] => ([c], [])
      | d :: rest' => (c :: d :: (readBlank n rest').1, (readBlank n rest').2)
    else if c = '[' then
      (c :: (readBlock ']' rest).1 ++ (readBlank n (readBlock ']' rest).2).1, (readBlank n (readBlock ']' rest).2).2)
    else (c :: (readBlank n rest).1, (readBlank n rest).2) := by
  rw [readBlank.eq_def]
  cases rest <;> rfl

theorem readBlank_fuel (n : Nat) : ∀ (t : Text) (m k : Nat), t.length ≤ n → t.length < m → t.length < k →
    readBlank m t = readBlank k t := by
  induction n with
  | zero =>
    intro t m k h hm hk
    have : t = [] := List.length_eq_zero_iff.mp (by omega)
    subst this
    obtain ⟨m, rfl⟩ : ∃ m', m = m' + 1 := ⟨m - 1, by omega⟩
    obtain ⟨k, rfl⟩ : ∃ k', k = k' + 1 := ⟨k - 1, by omega⟩
    rfl
  | succ n ih =>
    intro t m k h hm hk
    obtain ⟨m, rfl⟩ : ∃ m', m = m' + 1 := ⟨m - 1, by omega⟩
    obtain ⟨k, rfl⟩ : ∃ k', k = k' + 1 := ⟨k - 1, by omega⟩
    cases t with
    | nil => rfl
    | cons c rest =>
      simp only [List.length_cons] at h hm hk
      have h1 := ih rest m k (by omega) (by omega) (by omega)
      have hb := readBlock_length ']' rest
      have h2 := ih (readBlock ']' rest).2 m k (by omega) (by omega) (by omega)
      rw [readBlank_cons, readBlank_cons, h1, h2]
      cases rest with
      | nil => rfl
      | cons d rest =>
        simp only [List.length_cons] at h hm hk
        have := ih rest m k (by omega) (by omega) (by omega)
        simp only [this]

/-- `readBlank` with enough fuel. -/
def blank (t : Text) : Text × Text := readBlank (t.length + 1) t

theorem blank_nil : blank [] = ([], []) := rfl
theorem blank_stop (c : Char) (t : Text) (h : c = '^' ∨ c = '\x00') : blank (c :: t) = ([], c :: t) := by
  simp [blank, readBlank, h]

theorem blank_append (b : Text) (hb : BlankText b) (t : Text) : blank (b ++ t) = (b ++ (blank t).1, (blank t).2) := by
  induction hb with
  | nil => rfl
  | @chr c b h1 h2 h3 h4 _ ih =>
    have : blank (c :: b ++ t) = (c :: (blank (b ++ t)).1, (blank (b ++ t)).2) := by
      unfold blank
      rw [show (c :: b ++ t) = c :: (b ++ t) from rfl, List.length_cons, readBlank_cons]
      simp [h1, h2, h3, h4]
    rw [this, ih]; simp
  | @esc d b h1 _ ih =>
    have : blank ('\\' :: d :: b ++ t) = ('\\' :: d :: (blank (b ++ t)).1, (blank (b ++ t)).2) := by
      unfold blank
      rw [show ('\\' :: d :: b ++ t) = '\\' :: d :: (b ++ t) from rfl, List.length_cons, List.length_cons, readBlank_cons]
      have := readBlank_fuel (b ++ t).length (b ++ t) ((b ++ t).length + 2) ((b ++ t).length + 1) (Nat.le_refl _) (by omega) (by omega)
      simp only [this]
      simp
    rw [this, ih]; simp
  | @block x b hx _ ih =>
    have hr := readBlock_closed ']' (by decide) x (b ++ t) hx
    have e : ('[' :: x ++ ']' :: b) ++ t = '[' :: (x ++ ']' :: (b ++ t)) := by simp
    have : blank (('[' :: x ++ ']' :: b) ++ t) = ('[' :: x ++ ']' :: (blank (b ++ t)).1, (blank (b ++ t)).2) := by
      rw [e]
      unfold blank
      rw [List.length_cons, readBlank_cons, hr]
      simp only
      rw [readBlank_fuel (b ++ t).length (b ++ t) ((x ++ ']' :: (b ++ t)).length + 1) ((b ++ t).length + 1) (Nat.le_refl _)
        (by simp; omega) (by omega)]
      simp
    rw [this, ih]; simp

/-! ### `get` -/

/-- A token with text put before it. -/
def prepend (b : Text) (p : Token × Bool × Text) : Token × Bool × Text := (⟨b ++ p.1.str, p.1.lu⟩, p.2)

theorem get_eq (t : Text) : get t = match (blank t).2 with
    | [] => .ok (endGet ⟨(blank t).1, none⟩ [])
    | c :: rest =>
      if c = '^' then do
        let (lu, t') ← readUnit rest
        .ok (endGet ⟨(blank t).1, some lu⟩ t')
      else .ok (endGet ⟨(blank t).1, none⟩ (c :: rest)) := rfl

theorem endGet_prepend (b s : Text) (l : Option LexicalUnit) (t : Text) :
    endGet ⟨b ++ s, l⟩ t = prepend b (endGet ⟨s, l⟩ t) := by
  cases t with
  | nil => rfl
  | cons c t => simp only [endGet]; split <;> rfl

theorem get_blank (b : Text) (hb : BlankText b) (t : Text) : get (b ++ t) = (get t).map (prepend b) := by
  rw [get_eq, get_eq, blank_append b hb t]
  simp only
  split
  · simp [endGet_prepend]
  · rename_i c rest _
    by_cases hc : c = '^'
    · simp only [hc, if_true]
      cases readUnit rest with
      | ok p => obtain ⟨lu, t'⟩ := p; simp [endGet_prepend]
      | fail => rfl
      | diverge => rfl
      | ub => rfl
    · simp [hc, endGet_prepend]

theorem get_nil : get [] = .ok (⟨[], none⟩, false, []) := rfl

theorem get_nul (t : Text) : get ('\x00' :: t) = .ok (⟨[], none⟩, true, t) := by
  rw [get_eq, blank_stop _ _ (Or.inr rfl)]
  simp [endGet]

theorem get_unit (u : LexicalUnit) (hu : u.wf) (t : Text) : get (u.text ++ t) = .ok (endGet ⟨[], some u⟩ t) := by
  obtain ⟨body, h1, h2⟩ := readUnit_ok u hu t
  rw [h1, List.cons_append, get_eq, blank_stop _ _ (Or.inl rfl)]
  simp [h2]

/-! ### writing lexical units -/

theorem printOthers_ok (b : Analysis) (as : List Analysis) (h : ∀ a ∈ as, a.wf) :
    printOthers b as = .ok ((as.filter (fun x => decide (x ≠ b))).flatMap (fun a => '/' :: a.text)) := by
  induction as with
  | nil => rfl
  | cons a as ih =>
    rw [printOthers, ih (fun x hx => h x (by simp [hx]))]
    by_cases hab : a = b
    · simp [hab]
    · simp [hab, printAnalysis_ok a (h a (by simp))]

theorem output_ok (f : Flags) (u : LexicalUnit) (hu : u.wf) (sel : Option Analysis)
    (hsel : ∀ a, sel = some a → a ∈ u.analyses) : outputLexicalUnit f u sel = .ok (u.tagged f sel) := by
  cases sel with
  | none => simp [outputLexicalUnit, LexicalUnit.tagged]
  | some a =>
    have ha := hsel a rfl
    have hne : u.analyses ≠ [] := by intro h; rw [h] at ha; simp at ha
    have hp := printAnalysis_ok a (hu.2.2.1 a ha)
    have ho := printOthers_ok a u.analyses hu.2.2.1
    simp only [outputLexicalUnit, hne, if_false, hp, Outcome.bind_ok, ho]
    by_cases hf : f.first = true
    · simp [hf, LexicalUnit.tagged]
    · simp [hf, LexicalUnit.tagged]

/-! ### the loop -/

/-- What the unigram tagger writes for an item: nothing for NUL. -/
def unigramItem (f : Flags) (sel : LexicalUnit → Option Analysis) : Item → Text
  | .blank t => t
  | .unit u => u.tagged f (sel u)
  | .nul => []

theorem tagLoop_nul (f : Flags) (sel : LexicalUnit → Option Analysis) (n : Nat) (t : Text) :
    tagLoop f sel (n + 1) ('\x00' :: t) = tagLoop f sel n t := by
  rw [tagLoop, get_nul]
  simp only [Outcome.bind_ok, if_true, List.nil_append]
  cases tagLoop f sel n t <;> rfl

theorem tagLoop_blank (f : Flags) (sel : LexicalUnit → Option Analysis) (b : Text) (hb : BlankText b) (n : Nat) (t : Text) :
    tagLoop f sel n (b ++ t) = (tagLoop f sel n t).map (b ++ ·) := by
  cases n with
  | zero => rfl
  | succ n =>
    rw [tagLoop, tagLoop, get_blank b hb]
    cases get t with
    | fail => rfl
    | diverge => rfl
    | ub => rfl
    | ok p =>
      obtain ⟨⟨s, l⟩, fl, t'⟩ := p
      cases l with
      | none =>
        cases fl with
        | false => simp [prepend]
        | true =>
          simp only [prepend, Outcome.map_ok, Outcome.bind_ok, if_true]
          cases tagLoop f sel n t' <;> simp
      | some u =>
        simp only [prepend, Outcome.map_ok, Outcome.bind_ok]
        cases outputLexicalUnit f u (sel u) with
        | ok o => cases tagLoop f sel n t' <;> simp
        | fail => rfl
        | diverge => rfl
        | ub => rfl

theorem LexicalUnit.text_length (u : LexicalUnit) : 2 ≤ u.text.length := by
  simp [LexicalUnit.text]; omega

theorem tagLoop_ok (f : Flags) (sel : LexicalUnit → Option Analysis)
    (hsel : ∀ u a, sel u = some a → a ∈ u.analyses) (is : List Item) (hw : ∀ i ∈ is, i.wf) (n : Nat)
    (hn : (render is).length < n) : tagLoop f sel n (render is) = .ok (is.flatMap (unigramItem f sel)) := by
  induction is generalizing n with
  | nil =>
    obtain ⟨n, rfl⟩ : ∃ m, n = m + 1 := ⟨n - 1, by omega⟩
    simp [render, tagLoop, get_nil]
  | cons i is ih =>
    have ih := ih (fun x hx => hw x (by simp [hx]))
    have e : render (i :: is) = i.text ++ render is := rfl
    rw [e] at hn ⊢
    have hi := hw i (by simp)
    simp only [List.length_append] at hn
    cases i with
    | blank b =>
      simp only [Item.text] at hn ⊢
      rw [tagLoop_blank f sel b hi, ih n (by omega)]
      simp [unigramItem]
    | nul =>
      obtain ⟨n, rfl⟩ : ∃ m, n = m + 1 := ⟨n - 1, by omega⟩
      simp only [Item.text, List.length_cons, List.length_nil] at hn ⊢
      rw [show ['\x00'] ++ render is = '\x00' :: render is from rfl, tagLoop_nul, ih n (by omega)]
      simp [unigramItem]
    | unit u =>
      simp only [Item.text] at hn ⊢
      have := u.text_length
      obtain ⟨n, rfl⟩ : ∃ m, n = m + 1 := ⟨n - 1, by omega⟩
      have hrest : ∀ tok : Token, ∃ fl t', endGet tok (render is) = (tok, fl, t') ∧
          tagLoop f sel n t' = .ok (is.flatMap (unigramItem f sel)) := by
        intro tok
        cases hr : render is with
        | nil => exact ⟨false, [], rfl, by rw [← hr]; exact ih n (by omega)⟩
        | cons c t =>
          by_cases hc : c = '\x00'
          · refine ⟨true, t, by simp [endGet, hc], ?_⟩
            have := ih (n + 1) (by omega)
            rw [hr, hc, tagLoop_nul] at this
            exact this
          · refine ⟨false, c :: t, by simp [endGet, hc], ?_⟩
            rw [← hr]; exact ih n (by omega)
      obtain ⟨fl, t', h1, h2⟩ := hrest ⟨[], some u⟩
      rw [tagLoop, get_unit u hi, h1]
      simp only [Outcome.bind_ok, output_ok f u hi (sel u) (hsel u), h2]
      simp [unigramItem]

/-! ### the choice -/

/-- The comparison `>` behaves like that of numbers (no NaN). -/
structure StrictWeak {W : Type} (gt : W → W → Bool) : Prop where
  irrefl : ∀ a, gt a a = false
  trans : ∀ a b c, gt a b = true → gt b c = true → gt a c = true
  negtrans : ∀ a b c, gt a b = false → gt b c = false → gt a c = false

theorem choose_spec {W : Type} (score : Analysis → W) (gt : W → W → Bool) (hgt : StrictWeak gt)
    (as pre : List Analysis) (b : Analysis) (mid : List Analysis)
    (h1 : ∀ x ∈ pre, gt (score b) (score x) = true) (h2 : ∀ x ∈ mid, gt (score x) (score b) = false) :
    ∃ a pre' post, choose score gt (some (b, score b)) as = some (a, score a) ∧
      pre ++ b :: mid ++ as = pre' ++ a :: post ∧
      (∀ x ∈ pre', gt (score a) (score x) = true) ∧ (∀ x ∈ post, gt (score x) (score a) = false) := by
  induction as generalizing pre b mid with
  | nil => exact ⟨b, pre, mid, rfl, by simp, h1, h2⟩
  | cons c as ih =>
    rw [choose]
    by_cases hc : gt (score c) (score b) = true
    · rw [if_pos hc]
      obtain ⟨a, pre', post, g1, g2, g3, g4⟩ := ih (pre ++ b :: mid) c [] (by
        intro x hx
        simp only [List.mem_append, List.mem_cons] at hx
        rcases hx with hx | rfl | hx
        · exact hgt.trans _ _ _ hc (h1 x hx)
        · exact hc
        · have := h2 x hx
          cases hcx : gt (score c) (score x) with
          | true => rfl
          | false => rw [hgt.negtrans _ _ _ hcx this] at hc; simp at hc) (by simp)
      exact ⟨a, pre', post, g1, by rw [← g2]; simp, g3, g4⟩
    · rw [if_neg hc]
      obtain ⟨a, pre', post, g1, g2, g3, g4⟩ := ih pre b (mid ++ [c]) h1 (by
        intro x hx
        simp only [List.mem_append, List.mem_singleton] at hx
        rcases hx with hx | rfl
        · exact h2 x hx
        · simpa using hc)
      exact ⟨a, pre', post, g1, by rw [← g2]; simp, g3, g4⟩

/-- **C27** the analysis selected is one of the unit's; no other scores higher; among equals the first one wins.
(Every analysis before it scores less, none after it scores more.)  An unknown word has none. -/
theorem C27_best {W : Type} (score : Analysis → W) (gt : W → W → Bool) (hgt : StrictWeak gt) (u : LexicalUnit) :
    (u.analyses = [] ∧ best score gt u = none) ∨
    ∃ a pre post, best score gt u = some a ∧ u.analyses = pre ++ a :: post ∧
      (∀ x ∈ pre, gt (score a) (score x) = true) ∧ (∀ x ∈ post, gt (score x) (score a) = false) := by
  rcases u with ⟨sf, as⟩
  cases as with
  | nil => exact Or.inl ⟨rfl, rfl⟩
  | cons a as =>
    right
    obtain ⟨a', pre, post, h1, h2, h3, h4⟩ := choose_spec score gt hgt as [] a [] (by simp) (by simp)
    exact ⟨a', pre, post, by simp [best, choose, h1], by simpa using h2, h3, h4⟩

theorem choose_mem {W : Type} (score : Analysis → W) (gt : W → W → Bool) (as : List Analysis) (o : Option (Analysis × W))
    (a : Analysis) (w : W) (h : choose score gt o as = some (a, w)) : a ∈ as ∨ ∃ w', o = some (a, w') := by
  induction as generalizing o with
  | nil => rw [choose] at h; exact Or.inr ⟨w, h⟩
  | cons b as ih =>
    cases o with
    | none =>
      rw [choose] at h
      rcases ih _ h with h | ⟨w', h⟩
      · exact Or.inl (by simp [h])
      · simp at h; exact Or.inl (by simp [h.1])
    | some p =>
      obtain ⟨c, m⟩ := p
      rw [choose] at h
      split at h
      · rcases ih _ h with h | ⟨w', h⟩
        · exact Or.inl (by simp [h])
        · simp at h; exact Or.inl (by simp [h.1])
      · rcases ih _ h with h | ⟨w', h⟩
        · exact Or.inl (by simp [h])
        · simp at h; exact Or.inr ⟨m, by simp [h.1]⟩

theorem best_mem {W : Type} (score : Analysis → W) (gt : W → W → Bool) (u : LexicalUnit) (a : Analysis)
    (h : best score gt u = some a) : a ∈ u.analyses := by
  unfold best at h
  cases hc : choose score gt none u.analyses with
  | none => simp [hc] at h
  | some p =>
    obtain ⟨b, w⟩ := p
    simp [hc] at h
    subst h
    rcases choose_mem score gt _ _ _ _ hc with h | ⟨_, h⟩
    · exact h
    · simp at h

/-- **C27** what is written for a unit: exactly the text for the selected analysis, under every combination of the
flags; nothing fails.  With `-f` each different analysis of the unit is written too. -/
theorem C27_output {W : Type} (f : Flags) (score : Analysis → W) (gt : W → W → Bool) (u : LexicalUnit) (hu : u.wf) :
    outputLexicalUnit f u (best score gt u) = .ok (u.tagged f (best score gt u)) :=
  output_ok f u hu _ (fun a h => best_mem score gt u a h)

/-- **C27** with `-f` no analysis is lost: each one is the selected one or among those that follow. -/
theorem C27_first_keeps_all (u : LexicalUnit) (a b : Analysis) (hb : b ∈ u.analyses) :
    b = a ∨ b ∈ u.analyses.filter (fun x => decide (x ≠ a)) := by
  by_cases h : b = a
  · exact Or.inl h
  · exact Or.inr (by simp [hb, h])

/-- **C53** the unigram tagger on every well-formed stream: it ends normally; the text between the units is copied,
each unit is replaced by the text for its best analysis, and NUL is not copied (`C30_unigram_violation`). -/
theorem C53_unigram_stream {W : Type} (f : Flags) (score : Analysis → W) (gt : W → W → Bool) (is : List Item)
    (hw : ∀ i ∈ is, i.wf) :
    unigramTag f score gt (render is) = .ok (is.flatMap (fun i => match i with
      | .blank t => t
      | .unit u => u.tagged f (best score gt u)
      | .nul => [])) := by
  unfold unigramTag
  rw [tagLoop_ok f _ (fun u a h => best_mem score gt u a h) is hw _ (by omega)]
  congr 1

theorem Closed.no_nul {s : List Char} {t : Text} (h : Closed s t) : '\x00' ∉ t := by
  induction h with
  | nil => simp
  | lit a b c _ ih => simp [ih]; exact fun h => b h.symm
  | esc a _ ih => simp [ih]; exact fun h => a h.symm

theorem BlankText.no_nul {t : Text} (h : BlankText t) : '\x00' ∉ t := by
  induction h with
  | nil => simp
  | chr a b c d _ ih => simp [ih]; exact fun h => b h.symm
  | esc a _ ih => simp [ih]; exact fun h => a h.symm
  | block hx _ ih => simp [ih, hx.no_nul]

theorem Analysis.no_nul {a : Analysis} (ha : a.wf) : '\x00' ∉ a.text := by
  rcases a with ⟨ms⟩
  cases ms with
  | nil => exact absurd rfl ha.1
  | cons m ms =>
    have hm : ∀ m : Morpheme, m.wf → '\x00' ∉ m.text := by
      intro m hm
      simp only [Morpheme.text, List.mem_append, List.mem_flatMap, List.mem_cons, not_or, not_exists]
      refine ⟨hm.2.1.no_nul, fun t ht => ?_⟩
      have := (hm.2.2.2 t ht.1).2.no_nul
      rcases ht.2 with (h | h) | h
      · exact absurd h (by decide)
      · exact this h
      · simp at h
    rw [Analysis.text_cons]
    simp only [List.mem_append, not_or]
    refine ⟨hm m (ha.2 m (by simp)), ?_⟩
    simp only [moreText, List.mem_flatMap, List.mem_cons, not_exists]
    intro x hx
    rcases hx.2 with h | h
    · exact absurd h (by decide)
    · exact hm x (ha.2 x (by simp [hx.1])) h

theorem tagged_no_nul (f : Flags) (u : LexicalUnit) (hu : u.wf) (sel : Option Analysis)
    (hsel : ∀ a, sel = some a → a ∈ u.analyses) : '\x00' ∉ u.tagged f sel := by
  have hs := hu.2.1.no_nul
  have hsup : '\x00' ∉ (if f.showSuperficial then u.surface ++ ['/'] else []) := by split <;> simp [hs]
  cases sel with
  | none => simp only [LexicalUnit.tagged]; simp [hs, hsup]
  | some a =>
    have ha := Analysis.no_nul (hu.2.2.1 a (hsel a rfl))
    have hm : '\x00' ∉ (if f.mark ∧ u.analyses.length ≠ 1 then ['='] else []) := by split <;> simp
    have hf : '\x00' ∉ (if f.first then (u.analyses.filter (fun b => decide (b ≠ a))).flatMap (fun b => '/' :: b.text) else []) := by
      split
      · simp only [List.mem_flatMap, List.mem_cons, not_exists]
        intro x hx
        rcases hx.2 with h | h
        · exact absurd h (by decide)
        · exact Analysis.no_nul (hu.2.2.1 x (List.mem_filter.mp hx.1).1) h
      · simp
    simp only [LexicalUnit.tagged, List.mem_append, List.mem_cons, not_or]
    exact ⟨⟨⟨⟨⟨by decide, hm⟩, hsup⟩, ha⟩, hf⟩, by simp⟩

/-- **C30 does not hold of the unigram tagger**: it never writes a NUL, whatever the stream (so a caller in null-flush
mode waits for ever). -/
theorem C30_unigram_violation {W : Type} (f : Flags) (score : Analysis → W) (gt : W → W → Bool) (is : List Item)
    (hw : ∀ i ∈ is, i.wf) (out : Text) (h : unigramTag f score gt (render is) = .ok out) : '\x00' ∉ out := by
  rw [C53_unigram_stream f score gt is hw] at h
  simp only [Outcome.ok.injEq] at h
  subst h
  simp only [List.mem_flatMap, not_exists, not_and]
  intro i hi
  cases i with
  | blank t => exact BlankText.no_nul (hw _ hi)
  | unit u => exact tagged_no_nul f u (hw _ hi) _ (fun a h => best_mem score gt u a h)
  | nul => simp

end Verif.Unigram
