/-
  What `apertium-prelatex` writes for each piece of a document (C86).
-/
import Verif.Latex.Lexing
import Verif.Latex.Spec

namespace Verif.Latex

open Spec

/-- What is written for a token. -/
def tokenXml (u : Text) : Text :=
  match stepK preRules 0 ⟨false, false⟩ u with
  | some (_, out, _) => out
  | none => []

def starXml (star : Bool) : Text := if star = true then t!"_STAR" else []

/-- What is written for a piece. -/
def xml (g : Bool) : Piece → Text
  | .chr c => [c]
  | .token u => tokenXml u
  | .backslash => t!"\\"
  | .brace => t!"<CONTENTS>"
  | .quote => t!"&quot;"
  | .short c => back g (.short c)
  | .cmd name star => t!"<" ++ name ++ starXml star ++ t!"/>"
  | .use opts => t!"<usepackage/><PARAM>" ++ opts ++ t!"</PARAM>"
  | .param opts => t!"<PARAM>" ++ opts ++ t!"</PARAM>"
  | .env closing name star ws =>
      t!"<" ++ (if closing = true then t!"/" else []) ++ name ++ starXml star ++ t!">" ++ ws
  | .math true body => t!"<MATH_DOLLARS>" ++ body ++ t!"</MATH_DOLLARS>"
  | .math false body => t!"<MATH_DOLLAR>" ++ body ++ t!"</MATH_DOLLAR>"
  | .comment body => commentAct ('%' :: body)
  | .verb d body => t!"<VERB>" ++ [d] ++ body ++ [d] ++ t!"</VERB>"
  | .letter s out => if out = t!"?`" ∨ out = t!"!`" then s else out

/-- The rule that copies a character. -/
def anyRule : Rule Globals := say [.one (fun _ => true)] (fun w => w)

theorem hit_say (pat : Pat) (f : Text → Text) (s : Text) :
    hit (σ := σ) (say pat f) 0 s = match mtch pat s with | some [] => none | x => x := by
  simp only [hit, say, if_pos]
  rfl

theorem mtch_lit : ∀ (u : Text) (p : Pat) (s w : Text), mtch (lit u ++ p) s = some w →
    ∃ t v, s = u ++ t ∧ mtch p t = some v ∧ w = u ++ v := by
  intro u
  induction u with
  | nil => intro p s w h; exact ⟨s, w, rfl, h, rfl⟩
  | cons c u ih =>
    intro p s w h
    cases s with
    | nil => simp [lit, mtch] at h
    | cons d s =>
      simp only [lit, List.map_cons, List.cons_append, mtch] at h
      split at h
      · rename_i hd
        have hd : d = c := by simpa using hd
        subst hd
        obtain ⟨x, hx, rfl⟩ := Option.map_eq_some_iff.mp h
        obtain ⟨t, v, rfl, h2, rfl⟩ := ih _ _ _ hx
        exact ⟨t, v, rfl, h2, rfl⟩
      · cases h

theorem mtch_lit_append : ∀ (u : Text) (p : Pat) (t : Text),
    mtch (lit u ++ p) (u ++ t) = (mtch p t).map (fun w => u ++ w) := by
  intro u
  induction u with
  | nil => intro p t; simp [lit]
  | cons c u ih =>
    intro p t
    have := ih p t
    simp only [lit] at this
    simp only [lit, List.map_cons, List.cons_append, mtch, decide_true, if_true, this, Option.map_map]
    rfl

theorem hit_put {u out : Text} {s v : Text} (h : hit (σ := σ) (put u out) 0 s = some v) :
    u <+: s ∧ v = u := by
  obtain ⟨-, h⟩ := hit_mtch h
  have h' : mtch (lit u ++ []) s = some v := by rw [List.append_nil]; exact h
  obtain ⟨t, w, rfl, h2, rfl⟩ := mtch_lit _ _ _ _ h'
  simp only [mtch, Option.some.injEq] at h2
  subst h2
  exact ⟨List.prefix_append _ _, by simp⟩

theorem takeWhile_all' {p : Char → Bool} : ∀ {u t : Text}, (∀ c ∈ u, p c = true) →
    (∀ c t', t = c :: t' → p c = false) →
    (u ++ t).takeWhile p = u ∧ (u ++ t).dropWhile p = t := by
  intro u t hu ht
  induction u with
  | nil =>
    cases t with
    | nil => simp
    | cons c t => simp [ht c t rfl]
  | cons c u ih =>
    have hc := hu c List.mem_cons_self
    have := ih (fun x hx => hu x (List.mem_cons_of_mem _ hx))
    simp [hc, this]

/-- The letters in front are the same when a text is split before a
    non-letter in two ways. -/
theorem span_eq {p : Char → Bool} {u v t t' : Text} (h : u ++ t = v ++ t')
    (hu : ∀ c ∈ u, p c = true) (hv : ∀ c ∈ v, p c = true)
    (ht : ∀ c r, t = c :: r → p c = false) (ht' : ∀ c r, t' = c :: r → p c = false) :
    u = v ∧ t = t' := by
  have h1 := takeWhile_all' hu ht
  have h2 := takeWhile_all' hv ht'
  rw [h] at h1
  exact ⟨h1.1.symm.trans h2.1, h1.2.symm.trans h2.2⟩

theorem isLetter_iff (c : Char) : isLetter c = true ↔ Letter c := by
  simp [isLetter, Letter]

theorem isDigit_iff (c : Char) : isDigit c = true ↔ Digit c := by
  simp [isDigit, Digit]

theorem isWs_iff (c : Char) : isWs c = true ↔ White c := by
  simp [isWs, White]

theorem occurs_ngerman : ∀ s : Text, hasNgerman s = occurs t!"ngerman" s := by
  intro s
  induction s with
  | nil => decide
  | cons c s ih =>
    simp only [hasNgerman, ih, occurs, List.length_cons]
    rw [List.range_succ_eq_map (n := s.length + 1)]
    simp only [List.any_cons, List.drop_zero, List.any_map]
    rfl

/-- One step of the scanner for a piece. -/
def Step (g : Bool) (p : Piece) (t : Text) : Prop :=
  ∀ cl, ∃ cl', lex preRules 0 ⟨cl, g⟩ (src p ++ t)
    = xml g p ++ lex preRules 0 ⟨cl', loads g p⟩ t

theorem step_token {u : Text} (h : u ∈ tokens) (g : Bool) (t : Text) : Step g (.token u) t := by
  intro cl
  refine ⟨cl, ?_⟩
  have : ∀ u ∈ tokens, ∀ cl g : Bool,
      stepK preRules 0 ⟨cl, g⟩ u = some (u, tokenXml u, 0, ⟨cl, g⟩) := by decide +kernel
  exact lex_stepK (this u h cl g) t

theorem step_letter {s out : Text} (h : (s, out) ∈ letters) (g : Bool) (t : Text) :
    Step g (.letter s out) t := by
  intro cl
  refine ⟨cl, ?_⟩
  have : ∀ p ∈ letters, ∀ cl g : Bool,
      stepK preRules 0 ⟨cl, g⟩ p.1 = some (p.1, xml g (.letter p.1 p.2), 0, ⟨cl, g⟩) := by
    decide +kernel
  exact lex_stepK (this (s, out) h cl g) t

theorem step_short {c : Char} (h : c ∈ t!"oOaAuUsS") (g : Bool) (t : Text) :
    Step g (.short c) t := by
  intro cl
  refine ⟨cl, ?_⟩
  have : ∀ c ∈ t!"oOaAuUsS", ∀ cl g : Bool,
      stepK preRules 0 ⟨cl, g⟩ ['"', c] = some (['"', c], xml g (.short c), 0, ⟨cl, g⟩) := by
    decide +kernel
  exact lex_stepK (this c h cl g) t

/-- The rule that copies, where no other rule matches. -/
theorem lex_any {c : Char} {t : Text} (h : best preRules 0 (c :: t) = some ([c], anyRule))
    (g : Globals) : lex preRules 0 g (c :: t) = c :: lex preRules 0 g t :=
  lex_step (w := [c]) (t := t) g h

theorem best_only {r : Rule σ} {sc : Nat} {s w : Text} (h : hit r sc s = some w) :
    best [r] sc s = some (w, r) := by
  simp [best, h]

theorem hit_any (c : Char) (t : Text) : hit anyRule 0 (c :: t) = some [c] := by
  simp [anyRule, hit, say, mtch]

theorem cands_chr {c : Char} (hc : c ∉ t!"\\{}[%~$\"'<>&#¿¡") (h1 : c ≠ '?') (h2 : c ≠ '!') :
    cands preRules 0 [c] = [anyRule] := by
  simp only [List.mem_cons, List.not_mem_nil, or_false, not_or] at hc
  simp [cands, preRules, List.filter, compat, lit, put, say, go, verbRule, hc, h1, h2, anyRule]

theorem cands_question : cands preRules 0 t!"?" = [put t!"?`" t!"¿", anyRule] := by
  simp [cands, preRules, List.filter, compat, lit, put, say, go, verbRule, anyRule]

theorem cands_exclamation : cands preRules 0 t!"!" = [put t!"!`" t!"¡", anyRule] := by
  simp [cands, preRules, List.filter, compat, lit, put, say, go, verbRule, anyRule]

theorem step_chr {c : Char} {t : Text} (hc : c ∉ t!"\\{}[%~$\"'<>&#¿¡")
    (hm : c = '?' ∨ c = '!' → ¬ Next (fun x => x = '`') t) (g : Bool) : Step g (.chr c) t := by
  intro cl
  refine ⟨cl, ?_⟩
  refine lex_any (c := c) (t := t) ?_ _
  have hcand := best_cands preRules 0 [c] t
  simp only [List.singleton_append] at hcand
  rw [hcand]
  by_cases h1 : c = '?'
  · subst h1
    rw [cands_question]
    refine best_at (before := [_]) (after := []) (hit_any _ _) ?_ (by simp)
    intro q hq v hv
    rw [List.mem_singleton] at hq; subst hq
    obtain ⟨⟨r, hr⟩, -⟩ := hit_put hv
    simp only [List.cons_append, List.nil_append, List.cons.injEq, true_and] at hr
    exact absurd ⟨'`', r, hr.symm, rfl⟩ (hm (Or.inl rfl))
  · by_cases h2 : c = '!'
    · subst h2
      rw [cands_exclamation]
      refine best_at (before := [_]) (after := []) (hit_any _ _) ?_ (by simp)
      intro q hq v hv
      rw [List.mem_singleton] at hq; subst hq
      obtain ⟨⟨r, hr⟩, -⟩ := hit_put hv
      simp only [List.cons_append, List.nil_append, List.cons.injEq, true_and] at hr
      exact absurd ⟨'`', r, hr.symm, rfl⟩ (hm (Or.inr rfl))
    · rw [cands_chr hc h1 h2]
      exact best_only (hit_any _ _)

theorem letter_ne {c d : Char} (h : ¬ Letter c) (hd : isLetter d = true) : c ≠ d := by
  intro e; subst e; exact h ((isLetter_iff _).mp hd)

theorem cands_backslash {c : Char} (h : ¬ (Letter c ∨ c ∈ t!"\\`'^\"~=.#{%()[]&")) :
    cands preRules 0 ['\\', c] = [anyRule] := by
  simp only [not_or, List.mem_cons, List.not_mem_nil, or_false] at h
  have hl : isLetter c = false := by
    rw [← Bool.not_eq_true, isLetter_iff]; exact h.1
  have hne : ∀ d, isLetter d = true → c ≠ d := fun d hd => letter_ne h.1 hd
  have e1 := hne 't' rfl
  have e2 := hne 'l' rfl
  have e3 := hne 'u' rfl
  have e4 := hne 'b' rfl
  have e5 := hne 'e' rfl
  have e6 := hne 'v' rfl
  have e7 := hne 'H' rfl
  have e8 := hne 'c' rfl
  have e9 := hne 'k' rfl
  have e10 := hne 'd' rfl
  have e11 := hne 'r' rfl
  simp [cands, preRules, List.filter, compat, lit, put, say, go, verbRule, anyRule, oneOf, dot,
    accChars, h.2, hl, e1, e2, e3, e4, e5, e6, e7, e8, e9, e10, e11]

theorem best_backslash_end : best preRules 0 ['\\'] = some (['\\'], anyRule) := by
  simp [best, preRules, hit, mtch, lit, put, say, go, verbRule, anyRule, oneOf, dot,
    accChars]

theorem step_backslash {t : Text}
    (h : ¬ Next (fun c => Letter c ∨ c ∈ t!"\\`'^\"~=.#{%()[]&") t) (g : Bool) :
    Step g .backslash t := by
  intro cl
  refine ⟨cl, ?_⟩
  refine lex_any (c := '\\') (t := t) ?_ _
  cases t with
  | nil => exact best_backslash_end
  | cons c t =>
    have hc : ¬ (Letter c ∨ c ∈ t!"\\`'^\"~=.#{%()[]&") := fun hc => h ⟨c, t, rfl, hc⟩
    have := best_cands preRules 0 ['\\', c] t
    simp only [List.cons_append, List.nil_append] at this
    rw [this, cands_backslash hc]
    exact best_only (hit_any _ _)

theorem cands_brace : cands preRules 0 t!"{"
    = [put t!"{\\oe}" t!"œ", put t!"{\\OE}" t!"Œ", put t!"{\\ae}" t!"æ", put t!"{\\AE}" t!"Æ",
       put t!"{\\aa}" t!"å", put t!"{\\AA}" t!"Å", put t!"{\\o}" t!"ø", put t!"{\\O}" t!"Ø",
       put t!"{\\ss}" t!"ß", put t!"{" t!"<CONTENTS>", anyRule] := by
  simp [cands, preRules, List.filter, compat, lit, put, say, go, verbRule, anyRule]

theorem step_brace {t : Text}
    (h : ∀ l ∈ [t!"\\oe}", t!"\\OE}", t!"\\ae}", t!"\\AE}", t!"\\aa}", t!"\\AA}", t!"\\o}",
      t!"\\O}", t!"\\ss}"], ¬ l <+: t) (g : Bool) : Step g .brace t := by
  intro cl
  refine ⟨cl, ?_⟩
  have := best_cands preRules 0 ['{'] t
  simp only [List.cons_append, List.nil_append] at this
  rw [cands_brace] at this
  refine lex_step (w := ['{']) (t := t) (⟨cl, g⟩ : Globals) (r := put t!"{" t!"<CONTENTS>") ?_
  simp only [List.cons_append, List.nil_append]
  rw [this]
  refine best_at (before := [_, _, _, _, _, _, _, _, _]) (after := [_]) ?_ ?_ ?_
  · simp [hit, put, say, lit, mtch]
  · intro q hq v hv
    exfalso
    have key : ∀ (l out : Text), l ∈ [t!"\\oe}", t!"\\OE}", t!"\\ae}", t!"\\AE}", t!"\\aa}",
        t!"\\AA}", t!"\\o}", t!"\\O}", t!"\\ss}"] →
        hit (σ := Globals) (put ('{' :: l) out) 0 ('{' :: t) = some v → False := by
      intro l out hl hv
      obtain ⟨hp, -⟩ := hit_put hv
      exact h l hl ((List.cons_prefix_cons.mp hp).2)
    simp only [List.mem_cons, List.not_mem_nil, or_false] at hq
    rcases hq with rfl | rfl | rfl | rfl | rfl | rfl | rfl | rfl | rfl <;>
      exact key _ _ (by simp) hv
  · intro q hq v hv
    rw [List.mem_singleton] at hq; subst hq
    rw [hit_any] at hv
    injection hv with hv; subst hv; simp

theorem cands_quote : cands preRules 0 t!"\""
    = [{ start := 0, pat := lit t!"\"" ++ [oneOf t!"oOaAuUsS"],
         act := fun w sc g =>
          (if g.german = true then umlautOf (w[1]?.getD '\x00') else w, sc, g) },
       put t!"\"" t!"&quot;", anyRule] := by
  simp [cands, preRules, List.filter, compat, lit, put, say, go, verbRule, anyRule]

theorem step_quote {t : Text} (h : ¬ Next (fun c => c ∈ t!"oOaAuUsS") t) (g : Bool) :
    Step g .quote t := by
  intro cl
  refine ⟨cl, ?_⟩
  have := best_cands preRules 0 ['"'] t
  simp only [List.cons_append, List.nil_append] at this
  rw [cands_quote] at this
  refine lex_step (w := ['"']) (t := t) (⟨cl, g⟩ : Globals) (r := put t!"\"" t!"&quot;") ?_
  simp only [List.cons_append, List.nil_append]
  rw [this]
  refine best_at (before := [_]) (after := [_]) ?_ ?_ ?_
  · simp [hit, put, say, lit, mtch]
  · intro q hq v hv
    exfalso
    rw [List.mem_singleton] at hq; subst hq
    obtain ⟨-, hm⟩ := hit_mtch hv
    obtain ⟨t', v', hs, h2, rfl⟩ := mtch_lit _ _ _ _ hm
    simp only [List.cons_append, List.nil_append, List.cons.injEq, true_and] at hs
    subst hs
    cases t with
    | nil => simp [oneOf, mtch] at h2
    | cons c t =>
      simp only [oneOf, mtch] at h2
      split at h2
      · rename_i hc
        exact h ⟨c, t, rfl, by simpa using hc⟩
      · cases h2
  · intro q hq v hv
    rw [List.mem_singleton] at hq; subst hq
    rw [hit_any] at hv
    injection hv with hv; subst hv; simp

end Verif.Latex
