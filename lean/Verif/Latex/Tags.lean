/-
  The pieces read back by `apertium-postlatex-raw` (C86).
-/
import Verif.Latex.Post

namespace Verif.Latex

open Spec

theorem letter_alnum {c : Char} (h : Letter c) : isAlnum c = true :=
  (isAlnum_iff c).mpr (Or.inl h)

/-- Where a name is none of these, no fixed tag with this ending is meant. -/
theorem fixed_of {tags : List (Text × Text)} {name sfx t : Text} {names : List Text}
    (hnames : name ∉ names)
    (h : ∀ p ∈ tags, p.1 ∈ names ∨ (p.2.isPrefixOf sfx || sfx.isPrefixOf p.2) = false) :
    ∀ p ∈ tags, name = p.1 → ¬ p.2 <+: sfx ++ t := by
  intro p hp e
  rcases h p hp with h | h
  · rw [← e] at h; exact absurd h hnames
  · exact no_prefix h

theorem post_cmd {name t : Text} {star : Bool} (hne : name ≠ []) (hn : ∀ c ∈ name, Letter c)
    (hs : star = false → name ∉ [t!"AMP", t!"BR", t!"LEFTESCAPEDBRACE", t!"RIGHTESCAPEDBRACE",
      t!"ESCAPEDPERCENT"]) :
    lex postRules 0 () (t!"<" ++ name ++ starXml star ++ t!"/>" ++ t)
      = t!"\\" ++ name ++ starred star ++ lex postRules 0 () t := by
  have hn' : ∀ c ∈ name, isAlnum c = true := fun c hc => letter_alnum (hn c hc)
  cases star with
  | true =>
    have hb := best_open_tag (name := name) (sfx := t!"_STAR/>") (t := t)
      (before := [_, _, _, _, _]) (after := [_])
      (hsplit := rfl)
      (by
        intro q hq
        simp only [List.mem_cons, List.not_mem_nil, or_false] at hq
        rcases hq with rfl | rfl | rfl | rfl | rfl
        · exact Or.inr ⟨_, _, rfl, by decide⟩
        · exact Or.inr ⟨_, _, rfl, by decide⟩
        · exact Or.inl ⟨_, _, rfl⟩
        · exact Or.inl ⟨_, _, rfl⟩
        · exact Or.inr ⟨_, _, rfl, by decide⟩)
      (by
        intro q hq
        rw [List.mem_singleton] at hq
        exact Or.inl hq)
      ⟨_, _, rfl, by decide⟩ hne hn'
      (fixed_of (names := []) (by simp) (by decide +kernel))
    have := lex_step () hb
    have e : t!"<" ++ name ++ starXml true ++ t!"/>" ++ t = t!"<" ++ (name ++ t!"_STAR/>") ++ t := by
      simp [starXml]
    rw [e, this]
    simp [tagRule, say, starred]
  | false =>
    have hb := best_open_tag (name := name) (sfx := t!"/>") (t := t)
      (before := [_, _, _, _]) (after := [_, _])
      (hsplit := rfl)
      (by
        intro q hq
        simp only [List.mem_cons, List.not_mem_nil, or_false] at hq
        rcases hq with rfl | rfl | rfl | rfl
        · exact Or.inr ⟨_, _, rfl, by decide⟩
        · exact Or.inr ⟨_, _, rfl, by decide⟩
        · exact Or.inl ⟨_, _, rfl⟩
        · exact Or.inl ⟨_, _, rfl⟩)
      (by
        intro q hq
        simp only [List.mem_cons, List.not_mem_nil, or_false] at hq
        rcases hq with rfl | rfl
        · exact Or.inr (Or.inr ⟨_, _, rfl, by decide⟩)
        · exact Or.inl rfl)
      ⟨_, _, rfl, by decide⟩ hne hn'
      (fixed_of (names := [t!"AMP", t!"BR", t!"LEFTESCAPEDBRACE", t!"RIGHTESCAPEDBRACE",
        t!"ESCAPEDPERCENT"]) (hs rfl) (by decide +kernel))
    have := lex_step () hb
    have e : t!"<" ++ name ++ starXml false ++ t!"/>" ++ t = t!"<" ++ (name ++ t!"/>") ++ t := by
      simp [starXml]
    rw [e, this]
    simp [tagRule, say, starred]

theorem white_plain {c : Char} (h : White c) : c ∉ t!"&<#¿¡" := by
  rcases h with rfl | rfl | rfl | rfl <;> decide

theorem post_env {name ws t : Text} {closing star : Bool} (hne : name ≠ [])
    (hn : ∀ c ∈ name, Letter c ∨ Digit c)
    (hs : star = false → name ∉ [t!"CONTENTS", t!"COMMENT", t!"PARAM", t!"VERB"])
    (hw : ∀ c ∈ ws, White c) (g : Bool) :
    lex postRules 0 () (xml g (.env closing name star ws) ++ t)
      = src (.env closing name star ws) ++ lex postRules 0 () t := by
  have hn' : ∀ c ∈ name, isAlnum c = true := fun c hc => (isAlnum_iff c).mpr (hn c hc)
  have hws := post_text (fun c hc => white_plain (hw c hc)) t
  cases closing with
  | false =>
    cases star with
    | true =>
      have hb := best_open_tag (name := name) (sfx := t!"_STAR>") (t := ws ++ t)
        (before := [_]) (after := [_, _, _, _, _])
        (hsplit := rfl)
        (by
          intro q hq
          rw [List.mem_singleton] at hq; subst hq
          exact Or.inr ⟨_, _, rfl, by decide⟩)
        (by
          intro q hq
          simp only [List.mem_cons, List.not_mem_nil, or_false] at hq
          rcases hq with rfl | rfl | rfl | rfl | rfl
          · exact Or.inr (Or.inl ⟨_, _, rfl⟩)
          · exact Or.inr (Or.inl ⟨_, _, rfl⟩)
          · exact Or.inr (Or.inr ⟨_, _, rfl, by decide⟩)
          · exact Or.inr (Or.inr ⟨_, _, rfl, by decide⟩)
          · exact Or.inl rfl)
        ⟨_, _, rfl, by decide⟩ hne hn'
        (fixed_of (names := []) (by simp) (by decide +kernel))
      have := lex_step () hb
      have e : xml g (.env false name true ws) ++ t = t!"<" ++ (name ++ t!"_STAR>") ++ (ws ++ t) := by
        simp [xml, starXml]
      rw [e, this]
      simp [tagRule, say, src, starred, hws]
    | false =>
      have hb := best_open_tag (name := name) (sfx := t!">") (t := ws ++ t)
        (before := []) (after := [_, _, _, _, _, _])
        (hsplit := rfl)
        (by simp)
        (by
          intro q hq
          simp only [List.mem_cons, List.not_mem_nil, or_false] at hq
          rcases hq with rfl | rfl | rfl | rfl | rfl | rfl
          · exact Or.inr (Or.inr ⟨_, _, rfl, by decide⟩)
          · exact Or.inr (Or.inl ⟨_, _, rfl⟩)
          · exact Or.inr (Or.inl ⟨_, _, rfl⟩)
          · exact Or.inr (Or.inr ⟨_, _, rfl, by decide⟩)
          · exact Or.inr (Or.inr ⟨_, _, rfl, by decide⟩)
          · exact Or.inl rfl)
        ⟨_, _, rfl, by decide⟩ hne hn'
        (fixed_of (names := [t!"CONTENTS", t!"COMMENT", t!"PARAM", t!"VERB"]) (hs rfl)
          (by decide +kernel))
      have := lex_step () hb
      have e : xml g (.env false name false ws) ++ t = t!"<" ++ (name ++ t!">") ++ (ws ++ t) := by
        simp [xml, starXml]
      rw [e, this]
      simp [tagRule, say, src, starred, hws]
  | true =>
    cases star with
    | true =>
      have hb := best_end_tag (name := name) (sfx := t!"_STAR>") (t := ws ++ t)
        (before := [_, _, _]) (after := [_, _, _])
        (hsplit := rfl)
        (by
          intro q hq
          simp only [List.mem_cons, List.not_mem_nil, or_false] at hq
          rcases hq with rfl | rfl | rfl
          · exact Or.inl ⟨_, _, rfl⟩
          · exact Or.inl ⟨_, _, rfl⟩
          · exact Or.inr ⟨_, _, rfl, by decide⟩)
        (by
          intro q hq
          simp only [List.mem_cons, List.not_mem_nil, or_false] at hq
          rcases hq with rfl | rfl | rfl
          · exact Or.inr (Or.inl ⟨_, _, rfl⟩)
          · exact Or.inr (Or.inl ⟨_, _, rfl⟩)
          · exact Or.inl rfl)
        ⟨_, _, rfl, by decide⟩ hne hn'
        (fixed_of (names := []) (by simp) (by decide +kernel))
      have := lex_step () hb
      have e : xml g (.env true name true ws) ++ t = t!"</" ++ (name ++ t!"_STAR>") ++ (ws ++ t) := by
        simp [xml, starXml]
      rw [e, this]
      simp [tagRule, say, src, starred, hws]
    | false =>
      have hb := best_end_tag (name := name) (sfx := t!">") (t := ws ++ t)
        (before := [_, _]) (after := [_, _, _, _])
        (hsplit := rfl)
        (by
          intro q hq
          simp only [List.mem_cons, List.not_mem_nil, or_false] at hq
          rcases hq with rfl | rfl
          · exact Or.inl ⟨_, _, rfl⟩
          · exact Or.inl ⟨_, _, rfl⟩)
        (by
          intro q hq
          simp only [List.mem_cons, List.not_mem_nil, or_false] at hq
          rcases hq with rfl | rfl | rfl | rfl
          · exact Or.inr (Or.inr ⟨_, _, rfl, by decide⟩)
          · exact Or.inr (Or.inl ⟨_, _, rfl⟩)
          · exact Or.inr (Or.inl ⟨_, _, rfl⟩)
          · exact Or.inl rfl)
        ⟨_, _, rfl, by decide⟩ hne hn'
        (fixed_of (names := [t!"CONTENTS", t!"COMMENT", t!"PARAM", t!"VERB"]) (hs rfl)
          (by decide +kernel))
      have := lex_step () hb
      have e : xml g (.env true name false ws) ++ t = t!"</" ++ (name ++ t!">") ++ (ws ++ t) := by
        simp [xml, starXml]
      rw [e, this]
      simp [tagRule, say, src, starred, hws]

/-! ### Parameters, comments, verbatim text, formulas -/

theorem post_param {opts t : Text} (h : ∀ c ∈ opts, c ≠ '<') :
    lex postRules 0 () (t!"<PARAM>" ++ opts ++ t!"</PARAM>" ++ t)
      = t!"[" ++ opts ++ t!"]" ++ lex postRules 0 () t := by
  have hc : cands postRules 0 t!"<PARAM>"
      = [paramPost, tagRule t!"<" t!">"
          (fun w => t!"\\begin{" ++ (w.drop 1).take (w.length - 2) ++ t!"}"), anyPost] := by
    simp [cands, postRules, List.filter, compat, lit, put, say, go, anyPost, paramPost, tagRule,
      isAlnum, isLetter, isDigit]
  have hb := best_cands postRules 0 t!"<PARAM>" (opts ++ (t!"</PARAM>" ++ t))
  rw [hc] at hb
  have hsp := takeWhile_all' (p := fun x => decide (x ≠ '<')) (u := opts) (t := t!"</PARAM>" ++ t)
    (by intro c hc; simpa using h c hc)
    (by intro c r e; injection e with e _; subst e; decide)
  have hm : mtch (lit t!"<PARAM>" ++ [.many (fun x => decide (x ≠ '<'))])
      (t!"<PARAM>" ++ (opts ++ (t!"</PARAM>" ++ t))) = some (t!"<PARAM>" ++ opts) := by
    rw [mtch_lit_append]
    simp only [mtch, hsp.1, Option.map_some, List.append_nil]
  have h2 := best_at (before := []) (after := [_, _]) (hit_of (sc := 0) (r := paramPost) rfl hm (by simp))
    (by simp) (by
      intro q hq v hv
      simp only [List.mem_cons, List.not_mem_nil, or_false] at hq
      rcases hq with rfl | rfl
      · have e := tag_hit (pfx := t!"<") (sfx := t!">") (name := t!"PARAM")
          (tail := opts ++ (t!"</PARAM>" ++ t))
          (f := fun w => t!"\\begin{" ++ (w.drop 1).take (w.length - 2) ++ t!"}") (by simp) (by decide)
          ⟨_, _, rfl, by decide⟩
        have hv' := e.symm.trans hv
        injection hv' with hv'; subst hv'; simp
      · exact anyPost_short (by simp) hv)
  rw [List.nil_append] at h2
  rw [h2] at hb
  have hl := lex_step (w := t!"<PARAM>" ++ opts) (t := t!"</PARAM>" ++ t) () (by simpa using hb)
  have e : t!"<PARAM>" ++ opts ++ t!"</PARAM>" ++ t = t!"<PARAM>" ++ opts ++ (t!"</PARAM>" ++ t) := by
    simp
  have hk : stepK postRules 0 () t!"</PARAM>" = some (t!"</PARAM>", t!"]", 0, ()) := by decide +kernel
  rw [e, hl]
  show (t!"[" ++ (t!"<PARAM>" ++ opts).drop 7) ++ lex postRules 0 () _ = _
  rw [lex_stepK hk]
  simp

theorem post_comment_tag {opts t : Text} (h : ∀ c ∈ opts, c ≠ '<') :
    lex postRules 0 () (t!"<COMMENT>" ++ opts ++ t!"</COMMENT>" ++ t)
      = t!"%" ++ opts ++ lex postRules 0 () t := by
  have hc : cands postRules 0 t!"<COMMENT>"
      = [commentPost, tagRule t!"<" t!">"
          (fun w => t!"\\begin{" ++ (w.drop 1).take (w.length - 2) ++ t!"}"), anyPost] := by
    simp [cands, postRules, List.filter, compat, lit, put, say, go, anyPost, commentPost, tagRule,
      isAlnum, isLetter, isDigit]
  have hb := best_cands postRules 0 t!"<COMMENT>" (opts ++ (t!"</COMMENT>" ++ t))
  rw [hc] at hb
  have hsp := takeWhile_all' (p := fun x => decide (x ≠ '<')) (u := opts) (t := t!"</COMMENT>" ++ t)
    (by intro c hc; simpa using h c hc)
    (by intro c r e; injection e with e _; subst e; decide)
  have hm : mtch (lit t!"<COMMENT>" ++ [.many (fun x => decide (x ≠ '<'))])
      (t!"<COMMENT>" ++ (opts ++ (t!"</COMMENT>" ++ t))) = some (t!"<COMMENT>" ++ opts) := by
    rw [mtch_lit_append]
    simp only [mtch, hsp.1, Option.map_some, List.append_nil]
  have h2 := best_at (before := []) (after := [_, _]) (hit_of (sc := 0) (r := commentPost) rfl hm (by simp))
    (by simp) (by
      intro q hq v hv
      simp only [List.mem_cons, List.not_mem_nil, or_false] at hq
      rcases hq with rfl | rfl
      · have e := tag_hit (pfx := t!"<") (sfx := t!">") (name := t!"COMMENT")
          (tail := opts ++ (t!"</COMMENT>" ++ t))
          (f := fun w => t!"\\begin{" ++ (w.drop 1).take (w.length - 2) ++ t!"}") (by simp) (by decide)
          ⟨_, _, rfl, by decide⟩
        have hv' := e.symm.trans hv
        injection hv' with hv'; subst hv'; simp
      · exact anyPost_short (by simp) hv)
  rw [List.nil_append] at h2
  rw [h2] at hb
  have hl := lex_step (w := t!"<COMMENT>" ++ opts) (t := t!"</COMMENT>" ++ t) () (by simpa using hb)
  have e : t!"<COMMENT>" ++ opts ++ t!"</COMMENT>" ++ t
      = t!"<COMMENT>" ++ opts ++ (t!"</COMMENT>" ++ t) := by
    simp
  have hk : stepK postRules 0 () t!"</COMMENT>" = some (t!"</COMMENT>", [], 0, ()) := by decide +kernel
  rw [e, hl]
  show (t!"%" ++ (t!"<COMMENT>" ++ opts).drop 9) ++ lex postRules 0 () _ = _
  rw [lex_stepK hk]
  simp

theorem post_comment {body t : Text} (h : ∀ c ∈ body, c ≠ '\n' ∧ c ≠ '<') (g : Bool) :
    lex postRules 0 () (xml g (.comment body) ++ t) = t!"%" ++ body ++ lex postRules 0 () t := by
  simp only [xml, commentAct]
  split
  · rename_i hl
    have hne : body ≠ [] := by rintro rfl; revert hl; decide
    rw [List.getLast?_cons_of_ne_nil hne] at hl
    obtain ⟨b, rfl⟩ := List.getLast?_eq_some_iff.mp hl
    have e : t!"<COMMENT>" ++ (List.drop 1 ('%' :: (b ++ ['\r']))).dropLast ++ t!"</COMMENT>\r" ++ t
        = t!"<COMMENT>" ++ b ++ t!"</COMMENT>" ++ ('\r' :: t) := by
      simp only [List.drop_succ_cons, List.drop_zero, List.dropLast_concat]
      simp
    rw [e, post_comment_tag (fun c hc => (h c (List.mem_append_left _ hc)).2), post_chr (by decide)]
    simp
  · have e : t!"<COMMENT>" ++ List.drop 1 ('%' :: body) ++ t!"</COMMENT>" ++ t
        = t!"<COMMENT>" ++ body ++ t!"</COMMENT>" ++ t := rfl
    rw [e, post_comment_tag (fun c hc => (h c hc).2)]

theorem post_verb {d : Char} {body t : Text} (hd : d ∈ t!"|!?/+")
    (h : ∀ c ∈ body, c ≠ d ∧ c ∉ t!"<&#¿¡") (g : Bool) :
    lex postRules 0 () (xml g (.verb d body) ++ t)
      = src (.verb d body) ++ lex postRules 0 () t := by
  have h1 : stepK postRules 0 () t!"<VERB>" = some (t!"<VERB>", t!"\\verb", 0, ()) := by
    decide +kernel
  have h2 : stepK postRules 0 () t!"</VERB>" = some (t!"</VERB>", [], 0, ()) := by decide +kernel
  have hd' : d ∉ t!"&<#¿¡" := (show ∀ x ∈ t!"|!?/+", x ∉ t!"&<#¿¡" by decide) d hd
  have hb : ∀ c ∈ [d] ++ body ++ [d], c ∉ t!"&<#¿¡" := by
    intro c hc
    simp only [List.mem_append, List.mem_singleton] at hc
    rcases hc with (rfl | hc) | rfl
    · exact hd'
    · have := (h c hc).2
      simp only [List.mem_cons, List.not_mem_nil, or_false, not_or] at this ⊢
      exact ⟨this.2.1, this.1, this.2.2⟩
    · exact hd'
  have e : xml g (.verb d body) ++ t = t!"<VERB>" ++ (([d] ++ body ++ [d]) ++ (t!"</VERB>" ++ t)) := by
    simp [xml]
  rw [e, lex_stepK h1, post_text hb, lex_stepK h2]
  simp [src]

def anyMath : Rule Unit := { start := 1, pat := [.one (fun _ => true)], act := fun w sc g => (w, sc, g) }

theorem post_math_body : ∀ {body t : Text}, ¬ t!"</" <:+: body →
    lex postRules 1 () (body ++ ('<' :: t)) = body ++ lex postRules 1 () ('<' :: t) := by
  intro body t h
  induction body with
  | nil => rfl
  | cons c body ih =>
    have ih' := ih (fun e => h (by
      obtain ⟨a, b, e⟩ := e
      exact ⟨c :: a, b, by simp [← e]⟩))
    have hb : best postRules 1 (c :: (body ++ '<' :: t)) = some ([c], anyMath) := by
      by_cases hc : c = '<'
      · subst hc
        obtain ⟨d, r, hr, hd⟩ : ∃ d r, body ++ '<' :: t = d :: r ∧ d ≠ '/' := by
          cases body with
          | nil => exact ⟨'<', t, rfl, by decide⟩
          | cons d r =>
            refine ⟨d, r ++ '<' :: t, rfl, ?_⟩
            rintro rfl
            exact h ⟨[], r, by simp⟩
        rw [hr]
        have hb := best_cands postRules 1 ['<', d] r
        have hc : cands postRules 1 ['<', d] = [anyMath] := by
          simp [cands, postRules, List.filter, compat, lit, put, say, go, anyMath, hd]
        rw [hc] at hb
        exact hb.trans (best_only (by simp [hit, anyMath, mtch]))
      · have hb := best_cands postRules 1 [c] (body ++ '<' :: t)
        have hc : cands postRules 1 [c] = [anyMath] := by
          simp [cands, postRules, List.filter, compat, lit, put, say, go, anyMath, hc]
        rw [hc] at hb
        exact hb.trans (best_only (by simp [hit, anyMath, mtch]))
    have := lex_step (w := [c]) (t := body ++ '<' :: t) () hb
    simp only [List.cons_append, List.nil_append] at this ⊢
    rw [this]
    show c :: lex postRules 1 () (body ++ '<' :: t) = _
    rw [ih']

theorem post_math {double : Bool} {body t : Text} (h : ¬ t!"</" <:+: body) (g : Bool) :
    lex postRules 0 () (xml g (.math double body) ++ t)
      = src (.math double body) ++ lex postRules 0 () t := by
  cases double with
  | true =>
    have h1 : stepK postRules 0 () t!"<MATH_DOLLARS>" = some (t!"<MATH_DOLLARS>", t!"$$", 1, ()) := by
      decide +kernel
    have h2 : stepK postRules 1 () t!"</MATH_DOLLARS>" = some (t!"</MATH_DOLLARS>", t!"$$", 0, ()) := by
      decide +kernel
    have e : xml g (.math true body) ++ t
        = t!"<MATH_DOLLARS>" ++ (body ++ ('<' :: (t!"/MATH_DOLLARS>" ++ t))) := by simp [xml]
    rw [e, lex_stepK h1, post_math_body h,
      show '<' :: (t!"/MATH_DOLLARS>" ++ t) = t!"</MATH_DOLLARS>" ++ t from rfl, lex_stepK h2]
    simp [src]
  | false =>
    have h1 : stepK postRules 0 () t!"<MATH_DOLLAR>" = some (t!"<MATH_DOLLAR>", t!"$", 1, ()) := by
      decide +kernel
    have h2 : stepK postRules 1 () t!"</MATH_DOLLAR>" = some (t!"</MATH_DOLLAR>", t!"$", 0, ()) := by
      decide +kernel
    have e : xml g (.math false body) ++ t
        = t!"<MATH_DOLLAR>" ++ (body ++ ('<' :: (t!"/MATH_DOLLAR>" ++ t))) := by simp [xml]
    rw [e, lex_stepK h1, post_math_body h,
      show '<' :: (t!"/MATH_DOLLAR>" ++ t) = t!"</MATH_DOLLAR>" ++ t from rfl, lex_stepK h2]
    simp [src]

end Verif.Latex
