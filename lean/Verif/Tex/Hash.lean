import Verif.Tex.Post
/-!
# C91: number signs
-/
namespace Verif.Tex
open Verif.Latex
open Verif.Latex.Spec hiding back returned

/-- The rule of `\#` and a number in `apertium-prelatex`. -/
def hashPre : Rule Globals := say (lit t!"\\#" ++ [.one isDigit, .many isDigit]) (fun w => t!"<HASH_" ++ w.drop 2 ++ t!"/>")

theorem cands_pre : cands preRules 0 t!"\\#" = [hashPre, put t!"\\#" t!"<HASH/>", anyRule] := by
  simp [cands, preRules, List.filter, compat, lit, put, say, go, anyRule, hashPre, verbRule, oneOf, accChars, dot, isLetter]

theorem hit_put {u t : Text} {out : Text} (hu : u ≠ []) : Latex.hit (put (σ := σ) u out) 0 (u ++ t) = some u := by
  refine hit_of rfl ?_ hu
  have := mtch_lit_append u [] t
  rw [List.append_nil] at this
  show mtch (lit u) _ = _
  rw [this]; simp [mtch]

/-- What is written for `\#` and digits. -/
def numberXml (ds : Text) : Text := if ds = [] then t!"<HASH/>" else t!"<HASH_" ++ ds ++ t!"/>"

theorem mtch_number {u ds t : Text} {q : Pat} (hne : ds ≠ []) (hd : ∀ c ∈ ds, isDigit c = true) (ht : ∀ x r, t = x :: r → isDigit x = false) :
    mtch (lit u ++ ([.one isDigit, .many isDigit] ++ q)) (u ++ (ds ++ t)) = (mtch q t).map fun w => u ++ (ds ++ w) := by
  rw [mtch_lit_append]
  cases ds with
  | nil => exact absurd rfl hne
  | cons c ds =>
    have hsp := takeWhile_all' (p := isDigit) (u := ds) (t := t) (fun y hy => hd y (List.mem_cons_of_mem _ hy)) ht
    simp only [List.cons_append, List.nil_append, mtch, hd c List.mem_cons_self, if_true, hsp.1, hsp.2]
    cases mtch q t <;> simp

theorem pre_number {ds t : Text} (hd : ∀ c ∈ ds, Digit c) (ht : ¬ Next Digit t) (cl g : Bool) :
    lex preRules 0 ⟨cl, g⟩ (t!"\\#" ++ ds ++ t) = numberXml ds ++ lex preRules 0 ⟨cl, g⟩ t := by
  have hd' : ∀ c ∈ ds, isDigit c = true := fun c hc => (isDigit_iff c).2 (hd c hc)
  have ht' : ∀ x r, t = x :: r → isDigit x = false := fun x r e => by
    cases h : isDigit x with
    | false => rfl
    | true => exact absurd ⟨x, r, e, (isDigit_iff x).1 h⟩ ht
  rw [List.append_assoc]
  have hb := best_cands preRules 0 t!"\\#" (ds ++ t)
  rw [cands_pre] at hb
  by_cases hne : ds = []
  · subst hne
    rw [List.nil_append] at hb ⊢
    have hn : Latex.hit hashPre 0 (t!"\\#" ++ t) = none := by
      cases hh : Latex.hit hashPre 0 (t!"\\#" ++ t) with
      | none => rfl
      | some v =>
        obtain ⟨-, h⟩ := hit_mtch hh
        have h' : mtch (lit t!"\\#" ++ [.one isDigit, .many isDigit]) (t!"\\#" ++ t) = some v := h
        rw [mtch_lit_append] at h'
        cases t with
        | nil => simp [mtch] at h'
        | cons x r => simp [mtch, ht' x r rfl] at h'
    have h2 := best_at (before := [hashPre]) (after := [anyRule]) (hit_put (σ := Globals) (u := t!"\\#") (t := t) (out := t!"<HASH/>") (by simp))
      (by intro q hq v hv; rw [List.mem_singleton] at hq; subst hq; rw [hn] at hv; cases hv)
      (by intro q hq v hv; rw [List.mem_singleton] at hq; subst hq; exact any_short (by simp) hv)
    exact lex_step (w := t!"\\#") (t := t) (⟨cl, g⟩ : Globals) (hb.trans h2)
  · have hm : mtch hashPre.pat (t!"\\#" ++ (ds ++ t)) = some (t!"\\#" ++ ds) := by
      have := mtch_number (u := t!"\\#") (q := []) hne hd' ht'
      show mtch (lit t!"\\#" ++ [.one isDigit, .many isDigit]) _ = _
      simpa [mtch] using this
    have h2 := best_at (before := []) (after := [put t!"\\#" t!"<HASH/>", anyRule]) (hit_of (sc := 0) (r := hashPre) rfl hm (by simp)) (by simp)
      (by
        intro q hq v hv
        simp only [List.mem_cons, List.not_mem_nil, or_false] at hq
        rcases hq with rfl | rfl
        · have hv' := (hit_put (σ := Globals) (u := t!"\\#") (t := ds ++ t) (out := t!"<HASH/>") (by simp)).symm.trans hv
          injection hv' with hv'; subst hv'; simp
        · exact any_short (by simp) hv)
    have := lex_step (w := t!"\\#" ++ ds) (t := t) (⟨cl, g⟩ : Globals) (by
      rw [List.append_assoc]; exact hb.trans h2)
    rw [List.append_assoc] at this
    rw [this, numberXml, if_neg hne]
    simp [hashPre, say]

/-- The rule of `\#` and a number in `apertium-postlatex`. -/
def hashPost : Rule Unit :=
  say (lit t!"<HASH_" ++ [.one isDigit, .many isDigit] ++ lit t!"/>") (fun w => t!"\\#" ++ (w.drop 6).take (w.length - 8))

theorem cands_post : cands rules 0 t!"<HASH_"
    = [hashPost, tagRule t!"<" t!"_STAR>" (fun w => t!"\\begin{" ++ (w.drop 1).take (w.length - 7) ++ t!"*}"),
      tagRule t!"<" t!"_STAR/>" (fun w => t!"\\" ++ (w.drop 1).take (w.length - 8) ++ t!"*"), symbolRule, anyPost] := by
  simp [cands, rules, List.filter, compat, lit, put, say, go, anyPost, symbolRule, hashPost, tagRule, isAlnum, isLetter, isDigit]

theorem post_number {ds : Text} (hd : ∀ c ∈ ds, Digit c) (t : Text) :
    lex rules 0 () (numberXml ds ++ t) = t!"\\#" ++ ds ++ lex rules 0 () t := by
  have hd' : ∀ c ∈ ds, isDigit c = true := fun c hc => (isDigit_iff c).2 (hd c hc)
  by_cases hne : ds = []
  · subst hne
    exact lex_stepK (show stepK rules 0 () t!"<HASH/>" = some (t!"<HASH/>", t!"\\#", 0, ()) by decide +kernel) t
  · have hb := best_cands rules 0 t!"<HASH_" (ds ++ (t!"/>" ++ t))
    rw [cands_post] at hb
    have hm : mtch hashPost.pat (t!"<HASH_" ++ (ds ++ (t!"/>" ++ t))) = some (t!"<HASH_" ++ (ds ++ t!"/>")) := by
      have h1 := mtch_number (u := t!"<HASH_") (q := lit t!"/>") (t := t!"/>" ++ t) hne hd' (by
        intro x r e; injection e with e _; subst e; decide)
      have h2 := mtch_lit_append t!"/>" [] t
      rw [List.append_nil] at h2
      rw [h2] at h1
      show mtch (lit t!"<HASH_" ++ [.one isDigit, .many isDigit] ++ lit t!"/>") _ = _
      rw [List.append_assoc, h1]
      simp [mtch]
    have hno : ∀ (x : Text) (f : Text → Text) (v : Text), Latex.hit (tagRule t!"<" (t!"_S" ++ x) f) 0 (t!"<HASH_" ++ (ds ++ (t!"/>" ++ t))) = some v → False := by
      intro x f v hv
      have := tag_tail (pfx := t!"<") (sfx := t!"_S" ++ x) (name := t!"HASH") (tail := '_' :: (ds ++ (t!"/>" ++ t))) (by simp) (by decide)
        (by intro y r e; injection e with e _; subst e; decide) hv
      cases hds : ds with
      | nil => exact hne hds
      | cons d r =>
        rw [hds] at this
        simp only [List.cons_append, List.nil_append, List.cons_prefix_cons] at this
        have h1 := hd' d (by rw [hds]; exact List.mem_cons_self)
        rw [← this.2.1] at h1
        exact absurd h1 (by decide)
    have h2 := best_at (before := []) (after := [tagRule t!"<" t!"_STAR>" (fun w => t!"\\begin{" ++ (w.drop 1).take (w.length - 7) ++ t!"*}"),
      tagRule t!"<" t!"_STAR/>" (fun w => t!"\\" ++ (w.drop 1).take (w.length - 8) ++ t!"*"), symbolRule, anyPost]) (hit_of (sc := 0) (r := hashPost) rfl hm (by simp)) (by simp) (by
      intro q hq v hv
      simp only [List.mem_cons, List.not_mem_nil, or_false] at hq
      rcases hq with rfl | rfl | rfl | rfl
      · exact (hno t!"TAR>" _ v hv).elim
      · exact (hno t!"TAR/>" _ v hv).elim
      · exact symbol_short (by simp) hv
      · exact anyPost_short (by simp) hv)
    have := lex_step (w := t!"<HASH_" ++ (ds ++ t!"/>")) (t := t) () (by simpa using hb.trans h2)
    have e : numberXml ds ++ t = t!"<HASH_" ++ (ds ++ t!"/>") ++ t := by rw [numberXml, if_neg hne]; simp
    rw [e, this]
    simp [hashPost, say]

/-- A number sign alone. -/
theorem pre_sign (cl g : Bool) (t : Text) : lex preRules 0 ⟨cl, g⟩ ('#' :: t) = '#' :: lex preRules 0 ⟨cl, g⟩ t := by
  have : ∀ cl g : Bool, stepK preRules 0 ⟨cl, g⟩ t!"#" = some (t!"#", t!"#", 0, ⟨cl, g⟩) := by decide +kernel
  exact lex_stepK (this cl g) t

theorem post_sign (t : Text) : lex rules 0 () ('#' :: t) = '#' :: lex rules 0 () t :=
  post_chr (c := '#') (by decide) (by decide) t

end Verif.Tex
