/-
  C86: a LaTeX document that goes through `apertium-prelatex` and
  `apertium-postlatex-raw` comes back as it was, with its accented letters as
  letters; and what is lost.
-/
import Verif.Latex.Tags

namespace Verif.Latex

open Spec

theorem pre_piece {p : Piece} {t : Text} (h : Fine p t) (g : Bool) : Step g p t := by
  cases p with
  | chr c => exact step_chr h.1 h.2 g
  | token u => exact step_token h g t
  | backslash => exact step_backslash h g
  | brace => exact step_brace h g
  | quote => exact step_quote h g
  | short c => exact step_short h g t
  | cmd name star => exact step_cmd h g
  | use opts => exact step_use h g
  | param opts => exact step_param h g
  | env closing name star ws => exact step_env h.1 h.2.1 h.2.2.2.1 h.2.2.2.2 g
  | math double body => exact step_math h.1 h.2.2 g
  | comment body => exact step_comment h.1 h.2 g
  | verb d body => exact step_verb h.1 h.2.1 h.2.2 g
  | letter s out => exact step_letter h g t

theorem post_piece {p : Piece} {t' : Text} (h : Fine p t') (g : Bool) (t : Text) :
    lex postRules 0 () (xml g p ++ t) = back g p ++ lex postRules 0 () t := by
  cases p with
  | chr c =>
    refine post_chr ?_ t
    have := h.1
    simp only [List.mem_cons, List.not_mem_nil, or_false, not_or] at this ⊢
    obtain ⟨-, -, -, -, -, -, -, -, -, h1, -, h2, h3, h4, h5⟩ := this
    exact ⟨h2, h1, h3, h4, h5⟩
  | token u => exact post_token h t
  | backslash => exact post_chr (c := '\\') (by decide) t
  | brace =>
    exact lex_stepK (show stepK postRules 0 () t!"<CONTENTS>" = some (t!"<CONTENTS>", t!"{", 0, ()) by
      decide +kernel) t
  | quote =>
    exact lex_stepK (show stepK postRules 0 () t!"&quot;" = some (t!"&quot;", t!"\"", 0, ()) by
      decide +kernel) t
  | short c => exact post_short h g t
  | cmd name star =>
    refine post_cmd h.1 h.2.1 ?_
    intro hs
    have := (h.2.2.2.2 hs).1
    simp only [List.mem_cons, List.not_mem_nil, or_false, not_or] at this ⊢
    obtain ⟨-, -, -, -, h1, h2, h3, h4, h5⟩ := this
    exact ⟨h1, h2, h3, h4, h5⟩
  | use opts =>
    have hk : stepK postRules 0 () t!"<usepackage/>" = some (t!"<usepackage/>", t!"\\usepackage", 0, ()) := by
      decide +kernel
    have e : xml g (.use opts) ++ t
        = t!"<usepackage/>" ++ (t!"<PARAM>" ++ opts ++ t!"</PARAM>" ++ t) := by simp [xml]
    rw [e, lex_stepK hk, post_param (fun c hc => (h c hc).2.1)]
    simp [back, src]
  | param opts => exact post_param (fun c hc => (h c hc).2)
  | env closing name star ws => exact post_env h.1 h.2.1 h.2.2.1 h.2.2.2.1 g
  | math double body => exact post_math h.2.1 g
  | comment body => exact post_comment h.1 g
  | verb d body => exact post_verb h.1 h.2.2 g
  | letter s out => exact post_letter h g t

/-- What is written for a document. -/
def xmls : Bool → List Piece → Text
  | _, [] => []
  | g, p :: ps => xml g p ++ xmls (loads g p) ps

theorem pre_doc : ∀ (doc : List Piece) (g cl : Bool), Written doc →
    lex preRules 0 ⟨cl, g⟩ (text doc) = xmls g doc := by
  intro doc
  induction doc with
  | nil => intros; rfl
  | cons p ps ih =>
    intro g cl h
    obtain ⟨cl', hp⟩ := pre_piece h.1 g cl
    show lex preRules 0 ⟨cl, g⟩ (src p ++ text ps) = _
    rw [hp, ih _ _ h.2]
    rfl

theorem post_doc : ∀ (doc : List Piece) (g : Bool), Written doc →
    lex postRules 0 () (xmls g doc) = returned g doc := by
  intro doc
  induction doc with
  | nil => intros; rfl
  | cons p ps ih =>
    intro g h
    show lex postRules 0 () (xml g p ++ xmls (loads g p) ps) = _
    rw [post_piece h.1, ih _ h.2]
    rfl

/-- C86, for the documents described in `Spec`: the document comes back, with
    the letters written with commands as letters.  Missing: the pieces that
    `Fine` leaves out, for which it does not hold; see the violations. -/
theorem C86_roundtrip_partial (doc : List Piece) (h : Written doc) :
    post (pre (text doc)) = returned false doc := by
  simp only [post, pre]
  rw [pre_doc doc false false h, post_doc doc false h]

theorem returned_same : ∀ (doc : List Piece) (g : Bool),
    (∀ p ∈ doc, (∀ s out, p ≠ .letter s out) ∧ ∀ c, p ≠ .short c) → returned g doc = text doc := by
  intro doc
  induction doc with
  | nil => intros; rfl
  | cons p ps ih =>
    intro g h
    have hp := h p List.mem_cons_self
    have hb : back g p = src p := by
      cases p with
      | letter s out => exact absurd rfl (hp.1 s out)
      | short c => exact absurd rfl (hp.2 c)
      | _ => rfl
    show back g p ++ returned (loads g p) ps = src p ++ text ps
    rw [hb, ih _ (fun q hq => h q (List.mem_cons_of_mem _ hq))]

/-- Without accented letters and shorthands the document comes back exactly. -/
theorem C86_same_partial (doc : List Piece) (h : Written doc)
    (hl : ∀ p ∈ doc, (∀ s out, p ≠ .letter s out) ∧ ∀ c, p ≠ .short c) :
    post (pre (text doc)) = text doc := by
  rw [C86_roundtrip_partial doc h, returned_same doc false hl]

/-! ### A document, and that it is one -/

def sample : List Piece :=
  [.use t!"ngerman", .brace, .chr 'b', .token t!"}", .chr '\n', .env false t!"align" true t!"\n",
   .cmd t!"rm" false, .chr ' ', .short 'o', .quote, .chr '?', .backslash, .chr ',', .letter t!"\\`a" t!"à",
   .cmd t!"section" true, .param t!"x", .math false t!"a<b", .chr ' ', .math true t!"c", .verb '|' t!"x y",
   .env true t!"align" true [], .token t!"\\&", .comment t!" done\r"]

example : text sample
    = t!"\\usepackage[ngerman]{b}\n\\begin{align*}\n\\rm \"o\"?\\,\\`a\\section*[x]$a<b$ $$c$$\\verb|x y|\\end{align*}\\&% done\r" := by
  decide

theorem sample_written : Written sample := by
  simp [sample, Written, Fine, text, src, starred, Next, tokens, letters, accented, Letter, Digit,
    White, List.infix_cons_iff]

/-- It comes back with its letters as letters. -/
example : post (pre (text sample))
    = t!"\\usepackage[ngerman]{b}\n\\begin{align*}\n\\rm ö\"?\\,à\\section*[x]$a<b$ $$c$$\\verb|x y|\\end{align*}\\&% done\r" := by
  rw [C86_roundtrip_partial _ sample_written]; decide +kernel

/-! ### What is lost -/

/-- Accents that are not in the table are written as a broken tag: the hacek,
    the ogonek, the macron, and the acute on a plain `i`. -/
theorem C86_accent_violation :
    post (pre t!"Bene\\v{s}") = t!"Bene<v{s}/>" ∧ post (pre t!"m\\k{a}ka") = t!"m<k{a}/>ka"
      ∧ post (pre t!"T\\=oky\\=o") = t!"T<=o/>ky<=o/>" ∧ post (pre t!"pa\\'{i}s") = t!"pa<'{i}/>s" := by
  decide +kernel

/-- A dotless `i` without braces becomes a `j`: the action reads the fifth
    character of a match of four. -/
theorem C86_dotless_violation :
    post (pre t!"pa\\'\\is") = t!"pajs" ∧ post (pre t!"\\`\\i") = t!"k" := by
  decide +kernel

/-- A number sign becomes an undefined command, and a parameter an escaped
    number sign. -/
theorem C86_hash_violation :
    post (pre t!"no. \\# 5") = t!"no. \\HASH 5" ∧ post (pre t!"\\#5") = t!"<HASH_5/>"
      ∧ post (pre t!"\\newcommand{\\x}[1]{#1}") = t!"\\newcommand{\\x}[1]{\\#1}" := by
  decide +kernel

/-- An environment whose name is not made of letters and digits is torn. -/
theorem C86_environment_violation :
    post (pre t!"\\begin{my-env}") = t!"\\begin{my}-\\begin{env}" := by
  decide +kernel

/-- Verbatim text and comments with a tag or an entity are changed. -/
theorem C86_verbatim_violation :
    post (pre t!"\\verb|<b>|") = t!"\\verb|\\begin{b}|"
      ∧ post (pre t!"\\verb|&amp;|") = t!"\\verb|\\&|"
      ∧ post (pre t!"% see <br/>") = t!"% see \\br" := by
  decide +kernel

/-- A package option outside ASCII gains a bracket: the length is counted in
    bytes. -/
theorem C86_option_violation :
    post (pre t!"\\usepackage[é]{x}") = t!"\\usepackage[é]]{x}" := by
  decide +kernel

end Verif.Latex
