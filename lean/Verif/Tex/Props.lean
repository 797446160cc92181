import Verif.Tex.Hash
import Verif.Latex.Props
/-!
# C91: `apertium-prelatex`, then `apertium-postlatex`
-/
namespace Verif.Tex
open Verif.Latex
open Verif.Latex.Spec hiding back returned text Written

theorem post_piece {p : Piece} {t' : Text} (h : Fine p t') (ha : Also p) (g : Bool) (t : Text) :
    lex rules 0 () (Latex.xml g p ++ t) = back g p ++ lex rules 0 () t := by
  cases p with
  | chr c =>
    refine post_chr ?_ ha t
    have := h.1
    simp only [List.mem_cons, List.not_mem_nil, or_false, not_or] at this ⊢
    obtain ⟨-, -, -, -, -, -, -, -, -, h1, -, h2, h3, h4, h5⟩ := this
    exact ⟨h2, h1, h4, h5⟩
  | token u => exact post_token h t
  | backslash =>
    exact post_chr (c := '\\') (by decide) (by decide) t
  | brace =>
    exact lex_stepK (show stepK rules 0 () t!"<CONTENTS>" = some (t!"<CONTENTS>", t!"{", 0, ()) by
      decide +kernel) t
  | quote =>
    exact lex_stepK (show stepK rules 0 () t!"&quot;" = some (t!"&quot;", t!"\"", 0, ()) by
      decide +kernel) t
  | short c => exact post_short h g t
  | cmd name star =>
    refine post_cmd ha h.1 h.2.1 ?_
    intro hs
    have := (h.2.2.2.2 hs).1
    simp only [List.mem_cons, List.not_mem_nil, or_false, not_or] at this ⊢
    obtain ⟨-, -, -, -, h1, h2, h3, h4, h5⟩ := this
    exact ⟨h1, h2, h3, h4, h5⟩
  | use opts =>
    have hk : stepK rules 0 () t!"<usepackage/>" = some (t!"<usepackage/>", t!"\\usepackage", 0, ()) := by
      decide +kernel
    have e : Latex.xml g (.use opts) ++ t
        = t!"<usepackage/>" ++ (t!"<PARAM>" ++ opts ++ t!"</PARAM>" ++ t) := by simp [Latex.xml]
    rw [e, lex_stepK hk, post_param (fun c hc => (h c hc).2.1)]
    simp [back, src]
  | param opts => exact post_param (fun c hc => (h c hc).2)
  | env closing name star ws => exact post_env ha h.1 h.2.1 h.2.2.1 h.2.2.2.1 g
  | math double body => exact post_math h.2.1 g
  | comment body => exact post_comment h.1 g
  | verb d body => exact post_verb h.1 h.2.2 ha g
  | letter s out => exact post_letter h g t

/-- What is written for a document. -/
def xmls : Bool → List Part → Text
  | _, [] => []
  | g, .piece p :: ps => Latex.xml g p ++ xmls (loads g p) ps
  | g, .sign :: ps => t!"#" ++ xmls g ps
  | g, .number ds :: ps => numberXml ds ++ xmls g ps

theorem pre_doc : ∀ (doc : List Part) (g cl : Bool), Written doc → lex preRules 0 ⟨cl, g⟩ (text doc) = xmls g doc := by
  intro doc
  induction doc with
  | nil => intros; rfl
  | cons p ps ih =>
    intro g cl h
    cases p with
    | piece p =>
      obtain ⟨cl', hp⟩ := pre_piece h.1.1 g cl
      show lex preRules 0 ⟨cl, g⟩ (src p ++ text ps) = _
      rw [hp, ih _ _ h.2]
      rfl
    | sign =>
      show lex preRules 0 ⟨cl, g⟩ ('#' :: text ps) = '#' :: xmls g ps
      rw [pre_sign, ih _ _ h.2]
    | number ds =>
      show lex preRules 0 ⟨cl, g⟩ (t!"\\#" ++ ds ++ text ps) = numberXml ds ++ xmls g ps
      rw [pre_number h.1.1 h.1.2, ih _ _ h.2]

theorem post_doc : ∀ (doc : List Part) (g : Bool), Written doc → lex rules 0 () (xmls g doc) = returned g doc := by
  intro doc
  induction doc with
  | nil => intros; rfl
  | cons p ps ih =>
    intro g h
    cases p with
    | piece p =>
      show lex rules 0 () (Latex.xml g p ++ xmls (loads g p) ps) = _
      rw [post_piece h.1.1 h.1.2, ih _ h.2]
      rfl
    | sign =>
      show lex rules 0 () ('#' :: xmls g ps) = '#' :: returned g ps
      rw [post_sign, ih _ h.2]
    | number ds =>
      show lex rules 0 () (numberXml ds ++ xmls g ps) = t!"\\#" ++ ds ++ returned g ps
      rw [post_number h.1.1, ih _ h.2]

/-- **C91**, for the documents described in the specification of C86 and number signs, with characters of sixteen bits: the document comes back, its letters as commands.  Missing: the
pieces that `Fine` and `Also` leave out, for which it does not hold. -/
theorem C91_roundtrip_partial (doc : List Part) (h : Written doc) : post (pre (text doc)) = returned false doc := by
  simp only [post, pre]
  rw [pre_doc doc false false h, post_doc doc false h]

theorem texText_same : ∀ {u : Text}, (∀ c ∈ u, ∀ p ∈ commands, p.1 ≠ c) → texText u = u
  | [], _ => rfl
  | c :: u, h => by
    have h1 : commands.find? (fun p => decide (p.1 = c)) = none := by
      rw [List.find?_eq_none]
      intro p hp
      simpa using h c List.mem_cons_self p hp
    have ht : tex c = [c] := by simp only [tex, h1]
    have ih := texText_same fun x hx => h x (List.mem_cons_of_mem c hx)
    simp only [texText, List.flatMap_cons] at ih ⊢
    rw [ht, ih]; rfl

theorem back_same {p : Piece} (h : Canonical p) (g : Bool) : back g p = src p := by
  cases p with
  | chr c =>
    have := texText_same (u := [c]) (fun x hx => by rw [List.mem_singleton] at hx; subst hx; exact h)
    simpa [texText, back, src] using this
  | verb d body => simp only [back, src, texText_same h]
  | letter s out => exact h
  | short c => exact absurd h id
  | math d b => cases d <;> rfl
  | _ => rfl

/-- **C91**: a document whose letters are written with the commands that the program uses comes back as it was. -/
theorem C91_same_partial (doc : List Part) (h : Written doc) (hc : ∀ p ∈ doc, p.Canonical) : post (pre (text doc)) = text doc := by
  rw [C91_roundtrip_partial doc h]
  clear h
  have : ∀ g, returned g doc = text doc := by
    induction doc with
    | nil => intro g; rfl
    | cons p ps ih =>
      intro g
      have ih := ih fun q hq => hc q (List.mem_cons_of_mem _ hq)
      cases p with
      | piece p =>
        show back g p ++ returned (loads g p) ps = src p ++ text ps
        have hp : Canonical p := hc (.piece p) List.mem_cons_self
        rw [back_same hp, ih]
      | sign => show t!"#" ++ returned g ps = t!"#" ++ text ps; rw [ih]
      | number ds => show t!"\\#" ++ ds ++ returned g ps = t!"\\#" ++ ds ++ text ps; rw [ih]
  exact this false

/-- **C91**: a document in ASCII comes back in ASCII, whatever commands its letters are written with, but for `\^{\j}`. -/
theorem C91_ascii_partial (doc : List Part) (h : Written doc) (hj : .piece (.letter t!"\\^{\\j}" t!"ĵ") ∉ doc)
    (hs : ∀ c ∈ text doc, c.toNat < 128) : ∀ c ∈ post (pre (text doc)), c.toNat < 128 := by
  rw [C91_roundtrip_partial doc h]
  have key : ∀ (ps : List Part) (g : Bool), Written ps → .piece (.letter t!"\\^{\\j}" t!"ĵ") ∉ ps → (∀ c ∈ text ps, c.toNat < 128) → ∀ c ∈ returned g ps, c.toNat < 128 := by
    intro ps
    induction ps with
    | nil => intro g _ _ _ c hc; cases hc
    | cons p ps ih =>
      intro g hw hj hs c hc
      have htx : ∀ c, c.toNat < 128 → ∀ x ∈ tex c, x.toNat < 128 := by
        intro c hc x hx
        have hm : commands.find? (fun p => decide (p.1 = c)) = none := by
          rw [List.find?_eq_none]
          intro p hp
          have := (show ∀ p ∈ commands, 128 ≤ p.1.toNat by decide +kernel) p hp
          have : p.1 ≠ c := fun e => by rw [e] at this; omega
          simpa using this
        simp only [tex, hm, List.mem_singleton] at hx
        rw [hx]; exact hc
      cases p with
      | piece p =>
        rcases List.mem_append.1 (show c ∈ back g p ++ returned (loads g p) ps from hc) with hc | hc
        · have hsrc : ∀ c ∈ src p, c.toNat < 128 := fun x hx => hs x (List.mem_append_left _ hx)
          cases p with
          | chr d => exact htx d (hsrc d (List.mem_singleton.2 rfl)) c hc
          | verb d body =>
            simp only [back, List.mem_append] at hc
            rcases hc with ((hc | hc) | hc) | hc
            · exact hsrc c (by simp only [src, List.mem_append]; exact Or.inl (Or.inl (Or.inl hc)))
            · exact hsrc c (by simp only [src, List.mem_append]; exact Or.inl (Or.inl (Or.inr hc)))
            · obtain ⟨x, hx, hc⟩ := List.mem_flatMap.1 hc
              exact htx x (hsrc x (by simp only [src, List.mem_append]; exact Or.inl (Or.inr hx))) c hc
            · exact hsrc c (by simp only [src, List.mem_append]; exact Or.inr hc)
          | letter s out =>
            have hm : (s, out) ∈ letters := hw.1.1
            have : ∀ q ∈ letters, q ≠ (t!"\\^{\\j}", t!"ĵ") → ∀ x ∈ texText q.2, x.toNat < 128 := by decide +kernel
            exact this _ hm (fun e => hj (by injection e with e1 e2; rw [e1, e2]; exact List.mem_cons_self)) c hc
          | short d =>
            have : ∀ d ∈ t!"oOaAuUsS", ∀ g : Bool, ∀ x ∈ back g (.short d), x.toNat < 128 := by decide +kernel
            exact this d hw.1.1 g c hc
          | math d b => cases d <;> exact hsrc c hc
          | _ => exact hsrc c hc
        · exact ih _ hw.2 (fun h => hj (List.mem_cons_of_mem _ h)) (fun x hx => hs x (List.mem_append_right _ hx)) c hc
      | sign =>
        rcases List.mem_append.1 (show c ∈ t!"#" ++ returned g ps from hc) with hc | hc
        · exact hs c (List.mem_append_left _ hc)
        · exact ih _ hw.2 (fun h => hj (List.mem_cons_of_mem _ h)) (fun x hx => hs x (List.mem_append_right _ hx)) c hc
      | number ds =>
        rcases List.mem_append.1 (show c ∈ (t!"\\#" ++ ds) ++ returned g ps from hc) with hc | hc
        · exact hs c (List.mem_append_left _ hc)
        · exact ih _ hw.2 (fun h => hj (List.mem_cons_of_mem _ h)) (fun x hx => hs x (List.mem_append_right _ hx)) c hc
  exact key doc false h hj hs

/-! ### A document, and that it is one -/

def sample : List Part :=
  [.piece (.use t!"ngerman"), .piece .brace, .piece (.chr 'b'), .piece (.letter t!"\\'{e}" t!"é"), .piece (.token t!"}"), .piece (.chr '\n'), .sign, .piece (.chr '1'),
   .piece (.env false t!"align" true t!"\n"), .piece (.letter t!"{\\oe}" t!"œ"), .number t!"12", .number [], .piece (.cmd t!"rm" false), .piece (.chr ' '), .piece .quote,
   .piece (.chr '?'), .piece .backslash, .piece (.chr ','), .piece (.letter t!"\\`{a}" t!"à"), .piece (.cmd t!"section" true), .piece (.param t!"x"), .piece (.math false t!"a<b"),
   .piece (.chr ' '), .piece (.math true t!"c"), .piece (.verb '|' t!"x y"), .piece (.env true t!"align" true []), .piece (.token t!"\\&"), .piece (.comment t!" done\r")]

theorem sample_written : Written sample := by
  simp [sample, Written, Part.Fine, Part.src, Also, Fine, text, src, starred, Next, tokens, letters, accented, Letter, Digit,
    White, List.infix_cons_iff]

theorem sample_canonical : ∀ p ∈ sample, p.Canonical := by simp [sample, Part.Canonical, Canonical, commands, accented, texText, tex]

example : post (pre (text sample)) = text sample := C91_same_partial _ sample_written sample_canonical

example : text sample
    = t!"\\usepackage[ngerman]{b\\'{e}}\n#1\\begin{align*}\n{\\oe}\\#12\\#\\rm \"?\\,\\`{a}\\section*[x]$a<b$ $$c$$\\verb|x y|\\end{align*}\\&% done\r" := by
  decide

/-! ### What is lost -/

/-- The command of `ł` grows into the letters behind it; a character beyond sixteen bits becomes another one; verbatim text has no commands, but they are written there also. -/
theorem C91_violation : post (pre t!"Wałęsa") = t!"Wa\\lęsa" ∧ post (pre t!"ład") = t!"\\lad" ∧ post (pre t!"😀") = ['\uf600']
    ∧ post (pre t!"\\verb|é|") = t!"\\verb|\\'{e}|" := by decide +kernel

