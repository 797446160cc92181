/-
  What `apertium-prelatex` writes for environments and commands (C86).
-/
import Verif.Latex.Commands

namespace Verif.Latex

open Spec

/-! ### Environments -/

theorem isAlnum_iff (c : Char) : isAlnum c = true ↔ Letter c ∨ Digit c := by
  simp [isAlnum, isLetter_iff, isDigit_iff]

def rb1 : Rule Globals :=
  { start := 2, pat := [.many isWs, .opt (fun x => decide (x = '{')), .many isWs],
    act := fun w sc g => (without '{' w, sc, g) }

def rbStar : Rule Globals :=
  { start := 2, pat := [.one isAlnum, .many isAlnum] ++ lit t!"*",
    act := fun w sc g => (t!"<" ++ closesym g ++ w.dropLast ++ t!"_STAR>", sc, g) }

def rbName : Rule Globals :=
  { start := 2, pat := [.one isAlnum, .many isAlnum],
    act := fun w sc g => (t!"<" ++ closesym g ++ w ++ t!">", sc, g) }

def rbClose : Rule Globals :=
  { start := 2, pat := [.many isWs] ++ lit t!"}" ++ [.many isWs],
    act := fun w _ g => (without '}' w, 0, g) }

theorem cands_brackets : cands preRules 2 [] = [rb1, rbStar, rbName, rbClose] := by
  simp [cands, preRules, List.filter, compat, lit, put, say, go, verbRule, rb1, rbStar, rbName,
    rbClose]

theorem ws_not_alnum {c : Char} (h : isAlnum c = true) :
    isWs c = false ∧ c ≠ '{' ∧ c ≠ '}' ∧ c ≠ '*' := by
  refine ⟨?_, ?_, ?_, ?_⟩
  · cases hw : isWs c with
    | false => rfl
    | true =>
      rcases (isWs_iff c).mp hw with rfl | rfl | rfl | rfl <;> revert h <;> decide
  · rintro rfl; revert h; decide
  · rintro rfl; revert h; decide
  · rintro rfl; revert h; decide

theorem hit_rb1_alnum {c : Char} (h : isAlnum c = true) (t : Text) : hit rb1 2 (c :: t) = none := by
  obtain ⟨h1, h2, -, -⟩ := ws_not_alnum h
  simp [hit, rb1, mtch, h1, h2]

theorem hit_close_alnum {c : Char} (h : isAlnum c = true) (t : Text) :
    hit rbClose 2 (c :: t) = none := by
  obtain ⟨h1, -, h3, -⟩ := ws_not_alnum h
  simp [hit, rbClose, mtch, h1, h3, lit]

/-- The name of an environment in its braces. -/
theorem lex_name {name ws t : Text} {star : Bool} (hne : name ≠ [])
    (hn : ∀ c ∈ name, isAlnum c = true) (hw : ∀ c ∈ ws, isWs c = true)
    (ht : ∀ c r, t = c :: r → isWs c = false) (g : Globals) :
    lex preRules 2 g (name ++ starred star ++ t!"}" ++ ws ++ t)
      = t!"<" ++ closesym g ++ name ++ starXml star ++ t!">" ++ ws ++ lex preRules 0 g t := by
  -- the closing brace
  have hclose : lex preRules 2 g (t!"}" ++ ws ++ t) = ws ++ lex preRules 0 g t := by
    have hb := best_cands preRules 2 [] (t!"}" ++ ws ++ t)
    rw [cands_brackets] at hb
    have hsp := takeWhile_all' (p := isWs) (u := ws) (t := t) hw ht
    have hm : hit rbClose 2 (t!"}" ++ ws ++ t) = some ('}' :: ws) := by
      refine hit_of rfl ?_ (by simp)
      have e : isWs '}' = false := by decide
      simp [rbClose, mtch, lit, e, hsp.1]
    have h2 := best_at (before := [rb1, rbStar, rbName]) (after := []) hm (by
      intro q hq v hv
      have e : isWs '}' = false := by decide
      have e2 : isAlnum '}' = false := by decide
      simp only [List.mem_cons, List.not_mem_nil, or_false] at hq
      rcases hq with rfl | rfl | rfl
      · simp [hit, rb1, mtch, e] at hv
      · simp [hit, rbStar, mtch, e2] at hv
      · simp [hit, rbName, mtch, e2] at hv) (by simp)
    simp only [List.cons_append, List.nil_append] at h2 hb ⊢
    rw [h2] at hb
    have := lex_step (w := '}' :: ws) (t := t) g hb
    simp only [List.cons_append] at this
    rw [this]
    simp [rbClose, without]
  obtain ⟨c, nm, rfl⟩ : ∃ c b, name = c :: b := by
    cases name with
    | nil => exact absurd rfl hne
    | cons c b => exact ⟨c, b, rfl⟩
  have hc := hn c List.mem_cons_self
  have hnm : ∀ x ∈ nm, isAlnum x = true := fun x hx => hn x (List.mem_cons_of_mem _ hx)
  have hstar : isAlnum '*' = false := by decide
  have hbr : isAlnum '}' = false := by decide
  cases star with
  | true =>
    have hb := best_cands preRules 2 [] ((c :: nm) ++ '*' :: ('}' :: (ws ++ t)))
    rw [cands_brackets] at hb
    have hsp := takeWhile_all' (p := isAlnum) (u := nm) (t := '*' :: ('}' :: (ws ++ t))) hnm
      (by intro x r e; injection e with e _; subst e; exact hstar)
    have hm : hit rbStar 2 ((c :: nm) ++ '*' :: ('}' :: (ws ++ t))) = some ((c :: nm) ++ ['*']) := by
      refine hit_of rfl ?_ (by simp)
      simp [rbStar, mtch, lit, hc, hsp.1, hsp.2]
    have h2 := best_at (before := [rb1]) (after := [rbName, rbClose]) hm (by
      intro q hq v hv
      rw [List.mem_singleton] at hq; subst hq
      rw [List.cons_append, hit_rb1_alnum hc] at hv; cases hv) (by
      intro q hq v hv
      simp only [List.mem_cons, List.not_mem_nil, or_false] at hq
      rcases hq with rfl | rfl
      · simp [hit, rbName, mtch, hc, hsp.1] at hv
        subst hv; simp
      · rw [List.cons_append, hit_close_alnum hc] at hv; cases hv)
    simp only [List.nil_append, List.singleton_append] at h2 hb
    rw [h2] at hb
    have := lex_step (w := (c :: nm) ++ ['*']) (t := '}' :: (ws ++ t)) g (by simpa using hb)
    have e : (c :: nm) ++ starred true ++ t!"}" ++ ws ++ t = (c :: nm) ++ ['*'] ++ '}' :: (ws ++ t) := by
      simp [starred]
    rw [e, this]
    simp only [List.cons_append, List.nil_append] at hclose
    simp only [rbStar, hclose, starXml, if_true, List.dropLast_concat]
    simp
  | false =>
    have hb := best_cands preRules 2 [] ((c :: nm) ++ ('}' :: (ws ++ t)))
    rw [cands_brackets] at hb
    have hsp := takeWhile_all' (p := isAlnum) (u := nm) (t := '}' :: (ws ++ t)) hnm
      (by intro x r e; injection e with e _; subst e; exact hbr)
    have hm : hit rbName 2 ((c :: nm) ++ ('}' :: (ws ++ t))) = some (c :: nm) := by
      refine hit_of rfl ?_ (by simp)
      simp [rbName, mtch, hc, hsp.1]
    have h2 := best_at (before := [rb1, rbStar]) (after := [rbClose]) hm (by
      intro q hq v hv
      simp only [List.mem_cons, List.not_mem_nil, or_false] at hq
      rcases hq with rfl | rfl
      · rw [List.cons_append, hit_rb1_alnum hc] at hv; cases hv
      · simp [hit, rbStar, mtch, hc, hsp.2, lit] at hv) (by
      intro q hq v hv
      rw [List.mem_singleton] at hq; subst hq
      rw [List.cons_append, hit_close_alnum hc] at hv; cases hv)
    simp only [List.nil_append, List.cons_append] at h2 hb
    rw [h2] at hb
    have := lex_step (w := c :: nm) (t := '}' :: (ws ++ t)) g (by simpa using hb)
    have e : (c :: nm) ++ starred false ++ t!"}" ++ ws ++ t = (c :: nm) ++ '}' :: (ws ++ t) := by
      simp [starred]
    rw [e, this]
    simp only [List.cons_append, List.nil_append] at hclose
    simp only [rbName, hclose, starXml]
    simp

theorem step_env {closing star : Bool} {name ws t : Text} (hne : name ≠ [])
    (hn : ∀ c ∈ name, Letter c ∨ Digit c) (hw : ∀ c ∈ ws, White c) (ht : ¬ Next White t)
    (g : Bool) : Step g (.env closing name star ws) t := by
  intro cl
  refine ⟨closing, ?_⟩
  have hl := lex_name (name := name) (ws := ws) (t := t) (star := star) hne
    (fun c hc => (isAlnum_iff c).mpr (hn c hc)) (fun c hc => (isWs_iff c).mpr (hw c hc))
    (by
      intro c r e
      rw [← Bool.not_eq_true, isWs_iff]
      exact fun h => ht ⟨c, r, e, h⟩) ⟨closing, g⟩
  cases closing with
  | true =>
    have h1 : stepK preRules 0 ⟨cl, g⟩ t!"\\end{" = some (t!"\\end{", [], 2, ⟨true, g⟩) := by
      clear hl; revert cl g; decide +kernel
    have e : src (.env true name star ws) ++ t
        = t!"\\end{" ++ (name ++ starred star ++ t!"}" ++ ws ++ t) := by simp [src]
    rw [e, lex_stepK h1, hl]
    simp [xml, closesym, loads]
  | false =>
    have h1 : stepK preRules 0 ⟨cl, g⟩ t!"\\begin{" = some (t!"\\begin{", [], 2, ⟨false, g⟩) := by
      clear hl; revert cl g; decide +kernel
    have e : src (.env false name star ws) ++ t
        = t!"\\begin{" ++ (name ++ starred star ++ t!"}" ++ ws ++ t) := by simp [src]
    rw [e, lex_stepK h1, hl]
    simp [xml, closesym, loads]

/-! ### Commands -/

def tieRule : Rule Globals :=
  say (lit t!"\\t{" ++ [dot, dot] ++ lit t!"}") (fun w => (w.drop 3).take (w.length - 4))

def accBraceRule : Rule Globals :=
  say (lit t!"\\" ++ [oneOf accChars] ++ lit t!"{" ++ [dot] ++ lit t!"}") accentAct

def beginRule : Rule Globals :=
  { start := 0, pat := lit t!"\\begin" ++ [.one (fun c => !(isAlnum c || decide (c = '_')))],
    act := fun _ _ g => ([], 2, { g with closing := false }) }

def endRule : Rule Globals :=
  { start := 0, pat := lit t!"\\end" ++ [.one (fun c => !(isAlnum c || decide (c = '_')))],
    act := fun _ _ g => ([], 2, { g with closing := true }) }

/-- The rules that may match a backslash and a letter. -/
def letterRules : List (Rule Globals) :=
  [tieRule, put t!"\\l" t!"ł", accBraceRule, accRule, useRule, beginRule, endRule, starRule, cmdRule,
   verbRule '|', verbRule '!', verbRule '?', verbRule '/', verbRule '#', verbRule '+', anyRule]

theorem cands_letter {n : Char} (h : isLetter n = true) :
    cands preRules 0 ['\\', n] = cands letterRules 0 ['\\', n] := by
  have hne : ∀ d, isLetter d = false → n ≠ d := by
    intro d hd e; subst e; rw [h] at hd; cases hd
  have e1 := hne '#' (by decide)
  have e2 := hne '\\' (by decide)
  have e3 := hne '{' (by decide)
  have e4 := hne '%' (by decide)
  have e5 := hne '(' (by decide)
  have e6 := hne ')' (by decide)
  have e7 := hne '[' (by decide)
  have e8 := hne ']' (by decide)
  have e9 := hne '&' (by decide)
  have e10 := hne '^' (by decide)
  have e11 := hne '"' (by decide)
  have e12 := hne '\'' (by decide)
  have e13 := hne '`' (by decide)
  simp [cands, preRules, letterRules, tieRule, accBraceRule, accRule, useRule, beginRule, endRule,
    starRule, cmdRule, List.filter_cons, compat, lit, put, say, go, verbRule, anyRule, oneOf, dot, h,
    e1, e2, e3, e4, e5, e6, e7, e8, e9, e10, e11, e12, e13]

theorem best_letter {n : Char} (h : isLetter n = true) (t : Text) :
    best preRules 0 ('\\' :: n :: t) = best letterRules 0 ('\\' :: n :: t) := by
  have h1 := best_cands preRules 0 ['\\', n] t
  have h2 := best_cands letterRules 0 ['\\', n] t
  simp only [List.cons_append, List.nil_append] at h1 h2
  rw [h1, h2, cands_letter h]

/-- A rule that begins with a backslash, letters and something that is not a
    letter matches only a command of that name. -/
theorem lit_name {u name t : Text} {d : Char} {p : Pat} {w : Text} (hu : ∀ c ∈ u, isLetter c = true)
    (hd : isLetter d = false) (hn : ∀ c ∈ name, isLetter c = true)
    (ht : ∀ c r, t = c :: r → isLetter c = false)
    (h : mtch (lit ('\\' :: (u ++ [d])) ++ p) ('\\' :: (name ++ t)) = some w) :
    name = u ∧ ∃ r, t = d :: r := by
  obtain ⟨t', v, hs, -, -⟩ := mtch_lit _ _ _ _ h
  simp only [List.cons_append, List.cons.injEq, true_and] at hs
  have := span_eq (t' := d :: t') (v := u) (p := isLetter) (by simpa using hs) hn hu ht
    (by intro c r e; injection e with e _; subst e; exact hd)
  exact ⟨this.1, t', this.2⟩

theorem lit_class {u name t : Text} {q : Char → Bool} {w : Text} (hu : ∀ c ∈ u, isLetter c = true)
    (hq : ∀ c, q c = true → isLetter c = false) (hn : ∀ c ∈ name, isLetter c = true)
    (ht : ∀ c r, t = c :: r → isLetter c = false)
    (h : mtch (lit ('\\' :: u) ++ [.one q]) ('\\' :: (name ++ t)) = some w) : name = u := by
  obtain ⟨t', v, hs, h2, -⟩ := mtch_lit _ _ _ _ h
  simp only [List.cons_append, List.cons.injEq, true_and] at hs
  refine (span_eq (t' := t') (v := u) (p := isLetter) hs hn hu ht ?_).1
  intro c r e
  subst e
  simp only [mtch] at h2
  split at h2
  · rename_i hc; exact hq c hc
  · cases h2

theorem accBrace_name {name t v : Text} (hn : ∀ c ∈ name, isLetter c = true) (hne : name ≠ [])
    (h : hit accBraceRule 0 ('\\' :: (name ++ t)) = some v) :
    ∃ x, name = [x] ∧ x ∈ accChars := by
  obtain ⟨-, h⟩ := hit_mtch h
  have h' : mtch (lit t!"\\" ++ ([oneOf accChars] ++ lit t!"{" ++ [dot] ++ lit t!"}"))
      ('\\' :: (name ++ t)) = some v := by simpa [accBraceRule, say] using h
  obtain ⟨t', w, hs, h2, -⟩ := mtch_lit _ _ _ _ h'
  simp only [List.cons_append, List.nil_append, List.cons.injEq, true_and] at hs
  subst hs
  cases name with
  | nil => exact absurd rfl hne
  | cons x nm =>
    simp only [List.cons_append, List.nil_append, oneOf, mtch] at h2
    split at h2
    · rename_i hx
      refine ⟨x, ?_, by simpa using hx⟩
      cases nm with
      | nil => rfl
      | cons y nm =>
        exfalso
        obtain ⟨v', hv', -⟩ := Option.map_eq_some_iff.mp h2
        simp only [lit, List.map_cons, List.map_nil, List.cons_append, List.nil_append, mtch] at hv'
        have hy := hn y (by simp)
        have : y ≠ '{' := by rintro rfl; revert hy; decide
        simp [this] at hv'
    · cases h2

theorem acc_first {name t v : Text} (hne : name ≠ [])
    (h : hit accRule 0 ('\\' :: (name ++ t)) = some v) :
    ∃ x nm, name = x :: nm ∧ x ∈ accChars := by
  obtain ⟨-, h⟩ := hit_mtch h
  have h' : mtch (lit t!"\\" ++ ([oneOf accChars] ++ [dot]))
      ('\\' :: (name ++ t)) = some v := by simpa [accRule, say] using h
  obtain ⟨t', w, hs, h2, -⟩ := mtch_lit _ _ _ _ h'
  simp only [List.cons_append, List.nil_append, List.cons.injEq, true_and] at hs
  subst hs
  cases name with
  | nil => exact absurd rfl hne
  | cons x nm =>
    simp only [List.cons_append, List.nil_append, oneOf, mtch] at h2
    split at h2
    · rename_i hx; exact ⟨x, nm, rfl, by simpa using hx⟩
    · cases h2

theorem acc_letters {x : Char} (hx : x ∈ accChars) (hl : isLetter x = true) :
    x ∈ t!"Hckbdruv" := by
  have : ∀ x ∈ accChars, isLetter x = true → x ∈ t!"Hckbdruv" := by decide
  exact this x hx hl

theorem nonalnum_nonletter (c : Char) (h : (!(isAlnum c || decide (c = '_'))) = true) :
    isLetter c = false := by
  cases hl : isLetter c with
  | false => rfl
  | true => simp [isAlnum, hl] at h

theorem verb_name {d : Char} {name t v : Text} (hd : isLetter d = false)
    (hn : ∀ c ∈ name, isLetter c = true) (ht : ∀ c r, t = c :: r → isLetter c = false)
    (h : hit (verbRule d) 0 ('\\' :: (name ++ t)) = some v) : name = t!"verb" := by
  obtain ⟨-, h⟩ := hit_mtch h
  exact (lit_name (u := t!"verb") (d := d) (by decide) hd hn ht h).1

theorem tie_name {name t v : Text} (hn : ∀ c ∈ name, isLetter c = true)
    (ht : ∀ c r, t = c :: r → isLetter c = false)
    (h : hit tieRule 0 ('\\' :: (name ++ t)) = some v) : name = t!"t" ∧ ∃ r, t = '{' :: r := by
  obtain ⟨-, h⟩ := hit_mtch h
  have h' : mtch (lit ('\\' :: (t!"t" ++ ['{'])) ++ ([dot, dot] ++ lit t!"}"))
      ('\\' :: (name ++ t)) = some v := by simpa [tieRule, say] using h
  exact lit_name (u := t!"t") (d := '{') (by decide) (by decide) hn ht h'

theorem use_name {name t v : Text} (hn : ∀ c ∈ name, isLetter c = true)
    (ht : ∀ c r, t = c :: r → isLetter c = false)
    (h : hit useRule 0 ('\\' :: (name ++ t)) = some v) :
    name = t!"usepackage" ∧ ∃ r, t = '[' :: r := by
  obtain ⟨-, h⟩ := hit_mtch h
  have h' : mtch (lit ('\\' :: (t!"usepackage" ++ ['['])) ++ ([.many (fun x => decide (x ≠ ']'))] ++ lit t!"]"))
      ('\\' :: (name ++ t)) = some v := by simpa [useRule] using h
  exact lit_name (u := t!"usepackage") (d := '[') (by decide) (by decide) hn ht h'

theorem begin_name {name t v : Text} (hn : ∀ c ∈ name, isLetter c = true)
    (ht : ∀ c r, t = c :: r → isLetter c = false)
    (h : hit beginRule 0 ('\\' :: (name ++ t)) = some v) : name = t!"begin" := by
  obtain ⟨-, h⟩ := hit_mtch h
  exact lit_class (u := t!"begin") (by decide) nonalnum_nonletter hn ht h

theorem end_name {name t v : Text} (hn : ∀ c ∈ name, isLetter c = true)
    (ht : ∀ c r, t = c :: r → isLetter c = false)
    (h : hit endRule 0 ('\\' :: (name ++ t)) = some v) : name = t!"end" := by
  obtain ⟨-, h⟩ := hit_mtch h
  exact lit_class (u := t!"end") (by decide) nonalnum_nonletter hn ht h

theorem star_hit {name t : Text} (hne : name ≠ []) (hn : ∀ c ∈ name, isLetter c = true) :
    hit starRule 0 ('\\' :: (name ++ '*' :: t)) = some ('\\' :: (name ++ ['*'])) := by
  refine hit_of rfl ?_ (by simp)
  cases name with
  | nil => exact absurd rfl hne
  | cons c nm =>
    have hsp := takeWhile_all' (p := isLetter) (u := nm) (t := '*' :: t)
      (fun x hx => hn x (List.mem_cons_of_mem _ hx))
      (by intro c r e; injection e with e _; subst e; decide)
    simp [starRule, say, lit, mtch, hn c List.mem_cons_self, hsp.1, hsp.2]

theorem star_tail {name t v : Text} (hn : ∀ c ∈ name, isLetter c = true)
    (ht : ∀ c r, t = c :: r → isLetter c = false)
    (h : hit starRule 0 ('\\' :: (name ++ t)) = some v) : ∃ r, t = '*' :: r := by
  obtain ⟨-, h⟩ := hit_mtch h
  have h' : mtch (lit t!"\\" ++ ([.one isLetter, .many isLetter] ++ lit t!"*"))
      ('\\' :: (name ++ t)) = some v := by simpa [starRule, say] using h
  obtain ⟨t', w, hs, h2, -⟩ := mtch_lit _ _ _ _ h'
  simp only [List.cons_append, List.nil_append, List.cons.injEq, true_and] at hs
  subst hs
  cases name with
  | nil =>
    cases t with
    | nil => simp [mtch] at h2
    | cons c t => simp [mtch, ht c t rfl] at h2
  | cons c nm =>
    have hsp := takeWhile_all' (p := isLetter) (u := nm) (t := t)
      (fun x hx => hn x (List.mem_cons_of_mem _ hx)) ht
    simp only [List.cons_append, List.nil_append, mtch, hn c List.mem_cons_self, if_true, hsp.2,
      lit, List.map_cons, List.map_nil] at h2
    cases t with
    | nil => simp [mtch] at h2
    | cons d t =>
      by_cases hd : d = '*'
      · subst hd; exact ⟨t, rfl⟩
      · simp [mtch, hd] at h2

/-- The table has no accent command of two letters but `\cc` and `\cC`. -/
theorem accGet_letters {x y : Char} (hx : isLetter x = true) (h1 : [x, y] ≠ t!"cc")
    (h2 : [x, y] ≠ t!"cC") : accGet [x, y] = [] := by
  have key : ∀ p ∈ (accents.map (fun p => (p.2, p.1))) ++ accents,
      p.1.length = 2 → (∀ a ∈ p.1.head?, isLetter a = true) → p.1 = t!"cc" ∨ p.1 = t!"cC" := by
    decide +kernel
  simp only [accGet]
  rw [List.find?_eq_none.mpr]
  intro p hp
  simp only [decide_eq_true_eq]
  intro e
  rcases key p hp (by rw [e]; rfl) (by
    rw [e]; intro a ha; simp at ha; subst ha; exact hx) with h | h
  · exact h1 (e.symm.trans h)
  · exact h2 (e.symm.trans h)

theorem step_cmd {name t : Text} {star : Bool} (hf : Fine (.cmd name star) t) (g : Bool) :
    Step g (.cmd name star) t := by
  intro cl
  refine ⟨cl, ?_⟩
  obtain ⟨hne, hn', hnm, hacc, hns⟩ := hf
  have hn : ∀ c ∈ name, isLetter c = true := fun c hc => (isLetter_iff c).mpr (hn' c hc)
  obtain ⟨c, nm, hname⟩ : ∃ c b, name = c :: b := by
    cases name with
    | nil => exact absurd rfl hne
    | cons c b => exact ⟨c, b, rfl⟩
  have hc : isLetter c = true := hn c (by rw [hname]; exact List.mem_cons_self)
  simp only [List.mem_cons, List.not_mem_nil, or_false, not_or] at hnm
  have hverb : ∀ d ∈ t!"|!?/#+", ∀ (r v : Text), (∀ c s, r = c :: s → isLetter c = false) →
      hit (verbRule d) 0 ('\\' :: (name ++ r)) = some v → False := by
    intro d hd r v hr hv
    exact hnm.2.2 (verb_name ((show ∀ x ∈ t!"|!?/#+", isLetter x = false by decide) d hd) hn hr hv)
  cases star with
  | true =>
    have ht : ∀ x r, '*' :: t = x :: r → isLetter x = false := by
      intro x r e; injection e with e _; subst e; decide
    have hb : best letterRules 0 ('\\' :: (name ++ '*' :: t))
        = some ('\\' :: (name ++ ['*']), starRule) := by
      refine best_at (before := [tieRule, put t!"\\l" t!"ł", accBraceRule, accRule, useRule,
        beginRule, endRule])
        (after := [cmdRule, verbRule '|', verbRule '!', verbRule '?', verbRule '/', verbRule '#',
          verbRule '+', anyRule]) (star_hit hne hn) ?_ ?_
      · intro q hq v hv
        simp only [List.mem_cons, List.not_mem_nil, or_false] at hq
        rcases hq with rfl | rfl | rfl | rfl | rfl | rfl | rfl
        · obtain ⟨-, r, hr⟩ := tie_name hn ht hv
          injection hr with hr; exact absurd hr (by decide)
        · obtain ⟨-, rfl⟩ := hit_put hv
          rw [hname]; simp
        · obtain ⟨x, hx, hxa⟩ := accBrace_name hn hne hv
          have := hacc ⟨x, [], hx, acc_letters hxa (hn x (by rw [hx]; simp))⟩
          rw [hx] at this; simp at this
        · rw [acc_len hv]
          obtain ⟨x, nm', hx, hxa⟩ := acc_first hne hv
          have := hacc ⟨x, nm', hx, acc_letters hxa (hn x (by rw [hx]; simp))⟩
          simp only [List.length_cons, List.length_append, List.length_nil]; omega
        · obtain ⟨-, r, hr⟩ := use_name hn ht hv
          injection hr with hr; exact absurd hr (by decide)
        · exact absurd (begin_name hn ht hv) hnm.1
        · exact absurd (end_name hn ht hv) hnm.2.1
      · intro q hq v hv
        simp only [List.mem_cons, List.not_mem_nil, or_false] at hq
        rcases hq with rfl | rfl | rfl | rfl | rfl | rfl | rfl | rfl
        · rw [cmd_len hn ht hv]; simp
        · exact absurd hv (fun hv => hverb _ (by decide) _ _ ht hv)
        · exact absurd hv (fun hv => hverb _ (by decide) _ _ ht hv)
        · exact absurd hv (fun hv => hverb _ (by decide) _ _ ht hv)
        · exact absurd hv (fun hv => hverb _ (by decide) _ _ ht hv)
        · exact absurd hv (fun hv => hverb _ (by decide) _ _ ht hv)
        · exact absurd hv (fun hv => hverb _ (by decide) _ _ ht hv)
        · exact any_short (by simp) hv
    have hb' : best preRules 0 (('\\' :: (name ++ ['*'])) ++ t)
        = some ('\\' :: (name ++ ['*']), starRule) := by
      have e := best_letter hc (nm ++ '*' :: t)
      have e2 : ('\\' :: (name ++ ['*'])) ++ t = '\\' :: c :: (nm ++ '*' :: t) := by
        rw [hname]; simp
      rw [e2, e, ← hb, hname]; rfl
    have hl := lex_step (⟨cl, g⟩ : Globals) hb'
    have e : src (.cmd name true) ++ t = ('\\' :: (name ++ ['*'])) ++ t := by simp [src, starred]
    rw [e, hl]
    simp only [starRule, say, xml, loads, starXml, List.drop_succ_cons, List.drop_zero,
      List.dropLast_concat]
    simp
  | false =>
    obtain ⟨hn2, htl, huse⟩ := hns rfl
    simp only [List.mem_cons, List.not_mem_nil, or_false, not_or] at hn2
    have ht : ∀ x r, t = x :: r → isLetter x = false := by
      intro x r e
      rw [← Bool.not_eq_true, isLetter_iff]
      exact fun h => htl ⟨x, r, e, Or.inl h⟩
    have e : src (.cmd name false) ++ t = ('\\' :: name) ++ t := by simp [src, starred]
    have hsrc : ('\\' :: name) ++ t = '\\' :: c :: (nm ++ t) := by rw [hname]; rfl
    have before1 : ∀ q ∈ [tieRule, put t!"\\l" t!"ł", accBraceRule], ∀ v,
        hit q 0 ('\\' :: (name ++ t)) = some v → v.length < ('\\' :: name).length := by
      intro q hq v hv
      simp only [List.mem_cons, List.not_mem_nil, or_false] at hq
      rcases hq with rfl | rfl | rfl
      · exact absurd (tie_name hn ht hv).1 hn2.2.1
      · obtain ⟨⟨r, hr⟩, rfl⟩ := hit_put hv
        simp only [List.cons_append, List.nil_append, List.cons.injEq, true_and] at hr
        cases nm with
        | nil =>
          rw [hname] at hr
          simp only [List.cons_append, List.nil_append, List.cons.injEq] at hr
          exact absurd (by rw [hname, ← hr.1]) hn2.1
        | cons d nm => rw [hname]; simp
      · obtain ⟨x, hx, hxa⟩ := accBrace_name hn hne hv
        have := hacc ⟨x, [], hx, acc_letters hxa (hn x (by rw [hx]; simp))⟩
        rw [hx] at this; simp at this
    have rest : ∀ q ∈ [useRule, beginRule, endRule, starRule], ∀ v,
        hit q 0 ('\\' :: (name ++ t)) = some v → False := by
      intro q hq v hv
      simp only [List.mem_cons, List.not_mem_nil, or_false] at hq
      rcases hq with rfl | rfl | rfl | rfl
      · obtain ⟨hu, r, hr⟩ := use_name hn ht hv
        exact huse hu ⟨'[', r, hr, rfl⟩
      · exact hnm.1 (begin_name hn ht hv)
      · exact hnm.2.1 (end_name hn ht hv)
      · obtain ⟨r, hr⟩ := star_tail hn ht hv
        exact htl ⟨'*', r, hr, Or.inr rfl⟩
    have behind : ∀ q ∈ [verbRule '|', verbRule '!', verbRule '?', verbRule '/', verbRule '#',
          verbRule '+', anyRule], ∀ v,
        hit q 0 ('\\' :: (name ++ t)) = some v → v.length ≤ ('\\' :: name).length := by
      intro q hq v hv
      simp only [List.mem_cons, List.not_mem_nil, or_false] at hq
      rcases hq with rfl | rfl | rfl | rfl | rfl | rfl | rfl
      · exact absurd hv (fun hv => hverb _ (by decide) _ _ ht hv)
      · exact absurd hv (fun hv => hverb _ (by decide) _ _ ht hv)
      · exact absurd hv (fun hv => hverb _ (by decide) _ _ ht hv)
      · exact absurd hv (fun hv => hverb _ (by decide) _ _ ht hv)
      · exact absurd hv (fun hv => hverb _ (by decide) _ _ ht hv)
      · exact absurd hv (fun hv => hverb _ (by decide) _ _ ht hv)
      · exact any_short (by simp) hv
    by_cases hshort : c ∈ accChars ∧ nm.length = 1
    · -- two letters: the accent rule takes it, and writes the same
      obtain ⟨hca, hlen⟩ := hshort
      obtain ⟨d, rfl⟩ : ∃ d, nm = [d] := by
        cases nm with
        | nil => simp at hlen
        | cons d l =>
          cases l with
          | nil => exact ⟨d, rfl⟩
          | cons _ _ => simp at hlen
      have hd : d ≠ '\n' := by
        have := hn d (by rw [hname]; simp)
        rintro rfl; revert this; decide
      have hhit : hit accRule 0 ('\\' :: (name ++ t)) = some ('\\' :: name) := by
        rw [hname]
        refine hit_of rfl ?_ (by simp)
        simp [accRule, say, lit, oneOf, dot, mtch, hca, hd]
      have hb : best letterRules 0 ('\\' :: (name ++ t)) = some ('\\' :: name, accRule) := by
        refine best_at (before := [tieRule, put t!"\\l" t!"ł", accBraceRule])
          (after := [useRule, beginRule, endRule, starRule, cmdRule, verbRule '|', verbRule '!',
            verbRule '?', verbRule '/', verbRule '#', verbRule '+', anyRule]) hhit before1 ?_
        intro q hq v hv
        have hq' : q ∈ [useRule, beginRule, endRule, starRule] ∨ q = cmdRule
            ∨ q ∈ [verbRule '|', verbRule '!', verbRule '?', verbRule '/', verbRule '#',
              verbRule '+', anyRule] := by
          simp only [List.mem_cons, List.not_mem_nil, or_false] at hq ⊢
          rcases hq with h | h | h | h | h | h | h | h | h | h | h | h <;> simp [h]
        rcases hq' with hq | rfl | hq
        · exact absurd hv (fun hv => rest q hq v hv)
        · rw [cmd_len hn ht hv]; exact Nat.le_refl _
        · exact behind q hq v hv
      have hb' : best preRules 0 (('\\' :: name) ++ t) = some ('\\' :: name, accRule) := by
        rw [hsrc, best_letter hc]
        rw [hname] at hb ⊢
        exact hb
      rw [e, lex_step (⟨cl, g⟩ : Globals) hb']
      have hg : accGet [c, d] = [] := by
        rw [hname] at hn2
        exact accGet_letters hc hn2.2.2.1 hn2.2.2.2.1
      rw [hname]
      simp only [accRule, say, accentAct, xml, loads, starXml]
      simp [hg]
    · have hb : best letterRules 0 ('\\' :: (name ++ t)) = some ('\\' :: name, cmdRule) := by
        refine best_at (before := [tieRule, put t!"\\l" t!"ł", accBraceRule, accRule, useRule,
          beginRule, endRule, starRule])
          (after := [verbRule '|', verbRule '!', verbRule '?', verbRule '/', verbRule '#',
            verbRule '+', anyRule]) (cmd_hit hne hn ht) ?_ behind
        intro q hq v hv
        have hq' : q ∈ [tieRule, put t!"\\l" t!"ł", accBraceRule] ∨ q = accRule
            ∨ q ∈ [useRule, beginRule, endRule, starRule] := by
          simp only [List.mem_cons, List.not_mem_nil, or_false] at hq ⊢
          rcases hq with h | h | h | h | h | h | h | h <;> simp [h]
        rcases hq' with hq | rfl | hq
        · exact before1 q hq v hv
        · rw [acc_len hv]
          obtain ⟨x, nm', hx, hxa⟩ := acc_first hne hv
          have h2 := hacc ⟨x, nm', hx, acc_letters hxa (hn x (by rw [hx]; simp))⟩
          rw [hname] at hx h2 ⊢
          injection hx with hx1 hx2
          subst hx1
          have : nm.length ≠ 1 := fun e => hshort ⟨hxa, e⟩
          simp only [List.length_cons] at h2 ⊢
          omega
        · exact absurd hv (fun hv => rest q hq v hv)
      have hb' : best preRules 0 (('\\' :: name) ++ t) = some ('\\' :: name, cmdRule) := by
        rw [hsrc, best_letter hc]
        rw [hname] at hb ⊢
        exact hb
      rw [e, lex_step (⟨cl, g⟩ : Globals) hb']
      simp [cmdRule, say, xml, loads, starXml]

end Verif.Latex
