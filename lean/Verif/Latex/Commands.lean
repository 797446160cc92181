/-
  What `apertium-prelatex` writes for commands, environments, parameters,
  formulas, comments and verbatim text (C86).
-/
import Verif.Latex.Pre

namespace Verif.Latex

open Spec

/-! ### Parameters -/

def paramRule : Rule Globals :=
  say (lit t!"[" ++ [.many (fun x => decide (x ≠ ']'))] ++ lit t!"]")
    (fun w => t!"<PARAM>" ++ (w.drop 1).dropLast ++ t!"</PARAM>")

theorem cands_param : cands preRules 0 t!"[" = [paramRule, anyRule] := by
  simp [paramRule, cands, preRules, List.filter, compat, lit, put, say, go, verbRule, anyRule]

theorem mtch_until {u opts t : Text} {d : Char} (h : d ∉ opts) :
    mtch (lit u ++ [.many (fun x => decide (x ≠ d))] ++ lit [d]) (u ++ (opts ++ d :: t))
      = some (u ++ (opts ++ [d])) := by
  have := takeWhile_all' (p := fun x => decide (x ≠ d)) (u := opts) (t := d :: t)
    (by intro c hc; simp only [decide_eq_true_eq]; intro e; subst e; exact h hc)
    (by intro c t' e; injection e with e; subst e; simp)
  rw [List.append_assoc, mtch_lit_append]
  simp only [List.cons_append, List.nil_append, mtch, this.1, this.2, lit, List.map_cons, List.map_nil,
    decide_true, if_true, Option.map_some]

theorem hit_of {r : Rule σ} {sc : Nat} {s w : Text} (hs : r.start = sc) (h : mtch r.pat s = some w)
    (hw : w ≠ []) : hit r sc s = some w := by
  simp only [hit, if_pos hs, h]
  cases w with
  | nil => exact absurd rfl hw
  | cons c w => rfl

theorem any_short {s w v : Text} (hw : w ≠ []) (h : hit anyRule 0 s = some v) :
    v.length ≤ w.length := by
  cases s with
  | nil => simp [anyRule, hit, say, mtch] at h
  | cons c s =>
    rw [hit_any] at h; injection h with h; subst h
    cases w with
    | nil => exact absurd rfl hw
    | cons _ _ => simp

theorem step_param {opts t : Text} (h : ∀ c ∈ opts, c ≠ ']' ∧ c ≠ '<') (g : Bool) :
    Step g (.param opts) t := by
  intro cl
  refine ⟨cl, ?_⟩
  have hb := best_cands preRules 0 ['['] (opts ++ ']' :: t)
  rw [cands_param] at hb
  have hm := mtch_until (u := ['[']) (opts := opts) (t := t) (d := ']') (fun e => (h _ e).1 rfl)
  have hh := hit_of (sc := 0) (r := paramRule) rfl hm (by simp)
  have := best_at (before := []) (after := [anyRule]) hh (by simp) (by
    intro q hq v hv
    rw [List.mem_singleton] at hq; subst hq
    exact any_short (by simp) hv)
  rw [List.nil_append] at this
  rw [this] at hb
  have hl := lex_step (w := ['['] ++ (opts ++ [']'])) (t := t) (⟨cl, g⟩ : Globals)
    (by simpa using hb)
  have e : src (.param opts) ++ t = ['['] ++ (opts ++ [']']) ++ t := by simp [src]
  rw [e, hl]
  simp [paramRule, say, xml, loads]

/-! ### `\usepackage[...]` -/

def useRule : Rule Globals :=
  { start := 0,
    pat := lit t!"\\usepackage[" ++ [.many (fun x => decide (x ≠ ']'))] ++ lit t!"]",
    act := fun w sc g =>
      (t!"<usepackage/><PARAM>" ++ useOpts w ++ t!"</PARAM>", sc,
        { g with german := g.german || hasNgerman (useOpts w) }) }

def accRule : Rule Globals := say (lit t!"\\" ++ [oneOf accChars] ++ [dot]) accentAct

def cmdRule : Rule Globals :=
  say (lit t!"\\" ++ [.one isLetter, .many isLetter]) (fun w => t!"<" ++ w.drop 1 ++ t!"/>")

def starRule : Rule Globals :=
  say (lit t!"\\" ++ [.one isLetter, .many isLetter] ++ lit t!"*")
      (fun w => t!"<" ++ (w.drop 1).dropLast ++ t!"_STAR/>")

theorem cands_use : cands preRules 0 t!"\\usepackage[" = [accRule, useRule, cmdRule, anyRule] := by
  simp [cands, preRules, List.filter, compat, lit, put, say, go, verbRule, anyRule, accRule, useRule,
    cmdRule, oneOf, dot, accChars, isLetter]

theorem acc_len {s v : Text} (h : hit accRule 0 s = some v) : v.length = 3 := by
  obtain ⟨-, h⟩ := hit_mtch h
  have h' : mtch (lit t!"\\" ++ ([oneOf accChars] ++ [dot])) s = some v := by
    rw [← List.append_assoc]; exact h
  obtain ⟨t, w, rfl, h2, rfl⟩ := mtch_lit _ _ _ _ h'
  cases t with
  | nil => simp [oneOf, mtch] at h2
  | cons c t =>
    simp only [List.cons_append, List.nil_append, oneOf, dot, mtch] at h2
    split at h2
    · cases t with
      | nil => simp [mtch] at h2
      | cons d t =>
        simp only [mtch] at h2
        split at h2
        · simp only [Option.map_some, Option.some.injEq] at h2
          subst h2; rfl
        · simp at h2
    · cases h2

theorem cmd_len {name t v : Text} (hn : ∀ c ∈ name, isLetter c = true)
    (ht : ∀ c r, t = c :: r → isLetter c = false)
    (h : hit cmdRule 0 ('\\' :: (name ++ t)) = some v) : v = '\\' :: name := by
  obtain ⟨-, h⟩ := hit_mtch h
  obtain ⟨t', w, hs, h2, rfl⟩ := mtch_lit _ _ _ _ h
  simp only [List.cons_append, List.nil_append, List.cons.injEq, true_and] at hs
  subst hs
  cases name with
  | nil =>
    cases t with
    | nil => simp [mtch] at h2
    | cons c t => simp [mtch, ht c t rfl] at h2
  | cons c name =>
    have hsp := takeWhile_all' (p := isLetter) (u := name) (t := t)
      (fun x hx => hn x (List.mem_cons_of_mem _ hx)) ht
    simp only [List.cons_append, mtch, hn c List.mem_cons_self, if_true, hsp.1,
      Option.map_some, Option.some.injEq] at h2
    subst h2; simp

theorem cmd_hit {name t : Text} (hne : name ≠ []) (hn : ∀ c ∈ name, isLetter c = true)
    (ht : ∀ c r, t = c :: r → isLetter c = false) :
    hit cmdRule 0 ('\\' :: (name ++ t)) = some ('\\' :: name) := by
  refine hit_of rfl ?_ (by simp)
  have := mtch_lit_append t!"\\" [.one isLetter, .many isLetter] (name ++ t)
  simp only [List.cons_append, List.nil_append] at this
  show mtch (lit t!"\\" ++ [.one isLetter, .many isLetter]) _ = _
  refine this.trans ?_
  cases name with
  | nil => exact absurd rfl hne
  | cons c name =>
    have hsp := takeWhile_all' (p := isLetter) (u := name) (t := t)
      (fun x hx => hn x (List.mem_cons_of_mem _ hx)) ht
    simp only [List.cons_append, mtch, hn c List.mem_cons_self, if_true, hsp.1,
      Option.map_some]
    simp

theorem bytes_ascii : ∀ (w : Text), (∀ c ∈ w, c.toNat < 128) → bytes w = w.length := by
  have aux : ∀ (w : Text) (n : Nat), (∀ c ∈ w, c.toNat < 128) →
      (w.map (fun c => c.utf8Size)).foldl (· + ·) n = n + w.length := by
    intro w
    induction w with
    | nil => intro n _; rfl
    | cons c w ih =>
      intro n h
      have hc : c.utf8Size = 1 := by
        have := h c List.mem_cons_self
        simp only [Char.utf8Size]
        rw [if_pos]
        simp only [Char.toNat] at this
        rw [UInt32.le_iff_toNat_le]
        show c.val.toNat ≤ 127
        omega
      simp only [List.map_cons, List.foldl_cons, hc, List.length_cons]
      rw [ih _ (fun x hx => h x (List.mem_cons_of_mem _ hx))]
      omega
  intro w h
  have := aux w 0 h
  simpa [bytes] using this

theorem useOpts_eq {opts : Text} (h : ∀ c ∈ opts, c.toNat < 128) :
    useOpts (t!"\\usepackage[" ++ (opts ++ t!"]")) = opts := by
  have hb : bytes (t!"\\usepackage[" ++ (opts ++ t!"]")) = opts.length + 13 := by
    rw [bytes_ascii]
    · simp only [List.length_append, List.length_cons, List.length_nil]; omega
    · intro c hc
      simp only [List.mem_append] at hc
      rcases hc with hc | hc | hc
      · revert c; decide
      · exact h c hc
      · revert c; decide
  simp only [useOpts, hb, Nat.add_sub_cancel]
  simp

theorem step_use {opts t : Text} (h : ∀ c ∈ opts, c ≠ ']' ∧ c ≠ '<' ∧ c.toNat < 128) (g : Bool) :
    Step g (.use opts) t := by
  intro cl
  refine ⟨cl, ?_⟩
  have hb := best_cands preRules 0 t!"\\usepackage[" (opts ++ ']' :: t)
  rw [cands_use] at hb
  have hm := mtch_until (u := t!"\\usepackage[") (opts := opts) (t := t) (d := ']')
    (fun e => (h _ e).1 rfl)
  have hh := hit_of (sc := 0) (r := useRule) rfl hm (by simp)
  have := best_at (before := [accRule]) (after := [cmdRule, anyRule]) hh (by
    intro q hq v hv
    rw [List.mem_singleton] at hq; subst hq
    rw [acc_len hv]; simp) (by
    intro q hq v hv
    simp only [List.mem_cons, List.not_mem_nil, or_false] at hq
    rcases hq with rfl | rfl
    · have := cmd_len (name := t!"usepackage") (t := '[' :: (opts ++ ']' :: t)) (v := v)
        (by decide) (by intro c r e; injection e with e; subst e; decide) hv
      subst this; simp
    · exact any_short (by simp) hv)
  simp only [List.singleton_append] at this
  rw [this] at hb
  have hl := lex_step (w := t!"\\usepackage[" ++ (opts ++ [']'])) (t := t) (⟨cl, g⟩ : Globals)
    (by simpa using hb)
  have e : src (.use opts) ++ t = t!"\\usepackage[" ++ (opts ++ [']']) ++ t := by simp [src]
  rw [e, hl]
  simp only [useRule, useOpts_eq (fun c hc => (h c hc).2.2), xml, loads, occurs_ngerman]

/-! ### Comments -/

def commentRule : Rule Globals :=
  say (lit t!"%" ++ [.many (fun x => decide (x ≠ '\n'))]) commentAct

theorem cands_comment : cands preRules 0 t!"%" = [commentRule, anyRule] := by
  simp [commentRule, cands, preRules, List.filter, compat, lit, put, say, go, verbRule, anyRule]

theorem step_comment {body t : Text} (h : ∀ c ∈ body, c ≠ '\n' ∧ c ≠ '<')
    (ht : t = [] ∨ Next (fun c => c = '\n') t) (g : Bool) : Step g (.comment body) t := by
  intro cl
  refine ⟨cl, ?_⟩
  have hb := best_cands preRules 0 ['%'] (body ++ t)
  rw [cands_comment] at hb
  have hsp := takeWhile_all' (p := fun x => decide (x ≠ '\n')) (u := body) (t := t)
    (by intro c hc; simpa using (h c hc).1)
    (by
      intro c r e
      rcases ht with ht | ⟨c', r', ht, hc⟩
      · rw [ht] at e; cases e
      · rw [ht] at e; injection e with e _; subst e; subst hc; simp)
  have hm : mtch (lit t!"%" ++ [.many (fun x => decide (x ≠ '\n'))]) (['%'] ++ (body ++ t))
      = some (['%'] ++ body) := by
    rw [mtch_lit_append]
    simp only [mtch, hsp.1, Option.map_some, List.append_nil]
  have hh := hit_of (sc := 0) (r := commentRule) rfl hm (by simp)
  have := best_at (before := []) (after := [anyRule]) hh (by simp) (by
    intro q hq v hv
    rw [List.mem_singleton] at hq; subst hq
    exact any_short (by simp) hv)
  rw [List.nil_append] at this
  rw [this] at hb
  have hl := lex_step (w := ['%'] ++ body) (t := t) (⟨cl, g⟩ : Globals) (by simpa using hb)
  exact hl

/-! ### Verbatim text -/

theorem cands_verb {d : Char} (hd : d ∈ t!"|!?/+") :
    cands preRules 0 (t!"\\verb" ++ [d]) = [accRule, cmdRule, verbRule d, anyRule] := by
  simp only [List.mem_cons, List.not_mem_nil, or_false] at hd
  rcases hd with rfl | rfl | rfl | rfl | rfl <;>
  simp [cands, preRules, List.filter, compat, lit, put, say, go, verbRule, anyRule, accRule,
    cmdRule, oneOf, dot, accChars, isLetter]

theorem step_verb {d : Char} {body t : Text} (hd : d ∈ t!"|!?/+") (hne : body ≠ [])
    (h : ∀ c ∈ body, c ≠ d ∧ c ∉ t!"<&#¿¡") (g : Bool) : Step g (.verb d body) t := by
  intro cl
  refine ⟨cl, ?_⟩
  have hb := best_cands preRules 0 (t!"\\verb" ++ [d]) (body ++ d :: t)
  rw [cands_verb hd] at hb
  have hdl : isLetter d = false :=
    (show ∀ x ∈ t!"|!?/+", isLetter x = false by decide) d hd
  obtain ⟨c, body, rfl⟩ : ∃ c b, body = c :: b := by
    cases body with
    | nil => exact absurd rfl hne
    | cons c b => exact ⟨c, b, rfl⟩
  have hsp := takeWhile_all' (p := fun x => decide (x ≠ d)) (u := body) (t := d :: t)
    (by intro c hc; simpa using (h c (List.mem_cons_of_mem _ hc)).1)
    (by intro c r e; injection e with e _; subst e; simp)
  have hc := (h c List.mem_cons_self).1
  have hm : mtch (verbRule d).pat ((t!"\\verb" ++ [d]) ++ ((c :: body) ++ d :: t))
      = some ((t!"\\verb" ++ [d]) ++ ((c :: body) ++ [d])) := by
    show mtch (lit (t!"\\verb" ++ [d]) ++ _) _ = _
    rw [mtch_lit_append]
    simp only [List.cons_append, mtch, hc, ne_eq, not_false_eq_true, decide_true, if_true]
    simp only [ne_eq] at hsp
    simp only [hsp.1, hsp.2, mtch, decide_true, if_true, Option.map_some]
  have hh := hit_of (sc := 0) (r := verbRule d) rfl hm (by simp)
  have := best_at (before := [accRule, cmdRule]) (after := [anyRule]) hh (by
    intro q hq v hv
    simp only [List.mem_cons, List.not_mem_nil, or_false] at hq
    rcases hq with rfl | rfl
    · rw [acc_len hv]; simp
    · have := cmd_len (name := t!"verb") (t := d :: (c :: body ++ d :: t)) (v := v)
        (by decide) (by intro c r e; injection e with e; subst e; exact hdl) (by simpa using hv)
      subst this; simp) (by
    intro q hq v hv
    rw [List.mem_singleton] at hq; subst hq
    exact any_short (by simp) hv)
  simp only [List.cons_append, List.nil_append] at this hb
  rw [this] at hb
  have hl := lex_step (w := (t!"\\verb" ++ [d]) ++ ((c :: body) ++ [d])) (t := t)
    (⟨cl, g⟩ : Globals) (by simpa using hb)
  have e : src (.verb d (c :: body)) ++ t = (t!"\\verb" ++ [d]) ++ ((c :: body) ++ [d]) ++ t := by
    simp [src]
  rw [e, hl]
  simp [verbRule, say, xml, loads]

/-! ### Formulas -/

theorem cands_math {c : Char} (h : c ≠ '$') : cands preRules 1 [c]
    = [{ start := 1, pat := [.one (fun _ => true)], act := fun w sc g => (w, sc, g) }] := by
  simp [cands, preRules, List.filter, compat, lit, put, say, go, verbRule, h]

theorem lex_math {body : Text} (h : '$' ∉ body) (t : Text) (g : Globals) :
    lex preRules 1 g (body ++ t) = body ++ lex preRules 1 g t := by
  induction body with
  | nil => rfl
  | cons c body ih =>
    have hc : c ≠ '$' := fun e => h (by subst e; exact List.mem_cons_self)
    have hb := best_cands preRules 1 [c] (body ++ t)
    rw [cands_math hc, best_only (w := [c]) (by simp [hit, mtch])] at hb
    have := lex_step (w := [c]) (t := body ++ t) g hb
    simp only [List.cons_append, List.nil_append] at this ⊢
    rw [this, ih (fun e => h (List.mem_cons_of_mem _ e))]

theorem best_open {c : Char} (h : c ≠ '$') (t : Text) :
    best preRules 0 ('$' :: c :: t) = some (['$'], go 0 t!"$" t!"<MATH_DOLLAR>" 1) := by
  have hb := best_cands preRules 0 ['$', c] t
  have hc : cands preRules 0 ['$', c] = [go 0 t!"$" t!"<MATH_DOLLAR>" 1, anyRule] := by
    simp [cands, preRules, List.filter, compat, lit, put, say, go, verbRule, h, anyRule]
  rw [hc] at hb
  refine hb.trans ?_
  refine best_at (before := []) (after := [_]) ?_ (by simp) ?_
  · simp [hit, go, lit, mtch]
  · intro q hq v hv
    rw [List.mem_singleton] at hq; subst hq
    exact any_short (by simp) hv

theorem best_close {t : Text} (h : ¬ Next (fun c => c = '$') t) :
    best preRules 1 ('$' :: t) = some (['$'], go 1 t!"$" t!"</MATH_DOLLAR>" 0) := by
  have hb := best_cands preRules 1 ['$'] t
  have hc : cands preRules 1 ['$'] = [go 1 t!"$$" t!"</MATH_DOLLARS>" 0,
      go 1 t!"$" t!"</MATH_DOLLAR>" 0,
      { start := 1, pat := [.one (fun _ => true)], act := fun w sc g => (w, sc, g) }] := by
    simp [cands, preRules, List.filter, compat, lit, put, say, go, verbRule]
  rw [hc] at hb
  refine hb.trans ?_
  refine best_at (before := [_]) (after := [_]) ?_ ?_ ?_
  · simp [hit, go, lit, mtch]
  · intro q hq v hv
    rw [List.mem_singleton] at hq; subst hq
    exfalso
    cases t with
    | nil => simp [hit, go, lit, mtch] at hv
    | cons c t =>
      have hc : c ≠ '$' := fun e => h ⟨c, t, rfl, e⟩
      simp [hit, go, lit, mtch, hc] at hv
  · intro q hq v hv
    rw [List.mem_singleton] at hq; subst hq
    simp only [hit, if_pos, List.cons_append, List.nil_append, mtch, Option.map_some] at hv
    injection hv with hv; subst hv; simp

theorem step_math {double : Bool} {body t : Text} (h : '$' ∉ body)
    (hs : double = false → body ≠ [] ∧ ¬ Next (fun c => c = '$') t) (g : Bool) :
    Step g (.math double body) t := by
  intro cl
  refine ⟨cl, ?_⟩
  cases double with
  | true =>
    have h1 : stepK preRules 0 ⟨cl, g⟩ t!"$$" = some (t!"$$", t!"<MATH_DOLLARS>", 1, ⟨cl, g⟩) := by
      revert cl g; decide +kernel
    have h2 : stepK preRules 1 ⟨cl, g⟩ t!"$$" = some (t!"$$", t!"</MATH_DOLLARS>", 0, ⟨cl, g⟩) := by
      revert cl g; decide +kernel
    have e : src (.math true body) ++ t = t!"$$" ++ (body ++ (t!"$$" ++ t)) := by simp [src]
    rw [e, lex_stepK h1, lex_math h, lex_stepK h2]
    simp [xml, loads]
  | false =>
    obtain ⟨hne, hn⟩ := hs rfl
    have e : src (.math false body) ++ t = ['$'] ++ (body ++ (['$'] ++ t)) := by simp [src]
    cases body with
    | nil => exact absurd rfl hne
    | cons c body =>
      have hc : c ≠ '$' := fun e => h (by subst e; exact List.mem_cons_self)
      rw [e, lex_step (w := ['$']) (t := c :: body ++ (['$'] ++ t)) (⟨cl, g⟩ : Globals) (best_open hc _)]
      show t!"<MATH_DOLLAR>" ++ lex preRules 1 ⟨cl, g⟩ _ = _
      rw [lex_math h, lex_step (w := ['$']) (t := t) (⟨cl, g⟩ : Globals) (best_close hn)]
      show t!"<MATH_DOLLAR>" ++ (c :: body ++ (t!"</MATH_DOLLAR>" ++ lex preRules 0 ⟨cl, g⟩ t)) = _
      simp [xml, loads]

end Verif.Latex
