import Verif.Clean.Model
import Verif.Stream.Grammar
/-!
# Property C06 (cleanstream)
-/
namespace Verif.Clean
open Verif.Stream

/-! ## Specification -/

/-- Exact expected output.  `pending` says whether some text was skipped since the last lexical unit. -/
def expected (o : Opts) : Bool → List Item → Text
  | _, [] => []
  | _, .txt _ :: is => expected o true is
  | _, .nul :: is => expected o true is
  | p, .blank b :: is =>
    [o.ws] ++ (if o.keepblank then (Item.blank b).render else []) ++ expected o p is
  | _, .wopen b :: is =>
    [o.ws] ++ (if o.keepblank then '[' :: (Item.blank b).render else []) ++ expected o true is
  | _, .wclose :: is =>
    [o.ws] ++ (if o.keepblank then ['[', '[', '/', ']'] else []) ++ expected o true is
  | p, .lu b :: is =>
    (if p ∨ o.spaced = false then [o.ws] else []) ++ (Item.lu b).render ++ expected o false is

/-- The texts of the lexical units of a stream, in order. -/
def units : List Item → List Text
  | [] => []
  | .lu b :: is => (Item.lu b).render :: units is
  | _ :: is => units is

/-- `g₀ u₁ g₁ u₂ ... uₙ gₙ` -/
def interleave : List Text → List Text → Text
  | g :: gs, u :: us => g ++ u ++ interleave gs us
  | gs, _ => gs.flatten

/-! ## Proofs -/

theorem loop_esc (o : Opts) (buf : Text) (it : Bool) (d : Char) (rest : Text) :
    loop o buf it ('\\' :: d :: rest) = loop o (buf ++ ['\\', d]) it rest := by
  rw [loop.eq_def]; simp

theorem loop_lit (o : Opts) (buf : Text) (it : Bool) (c : Char) (rest : Text)
    (h1 : c ≠ '^') (h2 : c ≠ '$') (h3 : c ≠ '\\') (h4 : it = true ∨ c ≠ '[') :
    loop o buf it (c :: rest) = loop o (buf ++ [c]) it rest := by
  rw [loop.eq_def]
  rcases h4 with h4 | h4 <;> simp [h1, h2, h3, h4]

theorem loop_open (o : Opts) (buf rest : Text) :
    loop o buf false ('^' :: rest) =
      (if buf ≠ [] ∨ o.spaced = false then [o.ws] else []) ++ loop o ['^'] true rest := by
  rw [loop.eq_def]
  by_cases h : buf = [] <;> simp [h]

theorem loop_close (o : Opts) (buf rest : Text) :
    loop o buf true ('$' :: rest) = (buf ++ ['$']) ++ loop o [] false rest := by
  rw [loop.eq_def]; simp

theorem loop_blank (o : Opts) (buf rest : Text) :
    loop o buf false ('[' :: rest) = o.ws :: ((if o.keepblank then '[' :: (readBlock rest).1 else []) ++
        loop o buf false (readBlock rest).2) := by
  rw [loop.eq_def]; simp

theorem readBlock_atoms (b : List Atom) (h : ∀ a ∈ b, a.wf ['[', ']']) (rest : Text) :
    readBlock (renderAtoms b ++ ']' :: rest) = (renderAtoms b ++ [']'], rest) := by
  induction b with
  | nil => rw [readBlock.eq_def]; cases rest <;> simp
  | cons a b ih =>
    have ha := h a (by simp)
    have ih := ih (fun x hx => h x (by simp [hx]))
    cases a with
    | lit c =>
      simp [Atom.wf] at ha
      have hne : ∃ d t, renderAtoms b ++ ']' :: rest = d :: t := by
        cases hb : renderAtoms b ++ ']' :: rest with
        | nil => simp at hb
        | cons d t => exact ⟨d, t, rfl⟩
      obtain ⟨d, t, hdt⟩ := hne
      simp only [renderAtoms_cons, Atom.render, List.append_assoc, List.cons_append, List.nil_append]
      rw [hdt, readBlock.eq_def]
      rw [hdt] at ih
      simp [ha, ih]
    | esc c =>
      simp only [renderAtoms_cons, Atom.render, List.append_assoc, List.cons_append, List.nil_append]
      rw [readBlock.eq_def]
      simp [ih]

theorem loop_lu (o : Opts) (b : List Atom) (h : ∀ a ∈ b, a.wf ['^', '$']) (buf rest : Text) :
    loop o buf true (renderAtoms b ++ '$' :: rest) = buf ++ renderAtoms b ++ ['$'] ++ loop o [] false rest := by
  induction b generalizing buf with
  | nil => simp [loop_close]
  | cons a b ih =>
    have ha := h a (by simp)
    have ih := ih (fun x hx => h x (by simp [hx]))
    cases a with
    | lit c =>
      simp [Atom.wf] at ha
      simp only [renderAtoms_cons, Atom.render, List.cons_append, List.nil_append, List.append_assoc]
      rw [loop_lit o buf true c _ ha.2.2.1 ha.2.2.2 ha.1 (Or.inl rfl), ih]
      simp
    | esc c =>
      simp only [renderAtoms_cons, Atom.render, List.cons_append, List.nil_append, List.append_assoc]
      rw [loop_esc, ih]
      simp

theorem loop_expected (o : Opts) (is : List Item) (h : WF is) : ∀ buf,
    loop o buf false (render is) = expected o (decide (buf ≠ [])) is := by
  induction is with
  | nil => intro buf; simp [loop, expected]
  | cons i is ih =>
    intro buf
    rw [WF_cons] at h
    have ih := ih h.2
    have hi := h.1
    cases i with
    | txt a =>
      cases a with
      | lit c =>
        simp [Item.wf, Atom.wf] at hi
        simp only [render_cons, Item.render, Atom.render, List.cons_append, List.nil_append]
        rw [loop_lit o buf false c _ hi.2.2.2.1 hi.2.2.2.2 hi.1 (Or.inr hi.2.2.1), ih]
        simp [expected]
      | esc c =>
        simp only [render_cons, Item.render, Atom.render, List.cons_append, List.nil_append]
        rw [loop_esc, ih]
        simp [expected]
    | nul =>
      simp only [render_cons, Item.render, List.cons_append, List.nil_append]
      rw [loop_lit o buf false _ _ (by decide) (by decide) (by decide) (Or.inr (by decide)), ih]
      simp [expected]
    | blank b =>
      simp only [render_cons, Item.render, List.cons_append, List.nil_append, List.append_assoc]
      rw [loop_blank, readBlock_atoms b hi, ih]
      simp [expected, Item.render]
    | wopen b =>
      have hb := hi.1
      simp only [render_cons, Item.render, List.cons_append, List.nil_append, List.append_assoc]
      have e : readBlock ('[' :: (renderAtoms b ++ ']' :: ']' :: render is)) =
          ('[' :: renderAtoms b ++ [']'], ']' :: render is) := by
        have hne : ∃ d t, renderAtoms b ++ ']' :: ']' :: render is = d :: t := by
          cases hb : renderAtoms b ++ ']' :: ']' :: render is with
          | nil => simp at hb
          | cons d t => exact ⟨d, t, rfl⟩
        obtain ⟨d, t, hdt⟩ := hne
        have := readBlock_atoms b hb (']' :: render is)
        rw [hdt] at this
        rw [hdt, readBlock.eq_def]
        simp [this]
      rw [loop_blank, e]
      simp only
      rw [loop_lit o buf false _ _ (by decide) (by decide) (by decide) (Or.inr (by decide)), ih]
      simp [expected, Item.render]
    | wclose =>
      simp only [render_cons, Item.render, List.cons_append, List.nil_append, List.append_assoc]
      have e : readBlock ('[' :: '/' :: ']' :: ']' :: render is) = (['[', '/', ']'], ']' :: render is) := by
        simp [readBlock]
      rw [loop_blank, e]
      simp only
      rw [loop_lit o buf false _ _ (by decide) (by decide) (by decide) (Or.inr (by decide)), ih]
      simp [expected]
    | lu b =>
      simp only [render_cons, Item.render, List.cons_append, List.nil_append, List.append_assoc]
      rw [loop_open, loop_lu o b hi, ih]
      simp [expected, Item.render]

theorem interleave_push (g : Text) (gs us : List Text) (h : gs ≠ []) :
    ∃ gs', gs'.length = gs.length ∧ gs' ≠ [] ∧ interleave gs' us = g ++ interleave gs us ∧
      gs'.head? = gs.head?.map (g ++ ·) ∧ gs'.tail = gs.tail := by
  cases gs with
  | nil => simp at h
  | cons x gs => exact ⟨(g ++ x) :: gs, by simp, by simp, by cases us <;> simp [interleave], by simp, by simp⟩

theorem expected_units (o : Opts) (hk : o.keepblank = false) (is : List Item) : ∀ p,
    ∃ gaps : List Text, gaps.length = (units is).length + 1 ∧
      (∀ g ∈ gaps, ∀ c ∈ g, c = o.ws) ∧
      (o.spaced = false → ∀ g ∈ gaps.dropLast, g ≠ []) ∧
      expected o p is = interleave gaps (units is) := by
  induction is with
  | nil => intro p; exact ⟨[[]], by simp [units], by simp, by simp, by simp [expected, units, interleave]⟩
  | cons i is ih =>
    intro p
    have skip : ∀ q, expected o p (i :: is) = expected o q is → units (i :: is) = units is →
        ∃ gaps : List Text, gaps.length = (units (i :: is)).length + 1 ∧ (∀ g ∈ gaps, ∀ c ∈ g, c = o.ws) ∧
          (o.spaced = false → ∀ g ∈ gaps.dropLast, g ≠ []) ∧
          expected o p (i :: is) = interleave gaps (units (i :: is)) := by
      intro q h1 h2
      obtain ⟨gaps, a, b, c, d⟩ := ih q
      exact ⟨gaps, by rw [h2]; exact a, b, c, by rw [h1, h2]; exact d⟩
    have skipws : ∀ q, expected o p (i :: is) = [o.ws] ++ expected o q is → units (i :: is) = units is →
        ∃ gaps : List Text, gaps.length = (units (i :: is)).length + 1 ∧ (∀ g ∈ gaps, ∀ c ∈ g, c = o.ws) ∧
          (o.spaced = false → ∀ g ∈ gaps.dropLast, g ≠ []) ∧
          expected o p (i :: is) = interleave gaps (units (i :: is)) := by
      intro q h1 h2
      obtain ⟨gaps, a, b, c, d⟩ := ih q
      cases gaps with
      | nil => simp at a
      | cons g gs =>
        refine ⟨(o.ws :: g) :: gs, ?_, ?_, ?_, ?_⟩
        · rw [h2]; simpa using a
        · intro x hx y hy
          simp at hx
          rcases hx with rfl | hx
          · simp at hy
            rcases hy with rfl | hy
            · rfl
            · exact b g (by simp) y hy
          · exact b x (by simp [hx]) y hy
        · intro hs x hx
          cases gs with
          | nil => simp at hx
          | cons g2 gs =>
            simp at hx
            rcases hx with rfl | hx
            · simp
            · exact c hs x (by simp [hx])
        · rw [h1, h2, d]; cases units is <;> simp [interleave]
    cases i with
    | txt a => exact skip true (by simp [expected]) rfl
    | nul => exact skip true (by simp [expected]) rfl
    | blank b => exact skipws p (by simp [expected, hk]) rfl
    | wopen b => exact skipws true (by simp [expected, hk]) rfl
    | wclose => exact skipws true (by simp [expected, hk]) rfl
    | lu b =>
      obtain ⟨gaps, a, b', c, d⟩ := ih false
      refine ⟨(if p ∨ o.spaced = false then [o.ws] else []) :: gaps, ?_, ?_, ?_, ?_⟩
      · simp [units, a]
      · intro x hx y hy
        simp at hx
        rcases hx with rfl | hx
        · split at hy <;> simp_all
        · exact b' x hx y hy
      · intro hs x hx
        cases gaps with
        | nil => simp at a
        | cons g gs =>
          simp at hx
          rcases hx with rfl | hx
          · simp [hs]
          · exact c hs x hx
      · simp [expected, units, interleave, d]

/-! ## C06 -/

/-- C06: on every well-formed stream the output is the one expected (for `-n` with a final newline). -/
theorem C06_exact (o : Opts) (is : List Item) (h : WF is) :
    main o (render is) = expected o false is ++ (if o.spaced then [] else ['\n']) := by
  simp only [main]
  rw [loop_expected o is h []]
  simp

/-- C06: without `-b` the output consists of exactly the lexical units of the input, unchanged and in
order, separated by separators only; with `-n` there is at least one newline before each unit, and one at the end. -/
theorem C06_units (o : Opts) (hk : o.keepblank = false) (is : List Item) (h : WF is) :
    ∃ gaps : List Text, gaps.length = (units is).length + 1 ∧ (∀ g ∈ gaps, ∀ c ∈ g, c = o.ws) ∧
      (o.spaced = false → ∀ g ∈ gaps.dropLast, g ≠ []) ∧
      main o (render is) = interleave gaps (units is) ++ (if o.spaced then [] else ['\n']) := by
  obtain ⟨gaps, a, b, c, d⟩ := expected_units o hk is false
  exact ⟨gaps, a, b, c, by rw [C06_exact o is h, d]⟩

/-- An unescaped `^` is escaped, everything else stays. -/
def caret : Atom → Atom
  | .lit c => if c = '^' then .esc '^' else .lit c
  | .esc c => .esc c

theorem loop_unit (o : Opts) (b : List Atom) (h : ∀ a ∈ b, a.wf ['$']) (rest : Text) : ∀ buf : Text,
    loop o buf true (renderAtoms b ++ '$' :: rest) = buf ++ renderAtoms (b.map caret) ++ '$' :: loop o [] false rest := by
  induction b with
  | nil =>
    intro buf
    show loop o buf true ('$' :: rest) = _
    rw [loop.eq_def]; simp [renderAtoms]
  | cons a b ih =>
    intro buf
    have ha := h a (by simp)
    have ih := ih (fun x hx => h x (by simp [hx]))
    cases a with
    | lit c =>
      simp [Atom.wf] at ha
      have e : renderAtoms (Atom.lit c :: b) ++ '$' :: rest = c :: (renderAtoms b ++ '$' :: rest) := by
        simp [renderAtoms, Atom.render]
      rw [e]
      by_cases hc : c = '^'
      · subst hc
        rw [loop.eq_def]
        simp only [if_true]
        rw [ih]
        simp [caret, renderAtoms, Atom.render]
      · rw [loop.eq_def]
        simp [hc, ha]
        rw [ih]
        simp [caret, hc, renderAtoms, Atom.render]
    | esc c =>
      have e : renderAtoms (Atom.esc c :: b) ++ '$' :: rest = '\\' :: c :: (renderAtoms b ++ '$' :: rest) := by
        simp [renderAtoms, Atom.render]
      rw [e, loop.eq_def]
      simp
      rw [ih]
      simp [caret, renderAtoms, Atom.render]

/-- C06, malformed units: a unit with unescaped `^` inside is still written as one unit, with these escaped, whatever follows. -/
theorem C06_stray_caret (o : Opts) (b : List Atom) (h : ∀ a ∈ b, a.wf ['$']) (rest : Text) :
    main o ('^' :: renderAtoms b ++ '$' :: rest) =
      (if o.spaced then [] else ['\n']) ++ ('^' :: renderAtoms (b.map caret) ++ ['$']) ++ main o rest := by
  simp only [main, List.cons_append]
  rw [loop.eq_def]
  simp only [if_true, Bool.false_eq_true, if_false]
  rw [loop_unit o b h]
  cases hs : o.spaced <;> simp [Opts.ws, hs]

example : main {} t!"^a^b$" = t!"^a\\^b$" := by
  rw [show t!"^a^b$" = '^' :: renderAtoms [.lit 'a', .lit '^', .lit 'b'] ++ '$' :: [] from by decide,
    C06_stray_caret _ _ (by decide)]
  simp [main, loop, renderAtoms, caret, Atom.render]

example : WF [.txt (.lit 'x'), .lu [.lit 'a', .esc '$'], .blank [.lit ' ', .esc ']'], .lu [.lit 'b'], .nul] := by decide
example : main { spaced := false } t!"x^a\\$$[ \\]]^b$" = t!"\n^a\\$$\n\n^b$\n" := by
  rw [show t!"x^a\\$$[ \\]]^b$" = render [.txt (.lit 'x'), .lu [.lit 'a', .esc '$'], .blank [.lit ' ', .esc ']'], .lu [.lit 'b']] from by decide,
    C06_exact _ _ (by decide)]
  decide

end Verif.Clean
