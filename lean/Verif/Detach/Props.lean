import Verif.Detach.Model
import Verif.Stream.Grammar
/-!
# Properties C07, C10 and C37 (wblank-detach)
-/
namespace Verif.Detach
open Verif.Stream
open scoped List

/-! ## Specification -/

/-- The input with `[[/]]` inserted after the first lexical unit that follows a word-bound blank.
`open_` says that a word-bound blank has been seen and not yet closed. -/
def closed : Bool → List Item → Text
  | _, [] => []
  | _, .wopen b :: is => (Item.wopen b).render ++ closed true is
  | open_, .lu b :: is => (Item.lu b).render ++ (if open_ then Item.wclose.render else []) ++ closed false is
  | _, .nul :: is => Item.nul.render ++ closed false is
  | open_, i :: is => i.render ++ closed open_ is

/-! ## Helper lemmas -/

theorem run_esc (s : St) (n : Char) (rest : Text) (hn : n ≠ '\x00') :
    run s ('\\' :: n :: rest) = (stepEsc s n).2 ++ run (stepEsc s n).1 rest := by
  rw [run.eq_def]; simp [hn]

theorem run_lit (s : St) (c : Char) (rest : Text) (hc : c ≠ '\\') :
    run s (c :: rest) = (step s c).2 ++ run (step s c).1 rest := by
  rw [run.eq_def]; simp [hc]

/-- Inside a blank, ordinary atoms are stored. -/
theorem run_blankAtoms (b : List Atom) (h : ∀ a ∈ b, a.wf ['[', ']']) (s : St) (hb : s.inBlank = true)
    (rest : Text) :
    run s (renderAtoms b ++ rest) = run { s with blank := s.blank ++ renderAtoms b } rest := by
  induction b generalizing s with
  | nil => simp
  | cons a b ih =>
    have ha := h a (by simp)
    have ih := ih (fun x hx => h x (by simp [hx]))
    cases a with
    | lit c =>
      simp [Atom.wf] at ha
      have e : step s c = ({ s with blank := s.blank ++ [c] }, []) := by
        simp [step, ha, flags, put, finish, hb]
      simp only [renderAtoms_cons, Atom.render, List.cons_append, List.nil_append]
      rw [run_lit s c _ ha.1, e]
      simp only [List.nil_append]
      rw [ih { s with blank := s.blank ++ [c] } hb]
      simp
    | esc c =>
      simp only [renderAtoms_cons, Atom.render, List.cons_append, List.nil_append]
      rw [run_esc s c _ ha]
      simp only [stepEsc, hb, if_true, List.nil_append]
      have := ih { s with blank := s.blank ++ ['\\', c] } hb
      simp only [hb] at this
      rw [this]
      simp

/-- Inside a token everything is copied. -/
theorem run_luAtoms (b : List Atom) (h : ∀ a ∈ b, a.wf ['^', '$']) (s : St) (hb : s.inBlank = false)
    (ht : s.inToken = true) (hw : s.inWblank = false) (rest : Text) :
    run s (renderAtoms b ++ rest) = renderAtoms b ++ run s rest := by
  induction b generalizing s with
  | nil => simp
  | cons a b ih =>
    have ha := h a (by simp)
    have ih := ih (fun x hx => h x (by simp [hx]))
    cases a with
    | lit c =>
      simp [Atom.wf] at ha
      have e : step s c = (s, [c]) := by
        simp [step, ha, flags, put, finish, hb, ht, hw]
      simp only [renderAtoms_cons, Atom.render, List.cons_append, List.nil_append]
      rw [run_lit s c _ ha.1, e]
      simp [ih s hb ht hw]
    | esc c =>
      simp only [renderAtoms_cons, Atom.render, List.cons_append, List.nil_append]
      rw [run_esc s c _ ha]
      simp [stepEsc, hb, ih s hb ht hw]

theorem run_closed (is : List Item) (h : WF is) (hc : Item.wclose ∉ is) : ∀ had : Bool,
    run { hadWblank := had } (render is) = closed had is := by
  induction is with
  | nil => intro had; simp [run, closed]
  | cons i is ih =>
    intro had
    rw [WF_cons] at h
    simp only [List.mem_cons, not_or] at hc
    have ih := ih h.2 hc.2
    have hi := h.1
    rw [render_cons]
    cases i with
    | wclose => simp at hc
    | txt a =>
      cases a with
      | lit c =>
        simp [Item.wf, Atom.wf] at hi
        have e : step { hadWblank := had } c = ({ hadWblank := had }, [c]) := by
          simp [step, hi, flags, put, finish]
        simp only [Item.render, Atom.render, List.cons_append, List.nil_append, closed]
        rw [run_lit _ _ _ hi.1, e, ih]
        simp
      | esc c =>
        simp only [Item.render, Atom.render, List.cons_append, List.nil_append, closed]
        rw [run_esc _ _ _ hi]
        simp [stepEsc, ih]
    | nul =>
      simp only [Item.render, List.cons_append, List.nil_append, closed]
      rw [run_lit _ _ _ (by decide)]
      simp only [step, if_true, List.nil_append]
      rw [ih]; simp
    | blank b =>
      simp only [Item.render, closed, List.cons_append, List.append_assoc, List.nil_append]
      rw [run_lit _ _ _ (by decide)]
      have e : step { hadWblank := had } '[' = ({ hadWblank := had, inBlank := true, blank := ['['] }, []) := by
        simp [step, flags, put, finish]
      rw [e]
      simp only [List.nil_append]
      rw [run_blankAtoms b hi _ rfl, run_lit _ _ _ (by decide)]
      have hp : ¬ ['[', '['] <+: '[' :: (renderAtoms b ++ [']']) := by
        rw [List.cons_prefix_cons]
        cases b with
        | nil => simp
        | cons a b =>
          have ha := hi a (by simp)
          cases a with
          | lit c => simp [Atom.wf] at ha; simp [Atom.render, List.cons_prefix_cons, Ne.symm ha.2.2.1]
          | esc c => simp [Atom.render, List.cons_prefix_cons]
      have e2 : step { hadWblank := had, inBlank := true, blank := ['['] ++ renderAtoms b } ']' =
          ({ hadWblank := had }, '[' :: renderAtoms b ++ [']']) := by
        simp [step, flags, put, finish, hp]
      rw [e2, ih]
      simp
    | wopen b =>
      simp only [Item.render, closed, List.cons_append, List.append_assoc, List.nil_append]
      rw [run_lit _ _ _ (by decide)]
      have e : step { hadWblank := had } '[' = ({ hadWblank := had, inBlank := true, blank := ['['] }, []) := by
        simp [step, flags, put, finish]
      rw [e]
      simp only [List.nil_append]
      rw [run_lit _ _ _ (by decide)]
      have e1 : step { hadWblank := had, inBlank := true, blank := ['['] } '[' =
          ({ hadWblank := had, inBlank := true, inWblank := true, blank := ['[', '['] }, []) := by
        simp [step, flags, put, finish]
      rw [e1]
      simp only [List.nil_append]
      rw [run_blankAtoms b hi.1 _ rfl, run_lit _ _ _ (by decide)]
      have e2 : step { hadWblank := had, inBlank := true, inWblank := true, blank := ['[', '['] ++ renderAtoms b } ']' =
          ({ hadWblank := had, inBlank := true, blank := ['[', '['] ++ renderAtoms b ++ [']'] }, []) := by
        simp [step, flags, put, finish]
      rw [e2, run_lit _ _ _ (by decide)]
      have e3 : step { hadWblank := had, inBlank := true, blank := ['[', '['] ++ renderAtoms b ++ [']'] } ']' =
          ({ hadWblank := true }, ['[', '['] ++ renderAtoms b ++ [']', ']']) := by
        simp [step, flags, put, finish]
      rw [e3, ih]
      simp
    | lu b =>
      simp only [Item.render, closed, List.cons_append, List.append_assoc, List.nil_append]
      rw [run_lit _ _ _ (by decide)]
      have e : step { hadWblank := had } '^' = ({ hadWblank := had, inToken := true }, ['^']) := by
        simp [step, flags, put, finish]
      rw [e]
      simp only
      rw [run_luAtoms b hi _ rfl rfl rfl, run_lit _ _ _ (by decide)]
      have e2 : step { hadWblank := had, inToken := true } '$' =
          ({}, '$' :: (if had then ['[', '[', '/', ']', ']'] else [])) := by
        cases had <;> simp [step, flags, put, finish]
      rw [e2, ih]
      cases had <;> simp

/-! ## C07 -/

/-- C07: on every well-formed stream (without closing marks, which this tool adds) the output is the
input with `[[/]]` inserted after the first lexical unit following a word-bound blank, and nothing else changed. -/
theorem C07_closes_once (is : List Item) (h : WF is) (hc : Item.wclose ∉ is) :
    main (render is) = closed false is := run_closed is h hc false

example : WF [.wopen [.lit 'b', .esc ']'], .lu [.lit 'a'], .txt (.lit ' '), .lu [.lit 'c'], .nul, .blank [.lit 'x']] ∧
    Item.wclose ∉ [Item.wopen [.lit 'b', .esc ']'], .lu [.lit 'a'], .txt (.lit ' '), .lu [.lit 'c'], .nul, .blank [.lit 'x']] ∧
    closed false [.wopen [.lit 'b', .esc ']'], .lu [.lit 'a'], .txt (.lit ' '), .lu [.lit 'c'], .nul, .blank [.lit 'x']] =
      t!"[[b\\]]]^a$[[/]] ^c$\x00[x]" := by decide

/-- Number of lexical units that close a word-bound blank. -/
def closings : Bool → List Item → Nat
  | _, [] => 0
  | _, .wopen _ :: is => closings true is
  | o, .lu _ :: is => (if o then 1 else 0) + closings false is
  | _, .nul :: is => closings false is
  | o, _ :: is => closings o is

/-- C07: when each word-bound blank stands immediately before its lexical unit, the number of `[[/]]` added is
the number of word-bound blanks. -/
theorem C07_count (is : List Item) (hadj : ∀ pre b post, is = pre ++ .wopen b :: post → ∃ l post', post = .lu l :: post') :
    (closed false is).length = (render is).length + 5 * (is.countP fun i => i matches .wopen _) := by
  have key : ∀ (is : List Item), (∀ pre b post, is = pre ++ .wopen b :: post → ∃ l post', post = .lu l :: post') →
      (closed false is).length = (render is).length + 5 * (is.countP fun i => i matches .wopen _) ∧
      (∀ l is', is = .lu l :: is' →
        (closed true is).length = (render is).length + 5 * (is.countP fun i => i matches .wopen _) + 5) := by
    intro is
    induction is with
    | nil => intro _; simp [closed]
    | cons i is ih =>
      intro h
      have ih := ih (fun pre b post e => h (i :: pre) b post (by simp [e]))
      constructor
      · cases i with
        | wopen b =>
          obtain ⟨l, post', e⟩ := h [] b is rfl
          have := ih.2 l post' e
          simp [closed, this]; omega
        | lu b => simp [closed, ih.1]; omega
        | txt a => simp [closed, ih.1]; omega
        | blank b => simp [closed, ih.1]; omega
        | nul => simp [closed, ih.1]; omega
        | wclose => simp [closed, ih.1]; omega
      · intro l is' e
        injection e with e1 e2
        subst e1
        simp [closed, ih.1, Item.render]; omega
  exact (key is hadj).1

example : ∀ pre b post, [Item.wopen [.lit 'x'], .lu [.lit 'a'], .txt (.lit ' ')] = pre ++ .wopen b :: post →
    ∃ l post', post = .lu l :: post' := by
  intro pre b post e
  cases pre with
  | nil => simp at e; exact ⟨_, _, e.2.symm⟩
  | cons x pre => cases pre with
    | nil => simp at e
    | cons y pre => cases pre with
      | nil => simp at e
      | cons z pre => simp at e

/-! ## C10 -/

theorem run_nul (A B : Text) : ∀ s : St, ∃ F : Text,
    (∀ B, run s (A ++ '\x00' :: B) = F ++ '\x00' :: run {} B) := by
  intro s
  induction hn : A.length using Nat.strongRecOn generalizing A s with
  | _ n ih =>
    cases A with
    | nil =>
      refine ⟨s.blank, fun B => ?_⟩
      rw [List.nil_append, run_lit _ _ _ (by decide)]
      simp [step]
    | cons c A =>
      simp at hn
      by_cases hc : c = '\\'
      · subst hc
        cases A with
        | nil =>
          refine ⟨(step s '\\').2 ++ (step s '\\').1.blank, fun B => ?_⟩
          simp only [List.cons_append, List.nil_append]
          rw [run.eq_def]
          simp only [if_true]
          rw [run_lit _ _ _ (by decide)]
          simp [step]
        | cons d A =>
          by_cases hd : d = '\x00'
          · subst hd
            obtain ⟨F, hF⟩ := ih (A.length + 1) (by simp at hn; omega) ('\x00' :: A) (step s '\\').1 rfl
            refine ⟨(step s '\\').2 ++ F, fun B => ?_⟩
            have := hF B
            simp only [List.cons_append] at this ⊢
            rw [run.eq_def]
            simp [this]
          · obtain ⟨F, hF⟩ := ih A.length (by simp at hn; omega) A (stepEsc s d).1 rfl
            refine ⟨(stepEsc s d).2 ++ F, fun B => ?_⟩
            simp only [List.cons_append]
            rw [run_esc _ _ _ hd, hF]
            simp
      · obtain ⟨F, hF⟩ := ih A.length (by omega) A (step s c).1 rfl
        refine ⟨(step s c).2 ++ F, fun B => ?_⟩
        simp only [List.cons_append]
        rw [run_lit _ _ _ hc, hF]
        simp

/-- C10: whatever the first request is (even truncated), the reply to what follows the NUL is what the tool
gives on it alone, and the reply to the first request does not depend on what follows. -/
theorem C10_detach_null_flush (A : Text) :
    ∃ F : Text, ∀ B : Text, main (A ++ '\x00' :: B) = F ++ '\x00' :: main B := run_nul A [] {}

/-- C10: for a complete well-formed first request its reply is the one it gets alone. -/
theorem C10_detach_null_flush_wf (is : List Item) (h : WF is) (hc : Item.wclose ∉ is) (B : Text) :
    main (render is ++ '\x00' :: B) = main (render is) ++ '\x00' :: main B := by
  obtain ⟨F, hF⟩ := C10_detach_null_flush (render is)
  have h1 := hF []
  have h2 : render is ++ ['\x00'] = render (is ++ [.nul]) := by simp [render, Item.render]
  have h3 : main (render (is ++ [.nul])) = closed false (is ++ [.nul]) :=
    C07_closes_once _ (by intro i hi; simp at hi; rcases hi with hi | rfl; exact h i hi; trivial) (by simp [hc])
  have h4 : ∀ (is : List Item) b, closed b (is ++ [.nul]) = closed b is ++ ['\x00'] := by
    intro is
    induction is with
    | nil => intro b; simp [closed, Item.render]
    | cons i is ih => intro b; cases i <;> simp [closed, ih]
  rw [h2, h3, h4, ← C07_closes_once is h hc] at h1
  have h5 : main [] = [] := by simp [main, run]
  rw [h5] at h1
  have : main (render is) = F := List.append_cancel_right h1
  rw [hF, this]

/-! ## C37 -/

theorem flags_blank (s : St) (c : Char) : (flags s c).blank = s.blank := by
  unfold flags; repeat (first | split | rfl)

/-- Nothing is stored outside blanks. -/
def Inv (s : St) : Prop := s.inBlank = false → s.blank = []

theorem flags_inBlank (s : St) (c : Char) (h : (flags s c).inBlank = false) : s.inBlank = false := by
  unfold flags at h; revert h; repeat (first | split | simp)

theorem step_keeps (s : St) (c : Char) (hs : Inv s) :
    (s.blank ++ [c]) <+ (step s c).2 ++ (step s c).1.blank ∧ Inv (step s c).1 := by
  unfold step
  split
  · rename_i h; subst h; simp [Inv]
  · have h1 := flags_blank s c
    have h2 := flags_inBlank s c
    generalize flags s c = s1 at h1 h2 ⊢
    by_cases hb : s1.inBlank = true
    · simp only [put, hb, if_true]
      unfold finish
      split
      · simp [h1, Inv]
      · split
        · simp [h1, Inv]
        · split
          · rename_i hx; simp [hb] at hx
          · simp [h1, Inv, hb]
    · have hb : s1.inBlank = false := by simpa using hb
      have hnil := hs (h2 hb)
      rw [hnil] at h1 ⊢
      have e : put s1 c = (s1, [c]) := by simp [put, hb]
      simp only [e]
      unfold finish
      split
      · simp [h1, Inv]
      · split
        · rename_i hx; simp [hb] at hx
        · split
          · simp [h1, Inv]
          · simp [h1, Inv]

theorem stepEsc_keeps (s : St) (n : Char) (hs : Inv s) :
    (s.blank ++ ['\\', n]) <+ (stepEsc s n).2 ++ (stepEsc s n).1.blank ∧ Inv (stepEsc s n).1 := by
  unfold stepEsc
  split
  · rename_i h; simp [Inv, h]
  · rename_i h
    have := hs (by simpa using h)
    simp [this, hs]

theorem run_keeps (inp : Text) : ∀ s, Inv s → (s.blank ++ inp) <+ run s inp ++ pending s inp := by
  induction hn : inp.length using Nat.strongRecOn generalizing inp with
  | _ n ih =>
    intro s hs
    have two : ∀ {a b c d e f : Text}, (a ++ b) <+ c ++ d → (d ++ e) <+ f → (a ++ (b ++ e)) <+ c ++ f := by
      intro a b c d e f h1 h2
      have h3 : (a ++ b ++ e) <+ c ++ d ++ e := h1.append (List.Sublist.refl e)
      have h4 : (c ++ (d ++ e)) <+ c ++ f := (List.Sublist.refl c).append h2
      rw [List.append_assoc] at h3
      rw [List.append_assoc] at h3
      exact h3.trans h4
    have one : ∀ (c : Char) (rest : Text), rest.length < n →
        (s.blank ++ c :: rest) <+ (step s c).2 ++ (run (step s c).1 rest ++ pending (step s c).1 rest) := by
      intro c rest hl
      obtain ⟨h1, h2⟩ := step_keeps s c hs
      have := ih rest.length hl rest rfl (step s c).1 h2
      simpa using two h1 this
    cases inp with
    | nil => simp [run, pending]
    | cons c rest =>
      simp at hn
      by_cases hc : c = '\\'
      · subst hc
        cases rest with
        | nil =>
          obtain ⟨h1, _⟩ := stepEsc_keeps s eofByte hs
          have : (s.blank ++ ['\\']) <+ s.blank ++ ['\\', eofByte] := by
            apply (List.Sublist.refl _).append; simp
          rw [run.eq_def, pending.eq_def]
          simpa using this.trans h1
        | cons d rest =>
          by_cases hd : d = '\x00'
          · have := one '\\' (d :: rest) (by simp at hn ⊢; omega)
            rw [run.eq_def, pending.eq_def]
            simpa [hd] using this
          · obtain ⟨h1, h2⟩ := stepEsc_keeps s d hs
            have := ih rest.length (by simp at hn; omega) rest rfl (stepEsc s d).1 h2
            rw [run.eq_def, pending.eq_def]
            simpa [hd] using two h1 this
      · have := one c rest (by omega)
        rw [run.eq_def, pending.eq_def]
        simpa [hc] using this

/-- C37 (partial: the full claim is that the input is always a subsequence of the output): whatever the
input, every character of it is written in order, except those of a blank that is still open when the input ends. -/
theorem C37_detach_keeps_partial (inp : Text) : inp <+ main inp ++ pending {} inp := by
  have := run_keeps inp {} (by simp [Inv])
  simpa [main] using this

/-- C37 fails: an unterminated superblank is lost. -/
theorem C37_violation : main t!"a[b" = t!"a" ∧ ¬ t!"a[b" <+ main t!"a[b" := by
  have e : main t!"a[b" = t!"a" := by
    simp [main, run, step, flags, put, finish]
  exact ⟨e, by rw [e]; decide⟩

end Verif.Detach
