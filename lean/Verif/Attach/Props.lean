import Verif.Attach.Model
import Verif.Attach.Spec
/-!
# Properties C08 and C09 (wblank-attach)
-/
namespace Verif.Attach
open Verif.Stream

/-! ## Lists of word-bound blanks -/

theorem pieces_eq (t : Text) (h : t ≠ []) :
    pieces t = t.takeWhile (· ≠ ';') :: (match t.dropWhile (· ≠ ';') with | [] => [] | _ :: rest => pieces rest) := by
  rw [pieces]; simp only [h, dite_false]; split <;> simp_all

theorem pieces_nil : pieces [] = [] := by rw [pieces]; simp

theorem takeWhile_no {w : Text} (h : ∀ c ∈ w, c ≠ ';') (t : Text) :
    (w ++ ';' :: t).takeWhile (· ≠ ';') = w ∧ (w ++ ';' :: t).dropWhile (· ≠ ';') = ';' :: t := by
  induction w with
  | nil => simp
  | cons c w ih =>
    have := h c (by simp)
    have ih := ih (fun x hx => h x (by simp [hx]))
    simpa [this] using ih

theorem takeWhile_all {w : Text} (h : ∀ c ∈ w, c ≠ ';') :
    w.takeWhile (· ≠ ';') = w ∧ w.dropWhile (· ≠ ';') = [] := by
  induction w with
  | nil => simp
  | cons c w ih =>
    have := h c (by simp)
    have ih := ih (fun x hx => h x (by simp [hx]))
    simpa [this] using ih

theorem dropWhile_head {w : Text} (h : ∀ c, w.head? = some c → isTrim c = false) : w.dropWhile isTrim = w := by
  cases w with
  | nil => rfl
  | cons c w => simp [h c rfl]

theorem trimWb_ok {w : Text} (h : wbOk w) : trimWb w = w ∧ trimWb (' ' :: w) = w := by
  obtain ⟨hne, hc, h1, h2, _⟩ := h
  have hl : ∀ c, w.reverse.head? = some c → isTrim c = false := by
    intro c hcc
    rw [List.head?_reverse] at hcc
    have hm : c ∈ w := List.mem_of_getLast? hcc
    have a1 := hc c hm
    simp at a1
    have : c ≠ ' ' := by rintro rfl; exact h2 hcc
    simp [isTrim, a1, this]
  have hh : ∀ c, w.head? = some c → isTrim c = false := by
    intro c hcc
    have hm : c ∈ w := List.mem_of_head? hcc
    have a1 := hc c hm
    simp at a1
    have : c ≠ ' ' := by rintro rfl; exact h1 hcc
    simp [isTrim, a1, this]
  have e2 : (w.reverse ++ [' ']).dropWhile isTrim = w.reverse ++ [' '] := by
    apply dropWhile_head
    intro c hcc
    have : w.reverse ≠ [] := by simpa using hne
    cases hw : w.reverse with
    | nil => simp [hw] at this
    | cons d l => rw [hw] at hcc; simp at hcc; exact hl c (by rw [hw]; simp [hcc])
  constructor
  · simp [trimWb, dropWhile_head hl, dropWhile_head hh]
  · simp only [trimWb, List.reverse_cons, e2]
    simp [isTrim, dropWhile_head hh]

/-- The code's reading of `w1; w2; ...` gives back the `wi` (the first possibly after a space). -/
theorem pieces_intercalate (ws : List Text) (h : ∀ w ∈ ws, wbOk w) (sp : Text) (hs : sp = [] ∨ sp = [' ']) :
    (pieces (sp ++ List.intercalate [';', ' '] ws)).map trimWb = ws ∨
    (ws = [] ∧ (pieces (sp ++ List.intercalate [';', ' '] ws)).map trimWb = [[]]) := by
  induction ws generalizing sp with
  | nil =>
    rcases hs with rfl | rfl
    · left; simp [List.intercalate, pieces_nil]
    · right
      refine ⟨rfl, ?_⟩
      rw [pieces_eq _ (by simp)]
      simp [List.intercalate, trimWb, isTrim]
  | cons w ws ih =>
    have hw := h w (by simp)
    have ih := ih (fun x hx => h x (by simp [hx]))
    left
    have hsemi : ∀ c ∈ sp ++ w, c ≠ ';' := by
      intro c hc
      rcases List.mem_append.1 hc with hc | hc
      · rcases hs with rfl | rfl
        · simp at hc
        · simp at hc; subst hc; decide
      · have := hw.2.1 c hc; simp at this; exact this.2.2.2.2
    have htrim : trimWb (sp ++ w) = w := by
      rcases hs with rfl | rfl
      · simpa using (trimWb_ok hw).1
      · simpa using (trimWb_ok hw).2
    cases ws with
    | nil =>
      have e : List.intercalate [';', ' '] [w] = w := by simp [List.intercalate]
      rw [e, pieces_eq _ (by have := hw.1; simp [this])]
      simp only [takeWhile_all hsemi, List.map_cons, htrim]
      simp
    | cons w2 ws =>
      have e : List.intercalate [';', ' '] (w :: w2 :: ws) = w ++ ';' :: ([' '] ++ List.intercalate [';', ' '] (w2 :: ws)) := by
        simp [List.intercalate, List.intersperse]
      rw [e, ← List.append_assoc, pieces_eq _ (by simp)]
      obtain ⟨t1, t2⟩ := takeWhile_no hsemi ([' '] ++ List.intercalate [';', ' '] (w2 :: ws))
      simp only [t1, t2, List.map_cons, htrim]
      rcases ih [' '] (Or.inr rfl) with ih | ih
      · rw [ih]
      · simp at ih

/-! ## The list of open word-bound blanks -/

theorem eraseDups_snoc (l : List Text) (w : Text) :
    (l ++ [w]).eraseDups = if w ∈ l then l.eraseDups else l.eraseDups ++ [w] := by
  rw [List.eraseDups_append]
  by_cases h : w ∈ l <;> simp [List.removeAll, h, List.eraseDups_cons]

theorem mem_eraseDups' (l : List Text) (w : Text) : w ∈ l.eraseDups ↔ w ∈ l := by
  simp [List.mem_eraseDups]

theorem foldl_addPiece (ps : List Text) (l : List Text) (n : Nat) :
    ps.foldl addPiece (l.eraseDups, n) =
      ((l ++ (ps.map trimWb).filter (· ≠ [])).eraseDups,
       n + ((l ++ (ps.map trimWb).filter (· ≠ [])).eraseDups.length - l.eraseDups.length)) := by
  induction ps generalizing l n with
  | nil => simp
  | cons p ps ih =>
    simp only [List.foldl_cons, addPiece]
    by_cases h : trimWb p ≠ [] ∧ trimWb p ∉ l.eraseDups
    · have hnl : trimWb p ∉ l := by rw [← mem_eraseDups']; exact h.2
      rw [if_pos h]
      have e : l.eraseDups ++ [trimWb p] = (l ++ [trimWb p]).eraseDups := by
        rw [eraseDups_snoc, if_neg hnl]
      have e3 : (l ++ [trimWb p]).eraseDups.length = l.eraseDups.length + 1 := by rw [← e]; simp
      rw [e, ih]
      have e2 : List.filter (fun x => decide (x ≠ [])) (List.map trimWb (p :: ps)) =
          trimWb p :: List.filter (fun x => decide (x ≠ [])) (List.map trimWb ps) := by
        simp [h.1]
      rw [e2, show l ++ trimWb p :: List.filter (fun x => decide (x ≠ [])) (List.map trimWb ps) =
        l ++ [trimWb p] ++ List.filter (fun x => decide (x ≠ [])) (List.map trimWb ps) by simp]
      congr 1
      have hle : (l ++ [trimWb p]).eraseDups.length ≤
          (l ++ [trimWb p] ++ List.filter (fun x => decide (x ≠ [])) (List.map trimWb ps)).eraseDups.length := by
        rw [List.eraseDups_append (as := l ++ [trimWb p])]; simp
      omega
    · rw [if_neg h, ih]
      by_cases hn : trimWb p = []
      · simp [hn]
      · have hml : trimWb p ∈ l := by
          rw [← mem_eraseDups']; simp [hn] at h; simpa using h
        have : (l ++ List.filter (fun x => decide (x ≠ [])) (List.map trimWb (p :: ps))).eraseDups =
            (l ++ List.filter (fun x => decide (x ≠ [])) (List.map trimWb ps)).eraseDups := by
          rw [List.eraseDups_append, List.eraseDups_append]
          simp [hn, List.removeAll, hml]
        rw [this]

/-- The open word-bound blanks without duplicates, oldest first. -/
def openList (os : List (List Text)) : List Text := os.reverse.flatten.eraseDups

/-- How many of them each opening added, most recent first. -/
def counts : List (List Text) → List Nat
  | [] => []
  | o :: os => ((openList (o :: os)).length - (openList os).length) :: counts os

theorem openList_cons (o : List Text) (os : List (List Text)) :
    openList (o :: os) = openList os ++ (o.removeAll os.reverse.flatten).eraseDups := by
  simp [openList, List.eraseDups_append]

/-! ## Steps -/

theorem run_esc (s : St) (n : Char) (rest : Text) (hn : n ≠ '\x00') :
    run s ('\\' :: n :: rest) = (run (stepEsc s n).1 rest).map ((stepEsc s n).2 ++ ·) := by
  rw [run.eq_def]; simp [hn]

theorem run_lit (s : St) (c : Char) (rest : Text) (hc : c ≠ '\\') :
    run s (c :: rest) = (step s c).bind fun r => (run r.1 rest).map (r.2 ++ ·) := by
  rw [run.eq_def]; simp [hc]

theorem run_step {s s' : St} {c : Char} {o : Text} (hc : c ≠ '\\') (h : step s c = .ok (s', o)) (rest : Text) :
    run s (c :: rest) = (run s' rest).map (o ++ ·) := by
  rw [run_lit _ _ _ hc, h]; rfl

theorem map_nil_append (o : Outcome Text) : o.map (([] : Text) ++ ·) = o := by cases o <;> rfl

theorem run_blankAtoms (b : List Atom) (h : ∀ a ∈ b, a.wf ['[', ']']) (s : St) (hb : s.inBlank = true)
    (rest : Text) :
    run s (renderAtoms b ++ rest) =
      run { s with blank := s.blank ++ renderAtoms b, unesc := s.unesc ++ plainAtoms b } rest := by
  induction b generalizing s with
  | nil => simp [plainAtoms]
  | cons a b ih =>
    have ha := h a (by simp)
    have ih := ih (fun x hx => h x (by simp [hx]))
    cases a with
    | lit c =>
      simp [Atom.wf] at ha
      have e : step s c = .ok ({ s with blank := s.blank ++ [c], unesc := s.unesc ++ [c] }, []) := by
        simp [step, ha, flags, put, finish, hb]
      simp only [renderAtoms_cons, Atom.render, List.cons_append, List.nil_append]
      rw [run_step ha.1 e, map_nil_append, ih { s with blank := s.blank ++ [c], unesc := s.unesc ++ [c] } hb]
      simp [plainAtoms, Atom.char]
    | esc c =>
      simp only [renderAtoms_cons, Atom.render, List.cons_append, List.nil_append]
      have e : stepEsc s c = ({ s with blank := s.blank ++ ['\\', c], unesc := s.unesc ++ [c] }, []) := by
        simp [stepEsc, hb]
      rw [run_esc s c _ ha, e]
      simp only
      rw [map_nil_append, ih { s with blank := s.blank ++ ['\\', c], unesc := s.unesc ++ [c] } hb]
      simp [plainAtoms, Atom.char]

theorem run_luAtoms (b : List Atom) (h : ∀ a ∈ b, a.wf ['^', '$']) (s : St) (hb : s.inBlank = false)
    (ht : s.inToken = true) (hw : s.inWblank = false) (rest : Text) :
    run s (renderAtoms b ++ rest) = (run s rest).map (renderAtoms b ++ ·) := by
  induction b with
  | nil => rw [renderAtoms_nil, map_nil_append]; rfl
  | cons a b ih =>
    have ha := h a (by simp)
    have ih := ih (fun x hx => h x (by simp [hx]))
    cases a with
    | lit c =>
      simp [Atom.wf] at ha
      have e : step s c = .ok (s, [c]) := by
        simp [step, ha, flags, put, finish, hb, ht, hw]
      simp only [renderAtoms_cons, Atom.render, List.cons_append, List.nil_append]
      rw [run_step ha.1 e, ih, Outcome.map_map]
      rfl
    | esc c =>
      simp only [renderAtoms_cons, Atom.render, List.cons_append, List.nil_append]
      rw [run_esc s c _ ha]
      simp only [stepEsc, hb]
      simp only [Bool.false_eq_true, if_false]
      rw [ih, Outcome.map_map]
      rfl

/-- Literal characters as atoms. -/
theorem renderAtoms_lit (t : Text) : renderAtoms (t.map .lit) = t := by
  induction t with
  | nil => rfl
  | cons c t ih => simp [Atom.render, ih]

theorem plainAtoms_lit (t : Text) : plainAtoms (t.map .lit) = t := by
  simp [plainAtoms, Atom.char, Function.comp_def]

/-- The state between items: nothing open except word-bound blanks. -/
def between (os : List (List Text)) : St := { wbs := openList os, stack := counts os }

/-- Reading a whole `[[content]]`. -/
theorem run_wblank (s : St) (hs1 : s.inBlank = false) (hs2 : s.inToken = false) (hs3 : s.inWblank = false)
    (hs4 : s.blank = []) (hs5 : s.unesc = [])
    (b : List Atom) (h : ∀ a ∈ b, a.wf ['[', ']']) (rest : Text) (hb : b ≠ [.lit '/']) :
    run s ('[' :: '[' :: renderAtoms b ++ ']' :: ']' :: rest) =
      run { s with wbs := ((pieces (plainAtoms b)).foldl addPiece (s.wbs, 0)).1,
                   stack := ((pieces (plainAtoms b)).foldl addPiece (s.wbs, 0)).2 :: s.stack } rest := by
  have e1 : step s '[' = .ok ({ s with inBlank := true, blank := ['['], unesc := ['['] }, []) := by
    simp [step, flags, put, finish, hs1, hs2, hs3, hs4, hs5]
  have e2 : step { s with inBlank := true, blank := ['['], unesc := ['['] } '[' =
      .ok ({ s with inBlank := true, inWblank := true, blank := ['[', '['], unesc := ['[', '['] }, []) := by
    simp [step, flags, put, finish, hs2]
  simp only [List.cons_append]
  rw [run_step (by decide) e1, map_nil_append, run_step (by decide) e2, map_nil_append, run_blankAtoms b h _ rfl]
  have e3 : step { s with inBlank := true, inWblank := true, blank := ['[', '['] ++ renderAtoms b, unesc := ['[', '['] ++ plainAtoms b } ']' =
      .ok ({ s with inBlank := true, blank := ['[', '['] ++ renderAtoms b ++ [']'], unesc := ['[', '['] ++ plainAtoms b ++ [']'] }, []) := by
    simp [step, flags, put, finish, hs3]
  rw [run_step (by decide) e3, map_nil_append]
  have hno : ¬ ['[', '[', '/', ']', ']'] <+: '[' :: '[' :: (renderAtoms b ++ [']', ']']) := by
    rw [List.cons_prefix_cons, List.cons_prefix_cons]
    cases b with
    | nil => simp [List.cons_prefix_cons]
    | cons a b =>
      have ha := h a (by simp)
      cases a with
      | esc c => simp [Atom.render, List.cons_prefix_cons]
      | lit c =>
        simp only [renderAtoms_cons, Atom.render, List.cons_append, List.nil_append, List.cons_prefix_cons]
        rintro ⟨-, -, rfl, h2⟩
        cases b with
        | nil => exact hb rfl
        | cons a b =>
          have ha := h a (by simp)
          cases a with
          | esc c => simp [Atom.render, List.cons_prefix_cons] at h2
          | lit c =>
            simp [Atom.wf] at ha
            simp [Atom.render, List.cons_prefix_cons] at h2
            exact ha.2.2.2 h2.1.symm
  have e4 : step { s with inBlank := true, blank := ['[', '['] ++ renderAtoms b ++ [']'], unesc := ['[', '['] ++ plainAtoms b ++ [']'] } ']' =
      .ok ({ s with wbs := ((pieces (plainAtoms b)).foldl addPiece (s.wbs, 0)).1,
                    stack := ((pieces (plainAtoms b)).foldl addPiece (s.wbs, 0)).2 :: s.stack }, []) := by
    simp [step, flags, put, finish, hs3, closeBlank, hno, hs1, hs4, hs5, List.cons_prefix_cons]
    rw [if_neg (by omega)]; rfl
  rw [run_step (by decide) e4, map_nil_append]

theorem run_close (s : St) (hs1 : s.inBlank = false) (hs2 : s.inToken = false) (hs3 : s.inWblank = false)
    (hs4 : s.blank = []) (hs5 : s.unesc = []) (rest : Text) :
    run s ('[' :: '[' :: '/' :: ']' :: ']' :: rest) =
      match s.stack with
      | [] => run s rest
      | n :: st => if n ≤ s.wbs.length then run { s with wbs := s.wbs.take (s.wbs.length - n), stack := st } rest
                   else .ub := by
  have e1 : step s '[' = .ok ({ s with inBlank := true, blank := ['['], unesc := ['['] }, []) := by
    simp [step, flags, put, finish, hs1, hs2, hs3, hs4, hs5]
  have e2 : step { s with inBlank := true, blank := ['['], unesc := ['['] } '[' =
      .ok ({ s with inBlank := true, inWblank := true, blank := ['[', '['], unesc := ['[', '['] }, []) := by
    simp [step, flags, put, finish, hs2]
  have e3 : step { s with inBlank := true, inWblank := true, blank := ['[', '['], unesc := ['[', '['] } '/' =
      .ok ({ s with inBlank := true, inWblank := true, blank := ['[', '[', '/'], unesc := ['[', '[', '/'] }, []) := by
    simp [step, flags, put, finish]
  have e4 : step { s with inBlank := true, inWblank := true, blank := ['[', '[', '/'], unesc := ['[', '[', '/'] } ']' =
      .ok ({ s with inBlank := true, blank := ['[', '[', '/', ']'], unesc := ['[', '[', '/', ']'] }, []) := by
    simp [step, flags, put, finish, hs3]
  rw [run_step (by decide) e1, map_nil_append, run_step (by decide) e2, map_nil_append,
    run_step (by decide) e3, map_nil_append, run_step (by decide) e4, map_nil_append, run_lit _ _ _ (by decide)]
  have e5 : step { s with inBlank := true, blank := ['[', '[', '/', ']'], unesc := ['[', '[', '/', ']'] } ']' =
      (closeBlank { s with inBlank := true, blank := ['[', '[', '/', ']', ']'], unesc := ['[', '[', '/', ']', ']'] }).map
        fun r => (r.1, [] ++ r.2) := by
    simp [step, flags, put, finish, hs3]
  rw [e5]
  cases hst : s.stack with
  | nil =>
    simp [closeBlank, hst, Outcome.bind]
    rw [show ({ wbs := s.wbs, stack := [], blank := [], unesc := [], inToken := s.inToken, inBlank := false, inWblank := s.inWblank } : St) = s by cases s; simp_all]
    cases run s rest <;> rfl
  | cons n st =>
    by_cases hn : n ≤ s.wbs.length
    · simp [closeBlank, hst, hn, Outcome.bind]
      rw [show ({ wbs := List.take (s.wbs.length - n) s.wbs, stack := st, blank := [], unesc := [], inToken := s.inToken, inBlank := false, inWblank := s.inWblank } : St) =
        { s with wbs := s.wbs.take (s.wbs.length - n), stack := st } by cases s; simp_all]
      cases run _ rest <;> rfl
    · simp [closeBlank, hst, hn, Outcome.bind]

theorem content_wf (ws : List Text) (h : ∀ w ∈ ws, wbOk w) :
    (∀ c ∈ List.intercalate [';', ' '] ws, c ∉ ['\\', '\x00', '[', ']']) := by
  intro c hc
  have : c = ';' ∨ c = ' ' ∨ ∃ w ∈ ws, c ∈ w := by
    induction ws with
    | nil => simp [List.intercalate] at hc
    | cons w ws ih =>
      cases ws with
      | nil => simp [List.intercalate] at hc; exact Or.inr (Or.inr ⟨w, by simp, hc⟩)
      | cons w2 ws =>
        have e : List.intercalate [';', ' '] (w :: w2 :: ws) = w ++ ([';', ' '] ++ List.intercalate [';', ' '] (w2 :: ws)) := by
          simp [List.intercalate, List.intersperse]
        rw [e] at hc
        simp only [List.mem_append] at hc
        rcases hc with hc | hc | hc
        · exact Or.inr (Or.inr ⟨w, by simp, hc⟩)
        · simp at hc; rcases hc with rfl | rfl <;> simp
        · rcases ih (fun x hx => h x (by simp [hx])) hc with h1 | h1 | ⟨w', h1, h2⟩
          · exact Or.inl h1
          · exact Or.inr (Or.inl h1)
          · exact Or.inr (Or.inr ⟨w', by simp at h1 ⊢; exact Or.inr h1, h2⟩)
  rcases this with rfl | rfl | ⟨w, hw, hcw⟩
  · decide
  · decide
  · have := (h w hw).2.1 c hcw
    simp at this ⊢
    simp [this]

theorem content_ne_slash (ws : List Text) (h : ∀ w ∈ ws, wbOk w) : List.intercalate [';', ' '] ws ≠ ['/'] := by
  cases ws with
  | nil => simp [List.intercalate]
  | cons w ws =>
    cases ws with
    | nil => simpa [List.intercalate] using (h w (by simp)).2.2.2.2
    | cons w2 ws =>
      have e : List.intercalate [';', ' '] (w :: w2 :: ws) = w ++ ([';', ' '] ++ List.intercalate [';', ' '] (w2 :: ws)) := by
        simp [List.intercalate, List.intersperse]
      rw [e]
      intro h'
      have := congrArg List.length h'
      simp at this
      omega

/-- The word-bound blanks open after the items. -/
def after : List (List Text) → List AItem → List (List Text)
  | os, [] => os
  | os, .openw ws :: is => after (ws :: os) is
  | os, .closew :: is => after os.tail is
  | os, _ :: is => after os is

theorem run_items (is : List AItem) (hwf : ∀ i ∈ is, i.wf) (B : Text) : ∀ os : List (List Text), closedAtNul os.length is →
    run (between os) (renderA is ++ B) = (run (between (after os is)) B).map (distributed os is ++ ·) := by
  induction is with
  | nil => intro os _; simp only [renderA, List.flatMap_nil, List.nil_append, distributed, after]; cases run (between os) B <;> rfl
  | cons i is ih =>
    intro os hnul
    have hi := hwf i (by simp)
    have ih := ih (fun x hx => hwf x (by simp [hx]))
    have er : renderA (i :: is) ++ B = i.render ++ (renderA is ++ B) := by simp [renderA]
    rw [er]
    cases i with
    | txt a =>
      cases a with
      | lit c =>
        simp [AItem.wf, Atom.wf] at hi
        have e : step (between os) c = .ok (between os, [c]) := by
          simp [step, hi, flags, put, finish, between]
        simp only [AItem.render, Atom.render, List.cons_append, List.nil_append, distributed]
        rw [run_step hi.1 e, ih os hnul, Outcome.map_map]; rfl
      | esc c =>
        simp only [AItem.render, Atom.render, List.cons_append, List.nil_append, distributed]
        rw [run_esc _ _ _ hi]
        have e : stepEsc (between os) c = (between os, ['\\', c]) := by simp [stepEsc, between]
        rw [e, ih os hnul, Outcome.map_map]; rfl
    | nul =>
      simp only [closedAtNul, List.length_eq_zero_iff] at hnul
      obtain ⟨hos, hnul⟩ := hnul
      subst hos
      have e : step (between []) '\x00' = .ok (between [], ['\x00']) := by
        simp [step, between, openList, counts]
      simp only [AItem.render, List.cons_append, List.nil_append, distributed]
      rw [run_step (by decide) e, ih [] (by simpa using hnul), Outcome.map_map]; rfl
    | blank b =>
      simp only [AItem.render, distributed, List.cons_append, List.append_assoc, List.nil_append]
      have e : step (between os) '[' = .ok ({ between os with inBlank := true, blank := ['['], unesc := ['['] }, []) := by
        simp [step, flags, put, finish, between]
      rw [run_step (by decide) e, map_nil_append, run_blankAtoms b hi _ rfl]
      have hp : ¬ ['[', '['] <+: '[' :: (renderAtoms b ++ [']']) := by
        rw [List.cons_prefix_cons]
        cases b with
        | nil => simp
        | cons a b =>
          have ha := hi a (by simp)
          cases a with
          | lit c => simp [Atom.wf] at ha; simp [Atom.render, List.cons_prefix_cons, Ne.symm ha.2.2.1]
          | esc c => simp [Atom.render, List.cons_prefix_cons]
      have hp2 : ¬ ['[', '[', '/', ']', ']'] <+: '[' :: (renderAtoms b ++ [']']) := by
        intro hx
        exact hp (List.IsPrefix.trans (by simp [List.cons_prefix_cons]) hx)
      have e2 : step { between os with inBlank := true, blank := ['['] ++ renderAtoms b, unesc := ['['] ++ plainAtoms b } ']' =
          .ok (between os, '[' :: renderAtoms b ++ [']']) := by
        simp [step, flags, put, finish, hp, hp2, closeBlank, between]
      rw [run_step (by decide) e2, ih os hnul, Outcome.map_map]
      congr 1; funext x; simp
    | openw ws =>
      simp only [AItem.render, wbMark, distributed, List.cons_append, List.append_assoc, List.nil_append]
      have hc := content_wf ws hi
      have e := run_wblank (between os) rfl rfl rfl rfl rfl ((List.intercalate [';', ' '] ws).map .lit)
        (by
          intro a ha
          simp only [List.mem_map] at ha
          obtain ⟨c, hcm, rfl⟩ := ha
          have := hc c hcm
          simp at this
          simp [Atom.wf, this]) (renderA is ++ B)
        (by
          intro h
          have := congrArg renderAtoms h
          rw [renderAtoms_lit] at this
          exact content_ne_slash ws hi (by simpa [Atom.render] using this))
      rw [renderAtoms_lit, plainAtoms_lit] at e
      simp only [List.cons_append] at e
      rw [e]
      have hp : (List.map trimWb (pieces (List.intercalate [';', ' '] ws))).filter (· ≠ []) = ws := by
        have hws : ws.filter (fun x => decide (x ≠ [])) = ws := by
          rw [List.filter_eq_self]; intro w hw; simpa using (hi w hw).1
        rcases pieces_intercalate ws hi [] (Or.inl rfl) with h1 | ⟨h1, h2⟩
        · rw [List.nil_append] at h1; rw [h1, hws]
        · rw [List.nil_append] at h2; rw [h2, h1]; simp
      have hfold := foldl_addPiece (pieces (List.intercalate [';', ' '] ws)) os.reverse.flatten 0
      rw [hp] at hfold
      have hb : (between os).wbs = os.reverse.flatten.eraseDups := rfl
      rw [hb, hfold]
      have hst : ({ between os with wbs := (os.reverse.flatten ++ ws).eraseDups, stack := (0 + ((os.reverse.flatten ++ ws).eraseDups.length - os.reverse.flatten.eraseDups.length)) :: (between os).stack } : St) =
          between (ws :: os) := by
        simp [between, openList, counts]
      rw [hst]
      exact ih (ws :: os) (by simpa [closedAtNul] using hnul)
    | closew =>
      simp only [AItem.render, distributed, List.cons_append, List.nil_append]
      rw [run_close (between os) rfl rfl rfl rfl rfl]
      cases os with
      | nil =>
        simp only [between, counts, List.tail_nil]
        exact ih [] (by simpa [closedAtNul] using hnul)
      | cons o os =>
        have hst : (between (o :: os)).stack = ((openList (o :: os)).length - (openList os).length) :: counts os := rfl
        rw [hst]
        simp only
        have hle : (openList (o :: os)).length - (openList os).length ≤ (openList (o :: os)).length := by omega
        have hle2 : (openList os).length ≤ (openList (o :: os)).length := by rw [openList_cons]; simp
        rw [if_pos (show (openList (o :: os)).length - (openList os).length ≤ (between (o :: os)).wbs.length from hle)]
        have ht : (openList (o :: os)).take ((openList (o :: os)).length - ((openList (o :: os)).length - (openList os).length)) =
            openList os := by
          rw [Nat.sub_sub_self hle2, openList_cons]; simp
        have hb : ({ between (o :: os) with wbs := (between (o :: os)).wbs.take ((between (o :: os)).wbs.length - ((openList (o :: os)).length - (openList os).length)), stack := counts os } : St) = between os := by
          simp only [between]; rw [ht]
        rw [hb]
        exact ih os (by simpa [closedAtNul] using hnul)
    | lu b =>
      simp only [AItem.render, distributed, List.cons_append, List.append_assoc, List.nil_append]
      have e : step (between os) '^' = .ok ({ between os with inToken := true }, mark os ++ ['^']) := by
        simp only [step, flags, put, finish, between, wbsText, mark, wbMark, openList]
        by_cases hx : os.reverse.flatten.eraseDups = [] <;> simp [hx]
      rw [run_step (by decide) e, run_luAtoms b hi _ rfl rfl rfl]
      have e2 : step { between os with inToken := true } '$' = .ok (between os, ['$']) := by
        simp [step, flags, put, finish, between]
      rw [run_step (by decide) e2, ih os hnul, Outcome.map_map, Outcome.map_map, Outcome.map_map]
      congr 1; funext x; simp

/-! ### Spaces around the pieces -/

/-- A piece with spaces before and after it. -/
def pad (x : Nat × Text × Nat) : Text := List.replicate x.1 ' ' ++ x.2.1 ++ List.replicate x.2.2 ' '

/-- `[[w1 ;w2;  w3]]`: the pieces with any number of spaces around them. -/
def paddedMark (xs : List (Nat × Text × Nat)) : Text := ['[', '['] ++ List.intercalate [';'] (xs.map pad) ++ [']', ']']

theorem dropWhile_replicate_append (n : Nat) (t : Text) :
    (List.replicate n ' ' ++ t).dropWhile isTrim = t.dropWhile isTrim := by
  induction n with
  | zero => simp
  | succ n ih =>
    rw [List.replicate_succ, List.cons_append, List.dropWhile_cons]
    rw [if_pos (by decide)]; exact ih

theorem trim_ends {w : Text} (h : wbOk w) : w.dropWhile isTrim = w ∧ w.reverse.dropWhile isTrim = w.reverse := by
  obtain ⟨hne, hc, h1, h2, _⟩ := h
  constructor
  · apply dropWhile_head
    intro c hcc
    have a1 := hc c (List.mem_of_head? hcc)
    simp at a1
    have : c ≠ ' ' := by rintro rfl; exact h1 hcc
    simp [isTrim, a1, this]
  · apply dropWhile_head
    intro c hcc
    rw [List.head?_reverse] at hcc
    have a1 := hc c (List.mem_of_getLast? hcc)
    simp at a1
    have : c ≠ ' ' := by rintro rfl; exact h2 hcc
    simp [isTrim, a1, this]

theorem dropWhile_append_self {a b : Text} (ha : a.dropWhile isTrim = a) (hne : a ≠ []) :
    (a ++ b).dropWhile isTrim = a ++ b := by
  cases a with
  | nil => exact absurd rfl hne
  | cons c a =>
    have hc : isTrim c = false := by
      cases hx : isTrim c with
      | false => rfl
      | true =>
        rw [List.dropWhile_cons, if_pos hx] at ha
        have h1 := congrArg List.length ha
        have h2 := (List.dropWhile_suffix (l := a) isTrim).length_le
        simp only [List.length_cons] at h1
        omega
    simp [List.dropWhile_cons, hc]

theorem trimWb_pad (x : Nat × Text × Nat) (h : wbOk x.2.1) : trimWb (pad x) = x.2.1 := by
  obtain ⟨l, w, r⟩ := x
  obtain ⟨e1, e2⟩ := trim_ends h
  have hne : w.reverse ≠ [] := by simpa using h.1
  simp only [trimWb, pad, List.reverse_append, List.reverse_replicate]
  rw [dropWhile_replicate_append, dropWhile_append_self e2 hne]
  simp only [List.reverse_append, List.reverse_replicate, List.reverse_reverse]
  rw [dropWhile_replicate_append, e1]

theorem pad_mem {x : Nat × Text × Nat} {c : Char} (h : c ∈ pad x) : c = ' ' ∨ c ∈ x.2.1 := by
  simp only [pad, List.mem_append, List.mem_replicate] at h
  rcases h with (h | h) | h
  · exact Or.inl h.2
  · exact Or.inr h
  · exact Or.inl h.2

theorem pieces_padded (xs : List (Nat × Text × Nat)) (h : ∀ x ∈ xs, wbOk x.2.1) :
    (pieces (List.intercalate [';'] (xs.map pad))).map trimWb = xs.map (·.2.1) := by
  induction xs with
  | nil => simp [List.intercalate, pieces_nil]
  | cons x xs ih =>
    have hx := h x (by simp)
    have hsemi : ∀ c ∈ pad x, c ≠ ';' := by
      intro c hc
      rcases pad_mem hc with rfl | hc
      · decide
      · have := hx.2.1 c hc; simp at this; exact this.2.2.2.2
    have hpne : pad x ≠ [] := by simp [pad, hx.1]
    have ih := ih (fun y hy => h y (by simp [hy]))
    cases xs with
    | nil =>
      have e : List.intercalate [';'] (List.map pad [x]) = pad x := by simp [List.intercalate]
      rw [e, pieces_eq _ hpne]
      simp only [takeWhile_all hsemi, List.map_cons, trimWb_pad x hx]
      simp
    | cons y ys =>
      have e : List.intercalate [';'] (List.map pad (x :: y :: ys)) =
          pad x ++ ';' :: List.intercalate [';'] (List.map pad (y :: ys)) := by
        simp [List.intercalate, List.intersperse]
      rw [e, pieces_eq _ (by simp)]
      obtain ⟨t1, t2⟩ := takeWhile_no hsemi (List.intercalate [';'] (List.map pad (y :: ys)))
      rw [t1, t2]
      rw [List.map_cons, trimWb_pad x hx]
      simp only
      rw [ih]; rfl

theorem padded_chars (xs : List (Nat × Text × Nat)) (h : ∀ x ∈ xs, wbOk x.2.1) :
    ∀ c ∈ List.intercalate [';'] (xs.map pad), c ∉ ['\\', '\x00', '[', ']'] := by
  intro c hc
  have : c = ';' ∨ c = ' ' ∨ ∃ x ∈ xs, c ∈ x.2.1 := by
    induction xs with
    | nil => simp [List.intercalate] at hc
    | cons x xs ih =>
      cases xs with
      | nil =>
        simp [List.intercalate] at hc
        rcases pad_mem hc with h1 | h1
        · exact Or.inr (Or.inl h1)
        · exact Or.inr (Or.inr ⟨x, by simp, h1⟩)
      | cons y ys =>
        have e : List.intercalate [';'] (List.map pad (x :: y :: ys)) =
            pad x ++ ';' :: List.intercalate [';'] (List.map pad (y :: ys)) := by
          simp [List.intercalate, List.intersperse]
        rw [e] at hc
        simp only [List.mem_append, List.mem_cons] at hc
        rcases hc with hc | hc | hc
        · rcases pad_mem hc with h1 | h1
          · exact Or.inr (Or.inl h1)
          · exact Or.inr (Or.inr ⟨x, by simp, h1⟩)
        · exact Or.inl hc
        · rcases ih (fun z hz => h z (by simp [hz])) hc with h1 | h1 | ⟨z, hz, h1⟩
          · exact Or.inl h1
          · exact Or.inr (Or.inl h1)
          · exact Or.inr (Or.inr ⟨z, by simp [hz], h1⟩)
  rcases this with rfl | rfl | ⟨x, hx, hc⟩
  · decide
  · decide
  · have := (h x hx).2.1 c hc
    simp at this ⊢
    exact ⟨this.1, this.2.1, this.2.2.1, this.2.2.2.1⟩

theorem padded_ne_slash (xs : List (Nat × Text × Nat)) (h : ∀ x ∈ xs, wbOk x.2.1) :
    List.intercalate [';'] (xs.map pad) ≠ ['/'] := by
  intro he
  have hp := pieces_padded xs h
  rw [he, pieces_eq _ (by decide)] at hp
  have hp : [['/']] = xs.map (·.2.1) := by simpa [trimWb, isTrim] using hp
  have : ['/'] ∈ xs.map (·.2.1) := by rw [← hp]; simp
  simp only [List.mem_map] at this
  obtain ⟨x, hx, e⟩ := this
  exact (h x hx).2.2.2.2 e

theorem run_open (os : List (List Text)) (content : Text) (hc : ∀ c ∈ content, c ∉ ['\\', '\x00', '[', ']'])
    (hs : content ≠ ['/']) (ws : List Text) (hws : ∀ w ∈ ws, wbOk w) (hp : (pieces content).map trimWb = ws) (B : Text) :
    run (between os) (['[', '['] ++ content ++ [']', ']'] ++ B) = run (between (ws :: os)) B := by
  have e := run_wblank (between os) rfl rfl rfl rfl rfl (content.map .lit)
    (by
      intro a ha
      simp only [List.mem_map] at ha
      obtain ⟨c, hcm, rfl⟩ := ha
      have := hc c hcm
      simp at this
      simp [Atom.wf, this]) B
    (by
      intro h
      have := congrArg renderAtoms h
      rw [renderAtoms_lit] at this
      exact hs (by simpa [Atom.render] using this))
  rw [renderAtoms_lit, plainAtoms_lit] at e
  simp only [List.cons_append, List.append_assoc, List.nil_append] at e ⊢
  rw [e]
  have hp : (List.map trimWb (pieces content)).filter (· ≠ []) = ws := by
    rw [hp, List.filter_eq_self]; intro w hw; simpa using (hws w hw).1
  have hfold := foldl_addPiece (pieces content) os.reverse.flatten 0
  rw [hp] at hfold
  have hb : (between os).wbs = os.reverse.flatten.eraseDups := rfl
  rw [hb, hfold]
  have hst : ({ between os with wbs := (os.reverse.flatten ++ ws).eraseDups, stack := (0 + ((os.reverse.flatten ++ ws).eraseDups.length - os.reverse.flatten.eraseDups.length)) :: (between os).stack } : St) =
      between (ws :: os) := by
    simp [between, openList, counts]
  rw [hst]

/-- C08: spaces around the pieces of a word-bound blank make no difference, at any point of a stream and whatever follows. -/
theorem C08_padding (is : List AItem) (hwf : ∀ i ∈ is, i.wf) (hnul : closedAtNul 0 is)
    (xs : List (Nat × Text × Nat)) (h : ∀ x ∈ xs, wbOk x.2.1) (B : Text) :
    main (renderA is ++ paddedMark xs ++ B) = main (renderA is ++ wbMark (xs.map (·.2.1)) ++ B) := by
  have e : between [] = {} := by simp [between, openList, counts]
  have h' : ∀ w ∈ xs.map (·.2.1), wbOk w := by
    intro w hw
    simp only [List.mem_map] at hw
    obtain ⟨x, hx, rfl⟩ := hw
    exact h x hx
  have hpw : ∀ i ∈ ([.openw (xs.map (·.2.1))] : List AItem), i.wf := by
    intro i hi
    simp only [List.mem_singleton] at hi
    subst hi
    exact h'
  have hr := run_items [.openw (xs.map (·.2.1))] hpw B (after [] is) (by simp [closedAtNul])
  have hm : renderA [AItem.openw (xs.map (·.2.1))] = wbMark (xs.map (·.2.1)) := by simp [renderA, AItem.render]
  rw [hm] at hr
  have h1 := run_items is hwf (paddedMark xs ++ B) [] hnul
  have h2 := run_items is hwf (wbMark (xs.map (·.2.1)) ++ B) [] hnul
  rw [e] at h1 h2
  simp only [main, List.append_assoc]
  rw [h1, h2, hr]
  have h3 := run_open (after [] is) _ (padded_chars xs h) (padded_ne_slash xs h) _ h' (pieces_padded xs h) B
  rw [paddedMark, h3]
  have hz : ∀ o : Outcome Text, o.map (([] : Text) ++ ·) = o := by intro o; cases o <;> simp [Outcome.map]
  simp only [distributed, after]
  rw [hz]

example : paddedMark [(0, t!"a", 1), (2, t!"b c", 0)] = t!"[[a ;  b c]]" := by decide

/-! ## C08 -/

/-- C08 (partial: word-bound blanks without escapes; see `C08_violation` for the others): on every stream in which no word-bound
blank is open at a NUL, each lexical unit is preceded by one mark listing the open word-bound blanks in order of opening without
duplicates, the marks themselves disappear, and everything else is copied. -/
theorem C08_distributes_partial (is : List AItem) (hwf : ∀ i ∈ is, i.wf) (hnul : closedAtNul 0 is) :
    main (renderA is) = .ok (distributed [] is) := by
  have := run_items is hwf [] [] hnul
  have e : between [] = {} := by simp [between, openList, counts]
  rw [e, List.append_nil] at this
  simpa [main, between, run] using this

def sampleItems : List AItem :=
  [.openw [t!"a", t!"b c"], .lu [.lit 'x'], .openw [t!"b c", t!"d"], .blank [.lit ' '], .lu [.lit 'y', .esc '$'], .closew,
   .txt (.lit ' '), .lu [.lit 'z'], .closew, .nul, .lu [.lit 'w']]

example : (∀ i ∈ sampleItems, i.wf) ∧ closedAtNul 0 sampleItems := by
  refine ⟨by decide, by simp [sampleItems, closedAtNul]⟩
example : renderA sampleItems = t!"[[a; b c]]^x$[[b c; d]][ ]^y\\$$[[/]] ^z$[[/]]\x00^w$" := by decide
example : distributed [] sampleItems = t!"[[a; b c]]^x$[ ][[a; b c; d]]^y\\$$ [[a; b c]]^z$\x00^w$" := by decide

/-- C08 fails for escaped characters: they are written without their escape, so the mark is cut short. -/
theorem C08_violation : main t!"[[a\\]\\]b]]^x$[[/]]" = .ok t!"[[a]]b]]^x$" := by
  have h1 : main t!"[[a\\]\\]b]]^x$[[/]]" = run {} ('[' :: '[' :: renderAtoms [.lit 'a', .esc ']', .esc ']', .lit 'b'] ++ ']' :: ']' :: t!"^x$[[/]]") := rfl
  have hp : pieces t!"a]]b" = [t!"a]]b"] := by rw [pieces_eq _ (by decide)]; rfl
  rw [h1, run_wblank {} rfl rfl rfl rfl rfl _ (by decide) _ (by decide)]
  have h2 : plainAtoms [.lit 'a', .esc ']', .esc ']', .lit 'b'] = t!"a]]b" := rfl
  rw [h2, hp]
  simp [addPiece, trimWb, isTrim, run, step, flags, put, finish, wbsText, closeBlank, List.intercalate, List.cons_prefix_cons,
    Outcome.bind]

/-! ## C09 -/

/-- C09 fails: after a request that leaves a word-bound blank open, a closing mark in the next
request pops an empty vector (undefined behaviour). -/
theorem C09_violation_ub : main t!"[[a]]^x$\x00[[/]]" = .ub ∧ main t!"[[/]]" = .ok [] := by
  constructor
  · have h1 : main t!"[[a]]^x$\x00[[/]]" = run {} ('[' :: '[' :: renderAtoms [.lit 'a'] ++ ']' :: ']' :: t!"^x$\x00[[/]]") := rfl
    have hp : pieces t!"a" = [t!"a"] := by rw [pieces_eq _ (by decide)]; rfl
    rw [h1, run_wblank {} rfl rfl rfl rfl rfl _ (by decide) _ (by decide)]
    have h2 : plainAtoms [.lit 'a'] = t!"a" := rfl
    rw [h2, hp]
    simp [addPiece, trimWb, isTrim, run, step, flags, put, finish, wbsText, closeBlank, List.intercalate, List.cons_prefix_cons,
      Outcome.bind]
  · simp [main, run, step, flags, put, finish, closeBlank, List.cons_prefix_cons, Outcome.bind]

/-- C09 fails without undefined behaviour too: after a request cut inside `[[`, the next superblank does not end at its `]`, and
the word-bound blank that follows is lost. -/
theorem C09_violation_blank :
    main t!"[[a\x00[b][[w]]^x$^y$[[/]]" = .ok t!"[[a\x00[b][[w]]^x$^y$" ∧
    main t!"[b][[w]]^x$^y$[[/]]" = .ok t!"[b][[w]]^x$[[w]]^y$" := by
  have hp : pieces t!"w" = [t!"w"] := by rw [pieces_eq _ (by decide)]; rfl
  constructor
  · simp [main, run, step, flags, put, finish, wbsText, closeBlank, Outcome.bind]
  · simp [main, addPiece, trimWb, isTrim, run, step, flags, put, finish, wbsText, closeBlank, List.intercalate, Outcome.bind, hp]

/-- C09 (partial: the first request is complete and closes its word-bound blanks): then the second request, whatever it is, is
processed as if it were the only one. -/
theorem C09_null_flush_partial (is : List AItem) (hwf : ∀ i ∈ is, i.wf) (hnul : closedAtNul 0 (is ++ [.nul])) (B : Text) :
    main (renderA is ++ '\x00' :: B) = (main B).map (distributed [] is ++ '\x00' :: ·) := by
  have e1 : renderA is ++ '\x00' :: B = renderA (is ++ [.nul]) ++ B := by simp [renderA, AItem.render]
  have hd : ∀ (is : List AItem) os, distributed os (is ++ [.nul]) = distributed os is ++ ['\x00'] := by
    intro is
    induction is with
    | nil => intro os; simp [distributed, AItem.render]
    | cons i is ih => intro os; cases i <;> simp [distributed, ih]
  have ha : ∀ (is : List AItem) os, closedAtNul os.length (is ++ [.nul]) → after os (is ++ [.nul]) = [] := by
    intro is
    induction is with
    | nil => intro os h; simp [closedAtNul] at h; simp [after, h]
    | cons i is ih =>
      intro os h
      cases i with
      | openw ws => exact ih (ws :: os) (by simpa [closedAtNul] using h)
      | closew => exact ih os.tail (by simpa [closedAtNul] using h)
      | nul => exact ih os h.2
      | txt a => exact ih os h
      | blank b => exact ih os h
      | lu b => exact ih os h
  have e : between [] = {} := by simp [between, openList, counts]
  have := run_items (is ++ [.nul]) (by intro i hi; simp at hi; rcases hi with hi | rfl; exact hwf i hi; trivial) B [] hnul
  rw [ha is [] hnul, hd, e] at this
  rw [main, e1, this]
  simp [main]

example : closedAtNul 0 ([.openw [t!"a"], .lu [.lit 'x'], .closew] ++ [.nul]) := by simp [closedAtNul]

end Verif.Attach
