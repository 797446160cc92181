import Verif.Help.Linebreak
/-!
# C34: wrapping of the help text
-/
namespace Verif.Help

/-! ## Specification -/

/-- Space and newline. -/
def White (c : Char) : Prop := c = ' ' ∨ c = '\n'
instance (c : Char) : Decidable (White c) := by unfold White; infer_instance

/-- The words of a text: the longest pieces without space and newline.  `acc` is the word that is being read. -/
def wordsFrom (acc : Text) : Text → List Text
  | [] => if acc = [] then [] else [acc]
  | c :: r => if White c then (if acc = [] then wordsFrom [] r else acc :: wordsFrom [] r) else wordsFrom (acc ++ [c]) r

def words (s : Text) : List Text := wordsFrom [] s

/-- No line has more than `max` columns, where the first line starts at column `c`. -/
def Fits (max : Nat) : Nat → Text → Prop
  | c, [] => c ≤ max
  | c, x :: r => if x = '\n' then c ≤ max ∧ Fits max 0 r else Fits max (c + 1) r

/-! ## Words -/

theorem wordsFrom_append_white (acc a b : Text) (c : Char) (hc : White c) :
    wordsFrom acc (a ++ c :: b) = wordsFrom acc a ++ words b := by
  induction a generalizing acc with
  | nil => by_cases h : acc = [] <;> simp [wordsFrom, hc, h, words]
  | cons x a ih =>
    by_cases hx : White x
    · by_cases h : acc = [] <;> simp [wordsFrom, hx, h, ih]
    · simp [wordsFrom, hx, ih]

theorem words_append_white (a b : Text) (c : Char) (hc : White c) : words (a ++ c :: b) = words a ++ words b :=
  wordsFrom_append_white [] a b c hc

theorem words_white_cons (b : Text) (c : Char) (hc : White c) : words (c :: b) = words b := by
  simp [words, wordsFrom, hc]

theorem words_white (w b : Text) (hw : ∀ c ∈ w, White c) : words (w ++ b) = words b := by
  induction w with
  | nil => rfl
  | cons c w ih =>
    rw [List.cons_append, words_white_cons _ _ (hw c (by simp)), ih fun c h => hw c (by simp [h])]

theorem words_sep (a w b : Text) (hw : ∀ c ∈ w, White c) (hn : w ≠ []) : words (a ++ w ++ b) = words a ++ words b := by
  cases w with
  | nil => exact absurd rfl hn
  | cons c w =>
    rw [List.append_assoc, List.cons_append, words_append_white _ _ _ (hw c (by simp)), words_white w b fun c h => hw c (by simp [h])]

theorem words_end (a w : Text) (hw : ∀ c ∈ w, White c) : words (a ++ w) = words a := by
  cases w with
  | nil => simp
  | cons c w =>
    have := words_sep a (c :: w) [] hw (by simp)
    simpa [words, wordsFrom] using this

theorem replicate_white (m : Nat) : ∀ c ∈ List.replicate m ' ', White c := by
  intro c h; rw [List.mem_replicate] at h; exact .inl h.2

theorem takeWhile_space_white (l : Text) : ∀ c ∈ l.takeWhile (· = ' '), White c := by
  intro c h
  have := List.all_takeWhile (p := fun x : Char => decide (x = ' ')) (l := l)
  rw [List.all_eq_true] at this
  exact .inl (by simpa using this c h)

/-- The text of a state. -/
def St.text (s : St) : Text := s.pre.reverse ++ s.suf

/-- A run of spaces is replaced by a line break (if there are none, the break is put at the start of the text). -/
theorem words_breakAt (m : Nat) (pre sp suf : Text) (hs : ∀ c ∈ sp, White c) (hn : sp = [] → pre = []) :
    words (breakAt m pre suf).text = words (pre.reverse ++ sp ++ suf) := by
  have e : (breakAt m pre suf).text = pre.reverse ++ ('\n' :: List.replicate m ' ') ++ suf := by
    simp [breakAt, St.text]
  have hw : ∀ c ∈ '\n' :: List.replicate m ' ', White c := by
    intro c h
    rcases List.mem_cons.mp h with h | h
    · exact .inr h
    · exact replicate_white m c h
  rw [e, words_sep _ _ _ hw (by simp)]
  by_cases h : sp = []
  · subst h
    simp [hn rfl, words, wordsFrom]
  · rw [words_sep _ _ _ hs h]

/-- The spaces before the word that is moved. -/
theorem dropWhile_ne_head (l : Text) : l.dropWhile (· ≠ ' ') = [] ∨ ∃ r, l.dropWhile (· ≠ ' ') = ' ' :: r := by
  induction l with
  | nil => simp
  | cons c l ih =>
    by_cases h : c = ' '
    · simp [h]
    · simpa [h] using ih

theorem step_words (m : Nat) (s : St) :
    (∀ t, step m s = .inl t → words t = words s.text) ∧ (∀ s', step m s = .inr s' → words s'.text = words s.text) := by
  obtain ⟨pre, suf, col⟩ := s
  unfold step
  cases suf with
  | nil => simp [St.text]
  | cons c r =>
    dsimp only
    by_cases hcol : col < 79
    · rw [if_pos hcol]
      by_cases hc : c = '\n'
      · rw [if_pos hc]
        subst hc
        by_cases hr : r = []
        · rw [if_pos hr]
          subst hr
          refine ⟨fun t h => ?_, fun _ h => by simp at h⟩
          injection h with h
          subst h
          exact (words_end _ _ (by simp [White])).symm
        · rw [if_neg hr]
          refine ⟨fun _ h => by simp at h, fun s' h => ?_⟩
          injection h with h
          subst h
          have e : St.text ⟨(('\n' :: (List.replicate m ' ' ++ r)).take m).reverse ++ pre, ('\n' :: (List.replicate m ' ' ++ r)).drop m, m⟩
              = pre.reverse ++ ('\n' :: List.replicate m ' ') ++ r := by
            simp only [St.text, List.reverse_append, List.reverse_reverse, List.append_assoc, List.take_append_drop, List.cons_append]
          rw [e, words_sep _ _ _ (fun c h => by
            rcases List.mem_cons.mp h with h | h
            · exact .inr h
            · exact replicate_white m c h) (by simp)]
          exact (words_append_white _ _ _ (.inr rfl)).symm
      · rw [if_neg hc]
        refine ⟨fun _ h => by simp at h, fun s' h => ?_⟩
        injection h with h
        subst h
        simp [St.text]
    · rw [if_neg hcol]
      by_cases hc : c = ' '
      · rw [if_pos hc]
        subst hc
        have hp := List.takeWhile_append_dropWhile (p := fun x : Char => decide (x = ' ')) (l := pre)
        have hr := List.takeWhile_append_dropWhile (p := fun x : Char => decide (x = ' ')) (l := r)
        have e : St.text ⟨pre, ' ' :: r, col⟩ = (pre.dropWhile (· = ' ')).reverse ++
            ((pre.takeWhile (· = ' ')).reverse ++ ' ' :: r.takeWhile (· = ' ')) ++ r.dropWhile (· = ' ') := by
          have h1 : pre.reverse = (pre.dropWhile (· = ' ')).reverse ++ (pre.takeWhile (· = ' ')).reverse := by
            rw [← List.reverse_append, hp]
          rw [St.text, h1, List.append_assoc, List.append_assoc, List.append_assoc, List.cons_append, hr]
        have hw : ∀ c ∈ (pre.takeWhile (· = ' ')).reverse ++ ' ' :: r.takeWhile (· = ' '), White c := by
          intro c h
          simp only [List.mem_append, List.mem_reverse, List.mem_cons] at h
          rcases h with h | h | h
          · exact takeWhile_space_white _ _ h
          · exact .inl h
          · exact takeWhile_space_white _ _ h
        by_cases hn : r.dropWhile (· = ' ') = []
        · rw [if_pos hn]
          refine ⟨fun t h => ?_, fun _ h => by simp at h⟩
          injection h with h
          rw [e, hn, List.append_nil, words_end _ _ hw, h]
        · rw [if_neg hn]
          refine ⟨fun _ h => by simp at h, fun s' h => ?_⟩
          injection h with h
          rw [e, ← h, words_breakAt m _ _ _ hw (by simp)]
      · rw [if_neg hc]
        refine ⟨fun _ h => by simp at h, fun s' h => ?_⟩
        injection h with h
        have hp := List.takeWhile_append_dropWhile (p := fun x : Char => decide (x ≠ ' ')) (l := pre)
        have hq := List.takeWhile_append_dropWhile (p := fun x : Char => decide (x = ' ')) (l := pre.dropWhile (· ≠ ' '))
        have e : St.text ⟨pre, c :: r, col⟩ = ((pre.dropWhile (· ≠ ' ')).dropWhile (· = ' ')).reverse ++
            ((pre.dropWhile (· ≠ ' ')).takeWhile (· = ' ')).reverse ++ ((pre.takeWhile (· ≠ ' ')).reverse ++ c :: r) := by
          rw [← List.reverse_append, hq, ← List.append_assoc, ← List.reverse_append, hp, St.text]
        rw [← h, e]
        refine words_breakAt m _ _ _ ?_ ?_
        · intro c h
          exact takeWhile_space_white _ _ (List.mem_reverse.mp h)
        · intro h
          rcases dropWhile_ne_head pre with h' | ⟨r', h'⟩
          · rw [h']; rfl
          · rw [h'] at h; simp at h

theorem run_words (m n : Nat) (s : St) (r : Text) (h : run m n s = some r) : words r = words s.text := by
  induction n generalizing s with
  | zero => simp [run] at h
  | succ n ih =>
    rw [run] at h
    cases hs : step m s with
    | inl t =>
      rw [hs] at h
      injection h with h
      subst h
      exact (step_words m s).1 t hs
    | inr s' =>
      rw [hs] at h
      rw [ih s' h, (step_words m s).2 s' hs]

/-- C34: wrapping keeps the words and their order; no word is cut. -/
theorem C34_words (s r : Text) (col m : Nat) (h : Returns s col m r) : words r = words s := by
  obtain ⟨n, h⟩ := h
  exact run_words m n _ r h

/-! ## Width -/

/-- The column after the text `p` (given in reverse), which starts at column `c`. -/
def colAfter (c : Nat) : Text → Nat
  | [] => c
  | x :: r => if x = '\n' then 0 else colAfter c r + 1

/-- The lines before the last one of `p` (in reverse) fit. -/
def LinesOk (max c : Nat) : Text → Prop
  | [] => True
  | x :: r => LinesOk max c r ∧ (x = '\n' → colAfter c r ≤ max)

theorem Fits_iff (max c : Nat) (p b : Text) : Fits max c (p.reverse ++ b) ↔ LinesOk max c p ∧ Fits max (colAfter c p) b := by
  induction p generalizing b with
  | nil => simp [LinesOk, colAfter]
  | cons x p ih =>
    rw [List.reverse_cons, List.append_assoc, ih]
    by_cases h : x = '\n'
    · simp [LinesOk, colAfter, Fits, h, and_assoc]
    · simp [LinesOk, colAfter, Fits, h]

theorem colAfter_spaces (c m : Nat) (p : Text) : colAfter c (List.replicate m ' ' ++ p) = colAfter c p + m := by
  induction m with
  | zero => rfl
  | succ m ih => rw [List.replicate_succ, List.cons_append, colAfter, if_neg (by decide), ih]; omega

theorem LinesOk_spaces (max c m : Nat) (p : Text) (h : LinesOk max c p) : LinesOk max c (List.replicate m ' ' ++ p) := by
  induction m with
  | zero => exact h
  | succ m ih => exact ⟨ih, fun h => absurd h (by decide)⟩

theorem LinesOk_dropWhile (max c : Nat) (f : Char → Bool) (p : Text) (h : LinesOk max c p) : LinesOk max c (p.dropWhile f) := by
  induction p with
  | nil => exact h
  | cons x p ih =>
    rw [List.dropWhile_cons]
    split
    · exact ih h.1
    · exact h

theorem colAfter_dropWhile (max c : Nat) (f : Char → Bool) (p : Text) (h : LinesOk max c p) (hc : colAfter c p ≤ max) :
    colAfter c (p.dropWhile f) ≤ max := by
  induction p with
  | nil => exact hc
  | cons x p ih =>
    rw [List.dropWhile_cons]
    split
    · refine ih h.1 ?_
      rw [colAfter] at hc
      split at hc
      · rename_i hx; exact h.2 hx
      · omega
    · exact hc

/-- The invariant: the last line ends before the column that the code counts. -/
def Narrow (c : Nat) (s : St) : Prop := LinesOk 79 c s.pre ∧ colAfter c s.pre ≤ s.col ∧ s.col ≤ 79

theorem breakAt_narrow (m c : Nat) (hm : m ≤ 79) (pre suf : Text) (h : LinesOk 79 c pre) (hc : colAfter c pre ≤ 79) :
    Narrow c (breakAt m pre suf) := by
  refine ⟨LinesOk_spaces _ _ _ _ ⟨h, fun _ => hc⟩, ?_, hm⟩
  simp [breakAt, colAfter_spaces, colAfter]

theorem step_narrow (m c : Nat) (h0 : 0 < m) (hm : m ≤ 79) (s : St) (h : Narrow c s) :
    (∀ t, step m s = .inl t → Fits 79 c t) ∧ (∀ s', step m s = .inr s' → Narrow c s') := by
  obtain ⟨pre, suf, col⟩ := s
  obtain ⟨h1, h2, h3⟩ := h
  dsimp only at h1 h2 h3
  have fin : ∀ p : Text, LinesOk 79 c p → colAfter c p ≤ 79 → Fits 79 c p.reverse := by
    intro p hp hq
    have := (Fits_iff 79 c p []).mpr ⟨hp, hq⟩
    simpa using this
  unfold step
  cases suf with
  | nil =>
    refine ⟨fun t h => ?_, fun _ h => by simp at h⟩
    injection h with h
    subst h
    exact fin _ h1 (by dsimp only; omega)
  | cons x r =>
    dsimp only
    by_cases hcol : col < 79
    · rw [if_pos hcol]
      by_cases hc : x = '\n'
      · rw [if_pos hc]
        by_cases hr : r = []
        · rw [if_pos hr]
          refine ⟨fun t h => ?_, fun _ h => by simp at h⟩
          injection h with h
          subst h
          exact fin _ h1 (by omega)
        · rw [if_neg hr]
          refine ⟨fun _ h => by simp at h, fun s' h => ?_⟩
          injection h with h
          subst h
          cases m with
          | zero => omega
          | succ m =>
            have e : (List.take (m + 1) ('\n' :: (List.replicate (m + 1) ' ' ++ r))).reverse ++ pre =
                List.replicate m ' ' ++ '\n' :: pre := by
              rw [List.take_succ_cons, List.take_append_of_le_length (by simp)]
              simp
            refine ⟨?_, ?_, hm⟩
            · dsimp only
              rw [e]
              exact LinesOk_spaces _ _ _ _ ⟨h1, fun _ => by omega⟩
            · dsimp only
              rw [e, colAfter_spaces]
              simp [colAfter]
      · rw [if_neg hc]
        refine ⟨fun _ h => by simp at h, fun s' h => ?_⟩
        injection h with h
        subst h
        refine ⟨⟨h1, fun h => absurd h hc⟩, ?_, ?_⟩
        · simp only [colAfter, if_neg hc]; omega
        · dsimp only; omega
    · rw [if_neg hcol]
      by_cases hc : x = ' '
      · rw [if_pos hc]
        have a1 := LinesOk_dropWhile 79 c (· = ' ') pre h1
        have a2 := colAfter_dropWhile 79 c (· = ' ') pre h1 (by omega)
        split
        · refine ⟨fun t h => ?_, fun _ h => by simp at h⟩
          injection h with h
          subst h
          exact fin _ a1 a2
        · refine ⟨fun _ h => by simp at h, fun s' h => ?_⟩
          injection h with h
          subst h
          exact breakAt_narrow m c hm _ _ a1 a2
      · rw [if_neg hc]
        refine ⟨fun _ h => by simp at h, fun s' h => ?_⟩
        injection h with h
        subst h
        have b1 := LinesOk_dropWhile 79 c (· ≠ ' ') pre h1
        have b2 := colAfter_dropWhile 79 c (· ≠ ' ') pre h1 (by omega)
        exact breakAt_narrow m c hm _ _ (LinesOk_dropWhile 79 c (· = ' ') _ b1) (colAfter_dropWhile 79 c (· = ' ') _ b1 b2)

theorem run_narrow (m c : Nat) (h0 : 0 < m) (hm : m ≤ 79) (n : Nat) (s : St) (h : Narrow c s) (r : Text) (hr : run m n s = some r) : Fits 79 c r := by
  induction n generalizing s with
  | zero => simp [run] at hr
  | succ n ih =>
    rw [run] at hr
    cases hs : step m s with
    | inl t =>
      rw [hs] at hr
      injection hr with hr
      subst hr
      exact (step_narrow m c h0 hm s h).1 t hs
    | inr s' =>
      rw [hs] at hr
      exact ih s' ((step_narrow m c h0 hm s h).2 s' hs) hr

/-- C34: when it returns, no line is longer than 79 columns. -/
theorem C34_width (s r : Text) (col m : Nat) (hc : col ≤ 79) (h0 : 0 < m) (hm : m ≤ 79) (h : Returns s col m r) : Fits 79 col r := by
  obtain ⟨n, h⟩ := h
  exact run_narrow m col h0 hm n ⟨[], s, col⟩ ⟨trivial, Nat.le_refl _, hc⟩ r h

theorem Fits_words (max c : Nat) (s acc : Text) (h : Fits max c s) (ha : acc.length ≤ c) : ∀ w ∈ wordsFrom acc s, w.length ≤ max := by
  induction s generalizing c acc with
  | nil =>
    intro w hw
    rw [Fits] at h
    rw [wordsFrom] at hw
    split at hw
    · simp at hw
    · simp at hw; subst hw; omega
  | cons x s ih =>
    have key : ∀ c', Fits max c' s → ∀ w ∈ wordsFrom [] s, w.length ≤ max := fun c' h' => ih c' [] h' (by simp)
    rw [Fits] at h
    intro w hw
    rw [wordsFrom] at hw
    have hf : ∃ c', Fits max c' s ∧ (¬ White x → c' = c + 1) := by
      by_cases hx : x = '\n'
      · rw [if_pos hx] at h; exact ⟨0, h.2, fun hn => absurd (.inr hx) hn⟩
      · rw [if_neg hx] at h; exact ⟨c + 1, h, fun _ => rfl⟩
    have hle : ∀ c (s : Text), Fits max c s → c ≤ max := by
      intro c s
      induction s generalizing c with
      | nil => exact id
      | cons y s ih' =>
        intro h
        rw [Fits] at h
        split at h
        · exact h.1
        · have := ih' _ h; omega
    obtain ⟨c', hf, hc'⟩ := hf
    by_cases hx : White x
    · rw [if_pos hx] at hw
      split at hw
      · exact key c' hf w hw
      · rcases List.mem_cons.mp hw with hw | hw
        · subst hw
          have : c ≤ max := by
            split at h
            · exact h.1
            · have := hle _ _ h; omega
          omega
        · exact key c' hf w hw
    · rw [if_neg hx] at hw
      have := hc' hx
      subst this
      exact ih (c + 1) _ hf (by simp; omega) w hw

/-- C34 is violated: a text with a word of 80 characters or more makes the program loop for ever. -/
theorem C34_long_word_violation (s : Text) (col m : Nat) (hc : col ≤ 79) (h0 : 0 < m) (hm : m ≤ 79) (w : Text) (hw : w ∈ words s) (hl : 79 < w.length) :
    ¬ ∃ r, Returns s col m r := by
  rintro ⟨r, h⟩
  rw [← C34_words s r col m h] at hw
  have := Fits_words 79 col r [] (C34_width s r col m hc h0 hm h) (by simp) w hw
  omega

/-- Without a margin, a line break that is not at the end makes the program loop for ever. -/
theorem C34_margin_violation (a b : Text) (ha : '\n' ∉ a) (hb : b ≠ []) (col : Nat) (hc : col + a.length < 79) :
    ¬ ∃ r, Returns (a ++ '\n' :: b) col 0 r := by
  rintro ⟨r, n, h⟩
  have stuck : ∀ n pre c, c < 79 → run 0 n ⟨pre, '\n' :: b, c⟩ = none := by
    intro n
    induction n with
    | zero => intro _ _ _; rfl
    | succ n ih =>
      intro pre c hc
      rw [run, step]
      simp [hc, hb]
      exact ih _ _ (by omega)
  have : ∀ n pre c, '\n' ∉ a → c + a.length < 79 → run 0 n ⟨pre, a ++ '\n' :: b, c⟩ = none := by
    clear h hc ha n
    induction a with
    | nil => intro n pre c _ hc; exact stuck n pre c (by simpa using hc)
    | cons x a ih =>
      intro n pre c hx hc
      cases n with
      | zero => rfl
      | succ n =>
        simp only [List.mem_cons, not_or] at hx
        simp only [List.length_cons] at hc
        rw [run, step]
        simp only [List.cons_append, if_pos (show c < 79 by omega), if_neg (Ne.symm hx.1)]
        exact ih n _ _ hx.2 (by omega)
  rw [this n [] col ha hc] at h
  simp at h

/-- C34: a text that fits into the line is not changed. -/
theorem C34_fits (s : Text) (col m : Nat) (hs : '\n' ∉ s) (hc : col + s.length ≤ 79) : Returns s col m s := by
  have : ∀ (s pre : Text) (c : Nat), '\n' ∉ s → c + s.length ≤ 79 → run m (s.length + 1) ⟨pre, s, c⟩ = some (pre.reverse ++ s) := by
    intro s
    induction s with
    | nil => intro pre c _ _; simp [run, step]
    | cons x s ih =>
      intro pre c hx hc
      simp only [List.mem_cons, not_or] at hx
      simp only [List.length_cons] at hc
      rw [List.length_cons, run, step]
      simp only [if_pos (show c < 79 by omega), if_neg (Ne.symm hx.1)]
      rw [ih _ _ hx.2 (by omega)]
      simp
  exact ⟨_, this s [] col hs hc⟩

/-! ## Termination -/

/-- The end of the word before the index (in reverse), and the start of the word after it. -/
abbrev wordPre (p : Text) : Text := p.takeWhile fun c => decide (¬ White c)
abbrev wordSuf (p : Text) : Text := p.takeWhile fun c => decide (¬ White c)
abbrev afterWord (p : Text) : Text := p.dropWhile fun c => decide (¬ White c)

/-- Newlines count twice. -/
def weight : Text → Nat
  | [] => 0
  | c :: r => (if c = '\n' then 2 else 1) + weight r

theorem weight_afterWord_le (p : Text) : weight (afterWord p) ≤ weight p := by
  induction p with
  | nil => exact Nat.le_refl _
  | cons c p ih =>
    rw [afterWord, List.dropWhile_cons]
    split
    · rw [weight]; exact Nat.le_trans ih (by omega)
    · exact Nat.le_refl _

theorem wordsFrom_head (acc s : Text) (h : acc ++ wordSuf s ≠ []) : acc ++ wordSuf s ∈ wordsFrom acc s := by
  induction s generalizing acc with
  | nil => simp [wordsFrom] at *; simp [h]
  | cons c s ih =>
    rw [wordsFrom]
    by_cases hc : White c
    · simp [wordSuf, hc] at h ⊢
      simp [h]
    · have e : acc ++ wordSuf (c :: s) = (acc ++ [c]) ++ wordSuf s := by simp [wordSuf, hc]
      rw [if_neg hc, e]
      exact ih _ (by simp)

theorem wordsFrom_mem (acc p s : Text) (h : (wordPre p).reverse ++ wordSuf s ≠ []) (hp : ∃ c ∈ p, White c) :
    (wordPre p).reverse ++ wordSuf s ∈ wordsFrom acc (p.reverse ++ s) := by
  induction p generalizing s with
  | nil => simp at hp
  | cons c p ih =>
    by_cases hc : White c
    · have e : wordPre (c :: p) = [] := by simp [wordPre, hc]
      rw [e] at h ⊢
      simp only [List.reverse_nil, List.nil_append] at h ⊢
      rw [List.reverse_cons, List.append_assoc, List.singleton_append, wordsFrom_append_white _ _ _ _ hc, List.mem_append]
      exact .inr (wordsFrom_head [] s h)
    · have e : (wordPre (c :: p)).reverse ++ wordSuf s = (wordPre p).reverse ++ wordSuf (c :: s) := by
        simp [wordPre, wordSuf, hc]
      rw [e] at h ⊢
      rw [List.reverse_cons, List.append_assoc, List.singleton_append]
      obtain ⟨d, hd, hw⟩ := hp
      exact ih (c :: s) h ⟨d, (by rcases List.mem_cons.mp hd with h | h; exact absurd (h ▸ hw) hc; exact h), hw⟩

/-- The word around the index is a word of the text. -/
theorem word_mem (p s : Text) (h : (wordPre p).reverse ++ wordSuf s ≠ []) : (wordPre p).reverse ++ wordSuf s ∈ words (p.reverse ++ s) := by
  by_cases hp : ∃ c ∈ p, White c
  · exact wordsFrom_mem [] p s h hp
  · have hall : ∀ c ∈ p, ¬ White c := fun c hc hw => hp ⟨c, hc, hw⟩
    have e : wordPre p = p := by
      have : ∀ q : Text, (∀ c ∈ q, ¬ White c) → wordPre q = q := by
        intro q hq
        induction q with
        | nil => rfl
        | cons c q ih =>
          rw [wordPre, List.takeWhile_cons, if_pos (by simpa using hq c (by simp))]
          exact congrArg _ (ih fun d hd => hq d (by simp [hd]))
      exact this p hall
    rw [e] at h ⊢
    have : ∀ (q acc s : Text), (∀ c ∈ q, ¬ White c) → wordsFrom acc (q ++ s) = wordsFrom (acc ++ q) s := by
      intro q
      induction q with
      | nil => intro acc s _; simp
      | cons c q ih =>
        intro acc s hq
        rw [List.cons_append, wordsFrom, if_neg (hq c (by simp)), ih _ _ fun d hd => hq d (by simp [hd])]
        simp
    rw [words, this _ _ _ fun c hc => hall c (List.mem_reverse.mp hc), List.nil_append]
    exact wordsFrom_head _ s h

/-- The word before the index can be broken only if this is 1. -/
def flag (m : Nat) (s : St) : Nat := if s.col ≤ m + (wordPre s.pre).length then 0 else 1

/-- What holds in all states: words are short, and no line break has been left without a space after it. -/
structure Inv (m : Nat) (s : St) : Prop where
  short : ∀ w ∈ words s.text, w.length + m < 79
  line : '\n' ∉ s.pre.takeWhile (· ≠ ' ') ∨ (s.col < 79 ∧ ∃ r, s.suf = ' ' :: r)

/-- The measure. -/
def Smaller (m : Nat) (s' s : St) : Prop :=
  weight (afterWord s'.suf) < weight (afterWord s.suf) ∨ weight (afterWord s'.suf) = weight (afterWord s.suf) ∧
    (flag m s' < flag m s ∨ flag m s' = flag m s ∧ s'.suf.length < s.suf.length)

theorem takeWhile_replicate (m : Nat) (p : Text) (h : 0 < m) : (List.replicate m ' ' ++ p).takeWhile (· ≠ ' ') = [] := by
  cases m with
  | zero => omega
  | succ m => simp [List.replicate_succ]

theorem wordPre_replicate (m : Nat) (p : Text) (h : 0 < m) : wordPre (List.replicate m ' ' ++ p) = [] := by
  cases m with
  | zero => omega
  | succ m => simp [List.replicate_succ, White]

theorem wordPre_eq (p : Text) (h : '\n' ∉ p.takeWhile (· ≠ ' ')) : wordPre p = p.takeWhile (· ≠ ' ') := by
  induction p with
  | nil => rfl
  | cons c p ih =>
    by_cases hc : c = ' '
    · simp [wordPre, hc, White]
    · simp only [List.takeWhile_cons, hc, ne_eq, not_false_eq_true, decide_true, if_true, List.mem_cons, not_or] at h
      have hw : ¬ White c := by
        rintro (h' | h')
        · exact hc h'
        · exact h.1 h'.symm
      simp only [wordPre, List.takeWhile_cons, hc, hw, ne_eq, not_false_eq_true, decide_true, if_true]
      exact congrArg _ (ih h.2)

theorem afterWord_append (w s : Text) (h : ∀ c ∈ w, ¬ White c) : afterWord (w ++ s) = afterWord s := by
  induction w with
  | nil => rfl
  | cons c w ih =>
    rw [afterWord, List.cons_append, List.dropWhile_cons, if_pos (by simpa using h c (by simp))]
    exact ih fun d hd => h d (by simp [hd])

theorem weight_dropWhile_le (f : Char → Bool) (p : Text) : weight (p.dropWhile f) ≤ weight p := by
  induction p with
  | nil => exact Nat.le_refl _
  | cons c p ih =>
    rw [List.dropWhile_cons]
    split
    · rw [weight]; exact Nat.le_trans ih (by omega)
    · exact Nat.le_refl _

theorem step_smaller (m : Nat) (h0 : 0 < m) (hm : m < 79) (s : St) (h : Inv m s) :
    (∃ t, step m s = .inl t) ∨ ∃ s', step m s = .inr s' ∧ Inv m s' ∧ Smaller m s' s := by
  have hwords : ∀ s', step m s = .inr s' → ∀ w ∈ words s'.text, w.length + m < 79 := by
    intro s' e
    rw [(step_words m s).2 s' e]
    exact h.short
  suffices hh : (∃ t, step m s = .inl t) ∨ ∃ s', step m s = .inr s' ∧
      ('\n' ∉ s'.pre.takeWhile (· ≠ ' ') ∨ (s'.col < 79 ∧ ∃ r, s'.suf = ' ' :: r)) ∧ Smaller m s' s by
    rcases hh with hh | ⟨s', e, l, d⟩
    · exact .inl hh
    · exact .inr ⟨s', e, ⟨hwords s' e, l⟩, d⟩
  clear hwords
  obtain ⟨hs, hl⟩ := h
  obtain ⟨pre, suf, col⟩ := s
  cases suf with
  | nil => exact .inl ⟨_, rfl⟩
  | cons c r =>
    unfold step
    dsimp only at hl ⊢
    by_cases hcol : col < 79
    · rw [if_pos hcol]
      by_cases hc : c = '\n'
      · rw [if_pos hc]
        subst hc
        by_cases hr : r = []
        · rw [if_pos hr]; exact .inl ⟨_, rfl⟩
        · rw [if_neg hr]
          refine .inr ⟨_, rfl, ?_⟩
          obtain ⟨k, rfl⟩ : ∃ k, m = k + 1 := ⟨m - 1, by omega⟩
          have e1 : List.drop (k + 1) ('\n' :: (List.replicate (k + 1) ' ' ++ r)) = ' ' :: r := by
            rw [List.drop_succ_cons, List.replicate_succ', List.append_assoc, List.drop_append_of_le_length (by simp)]
            simp
          rw [e1]
          refine ⟨.inr ⟨hm, r, rfl⟩, .inl ?_⟩
          simp [afterWord, White, weight]
      · rw [if_neg hc]
        refine .inr ⟨_, rfl, ?_, ?_⟩
        · left
          dsimp only
          rcases hl with hl | ⟨_, r', hr⟩
          · rw [List.takeWhile_cons]
            split
            · simp only [List.mem_cons, not_or]
              exact ⟨Ne.symm hc, hl⟩
            · simp
          · injection hr with hr _
            subst hr
            simp
        · by_cases hw : White c
          · left
            have : weight (afterWord (c :: r)) = 1 + weight r := by simp [afterWord, hw, weight, hc]
            dsimp only
            have := weight_afterWord_le r
            omega
          · right
            refine ⟨by simp [afterWord, hw], .inr ⟨?_, by simp⟩⟩
            have : (wordPre (c :: pre)).length = (wordPre pre).length + 1 := by simp [wordPre, hw]
            simp only [flag, this]
            by_cases hle : col ≤ m + (wordPre pre).length
            · rw [if_pos hle, if_pos (by omega)]
            · rw [if_neg hle, if_neg (by omega)]
    · rw [if_neg hcol]
      by_cases hc : c = ' '
      · rw [if_pos hc]
        subst hc
        split
        · exact .inl ⟨_, rfl⟩
        · refine .inr ⟨_, rfl, .inl ?_, .inl ?_⟩
          · simp only [breakAt]
            rw [takeWhile_replicate _ _ h0]
            simp
          · simp only [breakAt]
            have h1 : weight (afterWord (' ' :: r)) = 1 + weight r := by simp [afterWord, White, weight]
            have h2 := weight_dropWhile_le (· = ' ') r
            have h3 := weight_afterWord_le (r.dropWhile (· = ' '))
            omega
      · rw [if_neg hc]
        have hl : '\n' ∉ pre.takeWhile (· ≠ ' ') := by
          rcases hl with hl | ⟨_, r', hr⟩
          · exact hl
          · injection hr with hr _
            exact absurd hr hc
        refine .inr ⟨_, rfl, .inl ?_, .inr ⟨?_, .inl ?_⟩⟩
        · simp only [breakAt]
          rw [takeWhile_replicate _ _ h0]
          simp
        · simp only [breakAt]
          rw [afterWord_append]
          intro d hd
          rw [List.mem_reverse, ← wordPre_eq pre hl] at hd
          have := List.all_takeWhile (p := fun x : Char => decide (¬ White x)) (l := pre)
          rw [List.all_eq_true] at this
          simpa using this d hd
        · have hk : (wordPre pre).length + m < 79 := by
            by_cases hn : (wordPre pre).reverse ++ wordSuf (c :: r) = []
            · have : wordPre pre = [] := by simpa using (List.append_eq_nil_iff.mp hn).1
              rw [this]; simpa using hm
            · have := hs _ (word_mem pre (c :: r) hn)
              simp only [List.length_append, List.length_reverse] at this
              omega
          have f1 : flag m ⟨pre, c :: r, col⟩ = 1 := if_neg (by dsimp only; omega)
          have f2 : ∀ p q : Text, flag m (breakAt m p q) = 0 := fun p q => if_pos (Nat.le_add_right _ _)
          rw [f1, f2]
          omega

theorem terminates (m : Nat) (h0 : 0 < m) (hm : m < 79) (s : St) (h : Inv m s) : ∃ n r, run m n s = some r := by
  rcases step_smaller m h0 hm s h with ⟨t, e⟩ | ⟨s', e, i, d⟩
  · exact ⟨1, t, by simp [run, e]⟩
  · obtain ⟨n, r, hr⟩ := terminates m h0 hm s' i
    exact ⟨n + 1, r, by simp [run, e, hr]⟩
termination_by (weight (afterWord s.suf), flag m s, s.suf.length)
decreasing_by
  simp only [Prod.lex_def]
  exact d

/-- C34: if every word has room in a line after the margin, wrapping ends. -/
theorem C34_terminates_partial (s : Text) (col m : Nat) (h0 : 0 < m) (hm : m < 79) (h : ∀ w ∈ words s, w.length + m < 79) : ∃ r, Returns s col m r := by
  obtain ⟨n, r, hr⟩ := terminates m h0 hm ⟨[], s, col⟩ ⟨h, .inl (by simp)⟩
  exact ⟨r, n, hr⟩

/-! ## The table of options -/

theorem alignCol_le (l : List (Text × Text)) (c : Nat) :
    c ≤ l.foldl (fun c p => if p.1.length > c then p.1.length else c) c ∧
      ∀ p ∈ l, p.1.length ≤ l.foldl (fun c p => if p.1.length > c then p.1.length else c) c := by
  induction l generalizing c with
  | nil => simp
  | cons p l ih =>
    rw [List.foldl_cons]
    obtain ⟨h1, h2⟩ := ih (if p.1.length > c then p.1.length else c)
    have h3 : c ≤ (if p.1.length > c then p.1.length else c) ∧ p.1.length ≤ (if p.1.length > c then p.1.length else c) := by
      split <;> omega
    refine ⟨Nat.le_trans h3.1 h1, ?_⟩
    intro q hq
    rcases List.mem_cons.mp hq with hq | hq
    · subst hq; exact Nat.le_trans h3.2 h1
    · exact h2 q hq

theorem Fits_line (max c : Nat) (a b : Text) (ha : '\n' ∉ a) : Fits max c (a ++ b) ↔ Fits max (c + a.length) b := by
  induction a generalizing c with
  | nil => rfl
  | cons x a ih =>
    simp only [List.mem_cons, not_or] at ha
    rw [List.cons_append, Fits, if_neg (Ne.symm ha.1), ih _ ha.2, List.length_cons]
    have : c + 1 + a.length = c + (a.length + 1) := by omega
    rw [this]

theorem Fits_newline (max c : Nat) (a b : Text) (ha : Fits max c a) (hb : Fits max 0 b) : Fits max c (a ++ '\n' :: b) := by
  induction a generalizing c with
  | nil => exact ⟨ha, hb⟩
  | cons x a ih =>
    rw [List.cons_append]
    rw [Fits] at ha ⊢
    split
    · rename_i h; rw [if_pos h] at ha; exact ⟨ha.1, ih _ ha.2⟩
    · rename_i h; rw [if_neg h] at ha; exact ih _ ha

/-- What the table must be: for every entry, in order, its name, spaces up to the common column, and its text, with the same words, wrapped. -/
inductive Table (c : Nat) : List (Text × Text) → Text → Prop
  | nil : Table c [] []
  | cons {name text wrapped l o} (gap : Nat) : 2 + name.length + gap = c → 2 ≤ gap → words wrapped = words text → Table c l o →
      Table c ((name, text) :: l) (t!"  " ++ name ++ List.replicate gap ' ' ++ wrapped ++ '\n' :: o)

/-- C34: the table of options has all names and texts in order, all texts start in the same column, and no line is longer than 79 columns. -/
theorem C34_table (l : List (Text × Text)) (o : Text) (h : Aligned l o) (hn : ∀ p ∈ l, '\n' ∉ p.1) (hw : ∀ p ∈ l, p.1.length ≤ 73) :
    (∃ c, Table c l o) ∧ Fits 79 0 o := by
  have key : ∀ k, k ≤ 73 → (∀ p ∈ l, p.1.length ≤ k) → AlignOut (k + 2) l o → Table (k + 4) l o ∧ Fits 79 0 o := by
    clear h hw
    intro k hk hl h
    generalize hw : k + 2 = w at h
    induction h with
    | nil => exact ⟨.nil, Nat.zero_le _⟩
    | @cons n t l r o hr _ ih =>
      subst hw
      obtain ⟨i1, i2⟩ := ih (fun p hp => hn p (by simp [hp])) (fun p hp => hl p (by simp [hp]))
      have hlen : n.length ≤ k := hl (n, t) (by simp)
      have e : alignEntry (k + 2) n r ++ o = t!"  " ++ n ++ List.replicate (k + 2 - n.length) ' ' ++ r ++ '\n' :: o := by
        simp [alignEntry]
      rw [e]
      refine ⟨.cons _ (by omega) (by omega) (C34_words _ _ _ _ hr) i1, ?_⟩
      have hnn : '\n' ∉ t!"  " ++ n ++ List.replicate (k + 2 - n.length) ' ' := by
        intro hm
        simp only [List.mem_append, List.mem_replicate] at hm
        rcases hm with (hm | hm) | hm
        · exact absurd hm (by decide)
        · exact hn (n, t) (by simp) hm
        · exact absurd hm.2 (by decide)
      rw [List.append_assoc _ r, Fits_line _ _ _ _ hnn]
      refine Fits_newline _ _ _ _ ?_ i2
      have e2 : 0 + (t!"  " ++ n ++ List.replicate (k + 2 - n.length) ' ').length = k + 2 + 2 := by
        have : (t!"  ").length = 2 := rfl
        simp only [List.length_append, List.length_replicate, this]
        omega
      rw [e2]
      exact C34_width _ _ _ _ (by omega) (by omega) (by omega) hr
  have hk : alignCol l ≤ 73 := by
    have : ∀ (l : List (Text × Text)) c, c ≤ 73 → (∀ p ∈ l, p.1.length ≤ 73) →
        l.foldl (fun c p => if p.1.length > c then p.1.length else c) c ≤ 73 := by
      intro l
      induction l with
      | nil => intro c hc _; exact hc
      | cons p l ih =>
        intro c hc hp
        rw [List.foldl_cons]
        refine ih _ ?_ fun q hq => hp q (by simp [hq])
        have := hp p (by simp)
        split <;> omega
    exact this l 0 (by omega) hw
  obtain ⟨a, b⟩ := key (alignCol l) hk (alignCol_le l 0).2 h
  exact ⟨⟨_, a⟩, b⟩

/-- C34: the table is written, if the names are short enough and all words have room in a line. -/
theorem C34_table_terminates_partial (l : List (Text × Text)) (k : Nat) (hk : k + 6 < 79) (hn : ∀ p ∈ l, p.1.length ≤ k)
    (hw : ∀ p ∈ l, ∀ w ∈ words p.2, w.length + k + 6 < 79) : ∃ o, Aligned l o := by
  have hc : alignCol l ≤ k := by
    have : ∀ (l : List (Text × Text)) c, c ≤ k → (∀ p ∈ l, p.1.length ≤ k) →
        l.foldl (fun c p => if p.1.length > c then p.1.length else c) c ≤ k := by
      intro l
      induction l with
      | nil => intro c hc _; exact hc
      | cons p l ih =>
        intro c hc hp
        rw [List.foldl_cons]
        refine ih _ ?_ fun q hq => hp q (by simp [hq])
        have := hp p (by simp)
        split <;> omega
    exact this l 0 (by omega) hn
  have : ∀ (l' : List (Text × Text)), (∀ p ∈ l', ∀ w ∈ words p.2, w.length + k + 6 < 79) → ∃ o, AlignOut (alignCol l + 2) l' o := by
    intro l'
    induction l' with
    | nil => intro _; exact ⟨[], .nil⟩
    | cons p l' ih =>
      intro hp
      obtain ⟨o, ho⟩ := ih fun q hq => hp q (by simp [hq])
      obtain ⟨r, hr⟩ := C34_terminates_partial p.2 (alignCol l + 2 + 2) (alignCol l + 2 + 4) (by omega) (by omega) fun w h => by
        have := hp p (by simp) w h
        omega
      exact ⟨_, .cons hr ho⟩
  exact this l hw

/-! ## Instances -/

example : words t!"aa  b\n c" = [t!"aa", t!"b", t!"c"] := by decide +kernel

/-- An entry of the help text of apertium-tagger (tagger.cc). -/
example : ∃ o, Aligned [(t!"-d, --debug", t!"with -g, print error messages about the input"),
    (t!"-r, --retrain=ITERATIONS", t!"with -t: use ITERATIONS number of times to retrain the model, which must be a positive number or zero")] o :=
  C34_table_terminates_partial _ 24 (by omega) (by decide +kernel) (by decide +kernel)

/-- The hypotheses of the violations are met. -/
example : ¬ ∃ r, Returns (List.replicate 80 'x') 4 6 r :=
  C34_long_word_violation _ 4 6 (by omega) (by omega) (by omega) (List.replicate 80 'x') (by decide +kernel) (by decide)
example : ¬ ∃ r, Returns t!"a\nb" 4 0 r :=
  C34_margin_violation t!"a" t!"b" (by decide) (by decide) 4 (by decide)

end Verif.Help
