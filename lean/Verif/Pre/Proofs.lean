import Verif.Pre.Model
import Verif.Pre.Spec
namespace Verif.Pre
open Verif.Stream

/-! ## Step equations -/

theorem readUntil_stop (stop : Char) (rest : Text) : readUntil stop (stop :: rest) = .ok ([], rest) := by
  rw [readUntil.eq_def]; simp
theorem readUntil_lit {stop c : Char} (h1 : c ≠ stop) (h2 : c ≠ '\\') (rest : Text) :
    readUntil stop (c :: rest) = (readUntil stop rest).map fun r => (c :: r.1, r.2) := by
  rw [readUntil.eq_def]; simp [h1, h2]
theorem readUntil_esc {stop : Char} (h1 : '\\' ≠ stop) (d : Char) (rest : Text) :
    readUntil stop ('\\' :: d :: rest) = (readUntil stop rest).map fun r => ('\\' :: d :: r.1, r.2) := by
  rw [readUntil.eq_def]; simp [h1]

theorem storeWblank_lit {x : Char} (h1 : x ≠ ']') (h2 : x ≠ '\\') (c o rest : Text) :
    storeWblank c o (x :: rest) = storeWblank (c ++ [x]) (o ++ [x]) rest := by
  rw [storeWblank.eq_def]; simp [h1, h2]
theorem storeWblank_esc (x : Char) (c o rest : Text) :
    storeWblank c o ('\\' :: x :: rest) = storeWblank (c ++ ['\\', x]) (o ++ ['\\', x]) rest := by
  rw [storeWblank.eq_def]; simp
theorem storeWblank_close (c o rest : Text) :
    storeWblank c o (']' :: ']' :: rest) = .ok (c ++ [']', ']'], o ++ [']', ']'], rest) := by
  rw [storeWblank.eq_def]; simp

theorem skipSurface_stop (rest : Text) : skipSurface ('/' :: rest) = .ok rest := by
  rw [skipSurface.eq_def]; simp
theorem skipSurface_lit {c : Char} (h1 : c ≠ '/') (h2 : c ≠ '\\') (rest : Text) :
    skipSurface (c :: rest) = skipSurface rest := by
  rw [skipSurface.eq_def]; simp [h1, h2]
theorem skipSurface_esc (d : Char) (rest : Text) :
    skipSurface ('\\' :: d :: rest) = skipSurface rest := by
  rw [skipSurface.eq_def]; simp

/-! ## Reading blanks -/

theorem readUntil_atoms (b : List Atom) (h : ∀ a ∈ b, a.wf ['[', ']']) (rest : Text) :
    readUntil ']' (renderAtoms b ++ ']' :: rest) = .ok (renderAtoms b, rest) := by
  induction b with
  | nil => simp [readUntil_stop]
  | cons a b ih =>
    have ha := h a (by simp)
    have ih := ih (fun x hx => h x (by simp [hx]))
    cases a with
    | lit c => simp [Atom.wf] at ha; simp [Atom.render, readUntil_lit, ih, ha]
    | esc c => simp [Atom.render, readUntil_esc, ih]

theorem storeWblank_atoms (w : List Atom) (h : ∀ a ∈ w, a.wf ['[', ']']) (rest : Text) (c o : Text) :
    storeWblank c o (renderAtoms w ++ ']' :: ']' :: rest) =
      .ok (c ++ renderAtoms w ++ [']', ']'], o ++ renderAtoms w ++ [']', ']'], rest) := by
  induction w generalizing c o with
  | nil => simp [storeWblank_close]
  | cons a w ih =>
    have ha := h a (by simp)
    have ih := ih (fun x hx => h x (by simp [hx]))
    cases a with
    | lit d => simp [Atom.wf] at ha; simp [Atom.render, storeWblank_lit, ih, ha]
    | esc d => simp [Atom.render, storeWblank_esc, ih]

theorem renderAtoms_ne_bracket (b : List Atom) (h : ∀ a ∈ b, a.wf ['[', ']']) (rest r : Text) :
    renderAtoms b ++ ']' :: rest ≠ '[' :: r := by
  cases b with
  | nil => simp
  | cons a b =>
    have ha := h a (by simp)
    cases a with
    | lit c => simp [Atom.wf] at ha; simp [Atom.render, ha]
    | esc c => simp [Atom.render]

/-! ## Words -/

theorem pwLoop_body (cs : Bool) (wb : Text) (b : Text) (h : '$' ∉ b) (s : PW) (rest : Text) :
    pwLoop cs wb s (b ++ '$' :: rest) =
      .ok ((b.foldl (pwStep cs wb) s).out ++ (b.foldl (pwStep cs wb) s).buffer, rest) := by
  induction b generalizing s with
  | nil => simp [pwLoop]
  | cons c b ih =>
    simp only [List.mem_cons, not_or] at h
    have hc : c ≠ '$' := fun e => h.1 e.symm
    simp only [List.cons_append, pwLoop, hc, if_false, List.foldl_cons]
    exact ih h.2 _

/-- What `procWord` writes for a body without `$`. -/
def wordText (cs : Bool) (wb b : Text) : Text :=
  (b.foldl (pwStep cs wb) {}).out ++ (b.foldl (pwStep cs wb) {}).buffer

theorem skipSurface_atoms (sf : List Atom) (h : ∀ a ∈ sf, a.wf ['/']) (rest : Text) :
    skipSurface (renderAtoms sf ++ '/' :: rest) = .ok rest := by
  induction sf with
  | nil => simp [skipSurface_stop]
  | cons a b ih =>
    have ha := h a (by simp)
    have ih := ih (fun x hx => h x (by simp [hx]))
    cases a with
    | lit c => simp [Atom.wf] at ha; simp [Atom.render, skipSurface_lit, ih, ha]
    | esc c => simp [Atom.render, skipSurface_esc, ih]

/-! ## The stream loop -/

theorem readUntil_length {stop : Char} {t o r : Text} (h : readUntil stop t = .ok (o, r)) :
    r.length < t.length := by
  fun_induction readUntil stop t generalizing o r with
  | case1 => simp at h
  | case2 => simp at h; simp [h.2]
  | case3 => simp at h
  | case4 d rest' hstop ih =>
    cases hh : readUntil stop rest' with
    | ok p => simp [hh] at h; have := @ih p.1 p.2 (by simp [hh]); simp; rw [← h.2]; omega
    | fail => simp [hh] at h
    | diverge => simp [hh] at h
    | ub => simp [hh] at h
  | case5 c rest hstop hesc ih =>
    cases hh : readUntil stop rest with
    | ok p => simp [hh] at h; have := @ih p.1 p.2 (by simp [hh]); simp; rw [← h.2]; omega
    | fail => simp [hh] at h
    | diverge => simp [hh] at h
    | ub => simp [hh] at h

theorem storeWblank_length {c o t c' o' r : Text} (h : storeWblank c o t = .ok (c', o', r)) :
    r.length < t.length := by
  fun_induction storeWblank c o t with
  | case1 => simp at h
  | case2 => simp at h
  | case3 c o rest' d ih => have := ih h; simp; omega
  | case4 => simp at h
  | case5 => simp at h; simp [h.2.2]; omega
  | case6 _ _ _ _ _ _ ih => have := ih h; simp; omega
  | case7 _ _ _ _ _ _ ih => have := ih h; simp; omega

theorem pwLoop_length {cs : Bool} {wb : Text} {s : PW} {t o r : Text}
    (h : pwLoop cs wb s t = .ok (o, r)) : r.length < t.length := by
  fun_induction pwLoop cs wb s t with
  | case1 => simp at h
  | case2 => simp at h; simp [h.2]
  | case3 _ _ _ _ ih => have := ih h; simp; omega

theorem skipSurface_length {t r : Text} (h : skipSurface t = .ok r) : r.length < t.length := by
  fun_induction skipSurface t with
  | case1 => simp at h
  | case2 => simp at h; simp [h]
  | case3 => simp at h
  | case4 _ _ _ ih => have := ih h; simp; omega
  | case5 _ _ _ _ ih => have := ih h; simp; omega

theorem procWord_length {sf cs : Bool} {wb : Text} {t o r : Text}
    (h : procWord sf cs wb t = .ok (o, r)) : r.length < t.length := by
  unfold procWord at h
  split at h
  · cases hh : skipSurface t with
    | ok p =>
      simp only [hh, Outcome.bind] at h
      have := pwLoop_length h; have := skipSurface_length hh; omega
    | fail => simp [hh, Outcome.bind] at h
    | diverge => simp [hh, Outcome.bind] at h
    | ub => simp [hh, Outcome.bind] at h
  · exact pwLoop_length h

theorem get_length (t : Text) : (get t).2.length ≤ t.length := by cases t <;> simp [get]

theorem streamStep_length {sf cs : Bool} {c : Char} {rest o r : Text}
    (h : streamStep sf cs c rest = .ok (o, r)) : r.length ≤ rest.length := by
  unfold streamStep at h
  split at h
  · split at h
    · rename_i rest'
      cases hh : storeWblank ['[', '['] [] rest' with
      | ok p =>
        obtain ⟨w, o', r'⟩ := p
        have h1 := storeWblank_length hh
        simp only [hh, Outcome.bind] at h
        split at h
        · rename_i r''
          cases hp : procWord sf cs w r'' with
          | ok q =>
            obtain ⟨a, b⟩ := q
            have h2 := procWord_length hp
            simp [hp] at h
            simp at h1 ⊢
            rw [← h.2]; omega
          | fail => simp [hp] at h
          | diverge => simp [hp] at h
          | ub => simp [hp] at h
        · simp at h
      | fail => simp [hh, Outcome.bind] at h
      | diverge => simp [hh, Outcome.bind] at h
      | ub => simp [hh, Outcome.bind] at h
    · cases hh : readUntil ']' rest with
      | ok p =>
        have := readUntil_length (o := p.1) (r := p.2) hh
        simp [hh] at h
        rw [← h.2]; omega
      | fail => simp [hh] at h
      | diverge => simp [hh] at h
      | ub => simp [hh] at h
  · split at h
    · simp at h
      have := get_length rest
      rw [← h.2]; omega
    · split at h
      · cases hh : procWord sf cs [] rest with
        | ok p =>
          have := procWord_length (o := p.1) (r := p.2) hh
          simp [hh] at h
          rw [← h.2]; omega
        | fail => simp [hh] at h
        | diverge => simp [hh] at h
        | ub => simp [hh] at h
      · simp at h; simp [h.2]

/-- The bound on the number of iterations does not matter. -/
theorem streamLoop_fuel (sf cs : Bool) (n : Nat) : ∀ (m : Nat) (t : Text), t.length ≤ n → t.length ≤ m →
    streamLoop sf cs n t = streamLoop sf cs m t := by
  induction n with
  | zero => intro m t h _; cases t with
    | nil => simp [streamLoop]
    | cons c t => simp at h
  | succ n ih =>
    intro m t hn hm
    cases t with
    | nil => simp [streamLoop]
    | cons c t =>
      cases m with
      | zero => simp at hm
      | succ m =>
        simp only [streamLoop]
        cases hs : streamStep sf cs c t with
        | ok p =>
          obtain ⟨o, r⟩ := p
          have := streamStep_length hs
          simp only [Outcome.bind]
          simp at hn hm
          rw [ih m r (by omega) (by omega)]
        | fail => rfl
        | diverge => rfl
        | ub => rfl

theorem processStream_step {sf cs : Bool} {c : Char} {t o r : Text} (h : streamStep sf cs c t = .ok (o, r)) :
    processStream sf cs (c :: t) = (processStream sf cs r).map (o ++ ·) := by
  have := streamStep_length h
  simp only [processStream, List.length_cons, streamLoop, h, Outcome.bind]
  rw [streamLoop_fuel sf cs t.length r.length r (by omega) (by omega)]

/-! ## Items -/

theorem processStream_txt {sf cs : Bool} {a : Atom} (h : a.wf ['[', '^', '$']) (rest : Text) :
    processStream sf cs (a.render ++ rest) = (processStream sf cs rest).map (a.render ++ ·) := by
  cases a with
  | lit c =>
    simp [Atom.wf] at h
    have : streamStep sf cs c rest = .ok ([c], rest) := by simp [streamStep, h]
    simpa [Atom.render] using processStream_step this
  | esc c =>
    have : streamStep sf cs '\\' (c :: rest) = .ok (['\\', c], rest) := by simp [streamStep, get]
    simpa [Atom.render] using processStream_step this

theorem processStream_nul {sf cs : Bool} (rest : Text) :
    processStream sf cs ('\x00' :: rest) = (processStream sf cs rest).map (['\x00'] ++ ·) := by
  have : streamStep sf cs '\x00' rest = .ok (['\x00'], rest) := by simp [streamStep]
  exact processStream_step this

theorem processStream_blank {sf cs : Bool} {b : List Atom} (h : ∀ a ∈ b, a.wf ['[', ']']) (rest : Text) :
    processStream sf cs ('[' :: renderAtoms b ++ ']' :: rest) =
      (processStream sf cs rest).map (('[' :: renderAtoms b ++ [']']) ++ ·) := by
  have : streamStep sf cs '[' (renderAtoms b ++ ']' :: rest) = .ok ('[' :: renderAtoms b ++ [']'], rest) := by
    simp only [streamStep, if_true]
    split
    · rename_i r heq; exact absurd heq (renderAtoms_ne_bracket b h rest r)
    · rw [readUntil_atoms b h rest]; simp
  exact processStream_step this

/-- The general word item: `w` is what `procWord` writes for the text `t` (which ends with the unit). -/
theorem processStream_word {sf cs : Bool} {wb : Option (List Atom)}
    (hwb : ∀ w, wb = some w → ∀ a ∈ w, a.wf ['[', ']']) (t rest w : Text)
    (h : procWord sf cs (wbText wb) t = .ok (w, rest)) :
    processStream sf cs (wbText wb ++ '^' :: t) =
      (processStream sf cs rest).map ((wbText wb ++ '^' :: w ++ ['$']) ++ ·) := by
  cases wb with
  | none =>
    have : streamStep sf cs '^' t = .ok ('^' :: w ++ ['$'], rest) := by
      simp only [wbText] at h
      simp [streamStep, h]
    simpa [wbText] using processStream_step this
  | some b =>
    have hb := hwb b rfl
    have : streamStep sf cs '[' ('[' :: renderAtoms b ++ ']' :: ']' :: '^' :: t) =
        .ok (wbText (some b) ++ '^' :: w ++ ['$'], rest) := by
      simp only [streamStep, if_true, List.cons_append]
      rw [storeWblank_atoms b hb]
      have e : ['[', '['] ++ renderAtoms b ++ [']', ']'] = wbText (some b) := by simp [wbText]
      simp only [Outcome.bind, e, h]
      simp [wbText]
    have := processStream_step this
    simpa [wbText] using this

/-! ## Multiwords -/

theorem foldl_lemma0 (cs : Bool) (wb l : Text) (h : Avoids ['<', '$'] l) (o : Text) :
    l.foldl (pwStep cs wb) { out := o } = { out := o ++ l } := by
  induction l generalizing o with
  | nil => simp
  | cons c l ih =>
    have hc := h c (by simp)
    have ih := ih (fun x hx => h x (by simp [hx]))
    simp at hc
    have : pwStep cs wb { out := o } c = { out := o ++ [c] } := by
      simp only [pwStep, pwSwitch, hc]
      by_cases h1 : c = '>'
      · simp [h1, pwEmit]
      · by_cases h2 : c = '#'
        · simp [h2, pwEmit]
        · simp [h1, h2, pwEmit]
    rw [List.foldl_cons, this, ih]
    simp

theorem foldl_tagchars (cs : Bool) (wb t : Text) (h : Avoids ['<', '>', '#', '$'] t) (s : PW)
    (hb : s.bufferMode = true) (ht : s.inTag = true) :
    t.foldl (pwStep cs wb) s = { s with buffer := s.buffer ++ t } := by
  induction t generalizing s with
  | nil => simp
  | cons c l ih =>
    have hc := h c (by simp)
    simp at hc
    have : pwStep cs wb s c = { s with buffer := s.buffer ++ [c] } := by
      simp [pwStep, pwSwitch, hc, pwEmit, hb, ht]
    rw [List.foldl_cons, this, ih (fun x hx => h x (by simp [hx])) { s with buffer := s.buffer ++ [c] } hb ht]
    simp

theorem foldl_tag (cs : Bool) (wb t : Text) (h : Avoids ['<', '>', '#', '$'] t) (s : PW) (ht : s.inTag = false) :
    ('<' :: t ++ ['>']).foldl (pwStep cs wb) s =
      { s with bufferMode := true, buffer := s.buffer ++ ('<' :: t ++ ['>']) } := by
  have h1 : pwStep cs wb s '<' = { s with bufferMode := true, inTag := true, buffer := s.buffer ++ ['<'] } := by
    simp [pwStep, pwSwitch, pwEmit]
  rw [List.cons_append, List.foldl_cons, List.foldl_append, h1, foldl_tagchars cs wb t h _ rfl rfl]
  simp [pwStep, pwSwitch, pwEmit]
  exact ht

theorem foldl_tags (cs : Bool) (wb : Text) (ts : List Text) (h : tagsOk ts) (s : PW) (ht : s.inTag = false)
    (hb : ts ≠ [] ∨ s.bufferMode = true) :
    (tagsText ts).foldl (pwStep cs wb) s =
      { s with bufferMode := true, buffer := s.buffer ++ tagsText ts } := by
  induction ts generalizing s with
  | nil =>
    simp at hb
    simp [tagsText]
    cases s; simp_all
  | cons t ts ih =>
    have e : tagsText (t :: ts) = ('<' :: t ++ ['>']) ++ tagsText ts := rfl
    rw [e, List.foldl_append, foldl_tag cs wb t (h t (by simp)) s ht]
    rw [ih (fun x hx => h x (by simp [hx])) { s with bufferMode := true, buffer := s.buffer ++ ('<' :: t ++ ['>']) } ht (Or.inr rfl)]
    simp

theorem foldl_lemma (cs : Bool) (wb l : Text) (h : Avoids ['<', '$', '+', '~', '#'] l) (s : PW)
    (hb : s.bufferMode = true) (ht : s.inTag = false) :
    l.foldl (pwStep cs wb) s = { s with buffer := s.buffer ++ l } := by
  induction l generalizing s with
  | nil => simp
  | cons c l ih =>
    have hc := h c (by simp)
    simp at hc
    have : pwStep cs wb s c = { s with buffer := s.buffer ++ [c] } := by
      by_cases h1 : c = '>'
      · subst h1; cases s; simp_all [pwStep, pwSwitch, pwEmit]
      · simp [pwStep, pwSwitch, hc, pwEmit, hb, h1]
    rw [List.foldl_cons, this, ih (fun x hx => h x (by simp [hx])) { s with buffer := s.buffer ++ [c] } hb ht]
    simp

theorem foldl_queuechars (cs : Bool) (wb q : Text) (h : Avoids ['<', '+', '$'] q) (s : PW)
    (hb : s.bufferMode = false) (ht : s.inTag = false) :
    q.foldl (pwStep cs wb) s = { s with out := s.out ++ q } := by
  induction q generalizing s with
  | nil => simp
  | cons c l ih =>
    have hc := h c (by simp)
    simp at hc
    have : pwStep cs wb s c = { s with out := s.out ++ [c] } := by
      by_cases h1 : c = '>'
      · subst h1; cases s; simp_all [pwStep, pwSwitch, pwEmit]
      · by_cases h2 : c = '#'
        · simp [pwStep, pwSwitch, hc, pwEmit, hb, h2]
        · simp [pwStep, pwSwitch, hc, pwEmit, hb, h1, h2]
    rw [List.foldl_cons, this, ih (fun x hx => h x (by simp [hx])) { s with out := s.out ++ [c] } hb ht]
    simp

/-- State after a part: no open tag, buffering unless the part had a queue. -/
def After (prev : Option Text) (s : PW) : Prop :=
  s.inTag = false ∧ (prev = none → s.bufferMode = true) ∧
    (s.bufferMode = true ∨ s.queuing = true)

theorem foldl_queue (cs : Bool) (wb : Text) (q : Option Text) (h : queueOk q) (s : PW)
    (hb : s.bufferMode = true) (ht : s.inTag = false) :
    let s' := (queueText q).foldl (pwStep cs wb) s
    s'.out = s.out ++ queueText q ∧ s'.buffer = s.buffer ∧ After q s' := by
  cases q with
  | none => simp [queueText, After, hb, ht]
  | some q =>
    have h1 : pwStep cs wb s '#' = { s with bufferMode := false, queuing := true, out := s.out ++ ['#'] } := by
      simp [pwStep, pwSwitch, pwEmit, hb]
    simp only [queueText, List.foldl_cons, h1]
    rw [foldl_queuechars cs wb q h { s with bufferMode := false, queuing := true, out := s.out ++ ['#'] } rfl ht]
    simp [After, ht]

theorem foldl_rest (cs : Bool) (wb : Text) (rest : List (Sep × Part)) : ∀ (prev : Option Text),
    restOk prev rest → ∀ s : PW, After prev s →
    let s' := (rest.flatMap fun (s, p) => s.char :: p.text).foldl (pwStep cs wb) s
    s'.out = s.out ++ (rest.flatMap fun (_, p) => queueText p.queue) ∧
    s'.buffer = s.buffer ++ rest.flatMap fun (s, p) => s.split cs wb ++ p.lemma ++ tagsText p.tags := by
  induction rest with
  | nil => intro prev _ s _; simp
  | cons sp rest ih =>
    obtain ⟨sep, p⟩ := sp
    intro prev hok s hs
    obtain ⟨hsep, hl, ht, hq, hr⟩ := hok
    obtain ⟨hin, hbuf, hor⟩ := hs
    -- after the separator
    have h1 : ∃ s1, pwStep cs wb s sep.char = s1 ∧ s1.out = s.out ∧ s1.buffer = s.buffer ++ sep.split cs wb ∧
        s1.bufferMode = true ∧ s1.inTag = false := by
      refine ⟨_, rfl, ?_⟩
      cases sep with
      | plus =>
        by_cases hb : s.bufferMode = true
        · simp [pwStep, pwSwitch, pwEmit, Sep.char, Sep.split, hb, hin]
        · have hqq : s.queuing = true := by simpa [hb] using hor
          simp [pwStep, pwSwitch, pwEmit, Sep.char, Sep.split, hb, hin, hqq]
      | tilde =>
        have hp : prev = none := by simpa using hsep
        have hb := hbuf hp
        cases cs <;> simp [pwStep, pwSwitch, pwEmit, Sep.char, Sep.split, hb, hin]
    obtain ⟨s1, e1, o1, b1, m1, t1⟩ := h1
    have h2 := foldl_lemma cs wb p.lemma hl s1 m1 t1
    have h3 := foldl_tags cs wb p.tags ht { s1 with buffer := s1.buffer ++ p.lemma } t1 (Or.inr m1)
    have h4 := foldl_queue cs wb p.queue hq
      { s1 with bufferMode := true, buffer := s1.buffer ++ p.lemma ++ tagsText p.tags } rfl t1
    simp only [List.flatMap_cons, List.cons_append, List.foldl_cons, e1, Part.text, List.foldl_append, h2, h3] at *
    obtain ⟨o4, b4, a4⟩ := h4
    have h5 := ih p.queue hr _ a4
    refine ⟨?_, ?_⟩
    · rw [h5.1, o4, o1]; simp
    · rw [h5.2, b4, b1]; simp

theorem wordText_multi (cs : Bool) (wb : Text) (m : Multi) (h : m.ok) :
    wordText cs wb m.text = m.splitText cs wb := by
  obtain ⟨hl, hne, ht, hq, hr⟩ := h
  have h1 := foldl_lemma0 cs wb m.first.lemma hl []
  have h2 := foldl_tags cs wb m.first.tags ht { out := m.first.lemma } rfl (Or.inl hne)
  have h3 := foldl_queue cs wb m.first.queue hq
    { out := m.first.lemma, bufferMode := true, buffer := tagsText m.first.tags } rfl rfl
  rw [List.nil_append] at h1
  simp only [List.nil_append] at h2
  obtain ⟨o3, b3, a3⟩ := h3
  have h4 := foldl_rest cs wb m.rest m.first.queue hr _ a3
  have e : m.text = m.first.lemma ++ tagsText m.first.tags ++ queueText m.first.queue ++
      m.rest.flatMap fun (s, p) => s.char :: p.text := rfl
  obtain ⟨o4, b4⟩ := h4
  rw [o3] at o4
  rw [b3] at b4
  have h2' : List.foldl (pwStep cs wb) { out := m.first.lemma } (tagsText m.first.tags) =
    { bufferMode := true, buffer := tagsText m.first.tags, out := m.first.lemma } := h2
  unfold wordText
  rw [e, List.foldl_append, List.foldl_append, List.foldl_append, h1, h2', o4, b4]
  simp [Multi.splitText, Multi.queues]

theorem tagsText_no_dollar (ts : List Text) (h : tagsOk ts) : '$' ∉ tagsText ts := by
  intro hm
  simp only [tagsText, List.mem_flatMap] at hm
  obtain ⟨t, ht, hc⟩ := hm
  have := h t ht '$'
  simp at hc this
  exact this hc

theorem queueText_no_dollar (q : Option Text) (h : queueOk q) : '$' ∉ queueText q := by
  cases q with
  | none => simp [queueText]
  | some q =>
    intro hm
    simp [queueText] at hm
    have := h '$' hm
    simp at this

theorem avoids_no_dollar {l : List Char} {t : Text} (h : Avoids l t) (hl : '$' ∈ l) : '$' ∉ t :=
  fun hm => h '$' hm hl

theorem rest_no_dollar (rest : List (Sep × Part)) : ∀ prev, restOk prev rest →
    '$' ∉ (rest.flatMap fun (s, p) => s.char :: p.text) := by
  induction rest with
  | nil => simp
  | cons sp rest ih =>
    obtain ⟨sep, p⟩ := sp
    intro prev ⟨_, hl, ht, hq, hr⟩
    have := ih _ hr
    have h1 := tagsText_no_dollar _ ht
    have h2 := queueText_no_dollar _ hq
    have h3 := avoids_no_dollar hl (by simp)
    have h4 : '$' ≠ sep.char := by cases sep <;> simp [Sep.char]
    simp only [List.flatMap_cons, List.mem_append, List.mem_cons, Part.text, not_or]
    exact ⟨⟨h4, ⟨h3, h1⟩, h2⟩, this⟩

theorem multi_no_dollar (m : Multi) (h : m.ok) : '$' ∉ m.text := by
  obtain ⟨hl, hne, ht, hq, hr⟩ := h
  have := rest_no_dollar _ _ hr
  have h1 := tagsText_no_dollar _ ht
  have h2 := queueText_no_dollar _ hq
  have h3 := avoids_no_dollar hl (by simp)
  simp only [Multi.text, Part.text, List.mem_append, not_or]
  exact ⟨⟨⟨h3, h1⟩, h2⟩, this⟩

/-! ## Whole streams -/

theorem processStream_items {β : Type} (sf cs : Bool) (ok : β → Prop) (src : β → Text)
    (f : Text → β → Text)
    (hw : ∀ wb b rest, ok b → procWord sf cs wb (src b ++ '$' :: rest) = .ok (f wb b, rest))
    (is : List (PItem β)) (h : ∀ i ∈ is, i.wf ok) (rest : Text) :
    processStream sf cs (renderP (fun _ => src) is ++ rest) =
      (processStream sf cs rest).map (renderP (fun wb => f (wbText wb)) is ++ ·) := by
  induction is with
  | nil =>
    simp only [renderP, List.flatMap_nil, List.nil_append]
    cases processStream sf cs rest <;> rfl
  | cons i is ih =>
    have ih := ih (fun x hx => h x (by simp [hx]))
    have hi := h i (by simp)
    have key : processStream sf cs (i.render (fun _ => src) ++ (renderP (fun _ => src) is ++ rest)) =
        (processStream sf cs (renderP (fun _ => src) is ++ rest)).map
          (i.render (fun wb => f (wbText wb)) ++ ·) := by
      cases i with
      | txt a => exact processStream_txt hi _
      | blank b => simpa [PItem.render] using processStream_blank (sf := sf) (cs := cs) hi _
      | word wb b =>
        have := processStream_word (sf := sf) (cs := cs) hi.1 _ _ _ (hw (wbText wb) b (renderP (fun _ => src) is ++ rest) hi.2)
        simpa [PItem.render] using this
      | nul => simpa [PItem.render] using processStream_nul (sf := sf) (cs := cs) _
    have e : ∀ g : Option (List Atom) → β → Text, renderP g (i :: is) = i.render g ++ renderP g is := fun g => rfl
    rw [e, List.append_assoc, key, ih, Outcome.map_map]
    congr 1
    funext x
    simp [e]

theorem processStream_nil (sf cs : Bool) : processStream sf cs [] = .ok [] := rfl

end Verif.Pre
