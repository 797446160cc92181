import Verif.Token.Spec
/-!
# Tokens (C43), identity without rules (C45), null flush (C46)
-/
namespace Verif.Token
open Verif.Stream
open Verif.Transfer

/-! ## interchunk and postchunk -/

theorem supBody_atoms (b : List Atom) (h : ∀ a ∈ b, a.wf [']']) (r : Text) :
    supBody (renderAtoms b ++ ']' :: r) = .ok (renderAtoms b ++ [']'], r) := by
  induction b with
  | nil => rw [renderAtoms_nil, List.nil_append, supBody.eq_def]; simp
  | cons a as ih =>
    have ha := h a (by simp)
    have ih := ih (fun x hx => h x (by simp [hx]))
    cases a with
    | esc c => rw [supBody.eq_def]; simp [Atom.render, ih]
    | lit c =>
      obtain ⟨h1, _, h3⟩ := ha
      simp only [List.mem_cons, List.not_mem_nil, or_false] at h3
      rw [supBody.eq_def]; simp [Atom.render, ih, h1, h3]

theorem braceBody_atoms (b : List Atom) (h : ∀ a ∈ b, a.wf []) (hi : ∀ i, ¬ (b[i]? = some (.lit '}') ∧ b[i + 1]? = some (.lit '$')))
    (r : Text) : braceBody (renderAtoms b ++ '}' :: '$' :: r) = .ok (renderAtoms b ++ ['}'], '$' :: r) := by
  induction b with
  | nil => rw [renderAtoms_nil, List.nil_append, braceBody.eq_def]; simp
  | cons a as ih =>
    have ha := h a (by simp)
    have ih := ih (fun x hx => h x (by simp [hx])) (fun i => by simpa using hi (i + 1))
    cases a with
    | esc c => rw [braceBody.eq_def]; simp [Atom.render, ih]
    | lit c =>
      obtain ⟨h1, _, _⟩ := ha
      by_cases hc : c = '}'
      · subst hc
        have h4 : (renderAtoms as ++ '}' :: '$' :: r).head? ≠ some '$' := by
          cases as with
          | nil => simp
          | cons x as =>
            cases x with
            | esc d => simp [Atom.render]
            | lit d =>
              have := hi 0
              simp at this
              simpa [Atom.render] using this
        rw [braceBody.eq_def]
        simp only [renderAtoms_cons, Atom.render, List.cons_append, List.nil_append, Char.reduceEq, if_false, if_true, h4, ih]
        simp
      · rw [braceBody.eq_def]; simp [Atom.render, ih, h1, hc]

/-- What the tokenizer gives for `t`, with enough fuel. -/
def Ic (flush inword : Bool) (content t : Text) (res : Read × Bool) : Prop :=
  ∀ n, t.length < n → icTokens flush n inword content t = .ok res

section ic
variable {flush inword : Bool} {content r : Text} {res : Read × Bool}

theorem Ic.esc {c : Char} (h : Ic flush inword (content ++ ['\\', c]) r res) :
    Ic flush inword content ('\\' :: c :: r) res := by
  intro n hn
  cases n with
  | zero => simp at hn
  | succ n =>
    simp only [icTokens, Char.reduceEq, and_false, if_false, if_true]
    exact h n (by simp at hn; omega)

theorem Ic.lit {c : Char} (h0 : c ∉ ['\\', '\x00', '[', '^']) (h1 : inword = true → c ∉ ['{', '$'])
    (h : Ic flush inword (content ++ [c]) r res) : Ic flush inword content (c :: r) res := by
  simp only [List.mem_cons, List.not_mem_nil, or_false, not_or] at h0 h1
  intro n hn
  cases n with
  | zero => simp at hn
  | succ n =>
    rw [icTokens.eq_def]
    have h2 : ¬ (inword = true ∧ c = '{') := fun h => (h1 h.1).1 h.2
    have h3 : ¬ (inword = true ∧ c = '$') := fun h => (h1 h.1).2 h.2
    simp only [h0, h2, h3, and_false, if_false]
    exact h n (by simp at hn; omega)

theorem Ic.sup {b : List Atom} (hb : ∀ a ∈ b, a.wf [']']) (h : Ic flush inword (content ++ '[' :: renderAtoms b ++ [']']) r res) :
    Ic flush inword content ('[' :: (renderAtoms b ++ ']' :: r)) res := by
  intro n hn
  cases n with
  | zero => simp at hn
  | succ n =>
    rw [icTokens.eq_def]
    simp only [Char.reduceEq, and_false, if_false, if_true, supBody_atoms b hb, Outcome.bind]
    simp only [List.length_cons, List.length_append] at hn
    have := h n (by omega)
    simpa using this

theorem Ic.brace {b : List Atom} (hb : ∀ a ∈ b, a.wf []) (hi : ∀ i, ¬ (b[i]? = some (.lit '}') ∧ b[i + 1]? = some (.lit '$')))
    (h : Ic flush true (content ++ '{' :: renderAtoms b ++ ['}']) ('$' :: r) res) :
    Ic flush true content ('{' :: (renderAtoms b ++ '}' :: '$' :: r)) res := by
  intro n hn
  cases n with
  | zero => simp at hn
  | succ n =>
    rw [icTokens.eq_def]
    simp only [Char.reduceEq, and_false, if_false, if_true, and_self, braceBody_atoms b hb hi, Outcome.bind]
    simp only [List.length_cons, List.length_append] at hn
    have := h n (by simp; omega)
    simpa using this

theorem Ic.close {rd : Read} {w : Bool} (h : Ic flush false [] r (rd, w)) :
    Ic flush true content ('$' :: r) (rd.cons (.word content), w) := by
  intro n hn
  cases n with
  | zero => simp at hn
  | succ n =>
    rw [icTokens.eq_def]
    simp only [Char.reduceEq, and_false, if_false, if_true, and_self]
    rw [h n (by simp at hn; omega)]
    rfl

theorem Ic.open {rd : Read} {w : Bool} (h : Ic flush true [] r (rd, w)) :
    Ic flush inword content ('^' :: r) (rd.cons (.blank content), w) := by
  intro n hn
  cases n with
  | zero => simp at hn
  | succ n =>
    rw [icTokens.eq_def]
    simp only [Char.reduceEq, and_false, if_false, if_true]
    rw [h n (by simp at hn; omega)]
    rfl

theorem Ic.parts {ps : List Part} (hp : ∀ p ∈ ps, p.wf) (h : Ic flush false (content ++ renderParts ps) r res) :
    Ic flush false content (renderParts ps ++ r) res := by
  induction ps generalizing content with
  | nil => simpa [renderParts] using h
  | cons p ps ih =>
    have hp1 := hp p (by simp)
    have ih := fun content h => @ih content (fun x hx => hp x (by simp [hx])) h
    rw [show renderParts (p :: ps) = p.render ++ renderParts ps from rfl] at h ⊢
    cases p with
    | ch a =>
      cases a with
      | esc c => exact Ic.esc (ih _ (by simpa [Part.render, Atom.render] using h))
      | lit c =>
        obtain ⟨h1, h2, h3⟩ := hp1
        simp only [List.mem_cons, List.not_mem_nil, or_false, not_or] at h3
        refine Ic.lit (by simp [h1, h2, h3]) (by simp) (ih _ (by simpa [Part.render, Atom.render] using h))
    | sup b =>
      have := Ic.sup (content := content) (r := renderParts ps ++ r) hp1 (ih _ (by simpa [Part.render] using h))
      simpa [Part.render] using this

theorem Ic.head {as : List Atom} (ha : ∀ a ∈ as, a.wf ['[', '^', '{', '$']) (h : Ic flush true (content ++ renderAtoms as) r res) :
    Ic flush true content (renderAtoms as ++ r) res := by
  induction as generalizing content with
  | nil => simpa using h
  | cons a as ih =>
    have ha1 := ha a (by simp)
    have ih := fun content h => @ih content (fun x hx => ha x (by simp [hx])) h
    cases a with
    | esc c => exact Ic.esc (ih _ (by simpa [Atom.render] using h))
    | lit c =>
      obtain ⟨h1, h2, h3⟩ := ha1
      simp only [List.mem_cons, List.not_mem_nil, or_false, not_or] at h3
      exact Ic.lit (by simp [h1, h2, h3]) (by simp [h3]) (ih _ (by simpa [Atom.render] using h))

theorem Ic.word {w : IcWord} (hw : w.wf) {rd : Read} {i : Bool} (h : Ic flush false [] r (rd, i)) :
    Ic flush true [] (w.text ++ '$' :: r) (rd.cons (.word w.text), i) := by
  unfold IcWord.text
  rw [List.append_assoc]
  apply Ic.head hw.1
  cases hc : w.content with
  | none => simpa using Ic.close h
  | some b =>
    obtain ⟨h1, h2⟩ := hw.2 b hc
    have := Ic.brace (content := renderAtoms w.head) (flush := flush) (r := r) h1 h2 (Ic.close h)
    simpa using this

/-- The text ends here: with the input, or with a NUL in null flush mode. -/
inductive AtEnd (flush : Bool) : Text → Text → Bool → Prop
  | eof : AtEnd flush [] [] false
  | nul (h : flush = true) (r : Text) : AtEnd flush ('\x00' :: r) r true

theorem Ic.end {t : Text} {more : Bool} (h : AtEnd flush t r more) :
    Ic flush inword content t ({ toks := [.eof content], rest := r, more := more }, inword) := by
  intro n hn
  cases h with
  | eof => cases n with
    | zero => simp at hn
    | succ n => rfl
  | nul hf => cases n with
    | zero => simp at hn
    | succ n => simp [icTokens, hf]

theorem Ic.words {ws : List (IcWord × List Part)} (hw : ∀ w ∈ ws, w.1.wf ∧ ∀ p ∈ w.2, p.wf) {t : Text} {more : Bool}
    (h : AtEnd flush t r more) (lead : List Part) (hl : ∀ p ∈ lead, p.wf) :
    Ic flush false [] (renderParts lead ++ (ws.flatMap (fun w => '^' :: w.1.text ++ '$' :: renderParts w.2) ++ t))
      ({ toks := tokensOf (renderParts lead) (ws.map fun w => (w.1.text, renderParts w.2)), rest := r, more := more }, false) := by
  induction ws generalizing lead with
  | nil => exact Ic.parts hl (Ic.end h)
  | cons w ws ih =>
    have hw1 := hw w (by simp)
    have ih := ih (fun x hx => hw x (by simp [hx])) w.2 hw1.2
    apply Ic.parts hl
    have := Ic.open (content := renderParts lead) (inword := false) (Ic.word hw1.1 ih)
    simpa [tokensOf, Read.cons] using this

end ic

/-- **C43** (interchunk and postchunk).  A well-formed stream, to the end of the input or to a NUL in null flush mode, is read as
the words and the texts between them: nothing is lost, added or moved, and what follows the NUL is left for the next round. -/
theorem C43_chunk_tokens (flush : Bool) (s : IcStream) (h : s.wf) (t r : Text) (more : Bool) (he : AtEnd flush t r more) :
    icRead flush false (s.render ++ t) =
      .ok ({ toks := tokensOf (renderParts s.lead) s.units, rest := r, more := more }, false) := by
  have := Ic.words h.words he s.lead h.lead _ (Nat.lt_succ_self _)
  unfold icRead
  simpa [IcStream.render, IcStream.units] using this

/-- `a [x^]^Nom<SN>{^b<n>$ }$ ^c$\^` -/
def exIc : IcStream where
  lead := [.ch (.lit 'a'), .ch (.lit ' '), .sup [.lit 'x', .lit '^']]
  words := [({ head := "Nom<SN>".toList.map .lit, content := some ("^b<n>$ ".toList.map .lit) }, [.ch (.lit ' ')]),
    ({ head := [.lit 'c'], content := none }, [.ch (.esc '^')])]

theorem exIc_wf : exIc.wf where
  lead := by
    intro p hp
    simp only [exIc, List.mem_cons, List.not_mem_nil, or_false] at hp
    rcases hp with rfl | rfl | rfl
    · decide
    · decide
    · show ∀ a ∈ [Atom.lit 'x', Atom.lit '^'], Atom.wf _ _; decide
  words := by
    intro w hw
    simp only [exIc, List.mem_cons, List.not_mem_nil, or_false] at hw
    rcases hw with rfl | rfl
    · refine ⟨⟨by decide +kernel, ?_⟩, ?_⟩
      · intro b hb
        simp only [Option.some.injEq] at hb
        subst hb
        refine ⟨by decide +kernel, ?_⟩
        rintro i ⟨h1, _⟩
        have : (Atom.lit '}') ∈ "^b<n>$ ".toList.map Atom.lit := List.mem_of_getElem? h1
        exact absurd this (by decide +kernel)
      · intro p hp; simp only [List.mem_cons, List.not_mem_nil, or_false] at hp; subst hp; decide
    · refine ⟨⟨by decide +kernel, by simp⟩, ?_⟩
      intro p hp; simp only [List.mem_cons, List.not_mem_nil, or_false] at hp; subst hp; decide

example : exIc.render = "a [x^]^Nom<SN>{^b<n>$ }$ ^c$\\^".toList := by decide +kernel
example : icRead true false (exIc.render ++ '\x00' :: "next".toList) = .ok (⟨[.blank "a [x^]".toList, .word "Nom<SN>{^b<n>$ }".toList,
    .blank " ".toList, .word "c".toList, .eof "\\^".toList], "next".toList, true⟩, false) := by
  rw [C43_chunk_tokens true exIc exIc_wf _ _ _ (.nul rfl "next".toList)]
  decide +kernel

/-- **C43: not for every input.** A superblank, or the content of a chunk, that is not closed makes the program run until memory is
used up, in null flush mode too. -/
theorem C43_unclosed_superblank_violation (flush inword : Bool) (t : Text) (h : ∀ c ∈ t, c ≠ '\\' ∧ c ≠ ']') :
    icRead flush inword ('[' :: t) = .diverge := by
  have hs : supBody t = .diverge := by
    induction t with
    | nil => rfl
    | cons c t ih =>
      rw [supBody.eq_def]
      simp [(h c (by simp)).1, (h c (by simp)).2, ih (fun x hx => h x (by simp [hx]))]
  simp [icRead, icTokens, hs, Outcome.bind]

theorem C43_unclosed_chunk_violation (flush inword : Bool) (t : Text) (h : ∀ c ∈ t, c ≠ '\\' ∧ c ≠ '}') :
    icRead flush inword ('^' :: '{' :: t) = .diverge := by
  have hs : braceBody t = .diverge := by
    induction t with
    | nil => rfl
    | cons c t ih =>
      rw [braceBody.eq_def]
      simp [(h c (by simp)).1, (h c (by simp)).2, ih (fun x hx => h x (by simp [hx]))]
  simp [icRead, icTokens, hs, Outcome.bind]

/-! ## transfer -/

theorem trSup_atoms (b : List Atom) (h : ∀ a ∈ b, a.wf ['[', ']']) (r : Text) :
    trSup (renderAtoms b ++ ']' :: r) = (renderAtoms b ++ [']'], false, r) := by
  induction b with
  | nil => rw [renderAtoms_nil, List.nil_append, trSup.eq_def]; simp
  | cons a as ih =>
    have ha := h a (by simp)
    have ih := ih (fun x hx => h x (by simp [hx]))
    cases a with
    | esc c => rw [trSup.eq_def]; simp [Atom.render, ih]
    | lit c =>
      obtain ⟨h1, h2, h3⟩ := ha
      simp only [List.mem_cons, List.not_mem_nil, or_false, not_or] at h3
      rw [trSup.eq_def]; simp [Atom.render, ih, h1, h2, h3]

theorem trWb_atoms (b : List Atom) (h : ∀ a ∈ b, a.wf ['$']) (r : Text) :
    trWb (renderAtoms b ++ r) = (trWb r).map fun (o, t) => (renderAtoms b ++ o, t) := by
  induction b with
  | nil => rw [renderAtoms_nil, List.nil_append]; cases trWb r <;> rfl
  | cons a as ih =>
    have ha := h a (by simp)
    have ih := ih (fun x hx => h x (by simp [hx]))
    cases a with
    | esc c =>
      rw [trWb.eq_def]
      simp only [renderAtoms_cons, Atom.render, List.cons_append, List.nil_append, if_true, ih, Outcome.map_map]
      rfl
    | lit c =>
      obtain ⟨h1, h2, h3⟩ := ha
      simp only [List.mem_cons, List.not_mem_nil, or_false] at h3
      rw [trWb.eq_def]
      simp only [renderAtoms_cons, Atom.render, List.cons_append, List.nil_append, h1, h3, if_false, ih, Outcome.map_map]
      rfl

/-- What the tokenizer gives for `t`, with enough fuel. -/
def Tr (flush wb : Bool) (content t : Text) (res : Read) : Prop :=
  ∀ n, t.length < n → trTokens flush n wb content t = .ok res

section tr
variable {flush : Bool} {content r : Text} {res : Read}

theorem Tr.esc {c : Char} (h : Tr flush false (content ++ ['\\', c]) r res) : Tr flush false content ('\\' :: c :: r) res := by
  intro n hn
  cases n with
  | zero => simp at hn
  | succ n =>
    simp only [trTokens, Char.reduceEq, and_false, if_false, if_true, Bool.false_eq_true]
    exact h n (by simp at hn; omega)

theorem Tr.lit {c : Char} (h0 : c ∉ ['\\', '\x00', '[', '^', '$']) (h : Tr flush false (content ++ [c]) r res) :
    Tr flush false content (c :: r) res := by
  simp only [List.mem_cons, List.not_mem_nil, or_false, not_or] at h0
  intro n hn
  cases n with
  | zero => simp at hn
  | succ n =>
    rw [trTokens.eq_def]
    simp only [h0, and_false, if_false, Bool.false_eq_true]
    exact h n (by simp at hn; omega)

theorem Tr.sup {b : List Atom} (hb : ∀ a ∈ b, a.wf ['[', ']']) (h : Tr flush false (content ++ '[' :: renderAtoms b ++ [']']) r res) :
    Tr flush false content ('[' :: (renderAtoms b ++ ']' :: r)) res := by
  intro n hn
  cases n with
  | zero => simp at hn
  | succ n =>
    rw [trTokens.eq_def]
    simp only [Char.reduceEq, and_false, if_false, if_true, trSup_atoms b hb, Bool.false_eq_true]
    simp only [List.length_cons, List.length_append] at hn
    have := h n (by omega)
    simpa using this

theorem Tr.close (h : Tr flush false [] r res) : Tr flush false content ('$' :: r) (res.cons (.word content)) := by
  intro n hn
  cases n with
  | zero => simp at hn
  | succ n =>
    rw [trTokens.eq_def]
    simp only [Char.reduceEq, and_false, if_false, if_true, Bool.false_eq_true]
    rw [h n (by simp at hn; omega)]
    rfl

theorem Tr.open (h : Tr flush false [] r res) : Tr flush false content ('^' :: r) (res.cons (.blank content)) := by
  intro n hn
  cases n with
  | zero => simp at hn
  | succ n =>
    rw [trTokens.eq_def]
    simp only [Char.reduceEq, and_false, if_false, if_true, Bool.false_eq_true]
    rw [h n (by simp at hn; omega)]
    rfl

theorem Tr.wopen (h : Tr flush true [] r res) : Tr flush false content ('[' :: '[' :: r) (res.cons (.blank content)) := by
  intro n hn
  cases n with
  | zero => simp at hn
  | succ n =>
    have e : trSup ('[' :: r) = ([], true, r) := by rw [trSup.eq_def]; simp
    rw [trTokens.eq_def]
    simp only [Char.reduceEq, and_false, if_false, if_true, Bool.false_eq_true, e, List.dropLast_concat]
    rw [h n (by simp at hn; omega)]
    rfl

theorem Tr.wb {b as : List Atom} (hb : ∀ a ∈ b, a.wf ['$']) (hb1 : ∀ c, b.head? ≠ some (.esc c)) (ha : ∀ a ∈ as, a.wf ['$'])
    (h : Tr flush false [] r res) :
    Tr flush true [] (renderAtoms b ++ ']' :: ']' :: '^' :: renderAtoms as ++ '$' :: r)
      (res.cons (.word ('[' :: '[' :: renderAtoms b ++ ']' :: ']' :: '^' :: renderAtoms as))) := by
  intro n hn
  cases n with
  | zero => simp at hn
  | succ n =>
    have e0 : ∀ t, trWb ('$' :: t) = .ok ([], t) := by intro t; rw [trWb.eq_def]; simp
    have e1 : trWb (']' :: '^' :: (renderAtoms as ++ '$' :: r)) = .ok (']' :: '^' :: renderAtoms as, r) := by
      rw [trWb.eq_def]; simp only [Char.reduceEq, if_false]
      rw [trWb.eq_def]; simp only [Char.reduceEq, if_false]
      rw [trWb_atoms as ha, e0]; simp
    cases b with
    | nil =>
      simp only [renderAtoms_nil, List.nil_append, List.cons_append, List.length_cons, List.length_append] at hn ⊢
      simp only [trTokens, Char.reduceEq, and_false, if_false, if_true, e1, Outcome.bind]
      rw [h n (by omega)]
      simp
    | cons a b =>
      cases a with
      | esc c => exact absurd rfl (hb1 c)
      | lit c =>
        obtain ⟨h1, h2, h3⟩ := hb _ (List.mem_cons_self ..)
        have e2 : trWb (renderAtoms b ++ ']' :: ']' :: '^' :: (renderAtoms as ++ '$' :: r)) =
            .ok (renderAtoms b ++ ']' :: ']' :: '^' :: renderAtoms as, r) := by
          rw [trWb_atoms b (fun x hx => hb x (by simp [hx]))]
          rw [trWb.eq_def]; simp only [Char.reduceEq, if_false]
          rw [e1]; simp
        simp only [renderAtoms_cons, Atom.render, List.nil_append, List.cons_append, List.length_cons, List.length_append, List.append_assoc] at hn ⊢
        rw [trTokens.eq_def]
        simp only [h2, and_false, if_false, if_true, e2, Outcome.bind]
        rw [h n (by omega)]
        simp

theorem Tr.parts {ps : List Part} (hp : ∀ p ∈ ps, p.trWf) (h : Tr flush false (content ++ renderParts ps) r res) :
    Tr flush false content (renderParts ps ++ r) res := by
  induction ps generalizing content with
  | nil => simpa [renderParts] using h
  | cons p ps ih =>
    have hp1 := hp p (by simp)
    have ih := fun content h => @ih content (fun x hx => hp x (by simp [hx])) h
    rw [show renderParts (p :: ps) = p.render ++ renderParts ps from rfl] at h ⊢
    cases p with
    | ch a =>
      cases a with
      | esc c => exact Tr.esc (ih _ (by simpa [Part.render, Atom.render] using h))
      | lit c =>
        obtain ⟨h1, h2, h3⟩ := hp1
        simp only [List.mem_cons, List.not_mem_nil, or_false, not_or] at h3
        refine Tr.lit (by simp [h1, h2, h3]) (ih _ (by simpa [Part.render, Atom.render] using h))
    | sup b =>
      have := Tr.sup (content := content) (r := renderParts ps ++ r) hp1 (ih _ (by simpa [Part.render] using h))
      simpa [Part.render] using this

theorem Tr.head {as : List Atom} (ha : ∀ a ∈ as, a.wf ['[', '^', '$']) (h : Tr flush false (content ++ renderAtoms as) r res) :
    Tr flush false content (renderAtoms as ++ r) res := by
  have := Tr.parts (ps := as.map .ch) (content := content) (r := r) (res := res) (flush := flush)
    (by intro p hp; obtain ⟨a, h1, rfl⟩ := List.mem_map.1 hp; exact ha a h1)
  have e : renderParts (as.map .ch) = renderAtoms as := by simp [renderParts, renderAtoms, List.flatMap_map, Part.render]
  rw [e] at this
  exact this h

theorem Tr.word {w : TrWord} (hw : w.wf) (hb : ∀ b, w.wb = some b → ∀ c, b.head? ≠ some (.esc c)) (h : Tr flush false [] r res) :
    Tr flush false content (w.render ++ r) ((res.cons (.word w.token)).cons (.blank content)) := by
  unfold TrWord.wf at hw
  unfold TrWord.render TrWord.token
  cases hwb : w.wb with
  | none =>
    rw [hwb] at hw
    have := Tr.open (content := content) (Tr.head (content := []) hw (Tr.close h))
    simpa using this
  | some b =>
    rw [hwb] at hw
    have := Tr.wopen (content := content) (Tr.wb hw.1 (hb b hwb) hw.2 h)
    simpa using this

theorem Tr.end {t : Text} {more : Bool} (h : AtEnd flush t r more) :
    Tr flush false content t { toks := [.eof content], rest := r, more := more } := by
  intro n hn
  cases h with
  | eof => cases n with
    | zero => simp at hn
    | succ n => rfl
  | nul hf => cases n with
    | zero => simp at hn
    | succ n => simp [trTokens, hf]

theorem Tr.words {ws : List (TrWord × List Part)} (hw : ∀ w ∈ ws, w.1.wf ∧ ∀ p ∈ w.2, p.trWf)
    (hb : ∀ w ∈ ws, ∀ b, w.1.wb = some b → ∀ c, b.head? ≠ some (.esc c)) {t : Text} {more : Bool}
    (h : AtEnd flush t r more) (lead : List Part) (hl : ∀ p ∈ lead, p.trWf) :
    Tr flush false [] (renderParts lead ++ (ws.flatMap (fun w => w.1.render ++ renderParts w.2) ++ t))
      { toks := tokensOf (renderParts lead) (ws.map fun w => (w.1.token, renderParts w.2)), rest := r, more := more } := by
  induction ws generalizing lead with
  | nil => exact Tr.parts hl (Tr.end h)
  | cons w ws ih =>
    have hw1 := hw w (by simp)
    have ih := ih (fun x hx => hw x (by simp [hx])) (fun x hx => hb x (by simp [hx])) w.2 hw1.2
    apply Tr.parts hl
    have := Tr.word (content := renderParts lead) hw1.1 (hb w (by simp)) ih
    simpa [tokensOf, Read.cons] using this

end tr

/-- **C43** (transfer).  A well-formed stream in which no word-bound blank begins with an escaped character is read as the lexical units
(with the word-bound blanks) and the texts between them. -/
theorem C43_transfer_tokens_partial (flush : Bool) (s : TrStream) (h : s.wf) (hb : s.PlainStart) (t r : Text) (more : Bool)
    (he : AtEnd flush t r more) :
    trRead flush (s.render ++ t) = .ok { toks := tokensOf (renderParts s.lead) s.units, rest := r, more := more } := by
  have := Tr.words h.words hb he s.lead h.lead _ (Nat.lt_succ_self _)
  unfold trRead
  simpa [TrStream.render, TrStream.units] using this

/-- `[x] [[t:b]]^a<n>/b<n>$ ^c$.` -/
def exTr : TrStream where
  lead := [.sup [.lit 'x'], .ch (.lit ' ')]
  words := [({ wb := some ("t:b".toList.map .lit), text := "a<n>/b<n>".toList.map .lit }, [.ch (.lit ' ')]),
    ({ wb := none, text := [.lit 'c'] }, [.ch (.lit '.')])]

theorem exTr_wf : exTr.wf where
  lead := by
    intro p hp
    simp only [exTr, List.mem_cons, List.not_mem_nil, or_false] at hp
    rcases hp with rfl | rfl
    · show ∀ a ∈ [Atom.lit 'x'], Atom.wf _ _; decide
    · decide
  words := by
    intro w hw
    simp only [exTr, List.mem_cons, List.not_mem_nil, or_false] at hw
    rcases hw with rfl | rfl
    · refine ⟨show (∀ a ∈ _, Atom.wf _ _) ∧ (∀ a ∈ _, Atom.wf _ _) from ⟨by decide +kernel, by decide +kernel⟩, ?_⟩
      intro p hp; simp only [List.mem_cons, List.not_mem_nil, or_false] at hp; subst hp; decide
    · refine ⟨show (∀ a ∈ [Atom.lit 'c'], Atom.wf _ _) by decide, ?_⟩
      intro p hp; simp only [List.mem_cons, List.not_mem_nil, or_false] at hp; subst hp; decide

example : trRead false (exTr.render ++ []) = .ok { toks := [.blank "[x] ".toList, .word "[[t:b]]^a<n>/b<n>".toList,
    .blank " ".toList, .word "c".toList, .eof ".".toList], rest := [], more := false } := by
  rw [C43_transfer_tokens_partial false exTr exTr_wf (by
    intro w hw b hb c
    simp only [exTr, List.mem_cons, List.not_mem_nil, or_false] at hw
    rcases hw with rfl | rfl
    · simp only [Option.some.injEq] at hb; subst hb; simp
    · simp at hb) _ _ _ .eof]
  decide +kernel

/-- **C43 does not hold for a word-bound blank that begins with an escaped character**: the character after the backslash is not taken
as escaped.  `[[\$]]^a$` gives the words `[[\` and `a`. -/
theorem C43_wblank_escape_violation : trRead false "[[\\$]]^a$".toList =
    .ok { toks := [.blank [], .word "[[\\".toList, .blank "]]".toList, .word "a".toList, .eof []], rest := [], more := false } := by
  decide +kernel

/-- **C43: not for every input.** A word with a word-bound blank that is not closed makes apertium-transfer run until memory is
used up, in null flush mode too. -/
theorem C43_unclosed_wblank_violation (flush : Bool) (c : Char) (t : Text) (hc : c ≠ '\x00') (h : ∀ c ∈ t, c ≠ '\\' ∧ c ≠ '$') :
    trRead flush ('[' :: '[' :: c :: t) = .diverge := by
  have hs : trWb t = .diverge := by
    induction t with
    | nil => rfl
    | cons c t ih =>
      rw [trWb.eq_def]
      simp [(h c (by simp)).1, (h c (by simp)).2, ih (fun x hx => h x (by simp [hx]))]
  have e : trSup ('[' :: c :: t) = ([], true, c :: t) := by rw [trSup.eq_def]; simp
  unfold trRead
  rw [trTokens.eq_def]
  simp [e, trTokens, hs, hc, Outcome.bind]

/-! ## C45: without rules -/

variable {σ V : Type}

/-- What interchunk does with a word no rule matches (interchunk.cc:528). -/
def icDefault (w : Text) : Outcome Text := .ok ('^' :: w ++ ['$'])

theorem greedy_noRules {m : Matcher σ} (hm : ∀ s b, m.classify s b = none) (a : Actions V) (v : V) (shifted : Bool) (ws : List (Text × Text))
    (f : Text → Text) (hf : ∀ w ∈ ws, a.dflt w.1 = .ok (f w.1)) :
    Greedy m a true shifted [] v ws (ws.flatMap fun w => f w.1 ++ w.2) := by
  induction ws generalizing shifted with
  | nil => exact .done
  | cons w ws ih =>
    obtain ⟨w, b⟩ := w
    exact .dflt (fun _ _ _ => hm _ _) (hf (w, b) (by simp)) (ih false fun x hx => hf x (by simp [hx]))

/-- `a` with `applyRule` never used is local. -/
theorem local_of_unused (d : Text → Outcome Text) : (Actions.mk (V := V) d fun _ _ _ _ _ => .fail).Local := fun _ _ _ _ _ _ _ => rfl

/-- **C45.** apertium-interchunk with rules that match nothing writes every well-formed stream as it is. -/
theorem C45_interchunk_identity {m : Matcher σ} (hm : m.Ok) (hno : ∀ s b, m.classify s b = none)
    (v : V) (s : IcStream) (h : s.wf) :
    ∃ rd n, icRead false false s.render = .ok (rd, false) ∧
      loopRun m (Actions.mk icDefault fun _ _ _ _ _ => .fail) rd.toks n (loopInit m v) = some (.ok s.render) := by
  have h1 := C43_chunk_tokens false s h [] [] false .eof
  rw [List.append_nil] at h1
  obtain ⟨n, hn⟩ := C16_longest_match_partial hm (local_of_unused icDefault) (renderParts s.lead) s.units v 
    (greedy_noRules hno _ v false _ (fun w => '^' :: w ++ ['$']) (fun _ _ => rfl))
  refine ⟨_, n, h1, ?_⟩
  rw [hn]
  simp [IcStream.render, IcStream.units, List.flatMap_map]

/-! ## C46: null flush -/

/-- What the main loop writes for the whole stream `s`, started afresh. -/
def Writes (m : Matcher σ) (a : Actions V) (v : V) (s : IcStream) (o : Text) : Prop :=
  ∃ n, loopRun m a (tokensOf (renderParts s.lead) s.units) n (loopInit m v) = some (.ok o)

theorem loopRun_mono {m : Matcher σ} {a : Actions V} {toks : List Tok} {n k : Nat} {s : LoopSt σ V} {o : Outcome Text}
    (h : loopRun m a toks n s = some o) : loopRun m a toks (n + k) s = some o := by
  induction n generalizing s with
  | zero => simp [loopRun] at h
  | succ n ih =>
    rw [Nat.add_right_comm]
    simp only [loopRun] at h ⊢
    split <;> simp_all

/-- **C46.** In null flush mode the parts of the input between NULs (well-formed streams) are translated one by one, each exactly as
it would be alone (same rules, variables at their defaults, no memory of the parts before), and the output for each part ends with a
NUL.  What follows the last NUL is one more part. -/
theorem C46_null_flush_partial {m : Matcher σ} {a : Actions V} {v : V} (parts : List (IcStream × Text)) (last : IcStream) (lastOut : Text)
    (h : ∀ p ∈ parts, p.1.wf ∧ Writes m a v p.1 p.2) (hl : last.wf ∧ Writes m a v last lastOut) :
    ∃ fuel n, flushRun m a (icRead true) v fuel n false ((parts.flatMap fun p => p.1.render ++ ['\x00']) ++ last.render)
      = some (.ok ((parts.flatMap fun p => p.2 ++ ['\x00']) ++ lastOut ++ ['\x00'])) := by
  suffices H : ∃ fuel0 n, ∀ k, flushRun m a (icRead true) v (fuel0 + k) n false ((parts.flatMap fun p => p.1.render ++ ['\x00']) ++ last.render)
      = some (.ok ((parts.flatMap fun p => p.2 ++ ['\x00']) ++ lastOut ++ ['\x00'])) by
    obtain ⟨f, n, h⟩ := H
    exact ⟨f, n, by simpa using h 0⟩
  induction parts with
  | nil =>
    obtain ⟨hw, f, hf⟩ := hl
    refine ⟨f, 1, fun k => ?_⟩
    have h1 := C43_chunk_tokens true last hw [] [] false .eof
    rw [List.append_nil] at h1
    simp only [List.flatMap_nil, List.nil_append, flushRun, h1, loopRun_mono hf, Bool.false_eq_true, if_false]
  | cons p ps ih =>
    obtain ⟨f, n, ih⟩ := ih (fun x hx => h x (by simp [hx]))
    obtain ⟨hw, f1, hf1⟩ := h p (by simp)
    refine ⟨f + f1, n + 1, fun k => ?_⟩
    have e : ((p :: ps).flatMap fun p => p.1.render ++ ['\x00']) ++ last.render =
        p.1.render ++ '\x00' :: ((ps.flatMap fun p => p.1.render ++ ['\x00']) ++ last.render) := by simp
    have h1 := C43_chunk_tokens true p.1 hw _ _ true (.nul rfl ((ps.flatMap fun p => p.1.render ++ ['\x00']) ++ last.render))
    rw [e]
    have hf2 : ∀ k, loopRun m a (tokensOf (renderParts p.1.lead) p.1.units) (f + f1 + k) (loopInit m v) = some (.ok p.2) := fun k => by
      rw [show f + f1 + k = f1 + (f + k) by omega]; exact loopRun_mono hf1
    have ih2 := ih (f1 + k)
    rw [← Nat.add_assoc] at ih2
    simp only [flushRun, h1, hf2, if_true, ih2]
    simp

/-- A matcher that matches nothing. -/
def noMatcher : Matcher Bool where
  init := true
  cleared := false
  word _ _ := false
  blank _ := false
  dead s := !s
  classify _ _ := none

theorem noMatcher_ok : noMatcher.Ok where
  deadWord _ _ _ := rfl
  deadBlank _ _ := rfl
  deadClassify _ _ _ := rfl
  initAlive := rfl
  initBlank := rfl
  cleared := rfl
  initClassify _ := rfl
  blankClassify _ _ := rfl

/-- The hypotheses hold of a non-trivial case: two parts. -/
example : ∃ fuel n, flushRun noMatcher (Actions.mk icDefault fun _ _ _ _ (_ : Unit) => .fail) (icRead true) () fuel n false
    (exIc.render ++ ['\x00'] ++ exIc.render) = some (.ok (exIc.render ++ ['\x00'] ++ exIc.render ++ ['\x00'])) := by
  have hw : Writes noMatcher (Actions.mk icDefault fun _ _ _ _ (_ : Unit) => .fail) () exIc exIc.render := by
    obtain ⟨rd, n, h1, h2⟩ := C45_interchunk_identity noMatcher_ok (fun _ _ => rfl) () exIc exIc_wf
    have h3 := C43_chunk_tokens false exIc exIc_wf [] [] false .eof
    rw [List.append_nil, h1] at h3
    simp only [Outcome.ok.injEq, Prod.mk.injEq, and_true] at h3
    subst h3
    exact ⟨n, h2⟩
  have := C46_null_flush_partial [(exIc, exIc.render)] exIc exIc.render (by simpa using ⟨exIc_wf, hw⟩) ⟨exIc_wf, hw⟩
  simpa using this

/-- **C46 does not hold after a part that ends inside a word**: `inword` is kept, so in the next part `$` ends a word: the text
`5$` alone is written as it is, but after `^a` it is a word and becomes `^5$`. -/
theorem C46_inword_violation :
    flushRun noMatcher (Actions.mk icDefault fun _ _ _ _ (_ : Unit) => .fail) (icRead true) () 20 2 false "5$".toList
      = some (.ok "5$\x00".toList) ∧
    flushRun noMatcher (Actions.mk icDefault fun _ _ _ _ (_ : Unit) => .fail) (icRead true) () 20 2 false "^a\x005$".toList
      = some (.ok "a\x00^5$\x00".toList) := by decide +kernel

end Verif.Token
