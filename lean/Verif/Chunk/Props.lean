import Verif.Chunk.Proofs
/-!
# Chunks in apertium-postchunk: unfolding (C41), what a rule sees (C42), case (C44)
-/
namespace Verif.Chunk
open Verif.Stream

/-! ## C41: unfolding a chunk -/

section unfold
variable {u : Uni} {tags : List Text} {all : Bool}

/-- `X` is what the loop writes for `t`, however much fuel there is beyond the length. -/
def Unfolds (u : Uni) (tags : List Text) (all first : Bool) (t out : Text) : Prop :=
  ∀ n, t.length ≤ n → unLoop u tags all n first t = .ok out

theorem Unfolds.end (first : Bool) (c : Char) : Unfolds u tags all first [c] [] := by
  intro n hn
  cases n with
  | zero => simp at hn
  | succ n => simp [unLoop]

theorem Unfolds.ch {first : Bool} {c : Char} {r o : Text} (hc : c ∉ ['\\', '^', '[']) (hr : 2 ≤ r.length)
    (h : Unfolds u tags all first r o) : Unfolds u tags all first (c :: r) (c :: o) := by
  intro n hn
  simp only [List.mem_cons, List.not_mem_nil, or_false, not_or] at hc
  cases n with
  | zero => simp at hn
  | succ n =>
    simp only [List.length_cons, Nat.add_le_add_iff_right] at hn
    simp [unLoop, Nat.not_lt.2 hr, hc, h n hn]

theorem Unfolds.esc {first : Bool} {c : Char} {r o : Text} (hr : 1 ≤ r.length)
    (h : Unfolds u tags all first r o) : Unfolds u tags all first ('\\' :: c :: r) ('\\' :: c :: o) := by
  intro n hn
  cases n with
  | zero => simp at hn
  | succ n =>
    simp only [List.length_cons] at hn
    have h2 : ¬ ((c :: r).length < 2) := by simp; omega
    simp only [unLoop, h2, if_false, if_true]
    rw [h n (by omega)]; rfl

theorem Unfolds.sup {first : Bool} {b : List Atom} {r o : Text} (hb : ∀ a ∈ b, a.wf ['[', ']']) (hr : 1 ≤ r.length)
    (h : Unfolds u tags all first r o) :
    Unfolds u tags all first ('[' :: (renderAtoms b ++ ']' :: r)) ('[' :: (renderAtoms b ++ ']' :: o)) := by
  intro n hn
  cases n with
  | zero => simp at hn
  | succ n =>
    simp only [List.length_cons, List.length_append] at hn
    have h2 : ¬ ((renderAtoms b ++ ']' :: r).length < 2) := by simp; omega
    simp only [unLoop, h2, if_false, if_true, Char.reduceEq, supBody_atoms b hb, Outcome.bind]
    rw [h n (by omega)]; simp

theorem Unfolds.wb {first : Bool} {b : List Atom} {r o : Text} (hb : ∀ a ∈ b, a.wf ['[', ']']) (hr : 2 ≤ r.length)
    (h : Unfolds u tags all first r o) :
    Unfolds u tags all first ('[' :: '[' :: renderAtoms b ++ [']', ']'] ++ r) ('[' :: '[' :: renderAtoms b ++ [']', ']'] ++ o) := by
  intro n hn
  have hs : supBody ('[' :: (renderAtoms b ++ ']' :: ']' :: r)) = .ok ('[' :: renderAtoms b, ']' :: r) := by
    rw [supBody.eq_def]; simp [supBody_atoms b hb]
  have h' : Unfolds u tags all first (']' :: r) (']' :: o) := Unfolds.ch (by decide) hr h
  cases n with
  | zero => simp at hn
  | succ n =>
    simp only [List.length_cons, List.length_append, List.cons_append, List.nil_append, List.append_assoc] at hn ⊢
    have h2 : ¬ (('[' :: (renderAtoms b ++ ']' :: ']' :: r)).length < 2) := by simp; omega
    simp only [unLoop, h2, if_false, if_true, Char.reduceEq, hs, Outcome.bind]
    rw [h' n (by simp; omega)]; simp

theorem Unfolds.blank {first : Bool} {b : Blank} {r o : Text} (hb : b.wf) (hr : 1 ≤ r.length)
    (hc : ∀ x, b = .ch x → 2 ≤ r.length) (h : Unfolds u tags all first r o) :
    Unfolds u tags all first (b.render ++ r) (b.render ++ o) := by
  cases b with
  | ch c => exact Unfolds.ch hb (hc c rfl) h
  | esc c => exact Unfolds.esc hr h
  | sup b => simpa [Blank.render] using Unfolds.sup hb hr h

theorem Unfolds.blanks {first : Bool} {bs : List Blank} {r o : Text} (hb : ∀ b ∈ bs, b.wf) (hr : 1 ≤ r.length)
    (hc : ∀ x, bs.getLast? = some (.ch x) → 2 ≤ r.length) (h : Unfolds u tags all first r o) :
    Unfolds u tags all first (renderBlanks bs ++ r) (renderBlanks bs ++ o) := by
  induction bs with
  | nil => exact h
  | cons b bs ih =>
    have hb1 := hb b (by simp)
    have hlen : 1 ≤ b.render.length := by cases b <;> simp [Blank.render]
    rw [show renderBlanks (b :: bs) = b.render ++ renderBlanks bs from rfl, List.append_assoc, List.append_assoc]
    cases bs with
    | nil => exact Unfolds.blank hb1 (by simpa [renderBlanks] using hr) (fun x hx => by subst hx; simpa [renderBlanks] using hc x rfl) (ih (by simp) (by simp))
    | cons b2 bs =>
      have hlen2 : 1 ≤ b2.render.length := by cases b2 <;> simp [Blank.render]
      refine Unfolds.blank hb1 (by simp; omega) (fun x _ => ?_) (ih (fun y hy => hb y (by simp [hy])) (fun x hx => hc x (by simpa using hx)))
      simp [renderBlanks]; omega

theorem Unfolds.word {first : Bool} {tags : List Text} {w : Word} {r o : Text} (hd : u.isdigit '>' = false) (hw : w.wf u) (hr : 1 ≤ r.length)
    (h : Unfolds u (tags.map tagText) all (body u all first (w.pieces.map (Piece.sym u tags))).2 r o) :
    Unfolds u (tags.map tagText) all first (w.render ++ r)
      (w.wbText ++ '^' :: (body u all first (w.pieces.map (Piece.sym u tags))).1 ++ '$' :: o) := by
  have h1 : Unfolds u (tags.map tagText) all first ('^' :: (w.pieces.flatMap Piece.render ++ '$' :: r))
      ('^' :: ((body u all first (w.pieces.map (Piece.sym u tags))).1 ++ '$' :: o)) := by
    intro n hn
    cases n with
    | zero => simp at hn
    | succ n =>
      simp only [List.length_cons, List.length_append] at hn
      have h2 : ¬ ((w.pieces.flatMap Piece.render ++ '$' :: r).length < 2) := by simp; omega
      simp only [unLoop, h2, if_false, if_true, Char.reduceEq, wordBody_pieces u hd tags all first _ hw.2, Outcome.bind]
      rw [h n (by omega)]; simp
  unfold Word.render
  cases hwb : w.wb with
  | none => simpa [Word.wbText, hwb] using h1
  | some b =>
    have := Unfolds.wb (hw.1 b (by simp [hwb])) (by simp; omega) h1
    simpa [Word.wbText, hwb] using this

end unfold

/-- The texts of the words, and the blanks, put together. -/
def join : List (Word × List Blank) → List Text → Text
  | [], _ => []
  | _, [] => []
  | (w, b) :: ws, t :: ts => w.wbText ++ '^' :: t ++ '$' :: renderBlanks b ++ join ws ts

/-- What a chunk stands for: the blanks as they are, the words with their word-bound blanks. -/
def Chunk.unfolded (u : Uni) (k : Case) (c : Chunk) : Text := renderBlanks c.lead ++ join c.words (c.wordTexts u k)

theorem unfolds_words (u : Uni) (hd : u.isdigit '>' = false) (tags : List Text) (all first : Bool) (ws : List (Word × List Blank))
    (h : ∀ w ∈ ws, w.1.wf u ∧ ∀ b ∈ w.2, b.wf) (hc : ∀ w, ws.getLast? = some w → ∀ x, w.2.getLast? ≠ some (.ch x)) :
    Unfolds u (tags.map tagText) all first (ws.flatMap (fun w => w.1.render ++ renderBlanks w.2) ++ ['}'])
      (join ws (bodies u all first (ws.map fun w => w.1.pieces.map (Piece.sym u tags)))) := by
  induction ws generalizing first with
  | nil => exact Unfolds.end _ _
  | cons w ws ih =>
    have hw := h w (by simp)
    have ih := fun f => ih f (fun x hx => h x (by simp [hx])) (fun x hx => by
      cases ws with
      | nil => simp at hx
      | cons y ws => exact hc x (by simpa using hx))
    have hbl : Unfolds u (tags.map tagText) all (body u all first (w.1.pieces.map (Piece.sym u tags))).2
        (renderBlanks w.2 ++ (ws.flatMap (fun w => w.1.render ++ renderBlanks w.2) ++ ['}']))
        (renderBlanks w.2 ++ join ws (bodies u all (body u all first (w.1.pieces.map (Piece.sym u tags))).2
          (ws.map fun w => w.1.pieces.map (Piece.sym u tags)))) := by
      refine Unfolds.blanks hw.2 (by simp) (fun x hx => ?_) (ih _)
      cases ws with
      | nil => exact absurd hx (hc w rfl x)
      | cons y ws => simp [Word.render]; omega
    have := Unfolds.word hd hw.1 (by simp; omega) hbl
    simpa [join, bodies] using this

/-- **C41.** A well-formed chunk whose content does not end with a plain character outside of a word or superblank is written
word by word: the blanks as they are, before each word its word-bound blank, in each word the references replaced by the tags
of the chunk, and the case of the pseudo-lemma transferred to the words, unless the dictionary decides on case. -/
theorem C41_unfold_partial (u : Uni) (hd : u.isdigit '>' = false) (dictCase : Bool) (c : Chunk) (h : c.wf u) (hc : c.Closed) :
    unchunk u dictCase c.render = .ok (c.unfolded u (if dictCase then .aa else u.getcase (renderAtoms c.lem))) := by
  have e : c.render = c.head ++ '{' :: (renderBlanks c.lead ++ (c.words.flatMap (fun w => w.1.render ++ renderBlanks w.2) ++ ['}'])) := by
    simp [Chunk.render]
  have hk : ∀ k : Case, (!dictCase && decide (k = .AA)) = decide ((if dictCase then Case.aa else k) = .AA) ∧
      (!dictCase && decide (k = .Aa)) = decide ((if dictCase then Case.aa else k) = .Aa) := by
    intro k; cases dictCase <;> cases k <;> decide
  unfold unchunk
  rw [e, vecTags_head c h, pseudolemma_head c h, beginChunk_head c h]
  simp only [Outcome.bind, (hk _).1, (hk _).2]
  generalize (if dictCase then Case.aa else u.getcase (renderAtoms c.lem)) = k
  have hw := unfolds_words u hd c.tags (decide (k = .AA)) (decide (k = .Aa)) c.words h.words (fun w hw x => by
    have := hc x; simpa [Chunk.lastBlank, hw] using this)
  have := Unfolds.blanks h.lead (by simp) (fun x hx => by
    cases hcw : c.words with
    | nil => have := hc x; simp [Chunk.lastBlank, hcw, hx] at this
    | cons y ws => simp [Word.render]; omega) hw _ (Nat.le_refl _)
  rw [this, bodies_eq]
  rfl

/-! ## An instance -/

/-- ASCII only. -/
def ascii : Uni where
  toupper := Char.toUpper
  isalnum := Char.isAlphanum
  isdigit := Char.isDigit
  stoi := fun t => (t.foldl (fun n c => n * 10 + (c.toNat - '0'.toNat)) 0 : Nat)
  getcase := fun t =>
    match t.filter Char.isAlpha with
    | [] => .aa
    | [c] => if c.isUpper then .Aa else .aa
    | c :: r => if c.isUpper then (if r.all Char.isUpper then .AA else .Aa) else .aa

def lits (s : String) : List Atom := s.toList.map .lit
def plits (s : String) : List Piece := s.toList.map .lit

/-- `Nom<SN><pl>{[[t:b]]^le<det><2>$ ^chien<n><2>$[x]}` -/
def exChunk : Chunk where
  lem := lits "Nom"
  tags := ["SN".toList, "pl".toList]
  lead := []
  words := [({ wb := some (lits "t:b"), pieces := plits "le" ++ [.tag "det".toList, .ref "2".toList] }, [.ch ' ']),
    ({ wb := none, pieces := plits "chien" ++ [.tag "n".toList, .ref "2".toList] }, [.sup (lits "x")])]

example : exChunk.render = "Nom<SN><pl>{[[t:b]]^le<det><2>$ ^chien<n><2>$[x]}".toList := by decide +kernel

theorem exChunk_wf : exChunk.wf ascii where
  lem := by decide +kernel
  tags := by decide +kernel
  lead := by intro b hb; simp [exChunk] at hb
  words := by
    intro w hw
    simp only [exChunk, List.mem_cons, List.not_mem_nil, or_false] at hw
    rcases hw with rfl | rfl
    · refine ⟨⟨by decide +kernel, ?_⟩, ?_⟩
      · intro p hp
        simp only [plits, String.toList, List.mem_append, List.mem_map, List.mem_cons, List.not_mem_nil, or_false] at hp
        rcases hp with ⟨c, hc, rfl⟩ | rfl | rfl
        · have : ∀ c ∈ "le".toList, c ∉ ['\\', '<', '$'] := by decide +kernel
          exact this c hc
        · exact ⟨by decide +kernel, by decide +kernel⟩
        · exact ⟨by decide +kernel, _, _, rfl, by decide +kernel⟩
      · intro b hb; simp only [List.mem_cons, List.not_mem_nil, or_false] at hb; subst hb; show ' ' ∉ ['\\', '^', '[']; decide
    · refine ⟨⟨by decide +kernel, ?_⟩, ?_⟩
      · intro p hp
        simp only [plits, String.toList, List.mem_append, List.mem_map, List.mem_cons, List.not_mem_nil, or_false] at hp
        rcases hp with ⟨c, hc, rfl⟩ | rfl | rfl
        · have : ∀ c ∈ "chien".toList, c ∉ ['\\', '<', '$'] := by decide +kernel
          exact this c hc
        · exact ⟨by decide +kernel, by decide +kernel⟩
        · exact ⟨by decide +kernel, _, _, rfl, by decide +kernel⟩
      · intro b hb; simp only [List.mem_cons, List.not_mem_nil, or_false] at hb; subst hb
        show ∀ a ∈ lits "x", a.wf ['[', ']']; decide +kernel

example : unchunk ascii false exChunk.render = .ok "[[t:b]]^Le<det><pl>$ ^chien<n><pl>$[x]".toList := by
  rw [C41_unfold_partial ascii (by decide) false exChunk exChunk_wf (by intro x; simp [Chunk.lastBlank, exChunk])]
  decide +kernel

/-- **C41 does not hold without the condition on the end**: the last character of a blank at the end of the chunk is lost,
here the space of `a<b>{^c$ }`. -/
theorem C41_last_blank_violation : unchunk ascii false "a<b>{^c$ }".toList = .ok "^c$".toList := by decide +kernel

/-! ## C42: what a rule sees of a chunk -/

theorem wbBody_atoms (b : List Atom) (h : ∀ a ∈ b, a.wf ['[', ']']) (hl : b.getLast? ≠ some (.esc ']')) (p : Char)
    (hp : b = [] → p ≠ ']') (x : Char) (r : Text) :
    wbBody p (renderAtoms b ++ ']' :: ']' :: x :: r) = .ok (renderAtoms b ++ [']', ']'], r) := by
  induction b generalizing p with
  | nil => simp [renderAtoms_nil, wbBody, hp rfl]
  | cons a as ih =>
    have ha := h a (by simp)
    have ih := fun p hp => ih (fun x hx => h x (by simp [hx])) (by
      cases as with
      | nil => simp
      | cons y as => simpa using hl) p hp
    cases a with
    | esc c =>
      rw [wbBody.eq_def]
      simp only [renderAtoms_cons, Atom.render, List.cons_append, List.nil_append, if_true]
      rw [ih c (fun e => by subst e; intro e2; subst e2; simp at hl)]
      simp
    | lit c =>
      obtain ⟨h1, _, h3⟩ := ha
      simp only [List.mem_cons, List.not_mem_nil, or_false, not_or] at h3
      rw [wbBody.eq_def]
      simp only [renderAtoms_cons, Atom.render, List.cons_append, List.nil_append, h1, h3, false_and, if_false]
      rw [ih c (fun _ => h3.2)]
      simp

section split
variable {u : Uni} {tags : List Text} {all : Bool}

def Splits (u : Uni) (tags : List Text) (all : Bool) (s : SplitSt) (t : Text) (s' : SplitSt) : Prop :=
  ∀ n, t.length ≤ n → splitLoop u tags all n s t = .ok s'

theorem Splits.end (s : SplitSt) (c : Char) : Splits u tags all s [c] s := by
  intro n hn
  cases n with
  | zero => simp at hn
  | succ n => simp [splitLoop]

theorem Splits.cut (s : SplitSt) (c d : Char) : Splits u tags all s [c, d] s := by
  intro n hn
  cases n with
  | zero => simp at hn
  | succ n => simp [splitLoop]

theorem Splits.blank {s s1 s2 : SplitSt} {b : Blank} {r : Text} (hb : b.wf) (hr : 1 ≤ r.length)
    (hc : ∀ x, b = .ch x → 2 ≤ r.length) (h1 : s.addBlank b.render = .ok s1) (h : Splits u tags all s1 r s2) :
    Splits u tags all s (b.render ++ r) s2 := by
  intro n hn
  cases n with
  | zero => cases b <;> simp [Blank.render] at hn
  | succ n =>
    cases b with
    | ch c =>
      simp only [Blank.wf, List.mem_cons, List.not_mem_nil, or_false, not_or] at hb
      have h2 := hc c rfl
      simp only [Blank.render, List.cons_append, List.nil_append, List.length_cons, Nat.add_le_add_iff_right] at hn h1 ⊢
      simp only [splitLoop, Nat.not_lt.2 h2, hb, h1, if_false, false_and]
      exact h n hn
    | esc c =>
      have h2 : ¬ ((c :: r).length < 2) := by simp; omega
      simp only [Blank.render, List.cons_append, List.nil_append, List.length_cons] at hn h1 ⊢
      rw [splitLoop.eq_def]
      simp only [h2, if_false, if_true, Char.reduceEq, false_and]
      simp only [h1, Outcome.bind]
      exact h n (by omega)
    | sup b =>
      have h2 : ¬ ((renderAtoms b ++ ']' :: r).length < 2) := by simp; omega
      have h3 : (renderAtoms b ++ ']' :: r).head? ≠ some '[' := by
        cases b with
        | nil => simp
        | cons a b =>
          have := hb a (by simp)
          cases a with
          | esc c => simp [Atom.render]
          | lit c => obtain ⟨_, _, h3⟩ := this; simp only [List.mem_cons, List.not_mem_nil, or_false, not_or] at h3
                     simp [Atom.render, h3]
      simp only [Blank.render, List.cons_append, List.nil_append, List.append_assoc, List.length_cons, List.length_append] at hn h1 ⊢
      rw [splitLoop.eq_def]
      simp only [h2, h3, if_false, if_true, Char.reduceEq, and_false, supBody_atoms b hb, Outcome.bind, List.cons_append, h1]
      exact h n (by omega)

/-- After a word: the blanks, then more text. -/
theorem Splits.blanks {s s2 : SplitSt} {bs : List Blank} {r : Text} (hb : ∀ b ∈ bs, b.wf) (hr : 2 ≤ r.length) (b0 : List Text) (x : Text)
    (hs : s.lastblank = true) (hs2 : s.blanks = b0 ++ [x])
    (h : Splits u tags all { s with blanks := b0 ++ [x ++ renderBlanks bs] } r s2) :
    Splits u tags all s (renderBlanks bs ++ r) s2 := by
  induction bs generalizing s x with
  | nil =>
    have : ({ s with blanks := b0 ++ [x ++ renderBlanks []] } : SplitSt) = s := by cases s; simp_all [renderBlanks]
    rw [this] at h; exact h
  | cons b bs ih =>
    rw [show renderBlanks (b :: bs) = b.render ++ renderBlanks bs from rfl, List.append_assoc]
    refine Splits.blank (s1 := { s with blanks := b0 ++ [x ++ b.render] }) (hb b (by simp)) (by simp; omega)
      (fun _ _ => by simp; omega) ?_ (ih (fun y hy => hb y (by simp [hy])) (x ++ b.render) hs rfl ?_)
    · simp [SplitSt.addBlank, hs, hs2]
    · simpa [show renderBlanks (b :: bs) = b.render ++ renderBlanks bs from rfl] using h

/-- The blanks at the end of the chunk: something is added to the list of blanks. -/
theorem splits_tail {s : SplitSt} {bs : List Blank} (hb : ∀ b ∈ bs, b.wf) (b0 : List Text) (e : List Text)
    (hs : s.blanks = b0 ++ e) (hs2 : s.lastblank = true → e ≠ []) :
    ∃ s' e', Splits u tags all s (renderBlanks bs ++ ['}']) s' ∧ s'.words = s.words ∧ s'.blanks = b0 ++ e' := by
  induction bs generalizing s e with
  | nil => exact ⟨s, e, Splits.end s _, rfl, hs⟩
  | cons b bs ih =>
    have key : ∃ s1 e1, s.addBlank b.render = .ok s1 ∧ s1.blanks = b0 ++ e1 ∧ e1 ≠ [] ∧ s1.words = s.words := by
      unfold SplitSt.addBlank
      cases hl : s.lastblank with
      | false => exact ⟨_, e ++ [b.render], rfl, by simp [hs], by simp, rfl⟩
      | true =>
        have he := hs2 hl
        obtain ⟨e0, z, rfl⟩ : ∃ e0 z, e = e0 ++ [z] := ⟨e.dropLast, e.getLast he, (List.dropLast_concat_getLast he).symm⟩
        refine ⟨{ s with blanks := b0 ++ (e0 ++ [z ++ b.render]) }, e0 ++ [z ++ b.render], ?_, rfl, by simp, rfl⟩
        simp only [hs, ← List.append_assoc, if_true, List.getLast?_concat, List.dropLast_concat, hl]
    obtain ⟨s1, e1, h1, h2, h3, h4⟩ := key
    obtain ⟨s', e', h5, h6, h7⟩ := ih (s := s1) (fun y hy => hb y (by simp [hy])) e1 h2 (fun _ => h3)
    rw [show renderBlanks (b :: bs) = b.render ++ renderBlanks bs from rfl, List.append_assoc]
    by_cases hlen : 2 ≤ (renderBlanks bs ++ ['}']).length
    · exact ⟨s', e', Splits.blank (hb b (by simp)) (by simp) (fun _ _ => hlen) h1 h5, by rw [h6, h4], h7⟩
    · have hnil : renderBlanks bs = [] := by
        cases hz : renderBlanks bs with
        | nil => rfl
        | cons c r => rw [hz] at hlen; simp at hlen
      cases b with
      | ch c => exact ⟨s, e, by rw [hnil]; exact Splits.cut s _ _, rfl, hs⟩
      | esc c => exact ⟨s', e', Splits.blank (hb _ (by simp)) (by simp) (fun _ hx => by simp at hx) h1 h5, by rw [h6, h4], h7⟩
      | sup c => exact ⟨s', e', Splits.blank (hb _ (by simp)) (by simp) (fun _ hx => by simp at hx) h1 h5, by rw [h6, h4], h7⟩

theorem Splits.word {s s2 : SplitSt} {tags : List Text} {w : Word} {r : Text} (hd : u.isdigit '>' = false) (hw : w.wf u)
    (hwb : ∀ b, w.wb = some b → b.getLast? ≠ some (.esc ']')) (hr : 1 ≤ r.length)
    (h : Splits u (tags.map tagText) all
      { s.sep with words := s.words ++ [w.wbText ++ (body u all s.first (w.pieces.map (Piece.sym u tags))).1], lastblank := false,
                   first := (body u all s.first (w.pieces.map (Piece.sym u tags))).2 } r s2) :
    Splits u (tags.map tagText) all s (w.render ++ r) s2 := by
  intro n hn
  unfold Word.render at hn ⊢
  have hbody := wordBody_pieces u hd tags all s.first _ hw.2 r
  cases n with
  | zero => simp at hn
  | succ n =>
    cases hb : w.wb with
    | none =>
      simp only [Word.wbText, hb, List.nil_append, List.cons_append, List.append_assoc, List.length_cons, List.length_append] at hn h ⊢
      have h2 : ¬ ((w.pieces.flatMap Piece.render ++ '$' :: r).length < 2) := by simp; omega
      rw [splitLoop.eq_def]
      simp only [h2, if_false, if_true, hbody, Outcome.bind]
      exact h n (by omega)
    | some b =>
      simp only [Word.wbText, hb, List.nil_append, List.cons_append, List.append_assoc, List.length_cons, List.length_append] at hn h ⊢
      have h2 : ∀ t : Text, ¬ (('[' :: (renderAtoms b ++ ']' :: ']' :: '^' :: t)).length < 2) := by intro t; simp; omega
      rw [splitLoop.eq_def]
      simp only [h2, if_false, if_true, Char.reduceEq, List.head?_cons, and_self]
      have h3 : ∀ t : Text, wbBody '[' ('[' :: '[' :: (renderAtoms b ++ ']' :: ']' :: '^' :: t)) =
          .ok ('[' :: '[' :: (renderAtoms b ++ [']', ']']), t) := by
        intro t
        rw [wbBody.eq_def]; simp only [Char.reduceEq, if_false, false_and]
        rw [wbBody.eq_def]; simp only [Char.reduceEq, if_false, false_and]
        rw [wbBody_atoms b (hw.1 b (by simp [hb])) (hwb b hb) '[' (by simp)]
        rfl
      rw [h3]
      simp only [Outcome.bind, hbody]
      rw [show '[' :: '[' :: (renderAtoms b ++ [']', ']']) ++ (body u all s.first (w.pieces.map (Piece.sym u tags))).1 =
        '[' :: '[' :: (renderAtoms b ++ ']' :: ']' :: (body u all s.first (w.pieces.map (Piece.sym u tags))).1) by simp]
      exact h n (by omega)

theorem splits_words (hd : u.isdigit '>' = false) (tags : List Text) (w : Word × List Blank) (ws : List (Word × List Blank))
    (h : ∀ x ∈ w :: ws, x.1.wf u ∧ ∀ b ∈ x.2, b.wf)
    (hwb : ∀ x ∈ w :: ws, ∀ b, x.1.wb = some b → b.getLast? ≠ some (.esc ']')) (s : SplitSt) :
    ∃ s' e', Splits u (tags.map tagText) all s ((w :: ws).flatMap (fun w => w.1.render ++ renderBlanks w.2) ++ ['}']) s' ∧
      s'.words = s.words ++ List.zipWith (fun x t => x.1.wbText ++ t) (w :: ws)
        (bodies u all s.first ((w :: ws).map fun x => x.1.pieces.map (Piece.sym u tags))) ∧
      s'.blanks = s.sep.blanks ++ ((w :: ws).dropLast.map fun x => renderBlanks x.2) ++ e' := by
  induction ws generalizing w s with
  | nil =>
    obtain ⟨h1, h2⟩ := h w (by simp)
    obtain ⟨s', e', h3, h4, h5⟩ := splits_tail (u := u) (tags := tags.map tagText) (all := all)
      (s := { s.sep with words := s.words ++ [w.1.wbText ++ (body u all s.first (w.1.pieces.map (Piece.sym u tags))).1], lastblank := false,
                         first := (body u all s.first (w.1.pieces.map (Piece.sym u tags))).2 })
      h2 s.sep.blanks [] (by simp) (by simp)
    refine ⟨s', e', ?_, ?_, by simpa using h5⟩
    · simpa using Splits.word hd h1 (hwb w (by simp)) (by simp) h3
    · rw [h4]; simp [bodies]
  | cons w2 ws ih =>
    obtain ⟨h1, h2⟩ := h w (by simp)
    have ih := ih w2 (fun x hx => h x (by simp only [List.mem_cons] at hx ⊢; exact .inr hx))
      (fun x hx => hwb x (by simp only [List.mem_cons] at hx ⊢; exact .inr hx))
    let s1 : SplitSt := { s.sep with words := s.words ++ [w.1.wbText ++ (body u all s.first (w.1.pieces.map (Piece.sym u tags))).1],
                                     lastblank := false, first := (body u all s.first (w.1.pieces.map (Piece.sym u tags))).2 }
    have hlen : 2 ≤ ((w2 :: ws).flatMap (fun w => w.1.render ++ renderBlanks w.2) ++ ['}']).length := by
      simp [Word.render]; omega
    have hlen1 : 1 ≤ (renderBlanks w.2 ++ ((w2 :: ws).flatMap (fun w => w.1.render ++ renderBlanks w.2) ++ ['}'])).length := by
      simp only [List.length_append] at hlen ⊢; omega
    have e0 : (w :: w2 :: ws).flatMap (fun w => w.1.render ++ renderBlanks w.2) ++ ['}'] =
        w.1.render ++ (renderBlanks w.2 ++ ((w2 :: ws).flatMap (fun w => w.1.render ++ renderBlanks w.2) ++ ['}'])) := by simp
    rw [e0]
    cases hbl : w.2 with
    | nil =>
      obtain ⟨s', e', h3, h4, h5⟩ := ih s1
      refine ⟨s', e', ?_, ?_, ?_⟩
      · exact Splits.word hd h1 (hwb w (by simp)) (by rw [hbl] at hlen1; exact hlen1) (by simpa [renderBlanks] using h3)
      · rw [h4]; simp [s1, bodies]
      · rw [h5]; simp [s1, SplitSt.sep, hbl, renderBlanks]
    | cons b bs =>
      rw [hbl] at h2 hlen1
      let s2 : SplitSt := { s1 with blanks := s1.blanks ++ [renderBlanks (b :: bs)], lastblank := true }
      obtain ⟨s', e', h3, h4, h5⟩ := ih s2
      refine ⟨s', e', ?_, ?_, ?_⟩
      · refine Splits.word hd h1 (hwb w (by simp)) hlen1 ?_
        rw [show renderBlanks (b :: bs) = b.render ++ renderBlanks bs from rfl, List.append_assoc]
        refine Splits.blank (s1 := { s1 with blanks := s1.blanks ++ [b.render], lastblank := true }) (h2 b (by simp))
          (by rw [List.length_append]; omega)
          (fun _ _ => by rw [List.length_append]; omega) (by simp [SplitSt.addBlank, s1]) ?_
        exact Splits.blanks (fun y hy => h2 y (by simp [hy])) hlen s1.blanks b.render rfl rfl h3
      · rw [h4]; simp [s2, s1, bodies]
      · rw [h5]; simp [s2, s1, SplitSt.sep, hbl]

end split

theorem length_bodies (u : Uni) (all first : Bool) (ws : List (List Sym)) : (bodies u all first ws).length = ws.length := by
  induction ws generalizing first with
  | nil => rfl
  | cons w ws ih => simp [bodies, ih]

/-- What a rule should see of a chunk: the head as word 0, each word with its word-bound blank, the blanks between the words. -/
def Chunk.seen (u : Uni) (k : Case) (c : Chunk) (following : Text) : RuleView where
  zero := c.head
  words := List.zipWith (fun w t => w.1.wbText ++ t) c.words (c.wordTexts u k)
  blanks := c.words.dropLast.map fun w => renderBlanks w.2
  following := following

theorem ruleView_eq (u : Uni) (hd : u.isdigit '>' = false) (c : Chunk) (h : c.wf u) (hne : c.words ≠ [])
    (hwb : ∀ w ∈ c.words, ∀ b, w.1.wb = some b → b.getLast? ≠ some (.esc ']')) (following : Text) :
    ruleView u c.render following =
      .ok (c.seen u (u.getcase (renderAtoms c.lem)) (following ++ renderBlanks c.lead)) := by
  have e : c.render = c.head ++ '{' :: (renderBlanks c.lead ++ (c.words.flatMap (fun w => w.1.render ++ renderBlanks w.2) ++ ['}'])) := by
    simp [Chunk.render]
  unfold ruleView splitWordsAndBlanks
  rw [e, vecTags_head c h, pseudolemma_head c h, beginChunk_head c h, wordzero_head c h]
  simp only [Outcome.bind]
  generalize u.getcase (renderAtoms c.lem) = k
  obtain ⟨w, ws, hw⟩ : ∃ w ws, c.words = w :: ws := List.exists_cons_of_ne_nil hne
  have hws := h.words
  rw [hw] at hws hwb ⊢
  obtain ⟨s', e', h1, h2, h3⟩ := splits_words (u := u) (all := decide (k = .AA)) hd c.tags w ws hws hwb
    { words := [], blanks := [following ++ renderBlanks c.lead], lastblank := true, first := decide (k = .Aa) }
  have h4 := Splits.blanks (s := { words := [], blanks := [following], lastblank := true, first := decide (k = .Aa) })
    h.lead (by simp [Word.render]; omega) [] following rfl rfl h1 _ (Nat.le_refl _)
  rw [h4]
  simp only [Outcome.map, List.nil_append] at h2 h3 ⊢
  rw [bodies_eq] at h2
  have hl : s'.words.length = (w :: ws).length := by
    rw [h2, ← bodies_eq, List.length_zipWith, length_bodies]; simp
  have hb : s'.blanks = (following ++ renderBlanks c.lead) :: (((w :: ws).dropLast.map fun x => renderBlanks x.2) ++ e') := by
    rw [h3]; simp [SplitSt.sep]
  rw [if_pos (.inl (by rw [hl, hb]; simp)), hl, hb, h2]
  simp [Chunk.seen, Chunk.wordTexts, hw]

/-- **C42.** A rule that matches a well-formed chunk sees the name and tags of the chunk as word 0, every word of the chunk with its
word-bound blank before it, the references replaced and the case of the name transferred; `<b/>` gives the blanks between the words;
the blank after the chunk is as it was.  (For chunks that begin with a word, and with no word-bound blank that ends with an escaped `]`.) -/
theorem C42_rule_sees_partial (u : Uni) (hd : u.isdigit '>' = false) (c : Chunk) (h : c.wf u) (hne : c.words ≠ []) (hlead : c.lead = [])
    (hwb : ∀ w ∈ c.words, ∀ b, w.1.wb = some b → b.getLast? ≠ some (.esc ']')) (following : Text) :
    ruleView u c.render following = .ok (c.seen u (u.getcase (renderAtoms c.lem)) following) := by
  rw [ruleView_eq u hd c h hne hwb]
  simp [hlead, renderBlanks]

example : ruleView ascii exChunk.render " ".toList = .ok
    { zero := "Nom<SN><pl>".toList, words := ["[[t:b]]Le<det><pl>".toList, "chien<n><pl>".toList], blanks := [" ".toList],
      following := " ".toList } := by
  rw [C42_rule_sees_partial ascii (by decide) exChunk exChunk_wf (by simp [exChunk]) rfl (by
    intro w hw b hb
    simp only [exChunk, List.mem_cons, List.not_mem_nil, or_false] at hw
    rcases hw with rfl | rfl
    · simp only [Option.some.injEq] at hb; subst hb; decide +kernel
    · simp at hb)]
  decide +kernel

/-- **C42 does not hold for chunks that begin with a blank**: for every such chunk that blank goes to the end of the blank that
follows the chunk in the input, and so is written after the words of the chunk. -/
theorem C42_leading_blank_violation (u : Uni) (hd : u.isdigit '>' = false) (c : Chunk) (h : c.wf u) (hne : c.words ≠ [])
    (hwb : ∀ w ∈ c.words, ∀ b, w.1.wb = some b → b.getLast? ≠ some (.esc ']')) (following : Text) :
    ∃ v, ruleView u c.render following = .ok v ∧ v.following = following ++ renderBlanks c.lead :=
  ⟨_, ruleView_eq u hd c h hne hwb following, rfl⟩

example : ruleView ascii "a<b>{[x]^c$}".toList " ".toList =
    .ok { zero := "a<b>".toList, words := ["c".toList], blanks := [], following := " [x]".toList } := by decide +kernel

/-- **C42 does not hold for a word-bound blank that ends with an escaped `]`**: the word is `]^c` and not `c`. -/
theorem C42_escaped_bracket_violation : ruleView ascii "a<b>{[[x\\]]]^c$}".toList [] =
    .ok { zero := "a<b>".toList, words := ["[[x\\]]^c".toList], blanks := [], following := [] } := by decide +kernel

/-! ## C44: case by the dictionary -/

/-- **C44.** Case handling off: words are as they were for the default action ... -/
theorem C44_default_partial (u : Uni) (hd : u.isdigit '>' = false) (c : Chunk) (h : c.wf u) (hc : c.Closed) :
    unchunk u true c.render = .ok (c.unfolded u .aa) := by
  rw [C41_unfold_partial u hd true c h hc]; rfl

/-- ... **but not for rules**: what a rule sees does not depend on the option. With `N` as the name of the chunk a rule sees `Cat`. -/
theorem C44_rule_violation :
    ruleView ascii "Nom<SN>{^cat<n>$}".toList [] =
      .ok { zero := "Nom<SN>".toList, words := ["Cat<n>".toList], blanks := [], following := [] } ∧
    unchunk ascii true "Nom<SN>{^cat<n>$}".toList = .ok "^cat<n>$".toList := by decide +kernel

end Verif.Chunk
