import Verif.Pattern.Choice
/-!
# C72: what the programs read of a word
-/
namespace Verif.Pattern
open Verif.Bil (Step)
open Verif.Stream (Atom renderAtoms plainAtoms)
open Verif.Chunk (Piece tagText)

/-- The characters of a lemma. -/
def lemPieces (as : List Atom) : List Piece := as.map (fun a => match a with | .lit c => .lit c | .esc c => .esc c)

/-- **C72, words in apertium-transfer.** Of a word whose source side is a lemma and tags, those are read: the lemma in lower case and without the escapes. -/
theorem C72_word (lower : Char → Char) (x : Bil.Unit) (h : x.wf) (lem : List Atom) (tags : List Text) (hs : x.source = lemPieces lem ++ tags.map .tag) :
    transferWord lower x.token = .ok (Word.events ⟨(plainAtoms lem).map lower, tags.map tagText⟩) := by
  unfold transferWord
  rw [Bil.C47_pattern lower x h, hs]
  simp only [Word.events, lemPieces, plainAtoms, List.map_append, List.map_map]
  have e : lem.map (Bil.pieceStep lower ∘ fun a => match a with | .lit c => Piece.lit c | .esc c => Piece.esc c) =
      lem.map ((Step.char ∘ lower) ∘ Atom.char) := by
    apply List.map_congr_left
    intro a _
    cases a <;> rfl
  rw [e]
  rfl

theorem tagEnd_all (t r : Text) (ht : '>' ∉ t) : Bil.tagEnd (t ++ '>' :: r) = some (t ++ ['>'], r) := by
  induction t with
  | nil => rw [List.nil_append, Bil.tagEnd.eq_def]; simp
  | cons c t ih =>
    simp only [List.mem_cons, not_or] at ht
    rw [List.cons_append, Bil.tagEnd.eq_def]
    simp only [if_neg (Ne.symm ht.1)]
    rw [ih ht.2]
    rfl

theorem chunkWord_lem (lower : Char → Char) (tags : Bool) (as : List Atom) (h : ∀ a ∈ as, a.wf ['<', '{']) (r : Text) (n : Nat) (hn : (renderAtoms as ++ r).length < n) :
    ∃ n', r.length < n' ∧ chunkWord lower tags n (renderAtoms as ++ r) = (as.map (fun a => Step.char (lower a.char))) ++ chunkWord lower tags n' r := by
  induction as generalizing n with
  | nil => exact ⟨n, hn, rfl⟩
  | cons a as ih =>
    have ha := h a (by simp)
    have ih := fun n hn => ih (fun a ha => h a (by simp [ha])) n hn
    cases n with
    | zero => omega
    | succ n =>
      cases a with
      | lit c =>
        have e : renderAtoms (.lit c :: as) ++ r = c :: (renderAtoms as ++ r) := rfl
        rw [e] at hn ⊢
        simp only [Atom.wf, List.mem_cons, List.not_mem_nil, or_false, not_or] at ha
        obtain ⟨n', h1, h2⟩ := ih n (by simpa using hn)
        refine ⟨n', h1, ?_⟩
        rw [chunkWord.eq_def]
        simp only [if_neg ha.1, if_neg ha.2.2.1, if_neg ha.2.2.2]
        rw [h2]
        rfl
      | esc c =>
        have e : renderAtoms (.esc c :: as) ++ r = '\\' :: c :: (renderAtoms as ++ r) := rfl
        rw [e] at hn ⊢
        obtain ⟨n', h1, h2⟩ := ih n (by simp at hn ⊢; omega)
        refine ⟨n', h1, ?_⟩
        rw [chunkWord.eq_def]
        simp only [if_true]
        rw [h2]
        rfl

theorem chunkWord_tags (lower : Char → Char) (ts : List Text) (h : ∀ t ∈ ts, '>' ∉ t) (r : Text) (hr : r = [] ∨ ∃ r', r = '{' :: r') (n : Nat)
    (hn : (ts.flatMap tagText ++ r).length < n) : chunkWord lower true n (ts.flatMap tagText ++ r) = ts.map (fun t => Step.tag (tagText t)) := by
  induction ts generalizing n with
  | nil =>
    cases n with
    | zero => omega
    | succ n =>
      rcases hr with rfl | ⟨r', rfl⟩
      · rfl
      · rw [chunkWord.eq_def]; rfl
  | cons t ts ih =>
    cases n with
    | zero => omega
    | succ n =>
      have e : (t :: ts).flatMap tagText ++ r = '<' :: (t ++ '>' :: (ts.flatMap tagText ++ r)) := by simp [tagText]
      rw [e] at hn ⊢
      rw [chunkWord.eq_def]
      simp only [Char.reduceEq, if_false, if_true]
      rw [tagEnd_all _ _ (h t (by simp))]
      dsimp only
      rw [ih (fun t ht => h t (by simp [ht])) n (by simp at hn ⊢; omega)]
      rfl

/-- **C72, words in apertium-interchunk.** Of a chunk, its lemma and its tags are read, and not what is inside. -/
theorem C72_chunk (lower : Char → Char) (u : Chunk.Uni) (c : Chunk.Chunk) (h : c.wf u) :
    chunkWord lower true (c.render.length + 1) c.render = Word.events ⟨(plainAtoms c.lem).map lower, c.tags.map tagText⟩ := by
  have e : c.render = renderAtoms c.lem ++ (c.tags.flatMap tagText ++ '{' :: (Chunk.renderBlanks c.lead ++ c.words.flatMap (fun w => w.1.render ++ Chunk.renderBlanks w.2) ++ ['}'])) := by
    simp [Chunk.Chunk.render, Chunk.Chunk.head]
  obtain ⟨n', h1, h2⟩ := chunkWord_lem lower true c.lem h.lem _ (c.render.length + 1) (by rw [← e]; omega)
  rw [e] at h2 ⊢
  rw [h2, chunkWord_tags lower c.tags (fun t ht hx => (by simpa using h.tags t ht _ hx : False)) _ (Or.inr ⟨_, rfl⟩) n' h1]
  simp [Word.events, plainAtoms, Function.comp_def]

/-- **C72, words in apertium-postchunk.** Of a chunk, the lemma is read, without the tags. -/
theorem C72_chunk_name (lower : Char → Char) (u : Chunk.Uni) (c : Chunk.Chunk) (h : c.wf u) :
    chunkWord lower false (c.render.length + 1) c.render = Word.events ⟨(plainAtoms c.lem).map lower, []⟩ := by
  have e : c.render = renderAtoms c.lem ++ (c.tags.flatMap tagText ++ '{' :: (Chunk.renderBlanks c.lead ++ c.words.flatMap (fun w => w.1.render ++ Chunk.renderBlanks w.2) ++ ['}'])) := by
    simp [Chunk.Chunk.render, Chunk.Chunk.head]
  obtain ⟨n', h1, h2⟩ := chunkWord_lem lower false c.lem h.lem _ (c.render.length + 1) (by rw [← e]; omega)
  rw [e] at h2 ⊢
  rw [h2]
  have h3 : ∀ n r, ∀ c, c = '<' ∨ c = '{' → chunkWord lower false n (c :: r) = [] := by
    intro n r c hc
    cases n with
    | zero => rfl
    | succ n => rcases hc with rfl | rfl <;> (rw [chunkWord.eq_def]; simp)
  have h4 : chunkWord lower false n' (c.tags.flatMap tagText ++ '{' :: (Chunk.renderBlanks c.lead ++ c.words.flatMap (fun w => w.1.render ++ Chunk.renderBlanks w.2) ++ ['}'])) = [] := by
    cases c.tags with
    | nil => exact h3 _ _ _ (Or.inr rfl)
    | cons t ts => exact h3 _ _ _ (Or.inl rfl)
  rw [h4]
  simp [Word.events, plainAtoms, Function.comp_def]

/-- **C72, words in apertium-multiple-translations.** Of a word that is a lemma and tags, those are read. -/
theorem C72_mult (lower : Char → Char) (as : List Atom) (h : ∀ a ∈ as, a.wf ['<']) (ts : List Text) (ht : ∀ t ∈ ts, '>' ∉ t) (n : Nat)
    (hn : (renderAtoms as ++ ts.flatMap tagText).length < n) :
    multWord lower n (renderAtoms as ++ ts.flatMap tagText) = Word.events ⟨(plainAtoms as).map lower, ts.map tagText⟩ := by
  have htags : ∀ (ts : List Text), (∀ t ∈ ts, '>' ∉ t) → ∀ n, (ts.flatMap tagText).length < n → multWord lower n (ts.flatMap tagText) = ts.map (fun t => Step.tag (tagText t)) := by
    intro ts
    induction ts with
    | nil =>
      intro _ n hn
      cases n with
      | zero => omega
      | succ n => rfl
    | cons t ts ih =>
      intro h n hn
      cases n with
      | zero => omega
      | succ n =>
        have e : (t :: ts).flatMap tagText = '<' :: (t ++ '>' :: ts.flatMap tagText) := by simp [tagText]
        rw [e] at hn ⊢
        rw [multWord.eq_def]
        simp only [Char.reduceEq, if_false, if_true]
        rw [tagEnd_all _ _ (h t (by simp))]
        dsimp only
        rw [ih (fun t ht => h t (by simp [ht])) n (by simp at hn ⊢; omega)]
        rfl
  induction as generalizing n with
  | nil =>
    have e : renderAtoms [] ++ ts.flatMap tagText = ts.flatMap tagText := rfl
    rw [e] at hn ⊢
    rw [htags ts ht n hn]
    simp [Word.events, plainAtoms, Function.comp_def]
  | cons a as ih =>
    have ha := h a (by simp)
    have ih := fun n hn => ih (fun a ha => h a (by simp [ha])) n hn
    cases n with
    | zero => omega
    | succ n =>
      cases a with
      | lit c =>
        have e : renderAtoms (.lit c :: as) ++ ts.flatMap tagText = c :: (renderAtoms as ++ ts.flatMap tagText) := rfl
        rw [e] at hn ⊢
        simp only [Atom.wf, List.mem_cons, List.not_mem_nil, or_false] at ha
        rw [multWord.eq_def]
        simp only [if_neg ha.1, if_neg ha.2.2]
        rw [ih n (by simpa using hn)]
        rfl
      | esc c =>
        have e : renderAtoms (.esc c :: as) ++ ts.flatMap tagText = '\\' :: c :: (renderAtoms as ++ ts.flatMap tagText) := rfl
        rw [e] at hn ⊢
        rw [multWord.eq_def]
        simp only [if_true]
        rw [ih n (by simp at hn ⊢; omega)]
        rfl

end Verif.Pattern
