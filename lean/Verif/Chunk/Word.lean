import Verif.Transfer.Word
import Verif.Stream.Grammar
/-!
# C18: `InterchunkWord` (model in `Verif.Transfer.Word`)
-/
namespace Verif.Chunk
open Verif.Stream Verif.Transfer

/-- What precedes a `]` outside escapes does not matter, as long as there is something. -/
theorem initLoop_head (as : List Atom) (h : ∀ a ∈ as, a.wf ['{']) (prev : Text) (n : Nat) (rest : Text)
    (hp : prev ≠ [] ∨ as.head? ≠ some (.lit ']')) :
    initLoop prev n (renderAtoms as ++ '{' :: rest) = .ok (.inl (prev ++ renderAtoms as, '{' :: rest)) := by
  induction as generalizing prev n with
  | nil => rw [initLoop.eq_def]; simp
  | cons a as ih =>
    have ha := h a (by simp)
    have ih := fun p n hp => ih (fun x hx => h x (by simp [hx])) p n hp
    cases a with
    | esc c =>
      rw [initLoop.eq_def]
      simp [Atom.render, ih]
    | lit c =>
      obtain ⟨h1, h2, h3⟩ := ha
      have h3 : c ≠ '{' := by simpa using h3
      rw [initLoop.eq_def]
      simp only [renderAtoms_cons, Atom.render, List.cons_append, List.nil_append, h1, h3, if_false]
      by_cases hc : c = ']'
      · rw [if_pos hc]
        subst hc
        have hne : prev ≠ [] := by rcases hp with h | h <;> simp_all
        cases hl : prev.getLast? with
        | none => simp_all
        | some p => simp [ih]
      · rw [if_neg hc]
        simp [ih]

/-- **C18.** A chunk is divided at the first brace that is not escaped: what is before is the part that rules can read and
change, the rest is the queue; nothing is lost. -/
theorem C18_split (as : List Atom) (h : ∀ a ∈ as, a.wf ['{']) (hfirst : as.head? ≠ some (.lit ']')) (rest : Text) :
    IWord.init (renderAtoms as ++ '{' :: rest) = .ok { chunk := renderAtoms as, queue := '{' :: rest, wb := [] } := by
  simp [IWord.init, initLoop_head as h [] 0 rest (Or.inr hfirst)]

/-- Words with no bracket: `b_end` stays. -/
theorem initLoop_plain (as : List Atom) (h : ∀ a ∈ as, a.wf ['{', ']']) (prev : Text) (n : Nat) :
    initLoop prev n (renderAtoms as) = .ok (.inr n) := by
  induction as generalizing prev with
  | nil => rfl
  | cons a as ih =>
    have ha := h a (by simp)
    have ih := fun p => ih (fun x hx => h x (by simp [hx])) p
    cases a with
    | esc c => rw [initLoop.eq_def]; simp [Atom.render, ih]
    | lit c =>
      obtain ⟨h1, h2, h3⟩ := ha
      simp only [List.mem_cons, List.not_mem_nil, or_false, not_or] at h3
      rw [initLoop.eq_def]
      simp [Atom.render, ih, h1, h3]

theorem initLoop_wblank (wb w : List Atom) (h : ∀ a ∈ wb, a.wf ['{', ']']) (hw : ∀ a ∈ w, a.wf ['{', ']']) (prev : Text) (n : Nat)
    (hp : prev ≠ []) :
    initLoop prev n (renderAtoms wb ++ ']' :: ']' :: renderAtoms w) = .ok (.inr (prev.length + (renderAtoms wb).length + 2)) := by
  induction wb generalizing prev n with
  | nil =>
    rw [initLoop.eq_def]
    simp only [renderAtoms_nil, List.nil_append]
    cases hl : prev.getLast? with
    | none => simp_all
    | some p =>
      simp only [Char.reduceEq, if_false, if_true]
      rw [initLoop.eq_def]
      simp [initLoop_plain w hw]
  | cons a as ih =>
    have ha := h a (by simp)
    have ih := fun p n hp => ih (fun x hx => h x (by simp [hx])) p n hp
    cases a with
    | esc c => rw [initLoop.eq_def]; simp [Atom.render, ih]; omega
    | lit c =>
      obtain ⟨h1, h2, h3⟩ := ha
      simp only [List.mem_cons, List.not_mem_nil, or_false, not_or] at h3
      rw [initLoop.eq_def]
      simp [Atom.render, ih, h1, h3]; omega

/-- **C18** (words inside a chunk).  The word-bound blank, if there is one, is set apart; the rest is the word. -/
theorem C18_word (w : List Atom) (hw : ∀ a ∈ w, a.wf ['{', ']']) :
    IWord.init (renderAtoms w) = .ok { chunk := renderAtoms w, queue := [], wb := [] } ∧
    ∀ wb : List Atom, (∀ a ∈ wb, a.wf ['{', ']']) →
      IWord.init ('[' :: '[' :: renderAtoms wb ++ ']' :: ']' :: renderAtoms w)
        = .ok { chunk := renderAtoms w, queue := [], wb := '[' :: '[' :: renderAtoms wb ++ [']', ']'] } := by
  constructor
  · simp [IWord.init, initLoop_plain w hw]
  · intro wb h
    have h1 : initLoop [] 0 ('[' :: '[' :: renderAtoms wb ++ ']' :: ']' :: renderAtoms w)
        = .ok (.inr ((renderAtoms wb).length + 4)) := by
      rw [initLoop.eq_def]
      simp only [List.cons_append, Char.reduceEq, if_false]
      rw [initLoop.eq_def]
      simp only [Char.reduceEq, if_false]
      rw [initLoop_wblank wb w h hw _ _ (by simp)]
      simp; omega
    have e : '[' :: '[' :: renderAtoms wb ++ ']' :: ']' :: renderAtoms w
        = ('[' :: '[' :: renderAtoms wb ++ [']', ']']) ++ renderAtoms w := by simp
    have hl : (renderAtoms wb).length + 4 = ('[' :: '[' :: renderAtoms wb ++ [']', ']']).length := by simp
    simp only [IWord.init, h1, Outcome.map_ok]
    rw [e, hl, List.drop_left, List.take_left]

/-- **C18** (assignment).  Assigning to a part of the head replaces what the attribute finds there, and touches neither the
queue nor the word-bound blank. -/
theorem C18_set (w : IWord) (re : Re) (value : Text) :
    (w.setChunkPart re value).queue = w.queue ∧ (w.setChunkPart re value).wb = w.wb ∧
    (re.find w.chunk = none → (w.setChunkPart re value).chunk = w.chunk) ∧
    ∀ pre m post, re.find w.chunk = some (pre.length, pre.length + m.length) → w.chunk = pre ++ m ++ post →
      (w.setChunkPart re value).chunk = pre ++ value ++ post := by
  refine ⟨rfl, rfl, fun h => by simp [IWord.setChunkPart, Re.replace, h], ?_⟩
  intro pre m post h e
  have e1 : (pre ++ m ++ post).drop (pre.length + m.length) = post := by
    rw [← List.length_append, List.drop_left]
  have e2 : (pre ++ m ++ post).take pre.length = pre := by simp
  simp only [IWord.setChunkPart, Re.replace, h]
  rw [e, e1, e2]

/-- **C18** (reading).  A part that the attribute finds in the head, and is not the whole head, is what is read, whatever the
queue holds. -/
theorem C18_read (w : IWord) (re : Re) (pre m post : Text) (h : re.find w.chunk = some (pre.length, pre.length + m.length))
    (e : w.chunk = pre ++ m ++ post) (hm : m ≠ []) (hp : pre ++ post ≠ []) : w.chunkPart re = m := by
  have hmt : re.matchText w.chunk = m := by
    simp only [Re.matchText, h]
    rw [e]; simp
  have h1 : m.length ≠ 0 := by simpa using hm
  have h2 : m.length ≠ w.chunk.length := by
    intro hl
    rw [e] at hl
    simp only [List.length_append] at hl
    apply hp
    have h3 : pre.length = 0 := by omega
    have h4 : post.length = 0 := by omega
    rw [List.length_eq_zero_iff.1 h3, List.length_eq_zero_iff.1 h4]; rfl
  rw [IWord.chunkPart, hmt, if_neg h1, if_neg h2]

/-- **C18** (reading back what was assigned), for an attribute that finds the new value at the same place. -/
theorem C18_read_back (w : IWord) (re : Re) (value pre m post : Text)
    (h : re.find w.chunk = some (pre.length, pre.length + m.length)) (e : w.chunk = pre ++ m ++ post)
    (hstable : re.find (pre ++ value ++ post) = some (pre.length, pre.length + value.length))
    (hv : value ≠ []) (hp : pre ++ post ≠ []) : (w.setChunkPart re value).chunkPart re = value := by
  have hc := (C18_set w re value).2.2.2 pre m post h e
  exact C18_read _ re pre value post (by rw [hc]; exact hstable) hc hv hp

/-- The attribute `lem` (transfer_data.cc:47), on texts without quotes: everything before the first `<`. -/
def lemRe : Re where
  find t := if (t.takeWhile (· ≠ '<')).length = 0 then none else some (0, (t.takeWhile (· ≠ '<')).length)

/-- A case that meets the hypotheses of `C18_read_back`. -/
example : ∃ w, IWord.init t!"nom<SN><sg>{^cat<n><2>$}" = .ok w ∧ w.chunkPart lemRe = t!"nom" ∧
    (w.setChunkPart lemRe t!"Nom").chunkPart lemRe = t!"Nom" ∧
    (w.setChunkPart lemRe t!"Nom").chunk ++ (w.setChunkPart lemRe t!"Nom").queue = t!"Nom<SN><sg>{^cat<n><2>$}" := by
  refine ⟨_, C18_split (t!"nom<SN><sg>".map .lit) (by decide) (by decide) t!"^cat<n><2>$}", ?_, ?_, ?_⟩ <;> decide +kernel

/-- **C18 (only the head is read) does not hold** for a chunk without tags: the lemma read goes on into the words inside
the chunk, because a part equal to the whole head is looked for again in the head and the queue (interchunk_word.cc:114). -/
theorem C18_lemma_without_tags_violation :
    ∃ w, IWord.init t!"nom{^cat<n>$}" = .ok w ∧ w.chunk = t!"nom" ∧ w.chunkPart lemRe = t!"nom{^cat" := by
  refine ⟨⟨t!"nom", t!"{^cat<n>$}", []⟩, C18_split (t!"nom".map .lit) (by decide) (by decide) t!"^cat<n>$}", rfl, ?_⟩
  decide +kernel

/-- A head that starts with a bracket makes the code read before the beginning of the text (interchunk_word.cc:80). -/
theorem C18_bracket_violation : IWord.init t!"]a{^b$}" = .ub := by decide +kernel

end Verif.Chunk
