import Verif.Unigram.Stream
/-!
# Model of the sentence stream of the perceptron tagger

`apertium/sentence_stream.cc`: `SentenceTagger::tag` and the construction of `TrainingCorpus`.  `tagSentence` (virtual in
the code; the perceptron's beam search) is a parameter.
-/
namespace Verif.Unigram

/-- `isSentenceEnd` of a token (sentence_stream.cc:10-24): exactly one analysis of one morpheme with the one tag
`sent`. -/
def isSentenceEnd (u : LexicalUnit) : Bool :=
  match u.analyses with
  | [a] =>
    match a.morphemes with
    | [m] => decide (m.tags = [t!"sent"])
    | _ => false
  | _ => false

/-- `Stream::peekIsBlank` (stream.cc:81-91): the next two characters are newlines. -/
def peekIsBlank : Text → Bool
  | a :: b :: _ => decide (a = '\n' ∧ b = '\n')
  | _ => false

/-- The other `isSentenceEnd` (sentence_stream.cc:26-32). -/
def endsSentence (seg : Bool) (u : LexicalUnit) (rest : Text) : Bool :=
  if seg then isSentenceEnd u && peekIsBlank rest else isSentenceEnd u

/-- The loop of `tagAndPutSentence` (sentence_stream.cc:72-82): `*(ts_it++)` past the end of the result of
`tagSentence` is undefined. -/
def put (f : Flags) : List Token → List (Option Analysis) → Outcome Text
  | [], _ => .ok []
  | tok :: ts, sels =>
    match tok.lu with
    | none => do
      let out ← put f ts sels
      .ok (tok.str ++ out)
    | some u =>
      match sels with
      | [] => .ub
      | s :: sels => do
        let o ← outputLexicalUnit f u s
        let out ← put f ts sels
        .ok (tok.str ++ o ++ out)

/-- `SentenceTagger::tag` (sentence_stream.cc:36-60): `full` and `lex` are `full_sent` and `lexical_sent`
(`flushes` only decides about flushing the output buffer).  What is written; `n` bounds the number of tokens. -/
def sentenceLoop (f : Flags) (seg : Bool) (tagS : List LexicalUnit → List (Option Analysis)) :
    Nat → List Token → List LexicalUnit → Text → Outcome Text
  | 0, _, _, _ => .diverge
  | n + 1, full, lex, t => do
    let (tok, flush, t') ← get t
    match tok.lu with
    | some u =>
      if endsSentence seg u t' then do
        let o ← put f (full ++ [tok]) (tagS (lex ++ [u]))
        let out ← sentenceLoop f seg tagS n [] [] t'
        .ok (o ++ out)
      else sentenceLoop f seg tagS n (full ++ [tok]) (lex ++ [u]) t'
    | none => do
      let o ← put f (full ++ [tok]) (tagS lex)
      if flush then do
        let out ← sentenceLoop f seg tagS n [] [] t'
        .ok (o ++ '\x00' :: out)
      else .ok o

/-- The sentence tagger on a whole input. -/
def sentenceTag (f : Flags) (seg : Bool) (tagS : List LexicalUnit → List (Option Analysis)) (t : Text) : Outcome Text :=
  sentenceLoop f seg tagS (t.length + 1) [] [] t

/-! ### The training corpus -/

/-- A sentence of the training corpus: the tagged analyses and the untagged units. -/
abbrev TrainingSentence := List (Option Analysis) × List LexicalUnit

/-- A token with a lexical unit, and whether the sentence ends after it (`isSentenceEnd(token, stream, sent_seg)`). -/
abbrev CToken := LexicalUnit × Bool

/-- `contToEndOfSent` (sentence_stream.cc:160-174): `none` if the stream ended (`true` in the code), otherwise what
is left after the token that ends the sentence; `tok` is the current token. -/
def contToEnd : CToken → List CToken → Option (List CToken)
  | tok, rest =>
    if tok.2 then some rest
    else
      match rest with
      | [] => none
      | tok' :: rest' => contToEnd tok' rest'
  termination_by _ rest => rest.length

theorem contToEnd_length (tok : CToken) (rest r : List CToken) (h : contToEnd tok rest = some r) :
    r.length ≤ rest.length := by
  induction rest generalizing tok with
  | nil =>
    rw [contToEnd] at h
    split at h
    · simp at h; simp [h]
    · simp at h
  | cons a rest ih =>
    rw [contToEnd] at h
    split at h
    · simp at h; simp [← h]
    · have := ih a h
      simp; omega

/-- `std::vector::back` replaced by `f` of it. -/
def modifyLast (f : TrainingSentence → TrainingSentence) : List TrainingSentence → List TrainingSentence
  | [] => []
  | [s] => [f s]
  | s :: ss => s :: modifyLast f ss

/-- The loop of the constructor of `TrainingCorpus` (sentence_stream.cc:97-157): `ss` is `sentences`,
`fresh` is `was_sentence_end`.  `training_sentence` points to the last of `sentences`; it is not initialised before the
first one is pushed.  The result is `sentences`, or failure (the exception `UnalignedStreams`). -/
def corpusLoop (skip : Bool) (ss : List TrainingSentence) (fresh : Bool) :
    List CToken → List CToken → Outcome (List TrainingSentence)
  | [], [] => .ok ss
  | [], _ :: _ => .fail
  | _ :: _, [] => .fail
  | t :: ts, u :: us =>
    if u.1.surface ≠ t.1.surface then
      if skip then
        if ss = [] then .ub
        else
          match ht : contToEnd t ts, contToEnd u us with
          | some ts', some us' => corpusLoop skip (modifyLast (fun _ => ([], [])) ss) fresh ts' us'
          | none, none => .ok (modifyLast (fun _ => ([], [])) ss)
          | _, _ => .fail
      else .fail
    else
      let ss1 := if fresh then ss ++ [([], [])] else ss
      if ss1 = [] then .ub
      else corpusLoop skip (modifyLast (fun s => (s.1 ++ [t.1.analyses.head?], s.2 ++ [u.1])) ss1) t.2 ts us
  termination_by ts => ts.length
  decreasing_by
    all_goals simp_wf
    all_goals (have := contToEnd_length _ _ _ ht; omega)

end Verif.Unigram
