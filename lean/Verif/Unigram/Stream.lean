import Verif.Base
/-!
# Model of the lexical-unit stream of the unigram and sentence taggers

`apertium/morpheme.cc`, `apertium/analysis.cc`, `apertium/stream.cc`.  The input is the list of code points
not read yet; `InputFile::get` takes its head (`U_EOF` for ever once it is empty), `unget` puts it back.
-/
namespace Verif.Unigram

/-- `class Morpheme` (morpheme.h): `TheLemma` and `TheTags` (without the angle brackets). -/
structure Morpheme where
  lemma : Text
  tags : List Text
  deriving DecidableEq, Repr

/-- `class Analysis` (analysis.h): `TheMorphemes`. -/
structure Analysis where
  morphemes : List Morpheme
  deriving DecidableEq, Repr

/-- `class LexicalUnit` (lexical_unit.h): `TheSurfaceForm` and `TheAnalyses`. -/
structure LexicalUnit where
  surface : Text
  analyses : List Analysis
  deriving DecidableEq, Repr

/-- `class StreamedType` (streamed_type.h): `TheString` and the optional `TheLexicalUnit`. -/
structure Token where
  str : Text
  lu : Option LexicalUnit
  deriving DecidableEq, Repr

/-- `Morpheme::operator UString` (morpheme.cc:43-63); it throws on an empty tag list or lemma. -/
def printMorpheme (m : Morpheme) : Outcome Text :=
  if m.tags = [] then .fail
  else if m.lemma = [] then .fail
  else .ok (m.lemma ++ m.tags.flatMap (fun t => '<' :: t ++ ['>']))

/-- The loop of `Analysis::operator UString` (analysis.cc:46-50). -/
def printMore : List Morpheme → Outcome Text
  | [] => .ok []
  | m :: ms => do
    let a ← printMorpheme m
    let b ← printMore ms
    .ok ('+' :: a ++ b)

/-- `Analysis::operator UString` (analysis.cc:36-53). -/
def printAnalysis (a : Analysis) : Outcome Text :=
  match a.morphemes with
  | [] => .fail
  | m :: ms => do
    let x ← printMorpheme m
    let y ← printMore ms
    .ok (x ++ y)

/-- lttoolbox's `InputFile::readBlock(start, end)` after the start character (assumed behaviour: read up to
and including the first unescaped `e`, or to the end of the input): the text read, and the rest. -/
def readBlock (e : Char) : Text → Text × Text
  | [] => ([], [])
  | [c] => ([c], [])
  | c :: d :: rest =>
    if c = e then ([c], d :: rest)
    else if c = '\\' then (c :: d :: (readBlock e rest).1, (readBlock e rest).2)
    else (c :: (readBlock e (d :: rest)).1, (readBlock e (d :: rest)).2)
  termination_by t => t.length

/-- The loops that collect a lemma or a lemma queue (morpheme.cc:69-78 with `stops` = `<`, `$`, `/`, NUL, and
94-103 with `+` too): the text collected and the rest, from the stopping character on.  At the end of the input
`get` returns `U_EOF` for ever, which is none of the stopping characters: the loop never ends. -/
def readLemma (stops : List Char) (acc : Text) : Text → Outcome (Text × Text)
  | [] => .diverge
  | [c] =>
    if c ∈ stops then .ok (acc, [c]) else .diverge
  | c :: d :: rest =>
    if c ∈ stops then .ok (acc, c :: d :: rest)
    else if c = '\\' then
      if d = '\x00' then .fail else readLemma stops (acc ++ [c, d]) rest
    else readLemma stops (acc ++ [c]) (d :: rest)
  termination_by t => t.length

def lemmaStops : List Char := ['<', '$', '/', '\x00']
def queueStops : List Char := ['<', '$', '/', '\x00', '+']

/-- The loop over the tags (morpheme.cc:82-89): `tg.substr(1, tg.size()-2)` drops the first and the last
character of the block.  `n` bounds the number of tags; the callers give the length of the input. -/
def readTags : Nat → List Text → Text → Outcome (List Text × Text)
  | n, acc, c :: rest =>
    if c = '<' then
      match n with
      | 0 => .diverge
      | n + 1 =>
        let tg := (readBlock '>' rest).1
        if tg.length = 1 then .fail
        else readTags n (acc ++ [tg.take (tg.length - 1)]) (readBlock '>' rest).2
    else .ok (acc, c :: rest)
  | _, acc, [] => .ok (acc, [])

/-- `Morpheme::read` (morpheme.cc:65-109). -/
def readMorpheme (t : Text) : Outcome (Morpheme × Text) := do
  let (lemma, t1) ← readLemma lemmaStops [] t
  if lemma = [] then .fail
  else do
    let (tags, t2) ← readTags t1.length [] t1
    if tags = [] then .fail
    else
      match t2 with
      | c :: _ =>
        if c = '#' then do
          let (lemma', t3) ← readLemma queueStops lemma t2
          match t3 with
          | d :: _ => if d = '<' then .fail else .ok (⟨lemma', tags⟩, t3)
          | [] => .ok (⟨lemma', tags⟩, t3)
        else .ok (⟨lemma, tags⟩, t2)
      | [] => .ok (⟨lemma, tags⟩, t2)

/-- `Analysis::read` (analysis.cc:55-68); `n` bounds the number of morphemes, the callers give the length of the
input (a morpheme has at least one character). -/
def readAnalysis : Nat → List Morpheme → Text → Outcome (Analysis × Text)
  | 0, _, _ => .diverge
  | n + 1, acc, t => do
    let (m, t1) ← readMorpheme t
    match t1 with
    | [] => .fail
    | c :: rest =>
      if c = '+' then readAnalysis n (acc ++ [m]) rest
      else if c = '\x00' then .fail
      else .ok (⟨acc ++ [m]⟩, c :: rest)

/-- The loop over the analyses (stream.cc:62-69); returns what follows the `$`. -/
def readAnalyses : Nat → List Analysis → Text → Outcome (List Analysis × Text)
  | 0, _, _ => .diverge
  | n + 1, acc, t => do
    let (a, t1) ← readAnalysis t.length [] t
    match t1 with
    | [] => .fail
    | c :: rest =>
      if c = '/' then readAnalyses n (acc ++ [a]) rest
      else if c = '$' then .ok (acc ++ [a], rest)
      else .fail

/-- lttoolbox's `InputFile::readBlank(true)` (assumed behaviour: everything up to an unescaped `^`, a NUL or the
end of the input; a backslash takes the next character with it, `[` a whole superblank, in which `^` and NUL
are ordinary characters): the text read, and the rest. -/
def readBlank : Nat → Text → Text × Text
  | 0, t => ([], t)
  | _ + 1, [] => ([], [])
  | n + 1, c :: rest =>
    if c = '^' ∨ c = '\x00' then ([], c :: rest)
    else if c = '\\' then
      match rest with
      | [] => ([c], [])
      | d :: rest' => (c :: d :: (readBlank n rest').1, (readBlank n rest').2)
    else if c = '[' then
      let b := readBlock ']' rest
      (c :: b.1 ++ (readBlank n b.2).1, (readBlank n b.2).2)
    else (c :: (readBlank n rest).1, (readBlank n rest).2)

/-- The loop that collects the surface form (stream.cc:41-49); it has no test for the end of the input. -/
def readSurface (acc : Text) : Text → Outcome (Text × Text)
  | [] => .diverge
  | [c] => if c = '/' ∨ c = '$' then .ok (acc, [c]) else .diverge
  | c :: d :: rest =>
    if c = '/' ∨ c = '$' then .ok (acc, c :: d :: rest)
    else if c = '\\' then readSurface (acc ++ [c, d]) rest
    else readSurface (acc ++ [c]) (d :: rest)
  termination_by t => t.length

/-- The lexical unit after its `^` (stream.cc:40-70). -/
def readUnit (t : Text) : Outcome (LexicalUnit × Text) := do
  let (sf, t1) ← readSurface [] t
  match t1 with
  | [] => .diverge
  | c :: t2 =>
    if c = '$' then .fail
    else if sf = [] then .fail
    else
      match t2 with
      | [] => .diverge
      | d :: t3 =>
        if d = '$' then .fail
        else if d = '*' then .ok (⟨sf, []⟩, (readBlock '$' t3).2)
        else do
          let (as, t4) ← readAnalyses t2.length [] t2
          .ok (⟨sf, as⟩, t4)

/-- The end of `Stream::get` (stream.cc:73-76): a NUL is consumed and remembered in `private_flush_`. -/
def endGet (tok : Token) (t : Text) : Token × Bool × Text :=
  match t with
  | [] => (tok, false, [])
  | c :: rest => if c = '\x00' then (tok, true, rest) else (tok, false, c :: rest)

/-- `Stream::get` (stream.cc:32-79): the token, `flush_()` after it, and the rest of the input. -/
def get (t : Text) : Outcome (Token × Bool × Text) :=
  let b := readBlank (t.length + 1) t
  match b.2 with
  | [] => .ok (endGet ⟨b.1, none⟩ [])
  | c :: rest =>
    if c = '^' then do
      let (lu, t') ← readUnit rest
      .ok (endGet ⟨b.1, some lu⟩ t')
    else .ok (endGet ⟨b.1, none⟩ (c :: rest))

/-- The flags read by `outputLexicalUnit`: `getShowSuperficial`, `getMark`, `getFirst`. -/
structure Flags where
  showSuperficial : Bool := false
  mark : Bool := false
  first : Bool := false

/-- The loop of `outputLexicalUnit` over the other analyses (stream.cc:119-122). -/
def printOthers (best : Analysis) : List Analysis → Outcome Text
  | [] => .ok []
  | a :: as => do
    let x ← if a ≠ best then (do let p ← printAnalysis a; .ok ('/' :: p)) else .ok []
    let y ← printOthers best as
    .ok (x ++ y)

/-- `Stream::outputLexicalUnit` (stream.cc:95-126): the text written. -/
def outputLexicalUnit (f : Flags) (lu : LexicalUnit) (analysis : Option Analysis) : Outcome Text :=
  let sup := if f.showSuperficial then lu.surface ++ ['/'] else []
  match analysis with
  | none => .ok ('^' :: sup ++ '*' :: lu.surface ++ ['$'])
  | some best =>
    if lu.analyses = [] then .ok ('^' :: sup ++ '*' :: lu.surface ++ ['$'])
    else do
      let p ← printAnalysis best
      let others ← if f.first then printOthers best lu.analyses else .ok []
      .ok ('^' :: (if f.mark ∧ lu.analyses.length ≠ 1 then ['='] else []) ++ sup ++ p ++ others ++ ['$'])

/-- `UnigramTagger::tag(const LexicalUnit&, ..)` (unigram_tagger.cc:268-294): the analysis selected.  `score` is
`UnigramTagger::score`, `gt` the comparison `>` of `long double`. -/
def choose {W : Type} (score : Analysis → W) (gt : W → W → Bool) :
    Option (Analysis × W) → List Analysis → Option (Analysis × W)
  | best, [] => best
  | none, a :: as => choose score gt (some (a, score a)) as
  | some (b, m), a :: as =>
    if gt (score a) m then choose score gt (some (a, score a)) as
    else choose score gt (some (b, m)) as

def best {W : Type} (score : Analysis → W) (gt : W → W → Bool) (lu : LexicalUnit) : Option Analysis :=
  (choose score gt none lu.analyses).map (·.1)

/-- `UnigramTagger::tag(Stream&, ostream&)` (unigram_tagger.cc:242-266): what is written.  `sel` is the analysis
selected for a lexical unit.  `n` bounds the number of calls of `get`. -/
def tagLoop (f : Flags) (sel : LexicalUnit → Option Analysis) : Nat → Text → Outcome Text
  | 0, _ => .diverge
  | n + 1, t => do
    let (tok, flush, t') ← get t
    match tok.lu with
    | none =>
      if flush then do
        let out ← tagLoop f sel n t'
        .ok (tok.str ++ out)
      else .ok tok.str
    | some lu => do
      let o ← outputLexicalUnit f lu (sel lu)
      let out ← tagLoop f sel n t'
      .ok (tok.str ++ o ++ out)

/-- `apertium-tagger -g -u MODEL`: the tagger run on a whole input; every `get` but the last one takes at least
one character. -/
def unigramTag {W : Type} (f : Flags) (score : Analysis → W) (gt : W → W → Bool) (t : Text) : Outcome Text :=
  tagLoop f (best score gt) (t.length + 1) t

end Verif.Unigram
