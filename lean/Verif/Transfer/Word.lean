import Verif.Transfer.Base
/-!
# Model of `ApertiumRE`, `TransferWord` and `InterchunkWord`
-/
namespace Verif.Transfer

/-- A compiled regular expression (apertium_re.cc), as what ICU's `RegexMatcher::find` answers on a text: the start and the end
of the first match.  An `ApertiumRE` that has not been compiled never matches (apertium_re.cc:75, 110). -/
structure Re where
  find : Text → Option (Nat × Nat)

/-- What is assumed of ICU: the match is inside the text. -/
def Re.Valid (re : Re) : Prop := ∀ t a b, re.find t = some (a, b) → a ≤ b ∧ b ≤ t.length

/-- `ApertiumRE::match` (apertium_re.cc:72-104). -/
def Re.matchText (re : Re) (t : Text) : Text :=
  match re.find t with
  | none => []
  | some (a, b) => (t.drop a).take (b - a)

/-- `ApertiumRE::replace` (apertium_re.cc:106-136). -/
def Re.replace (re : Re) (t value : Text) : Text × Bool :=
  match re.find t with
  | none => (t, false)
  | some (a, b) => (t.take a ++ value ++ t.drop b, true)

/-- `TransferWord` (transfer_word.h). -/
structure TWord where
  src : Text
  tgt : Text
  ref : Text
  wb : Text
  queue : Nat
  deriving DecidableEq, Repr

/-- `s.substr(0, s.size() - queue_length)` (transfer_word.cc:85 etc.); the subtraction is unsigned, so a
queue longer than the text cuts nothing. -/
def cutQueue (q : Nat) (t : Text) : Text := if q ≤ t.length then t.take (t.length - q) else t

/-- `TransferWord::source`, `target`, `reference` on one side (transfer_word.cc:76-117). -/
def readPart (q : Nat) (re : Re) (withQueue : Bool) (t : Text) : Text :=
  if withQueue then re.matchText t else re.matchText (cutQueue q t)

/-- `setSource`, `setTarget`, `setReference` on one side (transfer_word.cc:125-172).  The last `substr` throws
when the queue is longer than the text. -/
def writePart (q : Nat) (re : Re) (withQueue : Bool) (value t : Text) : Outcome Text :=
  if withQueue then .ok (re.replace t value).1
  else if q ≤ t.length then .ok ((re.replace (cutQueue q t) value).1 ++ t.drop (t.length - q))
  else .fail

/-- One side of a word; any `side` other than `sl` and `ref` is the target when reading (transfer.cc:252-267). -/
def TWord.side (w : TWord) : Side → Text
  | .sl => w.src
  | .ref => w.ref
  | _ => w.tgt

def TWord.read (w : TWord) (sd : Side) (re : Re) (withQueue : Bool) : Text :=
  readPart w.queue re withQueue (w.side sd)

/-- Assignment through `<let>`: any `side` other than `tl` and `ref` is the source (transfer.cc:621-648). -/
def TWord.write (w : TWord) (sd : Side) (re : Re) (withQueue : Bool) (value : Text) : Outcome TWord :=
  match sd with
  | .tl => (writePart w.queue re withQueue value w.tgt).map fun t => { w with tgt := t }
  | .ref => (writePart w.queue re withQueue value w.ref).map fun t => { w with ref := t }
  | _ => (writePart w.queue re withQueue value w.src).map fun t => { w with src := t }

/-- `InterchunkWord` (interchunk_word.h). -/
structure IWord where
  chunk : Text
  queue : Text
  wb : Text
  deriving DecidableEq, Repr

/-- The loop of `InterchunkWord::init` (interchunk_word.cc:66-86): `prev` is the text already read, `bEnd` is `b_end`.
The result is the text before the first unescaped `{` and the rest, if there is one, else the final `b_end`.
A `]` as the first character makes the code read before the text (interchunk_word.cc:80): undefined
behaviour. -/
def initLoop (prev : Text) (bEnd : Nat) : Text → Outcome (Sum (Text × Text) Nat)
  | [] => .ok (.inr bEnd)
  | c :: rest =>
    if c = '\\' then
      match rest with
      | [] => .ok (.inr bEnd)
      | d :: rest' => initLoop (prev ++ [c, d]) bEnd rest'
    else if c = '{' then .ok (.inl (prev, c :: rest))
    else if c = ']' then
      match prev.getLast? with
      | none => .ub
      | some p => initLoop (prev ++ [c]) (if p = ']' then prev.length + 1 else bEnd) rest
    else initLoop (prev ++ [c]) bEnd rest

/-- `InterchunkWord::init` (interchunk_word.cc:63-98). -/
def IWord.init (t : Text) : Outcome IWord :=
  (initLoop [] 0 t).map fun
    | .inl (c, q) => { chunk := c, queue := q, wb := [] }
    | .inr 0 => { chunk := t, queue := [], wb := [] }
    | .inr n => { chunk := t.drop n, queue := [], wb := t.take n }

/-- `InterchunkWord::chunkPart` (interchunk_word.cc:100-124). -/
def IWord.chunkPart (w : IWord) (re : Re) : Text :=
  if (re.matchText w.chunk).length = 0 then
    if (re.matchText w.queue).length ≠ w.queue.length then [] else re.matchText w.queue
  else if (re.matchText w.chunk).length = w.chunk.length then re.matchText (w.chunk ++ w.queue)
  else re.matchText w.chunk

/-- `InterchunkWord::setChunkPart` (interchunk_word.cc:132-136). -/
def IWord.setChunkPart (w : IWord) (re : Re) (value : Text) : IWord :=
  { w with chunk := (re.replace w.chunk value).1 }

end Verif.Transfer
