import Verif.Tmx.Builder
import Verif.Tmx.Output
import Verif.TmxSim.Model
/-!
# apertium-tmxbuild: from two texts to the pairs of aligned sentences

The sentences of each text are written to a file, one per line; the aligner reads them as words, and writes the aligned sentences in lines, which are read again.
Simplification: files of characters; in UTF-8 only ASCII characters have bytes that are white space.
-/
namespace Verif.TmxBuild

/-- `isspace` in the C locale. -/
def isSpace (c : Char) : Bool := decide (c = ' ' ∨ c = '\t' ∨ c = '\n' ∨ c = Char.ofNat 11 ∨ c = Char.ofNat 12 ∨ c = '\r')

/-- `splitAndMove` (tmx_builder.cc:459-468): a line for each sentence. -/
def fileOf : List Text → Text
  | [] => []
  | s :: r => s ++ '\n' :: fileOf r

/-- `eatwhite` (tmx_dictionary.cc:30-43). -/
def eatwhite : Text → Text
  | [] => []
  | c :: r => if c = ' ' ∨ c = '\t' then eatwhite r else c :: r

/-- `is >> w` for a string: white space is skipped, then comes what is not white space. -/
def skipSpace : Text → Text
  | [] => []
  | c :: r => if isSpace c = true then skipSpace r else c :: r

/-- The word (see `skipSpace`) and what comes after it. -/
def takeWord : Text → Text × Text
  | [] => ([], [])
  | c :: r => if isSpace c = true then ([], c :: r) else (c :: (takeWord r).1, (takeWord r).2)

/-- tmx_dictionary.cc:55-58. -/
def stripCr : Text → Text
  | [] => []
  | c :: r => if c = '\r' then r else c :: r

/-- `read` (tmx_dictionary.cc:45-75): the words, and the rest after the newline, `none` if the end of the file was seen.  `n` is more than the length of the input. -/
def read : Nat → Text → List Text × Option Text
  | 0, _ => ([], none)
  | n + 1, t =>
    match stripCr t with
    | [] => ([], none)
    | c :: r =>
      if c = '\n' then ([], some r)
      else
        let w := takeWord (skipSpace (c :: r))
        if w.1 = [] then ([], none)
        else
          let x := read n (eatwhite w.2)
          (w.1 :: x.1, x.2)

/-- `SentenceList::readNoIds` (tmx_dictionary.cc:100-112); `n` is more than the length of the input. -/
def readLoop : Nat → Text → List (List Text)
  | 0, _ => []
  | n + 1, t =>
    let x := read (t.length + 1) t
    match x.2 with
    | none => [x.1]
    | some r => x.1 :: readLoop n r

/-- See `readLoop`. -/
def readNoIds (t : Text) : List (List Text) := readLoop (t.length + 1) t

/-- The bytes of a word. -/
def bytes (w : Text) : TmxSim.Word := w.flatMap fun c => (String.utf8EncodeChar c).map UInt8.toNat

/-- The aligner (tmx_aligner_tool.cc:424-444, 141-420): nothing for texts of too different sizes, otherwise the sentences of each line. -/
def align (utf : Bool) (o : Tmx.Options) (c : Tmx.Choices) (hu en : List (List Text)) : Option (List (List (List Text) × List (List Text))) :=
  (TmxSim.tool utf (hu.map fun p => p.map bytes) (en.map fun p => p.map bytes)).bind fun t => Tmx.writeText o c hu en t

/-- `operator<<` for vectors (tmx_serialize_impl.h:19-29), and the loops over the sentences of a line (tmx_aligner_tool.cc:378-396): a space between two elements. -/
def spaced : List Text → Text
  | [] => []
  | [x] => x
  | x :: y :: r => x ++ ' ' :: spaced (y :: r)

/-- One side of a line (tmx_aligner_tool.cc:378-396). -/
def side (l : List (List Text)) : Text := spaced (l.map spaced)

/-- The lines (tmx_aligner_tool.cc:366-412); `num i` is the score written in line `i`. -/
def outText (num : Nat → Text) : Nat → List (List (List Text) × List (List Text)) → Text
  | _, [] => []
  | i, l :: r => side l.1 ++ '\t' :: side l.2 ++ '\t' :: num i ++ '\n' :: outText num (i + 1) r

/-- `outputTU` (tmx_builder.cc:470-519): the pairs that `printTU` gets (what that makes of them: Tmx/Builder.lean); `none` if the aligner writes no file. -/
def pairs (k : Tmx.Ctype) (utf : Bool) (o : Tmx.Options) (c : Tmx.Choices) (num : Nat → Text) (t1 t2 : Text) : Outcome (Option (List (Text × Text))) :=
  (Tmx.sentencesOf k t1).bind fun s1 => (Tmx.sentencesOf k t2).bind fun s2 =>
    .ok ((align utf o c (readNoIds (fileOf s1)) (readNoIds (fileOf s2))).map fun ls => Tmx.readPairs ⟨0, [], []⟩ (outText num 0 ls))

end Verif.TmxBuild
