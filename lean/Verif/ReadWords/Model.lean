import Verif.Tagger.Stream
import Verif.Tagger.Classes
/-!
# apertium-tagger-readwords

The program reads a corpus as the HMM tagger does, and writes every word with its coarse tags.
-/
namespace Verif.ReadWords
open Verif.Tagger (Tags Coll MCfg TW stream)

/-- What was written to the standard output, the words and classes of the messages, and the number of words read. -/
structure Out where
  text : Text := []
  errors : List (Text × Tags) := []
  n : Nat := 0
  deriving DecidableEq, Repr

/-- `array_tags[*itag]` for every tag; `none` is an access out of range. -/
def names (arr : List Text) : Tags → Option (List Text)
  | [] => some []
  | t :: ts => match arr[t]?, names arr ts with
    | some x, some xs => some (x :: xs)
    | _, _ => none

/-- The loop of `get_string_tags`: a comma before every tag but the first. -/
def joined : List Text → Text
  | [] => []
  | [x] => x
  | x :: xs => x ++ ',' :: joined xs

/-- `TaggerWord::get_string_tags`, tagger_word.cc:135-149. -/
def stringTags (arr : List Text) (w : TW) : Outcome Text :=
  match names arr w.tags with
  | some xs => .ok ('{' :: joined xs ++ ['}'])
  | none => .ub

/-- The loop of `readwords`, apertium_tagger_readwords.cc:49-72.  `limit` is `corpus_length` if it is positive; `check` is `check_ambclasses`, `m` is `getM()` and `c` the
collection `getOutput()`, which grows when it is asked for a class that it does not have. -/
def loop (arr : List Text) (check : Bool) (m : Nat) (limit : Option Nat) : Nat → Coll → List TW → Outcome Out
  | k, _, [] => .ok { n := k }
  | k, c, w :: ws => (stringTags arr w).bind fun s =>
    let err := if check = true ∧ (c.add w.tags).2 ≥ m then [(w.sf, w.tags)] else []
    let c' := if check = true then (c.add w.tags).1 else c
    let rest := if limit = some (k + 1) then .ok { n := k + 1 } else loop arr check m limit (k + 1) c' ws
    rest.map fun o => { o with text := w.sf ++ ' ' :: s ++ '\n' :: o.text, errors := err ++ o.errors }

/-- `readwords` (apertium_tagger_readwords.cc:45-73) on the text of the standard input.  With a definition (`--tsxfile`) the classes are not checked, and there are no discard
rules, as `TaggerData::copy` loses them (`main`, lines 149-155); with parameters (`--probfile`, lines 157-166) `disc` applies those of the file.  Simplification: the text after
the last word that is wanted is read too. -/
def readwords (cfg : MCfg) (disc : TW → TW) (arr : List Text) (check : Bool) (m : Nat) (limit : Option Nat) (c : Coll) (t : Text) : Outcome Out :=
  (stream cfg false disc t).bind fun ws => loop arr check m limit 0 c (ws.map (·.1))

end Verif.ReadWords
