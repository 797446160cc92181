import Verif.Parts.Attr
import Verif.Tagger.Stream
import Verif.Tsx.Spec
/-!
# Model of the patterns of tags in `<prefer>` and `<discard>` (apertium/tagger_word.cc:69-119)

The patterns that tsx_reader.cc:446-460 and 114-131 makes of the attribute `tags` are turned into regular expressions, which are kept in a table, and searched in lexical forms.
ICU is not part of the repository: its regular expressions are those of Verif/Parts/Model.lean.
-/
namespace Verif.Glob
open Verif.Transfer Verif.Parts

/-- What `<*>` is replaced with (tagger_word.cc:88). -/
def starText : Text := t!"(<[^>]+>)+"

/-- `utfpattern.find("<*>")` (tagger_word.cc:83): what is before the first, and after it. -/
def findStar : Text → Option (Text × Text)
  | [] => none
  | c :: s =>
    if (c :: s).take 3 = t!"<*>" then some ([], (c :: s).drop 3)
    else (findStar s).map fun (a, b) => (c :: a, b)

/-- The loop (tagger_word.cc:81-89); the number bounds the turns, of which there are no more than characters. -/
def expandLoop : Nat → Text → Text
  | 0, s => s
  | n + 1, s =>
    match findStar s with
    | none => s
    | some (a, b) => expandLoop n (a ++ starText ++ b)

/-- The expression that is compiled (tagger_word.cc:78-90). -/
def expand (pattern : Text) : Text := expandLoop pattern.length pattern

section cache
variable {R : Type} (compile : Text → Outcome R) (found : R → Text → Text)

/-- `TaggerWord::match` (tagger_word.cc:69-97) with `patterns`, the table of all words of the program (tagger_word.cc:24).  `compile` leaves the program if it fails
(apertium_re.cc:48-52); `found` is the text matched (apertium_re.cc:72-104). -/
def matchC (cache : Text → Option R) (s pattern : Text) : Outcome (Bool × (Text → Option R)) :=
  match cache pattern with
  | none => (compile (expand pattern)).map fun r => (decide (found r s ≠ []), fun p => if p = pattern then some r else cache p)
  | some r => .ok (decide (found r s ≠ []), cache)

/-- Calls, one after the other. -/
def matchAll (cache : Text → Option R) : List (Text × Text) → Outcome (List Bool)
  | [] => .ok []
  | (s, p) :: cs => (matchC compile found cache s p).bind fun (b, c) => (matchAll c cs).map (b :: ·)
end cache

mutual
/-- `UREGEX_CASE_INSENSITIVE` (apertium_re.cc:47): the characters of the expression with their case folded, to be searched in a text with its case folded.  Simplification: ICU
folds some single characters to several (ß); here one character is folded to one. -/
def foldRe (fold : Char → Char) : PRe → PRe
  | .chr c => .chr (fold c)
  | .seq rs => .seq (foldSeq fold rs)
  | .alt rs => .alt (foldSeq fold rs)
  | .plus r => .plus (foldRe fold r)
  | .grp r => .grp (foldRe fold r)
  | .esc c => .esc c
  | .set cs => .set cs
  | .nset cs => .nset cs
  | .any => .any
  | .bos => .bos
def foldSeq (fold : Char → Char) : List PRe → List PRe
  | [] => []
  | r :: rs => foldRe fold r :: foldSeq fold rs
end

/-- `!patterns[pattern].match(s).empty()` (tagger_word.cc:91, 95), for the compiled expression. -/
def hit (fold : Char → Char) (r : PRe) (s : Text) : Bool := decide ((foldRe fold r).toRe.matchText (s.map fold) ≠ [])

end Verif.Glob
