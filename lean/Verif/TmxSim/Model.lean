import Mathlib.Data.List.Lex
import Verif.Tmx.Align
/-!
# The similarity of sentences (tmx_book_to_matrix.cc), and what the alignment tool makes of two files

Words are strings of bytes (`std::string`), ordered as `std::string` is; the scores are rational numbers (in the code: doubles).
-/
namespace Verif.TmxSim

/-- `Word` (tmx_words.h:24): its bytes. -/
abbrev Word := List Nat

/-- `Phrase` (tmx_words.h:28). -/
abbrev Phrase := List Word

/-- `isNumber` (tmx_book_to_matrix.cc:49-60). -/
def isNumber (w : Word) : Bool := w.all fun c => decide (48 ≤ c ∧ c ≤ 57)

/-- The counters of `specializedIntersectionSize` (tmx_book_to_matrix.cc:65-72). -/
structure Counts where
  inter : Nat
  differing : Nat
  same : Nat
  deriving DecidableEq, Repr

/-- The loop of `specializedIntersectionSize` (tmx_book_to_matrix.cc:74-101): it ends with the end of one of the sentences. -/
def walk : Phrase → Phrase → Counts
  | [], _ => ⟨0, 0, 0⟩
  | _ :: _, [] => ⟨0, 0, 0⟩
  | x :: xs, y :: ys =>
    if x < y then
      let r := walk xs (y :: ys)
      { r with differing := r.differing + if isNumber x = true then 1 else 0 }
    else if y < x then
      let r := walk (x :: xs) ys
      { r with differing := r.differing + if isNumber y = true then 1 else 0 }
    else
      let r := walk xs ys
      { r with inter := r.inter + 1, same := r.same + if isNumber y = true then 1 else 0 }
termination_by xs ys => xs.length + ys.length

/-- `specializedIntersectionSize` (tmx_book_to_matrix.cc:63-109). -/
def specializedIntersectionSize (hu en : Phrase) : Nat :=
  let c := walk hu en
  if 0 < c.same ∧ c.differing ≤ c.same / 5 then c.inter + 10 else c.inter

/-- `isParagraph` (tmx_book_to_matrix.cc:111-116): the only word is `<p>`. -/
def isParagraph (p : Phrase) : Bool := decide (p = [[60, 112, 62]])

/-- `scoreByIdentity` (tmx_book_to_matrix.cc:143-164), with `exceptionalScoring` (118-138) and the constants of tmx_book_to_matrix.h:21-23. -/
def scoreByIdentity (hu en : Phrase) : ℚ :=
  if isParagraph hu = true ∧ isParagraph en = true then 31 / 100
  else if isParagraph hu = true ∨ isParagraph en = true then -1
  else (specializedIntersectionSize hu en : ℚ) / ((min hu.length en.length : Nat) + 1) * 3

/-- `sortNormalizeSentences` (tmx_translate.cc:326-335) on a sentence.  (`normalizeTextsForIdentity`, tmx_translate.cc:338-360, first translates the sentences of the one book
with a dictionary, which is empty here: tmx_builder.cc:481, 488; then `trivialTranslate`, tmx_translate.cc:167-220, leaves the words as they are.) -/
def sorted (p : Phrase) : Phrase := p.mergeSort fun a b => decide (a ≤ b)

/-- `sentenceListsToAlignMatrixIdentity` (tmx_book_to_matrix.cc:166-189): the cells of the band, in another place the default (tmx_aligner_tool.cc:196). -/
def matrix (hu en : List Phrase) (thick : Nat) (i j : Nat) : ℚ :=
  (Tmx.Band.mk hu.length en.length thick).read (-1000000) (fun i j => scoreByIdentity (sorted (hu.getD i [])) (sorted (en.getD j []))) i j

/-- `characterLength` of a word (tmx_book_to_matrix.cc:311-331). -/
def wordLength (utf : Bool) (w : Word) : Nat := if utf = true then (w.filter fun c => decide (c < 128 ∨ 192 ≤ c)).length else w.length

/-- `characterLength` of a sentence (tmx_book_to_matrix.cc:333-350). -/
def phraseLength (utf : Bool) (p : Phrase) : ℚ := if isParagraph p = true then 1973 / 10000 else ((p.map (wordLength utf)).sum : Nat)

/-- The thickness of the band (tmx_aligner_tool.cc:168-194).  Simplification: exact division. -/
def thickness (hu en : Nat) : Nat := min (max (max hu en / 10) 500) (41943040000 / (408 * hu))

/-- The arguments of `align` in `alignerToolWithObjects` (tmx_aligner_tool.cc:141-205, `setSentenceValues` tmx_book_to_matrix.cc:371-379). -/
def book (utf : Bool) (hu en : List Phrase) : Tmx.Book :=
  { w := matrix hu en (thickness hu.length en.length), hu := hu.map (phraseLength utf), en := en.map (phraseLength utf), thick := thickness hu.length en.length }

/-- `alignerToolWithFilenames` (tmx_aligner_tool.cc:424-444), the part before the output: books of too different sizes are left alone. -/
def tool (utf : Bool) (hu en : List Phrase) : Option (List (Nat × Nat)) :=
  if en.length < hu.length / 5 ∨ hu.length < en.length / 5 then none else some (Tmx.align (book utf hu en))

end Verif.TmxSim
