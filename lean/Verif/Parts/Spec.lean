import Verif.Parts.Model
/-!
# C77: what the predefined parts should be
-/
namespace Verif.Parts

/-- A word: the lemma, which may have an invariable part after `#`, and the tags. -/
structure Lu where
  head : Text
  queue : Option Text
  tags : List Text

/-- The invariable part with its `#`. -/
def Lu.queueText (l : Lu) : Text :=
  match l.queue with
  | none => []
  | some q => '#' :: q

def Lu.tagText (l : Lu) : Text := l.tags.flatMap fun t => '<' :: t ++ ['>']

def Lu.render (l : Lu) : Text := l.head ++ l.queueText ++ l.tagText

/-- The words for which the parts are right: the lemma is not empty and has no `<`, not even an escaped one, nor `#` but for the one that begins the invariable part (which
a space, `-` or `_` follows, and then at least one more character); tags are not empty, have no `<`, `>` or `#`, and do not begin with a quotation mark. -/
structure Lu.Fine (l : Lu) : Prop where
  head : l.head ≠ [] ∧ ∀ c ∈ l.head, c ≠ '<' ∧ c ≠ '#'
  queue : ∀ q, l.queue = some q → ∃ c r, q = c :: r ∧ c ∈ ['-', ' ', '_'] ∧ r ≠ [] ∧ '<' ∉ r
  tags : ∀ t ∈ l.tags, t ≠ [] ∧ (∀ c ∈ t, c ≠ '<' ∧ c ≠ '>' ∧ c ≠ '#') ∧ t.head? ≠ some '"'

end Verif.Parts
