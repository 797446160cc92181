import Verif.Glob.Model
/-!
# Specification of the patterns of tags

A pattern is a sequence of tags and of stars; a lexical form is a lemma and tags.
-/
namespace Verif.Glob
open Verif.Transfer

/-- A place in a pattern. -/
inductive Item where
  | tag (t : Text)
  | star
  deriving DecidableEq

/-- As it is written in the attribute `tags`. -/
def Item.name : Item → Text
  | .tag t => t
  | .star => t!"*"

/-- The tags are what the pattern says: a tag is there but for case, a star stands for one or more tags. -/
inductive Glob (fold : Char → Char) : List Item → List Text → Prop where
  | nil : Glob fold [] []
  | tag {t u : Text} {is : List Item} {us : List Text} : u.map fold = t.map fold → Glob fold is us → Glob fold (.tag t :: is) (u :: us)
  | star {vs : List Text} {is : List Item} {us : List Text} : vs ≠ [] → Glob fold is us → Glob fold (.star :: is) (vs ++ us)

/-- Some of the tags, one after the other, are what the pattern says. -/
def Within (fold : Char → Char) (is : List Item) (ts : List Text) : Prop := ∃ tp us tq, ts = tp ++ us ++ tq ∧ Glob fold is us

/-- The characters that mean nothing special in a regular expression. -/
def PlainChar (c : Char) : Prop := c ∉ Regex.metaChars ∧ c ≠ '<' ∧ c ≠ '>'

/-- A pattern whose tags have plain characters only (a tag may also be empty). -/
def PlainPattern (is : List Item) : Prop := ∀ t, .tag t ∈ is → ∀ c ∈ t, PlainChar c

/-- A lexical form: the lemma has no `<`, the tags are not empty and have no angle brackets. -/
structure Form (lemma_ : Text) (ts : List Text) : Prop where
  lem : '<' ∉ lemma_
  tags : ∀ t ∈ ts, t ≠ [] ∧ ∀ c ∈ t, c ≠ '<' ∧ c ≠ '>'

/-- Upper and lower case of letters are folded, angle brackets are not. -/
structure Folds (fold : Char → Char) : Prop where
  lt : ∀ c, fold c = '<' ↔ c = '<'
  gt : ∀ c, fold c = '>' ↔ c = '>'

end Verif.Glob
