import Mathlib.Data.Multiset.Filter
import Mathlib.Data.Multiset.UnionInter
import Verif.TmxSim.Model
/-!
# C95: how similar two sentences are

From the model only the types, `isNumber` (is a word made of digits?) and `isParagraph` are used.
-/
namespace Verif.TmxSim

/-- The words that two sentences have in common: a word counts as often as it is in both of them. -/
def common (a b : Phrase) : Multiset Word := (a : Multiset Word) ∩ b

/-- The words of the sentence `a` that `b` does not have. -/
def extra (a b : Phrase) : Multiset Word := (a : Multiset Word) - b

/-- How many numbers are among the words. -/
def numbers (s : Multiset Word) : Nat := s.countP fun w => isNumber w = true

/-- How many numbers only one of the sentences has. -/
def odd (a b : Phrase) : Nat := numbers (extra a b) + numbers (extra b a)

/-- The sentences agree in their numbers: they have some in common, and at least five times as many as only one of them has. -/
def Agree (a b : Phrase) : Prop := 0 < numbers (common a b) ∧ 5 * odd a b ≤ numbers (common a b)
instance (a b : Phrase) : Decidable (Agree a b) := by unfold Agree; infer_instance

/-- The similarity: the words in common, ten more for numbers that agree, relative to the length of the shorter sentence; a paragraph mark is only like another one. -/
def Similarity (a b : Phrase) : ℚ :=
  if isParagraph a = true ∧ isParagraph b = true then 31 / 100
  else if isParagraph a = true ∨ isParagraph b = true then -1
  else 3 * ((((common a b).card + if Agree a b then 10 else 0 : Nat) : ℚ) / ((min a.length b.length : Nat) + 1))

/-- The sentence has a word that comes after all numbers in the order of bytes, such as one that begins with a letter. -/
def HasLate (p : Phrase) : Prop := ∃ w ∈ p, ∃ c r, w = c :: r ∧ 57 < c

end Verif.TmxSim
