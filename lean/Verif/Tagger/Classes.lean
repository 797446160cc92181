/-!
# Ambiguity classes: `Collection` and `find_similar_ambiguity_class`

Sets of coarse tags (`std::set<int>`) are strictly increasing lists of naturals: that is the order in which
C++ iterates over them.  Simplification: tags are naturals, the C++ type is `int` (no negative tag is ever
created by the readers of the tagger definition).
-/
namespace Verif.Tagger

/-- `std::set<TTag>`, listed in iteration order. -/
abbrev Tags := List Nat

/-- `std::set::insert` on the sorted listing. -/
def sinsert (x : Nat) : Tags → Tags
  | [] => [x]
  | y :: r => if x < y then x :: y :: r else if x = y then y :: r else y :: sinsert x r

/-- The representation invariant of `std::set`: strictly increasing. -/
def Sorted (s : Tags) : Prop := s.Pairwise (· < ·)

instance (s : Tags) : Decidable (Sorted s) := inferInstanceAs (Decidable (List.Pairwise _ s))

/-- `Collection`, apertium/collection.h:31-35: a `map<set<int>,int>` and the vector of its keys in order of
insertion.  Simplification: the vector holds pointers to the keys of the map; here it holds the keys (so the
aliasing after a copy of a `Collection` is not modelled). -/
structure Coll where
  index : List (Tags × Nat) := []
  element : List Tags := []
  deriving DecidableEq, Repr

namespace Coll
/-- `map::find`. -/
def find (c : Coll) (t : Tags) : Option Nat := (c.index.find? (·.1 = t)).map (·.2)

/-- `Collection::size`, collection.cc:25-29. -/
def size (c : Coll) : Nat := c.element.length

/-- `Collection::has_not`, collection.cc:31-35. -/
def hasNot (c : Coll) (t : Tags) : Bool := (c.find t).isNone

/-- `Collection::operator[](int)`, collection.cc:37-41; `none` is an access out of range. -/
def at? (c : Coll) (n : Nat) : Option Tags := c.element[n]?

/-- `Collection::operator[](const set<int>&)` and `add`, collection.cc:43-60: the collection after the call
and the index returned. -/
def add (c : Coll) (t : Tags) : Coll × Nat :=
  match c.find t with
  | some i => (c, i)
  | none => ({ index := (t, c.index.length) :: c.index, element := c.element ++ [t] }, c.index.length)

/-- Any sequence of insertions into the empty collection. -/
def ofList (ts : List Tags) : Coll := ts.foldl (fun c t => (c.add t).1) {}

/-- `Collection::write`, collection.cc:62-76, as the sequence of numbers passed to
`Compression::multibyte_write` (lttoolbox, not in this repository; assumed to be undone by `multibyte_read`). -/
def write (c : Coll) : List Nat :=
  c.element.length :: c.element.flatMap (fun s => s.length :: s)

/-- collection.cc:85-90: `set_size` numbers are read and inserted into a set. -/
def readSet : Nat → Tags → List Nat → Option (Tags × List Nat)
  | 0, acc, r => some (acc, r)
  | _ + 1, _, [] => none
  | n + 1, acc, x :: r => readSet n (sinsert x acc) r

/-- collection.cc:83-93: `size` sets are read and added. -/
def readSets : Nat → Coll → List Nat → Option (Coll × List Nat)
  | 0, c, r => some (c, r)
  | _ + 1, _, [] => none
  | n + 1, c, k :: r =>
    match readSet k [] r with
    | none => none
    | some (s, r') => readSets n (c.add s).1 r'

/-- `Collection::read`, collection.cc:78-94, into the collection `c`; `none`: the input ended early. -/
def read (c : Coll) : List Nat → Option (Coll × List Nat)
  | [] => none
  | n :: r => readSets n c r
end Coll

/-- The part of `TaggerData` (tagger_data.h:33-45) used for ambiguity classes. -/
structure TD where
  openClass : Tags
  output : Coll
  deriving DecidableEq, Repr

/-- `std::includes` on two sorted ranges. -/
def includes (a c : Tags) : Bool := c.all (fun x => decide (x ∈ a))

/-- The loop of `find_similar_ambiguity_class`, tagger_utils.cc:153-162.  `ret` is a C++ reference to the open
class, so `ret = ambg_class` overwrites the open class. -/
def similarLoop (c : Tags) : List Tags → Tags → Tags
  | [], ret => ret
  | a :: r, ret =>
    if a.length > ret.length ∨ a.length = ret.length then similarLoop c r ret
    else if includes a c = true then similarLoop c r a
    else similarLoop c r ret

/-- `find_similar_ambiguity_class`, tagger_utils.cc:148-164: the tagger data after the call and the class
returned.  The class returned is a reference to `td.open_class`, whose value has been overwritten. -/
def findSimilar (td : TD) (c : Tags) : TD × Tags :=
  let r := similarLoop c td.output.element td.openClass
  ({ td with openClass := r }, r)

/-- `require_similar_ambiguity_class`, tagger_utils.cc:195-212. -/
def requireSimilar (td : TD) (tags : Tags) : TD × Tags :=
  if td.output.hasNot tags = true then findSimilar td tags else (td, tags)

/-- `add_neccesary_ambg_classes`, tagger_utils.cc:127-146, for `n` coarse tags. -/
def addNecessary (td : TD) (n : Nat) : TD :=
  { td with output := (List.range n).foldl (fun c i => (c.add [i]).1) (td.output.add td.openClass).1 }

/-- `scan_for_ambg_classes`, tagger_utils.cc:104-125: the words of the dictionary are given by their sets of
tags. -/
def scan (td : TD) (words : List Tags) : TD :=
  { td with output := words.foldl (fun c t => if t = [] then c else (c.add t).1) td.output }

end Verif.Tagger
