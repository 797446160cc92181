import Verif.Serial.Proofs
import Verif.Unigram.Stream
/-!
# Model of writing and reading the files of the unigram and perceptron taggers

`apertium/serialiser.h`, `apertium/deserialiser.h`, `apertium/unigram_tagger.cc`, `apertium/perceptron_spec.cc`, `apertium/feature_vec.cc`,
`apertium/tagger_data_percep_coarse_tags.cc`, `apertium/perceptron_tagger.cc`, `apertium/collection.cc`.  How lttoolbox writes a number, a string, a
double and a pattern list is a parameter (any format that can be read back); containers are, as in lttoolbox, the size and the elements in order.
-/
namespace Verif.Serial
open Verif.Tagger (Tags Coll sinsert Sorted)
open Verif.Unigram (Morpheme Analysis)

/-- A format that can be read back. -/
abbrev Codec (α : Type) := PatternFormat α

/-- The formats of lttoolbox, and its order on strings (`UString::operator<`, `std::string::operator<`). -/
structure Formats (P D : Type) where
  size : Codec Nat
  int : Codec Nat
  ustr : Codec Text
  bstr : Codec Bytes
  double : Codec D
  plist : Codec P
  ltU : Text → Text → Bool
  ltB : Bytes → Bytes → Bool
  asymmU : ∀ a b, ltU a b = true → ltU b a = false
  asymmB : ∀ a b, ltB a b = true → ltB b a = false

/-- `std::lexicographical_compare`. -/
def lexLt {α : Type} (lt : α → α → Bool) : List α → List α → Bool
  | _, [] => false
  | [], _ :: _ => true
  | a :: as, b :: bs => if lt a b = true then true else if lt b a = true then false else lexLt lt as bs

/-- `insert` of a set or map: the old element stays if there is one with the same key. -/
def oinsert {α κ : Type} (lt : κ → κ → Bool) (key : α → κ) (x : α) : List α → List α
  | [] => [x]
  | y :: r => if lt (key x) (key y) = true then x :: y :: r else if lt (key y) (key x) = true then y :: oinsert lt key x r else y :: r

variable {P D : Type} (F : Formats P D)

/-- `Serialiser<std::vector<T>>` (lttoolbox), also `std::set` and `std::map`: the size and the elements in order. -/
def vecWrite {α : Type} (f : α → Bytes) (l : List α) : Bytes := F.size.write l.length ++ l.flatMap f

/-- `Deserialiser<std::vector<T>>` (lttoolbox). -/
def vecRead {α : Type} (r : Rd α) : Rd (List α) :=
  Rd.bind F.size.read (fun n => Rd.times (fun l => Rd.bind r (fun x => Rd.pure (l ++ [x]))) n [])

/-- `Deserialiser<std::set<T>>`, `Deserialiser<std::map<T, U>>` (lttoolbox). -/
def ordRead {α κ : Type} (lt : κ → κ → Bool) (key : α → κ) (r : Rd α) : Rd (List α) :=
  Rd.bind F.size.read (fun n => Rd.times (fun l => Rd.bind r (fun x => Rd.pure (oinsert lt key x l))) n [])

/-! ### Words -/

/-- serialiser.h:89-93. -/
def morphWrite (m : Morpheme) : Bytes := F.ustr.write m.lemma ++ vecWrite F F.ustr.write m.tags

/-- deserialiser.h:91-97. -/
def morphRead : Rd Morpheme := Rd.bind F.ustr.read fun l => Rd.bind (vecRead F F.ustr.read) fun t => Rd.pure ⟨l, t⟩

/-- serialiser.h:75-78. -/
def analysisWrite (a : Analysis) : Bytes := vecWrite F (morphWrite F) a.morphemes

/-- deserialiser.h:72-77. -/
def analysisRead : Rd Analysis := Rd.bind (vecRead F (morphRead F)) fun ms => Rd.pure ⟨ms⟩

/-- `a`: the tags of the first morpheme and the other morphemes.  serialiser.h:70-73. -/
def aWrite (x : List Text × List Morpheme) : Bytes := vecWrite F F.ustr.write x.1 ++ vecWrite F (morphWrite F) x.2

/-- deserialiser.h:64-70. -/
def aRead : Rd (List Text × List Morpheme) :=
  Rd.bind (vecRead F F.ustr.read) fun t => Rd.bind (vecRead F (morphRead F)) fun m => Rd.pure (t, m)

/-- `i`: tags.  serialiser.h:80-82. -/
def iWrite (x : List Text) : Bytes := vecWrite F F.ustr.write x

/-- deserialiser.h:79-83. -/
def iRead : Rd (List Text) := vecRead F F.ustr.read

/-- morpheme.cc:25-30. -/
def ltMorph (a b : Morpheme) : Bool := if a.lemma ≠ b.lemma then F.ltU a.lemma b.lemma else lexLt F.ltU a.tags b.tags

/-- analysis.cc:32-34. -/
def ltAnalysis (a b : Analysis) : Bool := lexLt (ltMorph F) a.morphemes b.morphemes

/-- a.cc:25-30. -/
def ltA (a b : List Text × List Morpheme) : Bool := if a.1 = b.1 then lexLt (ltMorph F) a.2 b.2 else lexLt F.ltU a.1 b.1

/-- i.cc:23. -/
def ltI (a b : List Text) : Bool := lexLt F.ltU a b

/-! ### Unigram -/

/-- `std::map<κ, std::size_t>`. -/
abbrev Counts (κ : Type) := List (κ × Nat)

/-- `Serialiser<std::map<κ, std::size_t>>`. -/
def countsWrite {κ : Type} (f : κ → Bytes) (m : Counts κ) : Bytes := vecWrite F (fun p => f p.1 ++ F.size.write p.2) m

/-- `Deserialiser<std::map<κ, std::size_t>>`. -/
def countsRead {κ : Type} (lt : κ → κ → Bool) (r : Rd κ) : Rd (Counts κ) :=
  ordRead F lt Prod.fst (Rd.bind r fun k => Rd.bind F.size.read fun n => Rd.pure (k, n))

/-- `Serialiser<std::map<κ, std::map<μ, std::size_t>>>`. -/
def counts2Write {κ μ : Type} (f : κ → Bytes) (g : μ → Bytes) (m : List (κ × Counts μ)) : Bytes :=
  vecWrite F (fun p => f p.1 ++ countsWrite F g p.2) m

/-- `Deserialiser<std::map<κ, std::map<μ, std::size_t>>>`. -/
def counts2Read {κ μ : Type} (lt : κ → κ → Bool) (r : Rd κ) (lt' : μ → μ → Bool) (r' : Rd μ) : Rd (List (κ × Counts μ)) :=
  ordRead F lt Prod.fst (Rd.bind r fun k => Rd.bind (countsRead F lt' r') fun n => Rd.pure (k, n))

/-- The selected model (unigram_tagger.h:37-43). -/
inductive UModel where
  | unknown | one | two | three
  deriving DecidableEq

/-- `UnigramTagger`. -/
structure UTagger where
  model : UModel
  m1 : Counts Analysis
  m2 : List ((List Text × List Morpheme) × Counts Text)
  lt : List (List Text × Counts Text)
  clct : List (List Text × Counts Text)
  ctcl : List (Text × Counts (List Text))

/-- `UnigramTagger::serialise` (unigram_tagger.cc:50-71); `none`: exception. -/
def UTagger.write (x : UTagger) : Option Bytes :=
  match x.model with
  | .one => some (countsWrite F (analysisWrite F) x.m1)
  | .two => some (counts2Write F (aWrite F) F.ustr.write x.m2)
  | .three => some (counts2Write F (iWrite F) F.ustr.write x.lt ++ (counts2Write F (iWrite F) F.ustr.write x.clct ++
      counts2Write F F.ustr.write (iWrite F) x.ctcl))
  | .unknown => none

/-- `UnigramTagger::deserialise` (unigram_tagger.cc:73-92). -/
def UTagger.read (x : UTagger) : Rd UTagger :=
  match x.model with
  | .one => Rd.bind (countsRead F (ltAnalysis F) (analysisRead F)) fun m => Rd.pure { x with m1 := m }
  | .two => Rd.bind (counts2Read F (ltA F) (aRead F) F.ltU F.ustr.read) fun m => Rd.pure { x with m2 := m }
  | .three =>
    Rd.bind (counts2Read F (ltI F) (iRead F) F.ltU F.ustr.read) fun m1 =>
    Rd.bind (counts2Read F (ltI F) (iRead F) F.ltU F.ustr.read) fun m2 =>
    Rd.bind (counts2Read F F.ltU F.ustr.read (ltI F) (iRead F)) fun m3 =>
    Rd.pure { x with lt := m1, clct := m2, ctcl := m3 }
  | .unknown => fun _ => none

/-! ### Perceptron -/

/-- `TaggerDataPercepCoarseTags`: the fields of `TaggerData` that are written. -/
structure Coarse (P : Type) where
  openClass : Tags
  arrayTags : List Text
  tagIndex : List (Text × Nat)
  constants : List (Text × Nat)
  output : Coll
  plist : P

/-- `Serialiser<std::map<UString, int>>`. -/
def namesWrite (m : List (Text × Nat)) : Bytes := vecWrite F (fun p => F.ustr.write p.1 ++ F.int.write p.2) m

/-- `Deserialiser<std::map<UString, int>>`. -/
def namesRead : Rd (List (Text × Nat)) :=
  ordRead F F.ltU Prod.fst (Rd.bind F.ustr.read fun k => Rd.bind F.int.read fun n => Rd.pure (k, n))

def ltInt (a b : Nat) : Bool := decide (a < b)

/-- `Serialiser<std::set<int>>`. -/
def tagsWrite (s : Tags) : Bytes := vecWrite F F.int.write s

/-- `Deserialiser<std::set<int>>`. -/
def tagsRead : Rd Tags := ordRead F ltInt id F.int.read

/-- `Collection::serialise` (collection.cc:95-102). -/
def collSerialise (c : Coll) : Bytes := vecWrite F (tagsWrite F) c.element

/-- `Collection::deserialise` (collection.cc:104-113). -/
def collDeserialise (c : Coll) : Rd Coll :=
  Rd.bind F.size.read (fun n => Rd.times (fun (c : Coll) => Rd.bind (tagsRead F) (fun s => Rd.pure (c.add s).1)) n c)

/-- tagger_data_percep_coarse_tags.cc:27-35. -/
def coarseWrite (c : Coarse P) : Bytes :=
  tagsWrite F c.openClass ++ (vecWrite F F.ustr.write c.arrayTags ++ (namesWrite F c.tagIndex ++ (namesWrite F c.constants ++
    (collSerialise F c.output ++ F.plist.write c.plist))))

/-- tagger_data_percep_coarse_tags.cc:37-45, into a new object. -/
def coarseRead : Rd (Coarse P) :=
  Rd.bind (tagsRead F) fun o => Rd.bind (vecRead F F.ustr.read) fun a => Rd.bind (namesRead F) fun t => Rd.bind (namesRead F) fun c =>
  Rd.bind (collDeserialise F {}) fun out => Rd.bind F.plist.read fun p => Rd.pure ⟨o, a, t, c, out, p⟩

/-- `PerceptronTagger`: the specification (perceptron_spec.h:378-392) and the weights.  A feature definition is its bytes. -/
structure PTagger (P D : Type) where
  beamWidth : Nat
  strConsts : List Bytes
  setConsts : List (List Bytes)
  features : List Bytes
  globalDefns : List Bytes
  globalPred : Bytes
  coarse : Option (Coarse P)
  weights : List (List Bytes × D)

/-- `FeatureVec::serialise` (feature_vec.cc:203-207). -/
def weightsWrite (m : List (List Bytes × D)) : Bytes := vecWrite F (fun p => vecWrite F F.bstr.write p.1 ++ F.double.write p.2) m

/-- `CompareFeatureKey` (feature_vec.cc:11-23). -/
def ltKey (a b : List Bytes) : Bool := lexLt F.ltB a b

/-- `FeatureVec::deserialise` (feature_vec.cc:209-213). -/
def weightsRead : Rd (List (List Bytes × D)) :=
  ordRead F (ltKey F) Prod.fst (Rd.bind (vecRead F F.bstr.read) fun k => Rd.bind F.double.read fun d => Rd.pure (k, d))

/-- `PerceptronSpec::serialise` (perceptron_spec.cc:814-827, 778-783, 795-802), then the weights (perceptron_tagger.cc:270-274). -/
def PTagger.write (x : PTagger P D) : Bytes :=
  F.size.write x.beamWidth ++ (vecWrite F F.bstr.write x.strConsts ++ (vecWrite F (vecWrite F F.bstr.write) x.setConsts ++
    (vecWrite F F.bstr.write x.features ++ (vecWrite F F.bstr.write x.globalDefns ++ (F.bstr.write x.globalPred ++
      ((match x.coarse with
        | some c => F.size.write 1 ++ coarseWrite F c
        | none => F.size.write 0) ++
      weightsWrite F x.weights))))))

/-- `PerceptronSpec::deserialise` (perceptron_spec.cc:829-844, 785-793, 804-812), then the weights (perceptron_tagger.cc:276-280), into a new object.  The test for the end of
the stream before the coarse tags is not true unless the stream ended within what was read before. -/
def PTagger.read : Rd (PTagger P D) :=
  Rd.bind F.size.read fun bw => Rd.bind (vecRead F F.bstr.read) fun sc => Rd.bind (vecRead F (ordRead F F.ltB id F.bstr.read)) fun st =>
  Rd.bind (vecRead F F.bstr.read) fun fs => Rd.bind (vecRead F F.bstr.read) fun gd => Rd.bind F.bstr.read fun gp =>
  Rd.bind (Rd.bind F.size.read fun has =>
    if has = 1 then Rd.bind (coarseRead F) (fun c => Rd.pure (some c)) else Rd.pure none) fun co =>
  Rd.bind (weightsRead F) fun w => Rd.pure ⟨bw, sc, st, fs, gd, gp, co, w⟩

end Verif.Serial
