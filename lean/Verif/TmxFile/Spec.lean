import Verif.Base
/-!
# C98: well-formed XML

A grammar of the XML documents without comments, processing instructions, CDATA and entities other than `&lt;`, `&gt;` and `&amp;`, with the tree that a document means.
-/
namespace Verif.TmxFile

inductive Node where
  | chr (c : Char)
  | elem (name : Text) (attrs : List (Text × Text)) (kids : List Node)

/-- The characters that XML 1.0 allows. -/
def xmlChar (c : Char) : Prop := c = '\t' ∨ c = '\n' ∨ c = '\r' ∨ (32 ≤ c.toNat ∧ c.toNat ≠ 0xFFFE ∧ c.toNat ≠ 0xFFFF)

instance (c : Char) : Decidable (xmlChar c) := by unfold xmlChar; infer_instance

/-- White space. -/
def White (t : Text) : Prop := ∀ c ∈ t, c = ' ' ∨ c = '\n' ∨ c = '\t' ∨ c = '\r'

/-- Some of the names: letters, and `:` and `-` within the name. -/
def IsName (t : Text) : Prop := (∃ c r, t = c :: r ∧ c.isAlpha = true) ∧ ∀ c ∈ t, c.isAlpha = true ∨ c = ':' ∨ c = '-'

/-- The value of an attribute, between double quotes. -/
def Value (t : Text) : Prop := ∀ c ∈ t, xmlChar c ∧ c ≠ '<' ∧ c ≠ '&' ∧ c ≠ '"'

/-- Attributes, each after white space; no name occurs twice. -/
inductive Attrs : Text → List (Text × Text) → Prop
  | nil : Attrs [] []
  | cons (ws name val t : Text) (l : List (Text × Text)) : ws ≠ [] → White ws → IsName name → Value val → name ∉ l.map Prod.fst → Attrs t l →
      Attrs (ws ++ name ++ t!"=\"" ++ val ++ '"' :: t) ((name, val) :: l)

/-- Text and elements. -/
inductive Content : Text → List Node → Prop
  | nil : Content [] []
  | chr (c : Char) (t : Text) (l : List Node) : xmlChar c → c ≠ '<' → c ≠ '&' → Content t l → Content (c :: t) (.chr c :: l)
  | lt (t : Text) (l : List Node) : Content t l → Content (t!"&lt;" ++ t) (.chr '<' :: l)
  | gt (t : Text) (l : List Node) : Content t l → Content (t!"&gt;" ++ t) (.chr '>' :: l)
  | amp (t : Text) (l : List Node) : Content t l → Content (t!"&amp;" ++ t) (.chr '&' :: l)
  | elem (name a body t : Text) (attrs : List (Text × Text)) (kids l : List Node) : IsName name → Attrs a attrs → Content body kids → Content t l →
      Content ('<' :: name ++ a ++ '>' :: body ++ t!"</" ++ name ++ '>' :: t) (.elem name attrs kids :: l)
  | empty (name a t : Text) (attrs : List (Text × Text)) (l : List Node) : IsName name → Attrs a attrs → Content t l →
      Content ('<' :: name ++ a ++ t!"/>" ++ t) (.elem name attrs [] :: l)

/-- A document with the root element `name`. -/
def Document (t : Text) (name : Text) (attrs : List (Text × Text)) (kids : List Node) : Prop :=
  ∃ a b c, t = t!"<?xml version=\"1.0\"?>" ++ a ++ b ++ c ∧ White a ∧ White c ∧ Content b [.elem name attrs kids]

/-- Text as nodes. -/
def chars (t : Text) : List Node := t.map .chr

/-- A translation unit with its segments. -/
def tu (l1 l2 : Text) (a b : List Node) : List Node :=
  [.elem t!"tu" [] (chars t!"\n  " ++ [.elem t!"tuv" [(t!"xml:lang", l1)] [.elem t!"seg" [] a]] ++ chars t!"\n  " ++
    [.elem t!"tuv" [(t!"xml:lang", l2)] [.elem t!"seg" [] b]] ++ chars t!"\n")] ++ chars t!"\n"

/-- The children of the element `tmx`. -/
def tmx (v l1 l2 : Text) (units : List (List Node × List Node)) : List Node :=
  chars t!"\n" ++ [.elem t!"header" [(t!"creationtool", t!"Apertium TMX Builder"), (t!"creationtoolversion", v), (t!"segtype", t!"sentence"), (t!"srclang", l1), (t!"adminlang", l2),
    (t!"datatype", t!"plaintext"), (t!"o-tmf", t!"none")] (chars t!"\n")] ++ chars t!"\n" ++
  [.elem t!"body" [] (chars t!"\n" ++ units.flatMap fun u => tu l1 l2 u.1 u.2)] ++ chars t!"\n"

end Verif.TmxFile
