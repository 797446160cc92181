import Verif.Crx.Model
import Verif.Caps.Spec
/-!
# What the rules should mean

Independent of the transducers: which words a `match` describes, and which rules match at a word.
-/
namespace Verif.Crx
open Verif.Caps (Mark)

/-- What the rules see of a word: the case of the surface form and of the lemma in the source, the form (lemma and tags) and the surface form. -/
structure Seen where
  srcSurf : Text
  srcLem : Text
  form : List Tok
  surf : List Tok

/-! ## Words -/

/-- The classes of characters in a description of the case. -/
inductive Cls where
  | any
  | space
  | upper
  | lower
  deriving DecidableEq

/-- `*` is any character, a space is a space, a capital is any capital, everything else is any character that is not a capital. -/
def clsOf (upper : Nat → Bool) (c : Char) : Cls :=
  if c = '*' then .any else if c = ' ' then .space else if upper c.toNat = true then .upper else .lower

def Cls.Has (upper : Nat → Bool) : Cls → Char → Prop
  | .any, _ => True
  | .space, c => c = ' '
  | .upper, c => upper c.toNat = true
  | .lower, c => upper c.toNat = false

/-- Neighbours that are the same count as one (`p`: the one before). -/
def squeeze (p : Option Cls) : List Cls → List Cls
  | [] => []
  | k :: ks => if p = some k then squeeze p ks else k :: squeeze (some k) ks

/-- A text made of one or more characters of each class, in this order. -/
inductive Runs (upper : Nat → Bool) : List Cls → Text → Prop where
  | nil : Runs upper [] []
  | cons {k : Cls} {ks : List Cls} {r s : Text} : r ≠ [] → (∀ c ∈ r, k.Has upper c) → Runs upper ks s → Runs upper (k :: ks) (r ++ s)

/-- The text has the case described by `spec`: `Aa` is capitals and then small letters, `aa` small letters, `AA` capitals, `*` anything but the empty text. -/
def CaseFits (upper : Nat → Bool) (spec t : Text) : Prop := Runs upper (squeeze none (spec.map (clsOf upper))) t

/-- A text against a pattern in which `*` stands for one or more characters. -/
inductive Glob : Text → Text → Prop where
  | nil : Glob [] []
  | one {c : Char} {p s : Text} : c ≠ '*' → Glob p s → Glob (c :: p) (c :: s)
  | many {p r s : Text} : r ≠ [] → Glob p s → Glob ('*' :: p) (r ++ s)

/-- A text that is described by its case, or else by a pattern. -/
def TextFits (upper : Nat → Bool) (spec pat t : Text) : Prop := if spec = t!"*" then Glob pat t else CaseFits upper spec t

/-- Tags against a pattern: `?` is one tag, `+` one or more, `*` any number. -/
inductive TagsFit : List Text → List Text → Prop where
  | nil : TagsFit [] []
  | empty {p s : List Text} : TagsFit p s → TagsFit ([] :: p) s
  | any {x : Text} {p s : List Text} : TagsFit p s → TagsFit (t!"?" :: p) (x :: s)
  | plus {p r s : List Text} : r ≠ [] → TagsFit p s → TagsFit (t!"+" :: p) (r ++ s)
  | star {p r s : List Text} : TagsFit p s → TagsFit (t!"*" :: p) (r ++ s)
  | one {t : Text} {p s : List Text} : t ∉ [t!"?", t!"+", t!"*", []] → TagsFit p s → TagsFit (t :: p) ((t!"<" ++ t ++ t!">") :: s)

/-- A word fits a `match`. -/
structure Match.Fits (upper : Nat → Bool) (m : Match) (w : Seen) : Prop where
  srcsurf : CaseFits upper m.srcsurf w.srcSurf
  srclem : CaseFits upper m.srclem w.srcLem
  form : ∃ lem tags, w.form = lem.map .chr ++ tags.map .tag ∧ TextFits upper m.trglem m.lem lem ∧ TagsFit m.tags tags
  surf : ∃ s : Text, w.surf = s.map .chr ∧ TextFits upper m.trgsurf m.surf s

/-- The mark that `select` names. -/
def Selects (s : Text) (k : Mark) : Prop :=
  (s, k) ∈ [([], Mark.skip), (t!"AA", .AA), (t!"Aa", .Aa), (t!"aa", .aa), (t!"dix", .dix)]

/-! ## Rules -/

/-- The beginning of a section, or a word. -/
inductive Ev where
  | start
  | word (w : Seen)

/-- `n` parts, each of which is in `P`. -/
def Times (P : List Ev → List Mark → Prop) : Nat → List Ev → List Mark → Prop
  | 0, es, ms => es = [] ∧ ms = []
  | n + 1, es, ms => ∃ e1 e2 m1 m2, es = e1 ++ e2 ∧ ms = m1 ++ m2 ∧ P e1 m1 ∧ Times P n e2 m2

mutual
/-- A part of a section matches an element of a rule, which gives the marks `ms` to its words. -/
def Node.Fits (upper : Nat → Bool) : Node → List Ev → List Mark → Prop
  | .word m, es, ms => ∃ w k, es = [.word w] ∧ ms = [k] ∧ m.Fits upper w ∧ Selects m.select k
  | .start, es, ms => es = [.start] ∧ ms = []
  | .or cs, es, ms => (cs = [] ∧ es = [] ∧ ms = []) ∨ AnyFits upper cs es ms
  | .rep lo hi cs, es, ms => ∃ n : Nat, lo ≤ n ∧ n ≤ hi ∧ Times (SeqFits upper cs) n es ms

/-- One of the elements matches. -/
def AnyFits (upper : Nat → Bool) : List Node → List Ev → List Mark → Prop
  | [], _, _ => False
  | c :: cs, es, ms => c.Fits upper es ms ∨ AnyFits upper cs es ms

/-- The elements match, one after the other. -/
def SeqFits (upper : Nat → Bool) : List Node → List Ev → List Mark → Prop
  | [], es, ms => es = [] ∧ ms = []
  | c :: cs, es, ms => ∃ e1 e2 m1 m2, es = e1 ++ e2 ∧ ms = m1 ++ m2 ∧ c.Fits upper e1 m1 ∧ SeqFits upper cs e2 m2
end

/-- The rule number `k` matches at the last of the words `ws` of a section, and gives the marks `ms` to the last words. -/
def MatchesAt (upper : Nat → Bool) (rs : List Rule) (ws : List Seen) (k : Nat) (ms : List Mark) : Prop :=
  ∃ r, rs[k]? = some r ∧ ∃ es, es ≠ [] ∧ es <:+ Ev.start :: ws.map Ev.word ∧ SeqFits upper r.body es ms

/-! ## Errors -/

mutual
/-- The element can be compiled. -/
def Node.Ok : Node → Prop
  | .word m => (m.lem = t!"*" ∨ m.trglem = t!"*") ∧ (m.surf = t!"*" ∨ m.trgsurf = t!"*") ∧ ∃ k, Selects m.select k
  | .start => True
  | .or cs => AllOk cs
  | .rep lo hi cs => 0 ≤ lo ∧ lo ≤ hi ∧ AllOk cs

def AllOk : List Node → Prop
  | [] => True
  | c :: cs => c.Ok ∧ AllOk cs
end

/-! ## What is assumed -/

/-- The names that the program uses itself. -/
def internal : List Text := [t!"<ANY_TAG>", t!"<ANY_CHAR>", t!"<ANY_UPPER>", t!"<ANY_LOWER>", t!"<$>", t!"<$$>"]

/-- No two stars that follow each other. -/
def NoDouble : Text → Prop
  | [] => True
  | c :: p => (c = '*' → p.head? ≠ some '*') ∧ NoDouble p

/-- Neither `?` nor `+` directly after `*` or `+` (`loop`: there is such a tag before; empty tags are ignored). -/
def TagsPlain : Bool → List Text → Prop
  | _, [] => True
  | loop, t :: p =>
    if t = [] then TagsPlain loop p
    else (loop = true → t ≠ t!"?" ∧ t ≠ t!"+") ∧ TagsPlain (decide (t = t!"*" ∨ t = t!"+")) p

/-- All characters are in the basic multilingual plane. -/
def Basic (t : Text) : Prop := ∀ c ∈ t, c.toNat < 0x10000

/-- What is assumed of a `match`: the characters are in the basic multilingual plane, of two stars, or tags that stand for several, none follows the other,
and lemma and surface form have no `/`. -/
structure Match.Plain (m : Match) : Prop where
  basic : ∀ t ∈ [m.lem, m.surf, m.srcsurf, m.trgsurf, m.srclem, m.trglem], Basic t
  lem : NoDouble m.lem
  surf : NoDouble m.surf
  slash : '/' ∉ m.lem ++ m.surf
  tags : TagsPlain false m.tags
  names : ∀ t ∈ m.tags, t!"<" ++ t ++ t!">" ∉ internal

/-- The tags do not have the names of the program. -/
def Match.Named (m : Match) : Prop := ∀ t ∈ m.tags, t!"<" ++ t ++ t!">" ∉ internal

mutual
/-- All `match` elements have the property. -/
def Node.Each (P : Match → Prop) : Node → Prop
  | .word m => P m
  | .start => True
  | .or cs => AllEach P cs
  | .rep _ _ cs => AllEach P cs

def AllEach (P : Match → Prop) : List Node → Prop
  | [] => True
  | c :: cs => c.Each P ∧ AllEach P cs
end

/-- What is assumed of a word: no `/` and no NUL, and no tags with internal names. -/
structure Seen.Plain (w : Seen) : Prop where
  src : Basic w.srcSurf ∧ Basic w.srcLem ∧ '/' ∉ w.srcSurf ++ w.srcLem ∧ '\x00' ∉ w.srcSurf ++ w.srcLem
  chars : Tok.chr '/' ∉ w.form ++ w.surf ∧ Tok.chr '\x00' ∉ w.form ++ w.surf
  tags : ∀ t ∈ internal, Tok.tag t ∉ w.form ++ w.surf

/-- The form and the surface form do not have the tags that the program uses for the ends of words and sections. -/
def NoBoundary (form surf : Text) : Prop := ∀ t ∈ [t!"<$>", t!"<$$>"], Tok.tag t ∉ tokens form ++ tokens surf

/-- What the restorer reads of a word. -/
structure Reads (w : Seen) (caps form surf : Text) : Prop where
  caps : caps = w.srcSurf ++ t!"/" ++ w.srcLem
  form : tokens form = w.form
  surf : tokens surf = w.surf

/-- The rules see the word of a stream (Verif.Caps) as `v`, and it is one of those that are considered here. -/
def Sees (w : Caps.SWord) (v : Seen) : Prop := Reads v (Caps.sourceCase w.wb) (Caps.unitForm w.inside) (Caps.unitSurf w.inside) ∧ v.Plain

/-! ## The variant chosen -/

/-- `M n k` is what the rule number `k` gives to the words that end at the word number `n`, if it matches there; no rule matches there in two ways. -/
def OneWay (upper : Nat → Bool) (rs : List Rule) (ws : List Seen) (M : Nat → Nat → Option (List Mark)) : Prop :=
  ∀ n k ms, n < ws.length → (M n k = some ms ↔ MatchesAt upper rs (ws.take (n + 1)) k ms)

/-- What a match of a rule counts: the weight that is given if it is greater than -2147483647, otherwise one. -/
def Rule.worth (one : Int) (r : Rule) : Int := (r.weight.filter fun w => decide (-2147483647 * one < w)).getD one

/-- What the rule number `k` adds to mark `m` of the word `i` when it matches at the word `n`. -/
def share (one : Int) (rs : List Rule) (M : Nat → Nat → Option (List Mark)) (m : Mark) (i n k : Nat) : Int :=
  if i ≤ n ∧ ((M n k).bind fun ms => ms.reverse[n - i]?) = some m then (rs[k]?.map (Rule.worth one)).getD 0 else 0

/-- The votes for mark `m` of the word number `i`, of the `len` words of a section. -/
def votes (one : Int) (rs : List Rule) (M : Nat → Nat → Option (List Mark)) (len i : Nat) (m : Mark) : Int :=
  ((List.range len).map fun n => ((List.range rs.length).map fun k => share one rs M m i n k).sum).sum

/-- The words from the number `i` on, the word number `i` as variant `f i`. -/
def variants (cs : Caps.Casing) (delete : Bool) (f : Nat → Mark) : Nat → List Caps.SWord → Text
  | _, [] => []
  | i, w :: ws => Stream.render w.before ++ Caps.unitOut cs delete (f i) w.wb w.inside ++ variants cs delete f (i + 1) ws

/-- The output for the words of a section: each is written as the variant with most votes. -/
def Elected (upper : Nat → Bool) (one : Int) (rs : List Rule) (cs : Caps.Casing) (delete : Bool) (ws : List (Caps.SWord × Seen)) (o : Text) : Prop :=
  ∀ M, OneWay upper rs (ws.map Prod.snd) M →
    ∃ f, (∀ i, i < ws.length → Caps.IsBest (votes one rs M ws.length i) (f i)) ∧ o = variants cs delete f 0 (ws.map Prod.fst)

/-- The output for sections that end with NUL. -/
inductive ElectedAll (upper : Nat → Bool) (one : Int) (rs : List Rule) (cs : Caps.Casing) (delete : Bool) : List (List (Caps.SWord × Seen)) → Text → Prop
  | nil : ElectedAll upper one rs cs delete [] []
  | cons {ws : List (Caps.SWord × Seen)} {rest : List (List (Caps.SWord × Seen))} {o o' : Text} : Elected upper one rs cs delete ws o →
      ElectedAll upper one rs cs delete rest o' → ElectedAll upper one rs cs delete (ws :: rest) (o ++ '\x00' :: o')

/-! ## Automata -/

/-- A path that reads `s`. -/
inductive Path (E : List Edge) : Nat → List Lab → Nat → Prop where
  | nil (p : Nat) : Path E p [] p
  | eps {p q r : Nat} {s : List Lab} : (p, none, q) ∈ E → Path E q s r → Path E p s r
  | step {p q r : Nat} {a : Lab} {s : List Lab} : (p, some a, q) ∈ E → Path E q s r → Path E p (a :: s) r

/-- The transducer accepts `s`. -/
def Trans.Accepts (t : Trans) (s : List Lab) : Prop := ∃ f ∈ t.finals, Path t.edges t.initial s f

/-- What is assumed of `minimize` (lttoolbox): it accepts the same; it has no edge with an empty label, and no edge that is not part of a path from the initial
to a final state. -/
structure Minimal (t m : Trans) : Prop where
  same : ∀ s, m.Accepts s ↔ t.Accepts s
  initial : m.initial < m.next
  edges : ∀ e ∈ m.edges, e.1 < m.next ∧ e.2.2 < m.next
  finals : ∀ f ∈ m.finals, f < m.next
  noEmpty : ∀ e ∈ m.edges, e.2.1 ≠ none
  useful : ∀ e ∈ m.edges, ∃ u v f, Path m.edges m.initial u e.1 ∧ Path m.edges e.2.2 v f ∧ f ∈ m.finals

end Verif.Crx
