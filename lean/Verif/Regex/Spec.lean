import Verif.Base
/-!
# Specification: regular expressions as ICU reads them, and attributes

ICU is not part of the repository.  What is said here of its regular expressions is the part the generated expressions use
(ICU User Guide, "Regular Expressions"): literal characters, `\c` for a character that is not a letter or a digit, `( )` and
`(?: )`, `|`, `?` (which tries to match first) and sets of characters and ranges.  Anything else has no meaning here (`none`).
Matching is ICU's backtracking search: `run` gives what is left of the text after each way to match, in the order
in which they are tried, so that the first one is the match; `search` looks for the leftmost match.  Expressions are compiled with
`UREGEX_CASE_INSENSITIVE` (apertium_re.cc:47-53): characters are compared after `fold`.
-/
namespace Verif.Regex

/-- Regular expressions; `alt` is a group, with its alternatives. -/
inductive Re where
  | chr (c : Char)
  | set (l : List (Char × Char))
  | opt (r : Re)
  | alt (branches : List (List Re))

mutual
def Re.run (fold : Char → Char) : Re → Text → List Text
  | .chr _, [] => []
  | .chr c, x :: s => if fold x = fold c then [s] else []
  | .set _, [] => []
  | .set l, x :: s => if l.any (fun p => decide (fold p.1 ≤ fold x ∧ fold x ≤ fold p.2)) then [s] else []
  | .opt r, s => r.run fold s ++ [s]
  | .alt bs, s => runAlt fold bs s
def runAlt (fold : Char → Char) : List (List Re) → Text → List Text
  | [], _ => []
  | b :: bs, s => runSeq fold b s ++ runAlt fold bs s
def runSeq (fold : Char → Char) : List Re → Text → List Text
  | [], s => [s]
  | r :: rs, s => (r.run fold s).flatMap (runSeq fold rs)
end

/-- The leftmost match: the text before it, the text matched, the text after it (`RegexMatcher::find`, used by
`ApertiumRE::match` and `ApertiumRE::replace`, apertium_re.cc:72-136). -/
def search (fold : Char → Char) (r : Re) : Text → Option (Text × Text × Text)
  | [] => (r.run fold []).head?.map fun t => ([], [], t)
  | x :: s =>
    match r.run fold (x :: s) with
    | t :: _ => some ([], (x :: s).take ((x :: s).length - t.length), t)
    | [] => (search fold r s).map fun (a, b, c) => (x :: a, b, c)

/-- A group being read: the alternatives already read and the one being read, both backwards. -/
structure Frame where
  alts : List (List Re)
  cur : List Re

def Frame.push (f : Frame) (r : Re) : Frame := { f with cur := r :: f.cur }

def Frame.close (f : Frame) : Re := .alt (f.cur.reverse :: f.alts).reverse

/-- The characters with a meaning of their own outside a set. -/
def metaChars : List Char := ['*', '?', '+', '[', ']', '(', ')', '{', '}', '^', '$', '|', '\\', '.']

def Re.isOpt : Re → Bool
  | .opt _ => true
  | _ => false

/-- Reads an expression.  The first argument is `some` of the characters read so far (backwards) inside a set. -/
def parse : Option (List (Char × Char)) → Text → List Frame → Option Re
  | none, [], [f] => some f.close
  | none, c :: s, f :: st =>
    if c = '\\' then
      match s with
      | d :: s' => if d.isAlphanum then none else parse none s' (f.push (.chr d) :: st)
      | [] => none
    else if c = '(' then
      match s with
      | d :: s' =>
        if d = '?' then
          match s' with
          | d' :: s'' => if d' = ':' then parse none s'' (⟨[], []⟩ :: f :: st) else none
          | [] => none
        else parse none (d :: s') (⟨[], []⟩ :: f :: st)
      | [] => none
    else if c = ')' then
      match st with
      | g :: st' => parse none s (g.push f.close :: st')
      | [] => none
    else if c = '|' then parse none s (⟨f.cur.reverse :: f.alts, []⟩ :: st)
    else if c = '?' then
      match f.cur with
      | r :: rs => if r.isOpt then none else parse none s (⟨f.alts, .opt r :: rs⟩ :: st)
      | [] => none
    else if c = '[' then parse (some []) s (f :: st)
    else if c ∈ metaChars then none
    else parse none s (f.push (.chr c) :: st)
  | some l, c :: s, f :: st =>
    if c = ']' then parse none s (f.push (.set l.reverse) :: st)
    else if c = '\\' then
      match s with
      | d :: s' => if d.isAlphanum then none else parse (some ((d, d) :: l)) s' (f :: st)
      | [] => none
    else if c = '-' then
      match l, s with
      | (a, b) :: l', d :: s' =>
        if a = b ∧ a ≤ d ∧ d ∉ ['[', ']', '&', '^', '\\'] then parse (some ((a, d) :: l')) s' (f :: st) else none
      | _, _ => none
    else if c ∈ ['[', '&', '^'] then none
    else parse (some ((c, c) :: l)) s (f :: st)
  | _, _, _ => none

/-- What a text means as a regular expression. -/
def reOf (s : Text) : Option Re := parse none s [⟨[], []⟩]

/-- The tags of an attribute item, as they are in a lexical unit. -/
def tagText (tags : List Text) : Text := tags.flatMap fun t => '<' :: t ++ ['>']

/-- The same as they are written in `tags` of `attr-item`: separated by full stops. -/
def itemText (tags : List Text) : Text := List.intercalate ['.'] tags

/-- `a` and `b` are the same but for case. -/
def Same (fold : Char → Char) (a b : Text) : Prop := a.map fold = b.map fold

instance (fold : Char → Char) (a b : Text) : Decidable (Same fold a b) := inferInstanceAs (Decidable (_ = _))

end Verif.Regex
