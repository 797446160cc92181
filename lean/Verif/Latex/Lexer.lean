/-
  A flex scanner (C86): the rules of a `.l` file, the start condition, the
  longest match, the first rule among equals, and the default rule.
-/
import Verif.Base

namespace Verif.Latex

/-- One element of a flex pattern.  Every pattern of the two scanners modelled
    here is a sequence of these in which a repeated class never overlaps what
    follows it, so taking as much as possible is the only way to match. -/
inductive Item where
  /-- one character of a class -/
  | one (p : Char → Bool)
  /-- as many characters of a class as there are -/
  | many (p : Char → Bool)
  /-- a character of a class, if there is one -/
  | opt (p : Char → Bool)

abbrev Pat := List Item

/-- The text a pattern matches at the beginning of `s`. -/
def mtch : Pat → Text → Option Text
  | [], _ => some []
  | .one _ :: _, [] => none
  | .one p :: r, c :: s =>
      if p c = true then (mtch r s).map (fun w => c :: w) else none
  | .many p :: r, s =>
      (mtch r (s.dropWhile p)).map (fun w => s.takeWhile p ++ w)
  | .opt _ :: r, [] => mtch r []
  | .opt p :: r, c :: s =>
      if p c = true then (mtch r s).map (fun w => c :: w) else mtch r (c :: s)

/-- A rule: its start condition (`%x`, 0 is INITIAL), its pattern, and its
    action, from `yytext` and the globals to the output, the start condition
    left by `BEGIN` and the globals. -/
structure Rule (σ : Type) where
  start : Nat
  pat : Pat
  act : Text → Nat → σ → Text × Nat × σ

/-- What a rule matches here; a match of nothing loses to the default rule,
    which takes one character. -/
def hit (r : Rule σ) (sc : Nat) (s : Text) : Option Text :=
  if r.start = sc then
    match mtch r.pat s with
    | some [] => none
    | x => x
  else none

/-- The longest match, and among the longest the rule written first. -/
def best : List (Rule σ) → Nat → Text → Option (Text × Rule σ)
  | [], _, _ => none
  | r :: rs, sc, s =>
      match hit r sc s, best rs sc s with
      | some w, some (v, q) => if w.length < v.length then some (v, q) else some (w, r)
      | some w, none => some (w, r)
      | none, x => x

/-- `yylex()`: match, act, go on behind the match; where no rule matches, the
    default rule copies one character.  `n` bounds the number of matches. -/
def runLex (rules : List (Rule σ)) : Nat → Nat → σ → Text → Text
  | 0, _, _, _ => []
  | _ + 1, _, _, [] => []
  | n + 1, sc, g, c :: t =>
      match best rules sc (c :: t) with
      | some (w, r) =>
          (r.act w sc g).1
            ++ runLex rules n (r.act w sc g).2.1 (r.act w sc g).2.2 ((c :: t).drop w.length)
      | none => c :: runLex rules n sc g t

/-- The output for an input; every match takes at least one character. -/
def lex (rules : List (Rule σ)) (sc : Nat) (g : σ) (s : Text) : Text :=
  runLex rules s.length sc g s

/-- The pattern of a fixed text. -/
def lit (u : Text) : Pat := u.map (fun c => .one (fun x => decide (x = c)))

/-- A character of the list. -/
def oneOf (u : Text) : Item := .one (fun x => decide (x ∈ u))

/-- flex `.`: any character but a newline. -/
def dot : Item := .one (fun x => decide (x ≠ '\n'))

/-- `[A-Za-z]` -/
def isLetter (c : Char) : Bool :=
  decide ('a'.toNat ≤ c.toNat ∧ c.toNat ≤ 'z'.toNat)
    || decide ('A'.toNat ≤ c.toNat ∧ c.toNat ≤ 'Z'.toNat)

/-- `[0-9]` -/
def isDigit (c : Char) : Bool := decide ('0'.toNat ≤ c.toNat ∧ c.toNat ≤ '9'.toNat)

/-- `[a-zA-Z0-9]` -/
def isAlnum (c : Char) : Bool := isLetter c || isDigit c

/-- `[ \n\r\t]` -/
def isWs (c : Char) : Bool := decide (c ∈ t!" \n\r\t")

end Verif.Latex
