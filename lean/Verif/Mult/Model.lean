import Verif.Transfer.Loop
/-!
# Model of `apertium-multiple-translations`

`apertium/transfer_mult.cc`.  Simplifications:

* The bilingual dictionary (`biltransWithQueue`) is a function from words to translations.
* The pattern automaton is abstract (`Automaton`); `applyWord` (transfer_mult.cc:469-506) is its `word`.
* `input_buffer` is the list of all tokens, as in the model of the loop of the other programs.
* Files and the command line are not modelled.
-/
namespace Verif.Mult
open Verif.Transfer (Tok)

/-! ## Tokens -/

/-- `readToken` (transfer_mult.cc:141-194): a token and what is left of the input; `inside` in the inner loop (transfer_mult.cc:161-179), for a blank
in brackets.  At the end of the input `get` gives `U_EOF`: the inner loop does not end there, and after a backslash it is added to the content. -/
def readToken (inside : Bool) : Text → Text → Outcome (Tok × Text)
  | [], content => if inside then .diverge else .ok (.eof content, [])
  | c :: s, content =>
    if c = '\\' then
      match s with
      | [] => if inside then .diverge else .ok (.eof (content ++ ['\\', eofChar]), [])
      | d :: s => readToken inside s (content ++ ['\\', d])
    else if inside then
      if c = ']' then readToken false s (content ++ [']']) else readToken true s (content ++ [c])
    else if c = '[' then readToken true s (content ++ ['['])
    else if c = '$' then .ok (.word content, s)
    else if c = '^' then .ok (.blank content, s)
    else readToken false s (content ++ [c])

/-- All the tokens, up to the end of the input (at most `n`). -/
def readTokens : Nat → Text → Outcome (List Tok)
  | 0, _ => .diverge
  | n + 1, s => do
    let (t, r) ← readToken false s []
    match t with
    | .eof _ => return [t]
    | _ => return t :: (← readTokens n r)

/-! ## The translations of a word -/

/-- `isDefaultWord` (transfer_mult.cc:298-302). -/
def isDefault : Text → Bool
  | [] => false
  | c :: s => decide ((c :: s).take 3 = t!" D<") || isDefault s

/-- `str.find("__") != npos`. -/
def isMarked : Text → Bool
  | [] => false
  | c :: s => decide ((c :: s).take 2 = t!"__") || isMarked s

/-- A new translation (transfer_mult.cc:325-333 with `n` = 1, 339-347 with `n` = 0). -/
def push (n : Nat) (res : List Text) (w : Text) : List Text :=
  if n < res.length ∧ isDefault w then
    match res with
    | [] => [w]
    | r :: rs => w :: rs ++ [r]
  else res ++ [w]

/-- The loop (transfer_mult.cc:316-347); `cur` is `str.substr(low, i - low)`.  After a backslash at the end the index is past the limit. -/
def splitLoop : Text → Text → List Text → Outcome (List Text)
  | [], cur, res => .ok (push 0 res cur)
  | c :: s, cur, res =>
    if c = '\\' then
      match s with
      | [] => .ub
      | d :: s => splitLoop s (cur ++ ['\\', d]) res
    else if c = '/' then splitLoop s [] (push 1 res cur)
    else splitLoop s (cur ++ [c]) res

/-- Only the marked ones, if there are two (transfer_mult.cc:349-366). -/
def keepMarked (res : List Text) : List Text :=
  if 2 ≤ res.length then
    if 2 ≤ (res.filter isMarked).length then res.filter isMarked else res
  else res

/-- `acceptions` (transfer_mult.cc:304-369). -/
def acceptions (str : Text) : Outcome (List Text) :=
  (splitLoop (if str.head? = some '@' then str.drop 1 else str) [] []).map keepMarked

/-! ## What is written -/

/-- `writeMultiple` (transfer_mult.cc:371-427): what it appends to `output_string`.  (There is a blank for every word but the last, so that
`*itblanks` exists.) -/
def writeMultiple : List (List Text) → List Text → Text → Bool → Text
  | [], _, acum, multiple => (if multiple then t!"[|]" else []) ++ acum
  | [w], bs, acum, multiple =>
    w.zipIdx.flatMap (fun x => writeMultiple [] bs (acum ++ t!"^" ++ x.1 ++ t!"$") (multiple || decide (0 < x.2)))
  | w :: w' :: ws, bs, acum, multiple =>
    w.zipIdx.flatMap (fun x => writeMultiple (w' :: ws) (bs.drop 1) (acum ++ t!"^" ++ x.1 ++ t!"$" ++ bs.headD []) (multiple || decide (0 < x.2)))

/-- `output_string.find("[|]") != npos`. -/
def hasBar : Text → Bool
  | [] => false
  | c :: s => decide ((c :: s).take 3 = t!"[|]") || hasBar s

/-- The translations of some words. -/
def acceptAll (dict : Text → Text) : List Text → Outcome (List (List Text))
  | [] => .ok []
  | w :: ws => do
    let a ← acceptions (dict w)
    return a :: (← acceptAll dict ws)

/-- `applyRule` (transfer_mult.cc:429-462): what is written. -/
def applyRule (dict : Text → Text) (tmpword tmpblank : List Text) (numwords : Nat) : Outcome Text := do
  let words ← acceptAll dict (tmpword.take numwords)
  let o := writeMultiple words (tmpblank.take (numwords - 1)) [] false
  return if hasBar o then t!"[{]" ++ o ++ t!".[][}]" else o

/-- The loop of transfer_mult.cc:223-231. -/
def writeOne : List Text → Text
  | [] => []
  | w :: ws => t!"^" ++ w ++ t!"$" ++ ws.flatMap (fun x => t!"[|]^" ++ x ++ t!"$")

/-- A word that no rule matches (transfer_mult.cc:214-237). -/
def plainWord (dict : Text → Text) (w : Text) : Outcome Text :=
  if dict w = [] then .ok []
  else (acceptions (dict w)).map (fun a =>
    (if 1 < a.length then t!"[{]" else []) ++ writeOne a ++ (if 1 < a.length then t!".[][}]" else []))

/-! ## The loop -/

/-- The pattern automaton: `word` is `applyWord`, `blank` is `step(' ')`, `dead` is `size() == 0`, `final` is
`classifyFinals(...) != -1`. -/
structure Automaton (σ : Type) where
  init : σ
  cleared : σ
  word : σ → Text → σ
  blank : σ → σ
  dead : σ → Bool
  final : σ → Bool

/-- The variables of the loop. -/
structure St (σ : Type) where
  ms : σ
  tmpword : List Text := []
  tmpblank : List Text := []
  last : Nat := 0
  isRule : Bool := false
  numwords : Nat := 0
  pos : Nat := 0
  hi : Nat := 0
  out : Text := []

variable {σ : Type}

/-- The part of the loop body under `ms.size() == 0` (transfer_mult.cc:206-255). -/
def handleDead (A : Automaton σ) (dict : Text → Text) (s : St σ) : Outcome (St σ) :=
  if s.isRule then
    (applyRule dict s.tmpword s.tmpblank s.numwords).map (fun o =>
      { s with out := s.out ++ o, ms := A.init, tmpblank := [], tmpword := [], numwords := 0, isRule := false, pos := s.last })
  else
    match s.tmpword with
    | w :: _ =>
      (plainWord dict w).map (fun o =>
        let p := if s.last = s.hi then s.last else s.last + 1
        { s with out := s.out ++ o, tmpword := [], isRule := false, pos := p, last := p, ms := A.init })
    | [] =>
      match s.tmpblank with
      | b :: _ => .ok { s with out := s.out ++ b, tmpblank := [], last := s.pos, ms := A.init }
      | [] => .ok s

/-- The rest of the loop body (transfer_mult.cc:256-294). -/
def readNext (A : Automaton σ) (toks : List Tok) (s : St σ) : St σ ⊕ Text :=
  let s := if A.final s.ms then { s with isRule := true, numwords := s.tmpword.length, last := s.pos } else s
  let s' := { s with pos := s.pos + 1, hi := max s.hi (s.pos + 1) }
  match (toks[s.pos]?).getD (.eof []) with
  | .word w => .inl { s' with ms := A.word s.ms w, tmpword := s.tmpword ++ [w] }
  | .blank b => .inl { s' with ms := A.blank s.ms, tmpblank := s.tmpblank ++ [b] }
  | .eof e =>
    if s.tmpword ≠ [] then .inl { s' with tmpblank := s.tmpblank ++ [e], ms := A.cleared }
    else .inr (s.out ++ e)

/-- `transfer` (transfer_mult.cc:196-296) for at most `n` rounds (`none`: not finished). -/
def run (A : Automaton σ) (dict : Text → Text) (toks : List Tok) : Nat → St σ → Option (Outcome Text)
  | 0, _ => none
  | n + 1, s =>
    match (if A.dead s.ms then handleDead A dict s else .ok s).map (readNext A toks) with
    | .ok (.inl s') => run A dict toks n s'
    | .ok (.inr t) => some (.ok t)
    | .fail => some .fail
    | .diverge => some .diverge
    | .ub => some .ub

/-- The program ends on this input having written `out`. -/
def Writes (A : Automaton σ) (dict : Text → Text) (input out : Text) : Prop :=
  ∃ toks, readTokens (input.length + 1) input = .ok toks ∧ ∃ n, run A dict toks n { ms := A.init } = some (.ok out)

end Verif.Mult
