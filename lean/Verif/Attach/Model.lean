import Verif.Base
/-!
# Model of apertium-wblank-attach

`apertium/wblank-attach.cc`.  The tool works on bytes; a byte is modelled as the character with that code.
Warnings on stderr are not modelled.
-/
namespace Verif.Attach

def isTrim (c : Char) : Bool := c = ';' ∨ c = ' '

/-- `trim_wb` (wblank-attach.cc:25-33): first the end, then the beginning. -/
def trimWb (t : Text) : Text := ((t.reverse.dropWhile isTrim).reverse).dropWhile isTrim

/-- The pieces visited by the loop wblank-attach.cc:157-168 (before `trim_wb`): the text is cut at every `;`.
`std::max(e, e + 1)` is `npos` when there is no more `;`. -/
def pieces (t : Text) : List Text :=
  if h : t = [] then []
  else
    t.takeWhile (· ≠ ';') :: (match _h2 : t.dropWhile (· ≠ ';') with
      | [] => []
      | _ :: rest => pieces rest)
  termination_by t.length
  decreasing_by
    have := (List.dropWhile_suffix (l := t) (fun x => decide (x ≠ ';'))).length_le
    simp_all; omega

/-- The variables of `main` (wblank-attach.cc:50-57).  `stack` has the most recent element first. -/
structure St where
  wbs : List Text := []
  stack : List Nat := []
  blank : Text := []
  unesc : Text := []
  inToken : Bool := false
  inBlank : Bool := false
  inWblank : Bool := false
  deriving DecidableEq, Repr

/-- One iteration of the loop wblank-attach.cc:158-168 on the pair (`wbs`, `wb_stack.back()`). -/
def addPiece (a : List Text × Nat) (piece : Text) : List Text × Nat :=
  let w := trimWb piece
  if w ≠ [] ∧ w ∉ a.1 then (a.1 ++ [w], a.2 + 1) else a

/-- wblank-attach.cc:66-78, an escaped pair. -/
def stepEsc (s : St) (n : Char) : St × Text :=
  if s.inBlank then ({ s with blank := s.blank ++ ['\\', n], unesc := s.unesc ++ [n] }, [])
  else (s, ['\\', n])

/-- What is written before a `^` (wblank-attach.cc:114-123). -/
def wbsText (wbs : List Text) : Text :=
  if wbs = [] then [] else ['[', '['] ++ List.intercalate [';', ' '] wbs ++ [']', ']']

/-- wblank-attach.cc:101-128: flags, and what is written before the character. -/
def flags (s : St) (c : Char) : St × Text :=
  if s.inToken = false ∧ c = '[' then
    ({ s with inWblank := if s.inBlank then true else s.inWblank, inBlank := true }, [])
  else if s.inWblank ∧ c = ']' then (s, [])
  else if s.inBlank ∧ c = ']' then (s, [])
  else if s.inBlank = false ∧ c = '^' then ({ s with inToken := true }, wbsText s.wbs)
  else if s.inBlank = false ∧ c = '$' then ({ s with inToken := false }, [])
  else (s, [])

/-- wblank-attach.cc:130-136. -/
def put (s : St) (c : Char) : St × Text :=
  if s.inBlank then ({ s with blank := s.blank ++ [c], unesc := s.unesc ++ [c] }, []) else (s, [c])

/-- The end of a blank (wblank-attach.cc:142-175).  `wbs.pop_back()` on an empty vector, and a range whose begin is after
its end, are undefined behaviour. -/
def closeBlank (s : St) : Outcome (St × Text) :=
  let s0 := { s with inBlank := false, blank := [], unesc := [] }
  if ['[', '[', '/', ']', ']'] <+: s.blank then
    match s.stack with
    | [] => .ok (s0, [])
    | n :: stack =>
      if n ≤ s.wbs.length then .ok ({ s0 with wbs := s.wbs.take (s.wbs.length - n), stack := stack }, [])
      else .ub
  else if ['[', '['] <+: s.blank then
    if s.unesc.length < 4 then .ub
    else
      let content := (s.unesc.drop 2).take (s.unesc.length - 4)
      let a := (pieces content).foldl addPiece (s.wbs, 0)
      .ok ({ s0 with wbs := a.1, stack := a.2 :: s.stack }, [])
  else .ok (s0, s.blank)

/-- wblank-attach.cc:138-176. -/
def finish (s : St) (c : Char) : Outcome (St × Text) :=
  if s.inWblank ∧ c = ']' then .ok ({ s with inWblank := false }, [])
  else if s.inBlank ∧ c = ']' then closeBlank s
  else .ok (s, [])

/-- The body of the loop for a character that is not an escaping backslash (wblank-attach.cc:80-176).
At NUL `in_wblank` and `wb_stack` are not reset (lines 80-99). -/
def step (s : St) (c : Char) : Outcome (St × Text) :=
  if c = '\x00' then
    .ok ({ s with inToken := false, inBlank := false, wbs := [], blank := [],
                  unesc := if s.blank = [] then s.unesc else [] }, s.blank ++ ['\x00'])
  else
    let r1 := flags s c
    let r2 := put r1.1 c
    (finish r2.1 c).map fun r3 => (r3.1, r1.2 ++ r2.2 ++ r3.2)

def eofByte : Char := '\u00FF'

/-- The loop (wblank-attach.cc:61-177) and the end (186-189): what is written, or undefined behaviour.
`std::cin.peek()` is 0 (false) when the next byte is NUL, and EOF (true) at the end of the input. -/
def run (s : St) : Text → Outcome Text
  | [] => .ok s.blank
  | c :: rest =>
    if c = '\\' then
      match rest with
      | [] => .ok ((stepEsc s eofByte).2 ++ (stepEsc s eofByte).1.blank)
      | n :: rest' =>
        if n = '\x00' then (step s c).bind fun r => (run r.1 (n :: rest')).map (r.2 ++ ·)
        else (run (stepEsc s n).1 rest').map ((stepEsc s n).2 ++ ·)
    else (step s c).bind fun r => (run r.1 rest).map (r.2 ++ ·)
  termination_by t => t.length

/-- `main` of wblank-attach. -/
def main (inp : Text) : Outcome Text := run {} inp

end Verif.Attach
