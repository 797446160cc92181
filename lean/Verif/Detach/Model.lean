import Verif.Base
/-!
# Model of apertium-wblank-detach

`apertium/wblank-detach.cc`.  The tool works on bytes; a byte is modelled as the character with that code.
-/
namespace Verif.Detach

/-- The variables of `main` (wblank-detach.cc:37-42). -/
structure St where
  blank : Text := []
  inToken : Bool := false
  inBlank : Bool := false
  inWblank : Bool := false
  hadWblank : Bool := false
  deriving DecidableEq, Repr

/-- `'\xff'`: what `static_cast<char>(std::cin.get())` is at the end of the input. -/
def eofByte : Char := '\u00FF'

/-- The body of the loop for an escaped pair `\n` (wblank-detach.cc:46-57): new state and what is written. -/
def stepEsc (s : St) (n : Char) : St × Text :=
  if s.inBlank then ({ s with blank := s.blank ++ ['\\', n] }, []) else (s, ['\\', n])

/-- wblank-detach.cc:70-87. -/
def flags (s : St) (c : Char) : St :=
  if s.inToken = false ∧ c = '[' then { s with inWblank := if s.inBlank then true else s.inWblank, inBlank := true }
  else if s.inWblank ∧ c = ']' then s
  else if s.inBlank ∧ c = ']' then s
  else if s.inBlank = false ∧ c = '^' then { s with inToken := true }
  else if s.inBlank = false ∧ c = '$' then { s with inToken := false }
  else s

/-- wblank-detach.cc:89-94. -/
def put (s : St) (c : Char) : St × Text :=
  if s.inBlank then ({ s with blank := s.blank ++ [c] }, []) else (s, [c])

/-- wblank-detach.cc:96-110.  (`blank[1]` exists or is the terminating NUL.) -/
def finish (s : St) (c : Char) : St × Text :=
  if s.inWblank ∧ c = ']' then ({ s with inWblank := false }, [])
  else if s.inBlank ∧ c = ']' then
    ({ s with inBlank := false, blank := [],
              hadWblank := if ['[', '['] <+: s.blank then true else s.hadWblank }, s.blank)
  else if s.hadWblank ∧ s.inBlank = false ∧ c = '$' then ({ s with hadWblank := false }, ['[', '[', '/', ']', ']'])
  else (s, [])

/-- The body of the loop for any other character (wblank-detach.cc:59-110). -/
def step (s : St) (c : Char) : St × Text :=
  if c = '\x00' then ({}, s.blank ++ ['\x00'])
  else
    let s1 := flags s c
    let (s2, o2) := put s1 c
    let (s3, o3) := finish s2 c
    (s3, o2 ++ o3)

/-- The loop (wblank-detach.cc:45-111): what is written.  `std::cin.peek()` is 0 (false) when the next byte is NUL,
and EOF (true) at the end of the input.  An open blank is not written at the end. -/
def run (s : St) : Text → Text
  | [] => []
  | c :: rest =>
    if c = '\\' then
      match rest with
      | [] => (stepEsc s eofByte).2
      | n :: rest' =>
        if n = '\x00' then (step s c).2 ++ run (step s c).1 (n :: rest')
        else (stepEsc s n).2 ++ run (stepEsc s n).1 rest'
    else (step s c).2 ++ run (step s c).1 rest
  termination_by t => t.length

/-- The blank still open at the end of the input (lost by the tool). -/
def pending (s : St) : Text → Text
  | [] => s.blank
  | c :: rest =>
    if c = '\\' then
      match rest with
      | [] => (stepEsc s eofByte).1.blank
      | n :: rest' =>
        if n = '\x00' then pending (step s c).1 (n :: rest')
        else pending (stepEsc s n).1 rest'
    else pending (step s c).1 rest
  termination_by t => t.length

/-- `main` of wblank-detach. -/
def main (inp : Text) : Text := run {} inp

end Verif.Detach
