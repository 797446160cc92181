import Verif.Base
/-!
# Model of apertium-pretransfer

`apertium/pretransfer.cc`.  `InputFile` is the list of the characters not yet read; `get` at the end
gives `U_EOF`; `eof()` is true after a `get` that hit the end (assumption on lttoolbox's `InputFile`).
Flushes are not modelled.
-/
namespace Verif.Pre

/-- `InputFile::get`. -/
def get : Text → Char × Text
  | [] => (eofChar, [])
  | c :: rest => (c, rest)

/-- `storeAndWriteWblank` (pretransfer.cc:11-48) after the first two characters `[[`.  The arguments are
`content` and what has been written by this call; the result is both and the rest of the input.
Lines 34-44: the character read after a single `]` is neither stored nor written unless it is `]`. -/
def storeWblank (content out : Text) : Text → Outcome (Text × Text × Text)
  | [] => .fail
  | c :: rest =>
    if c = '\\' then
      match rest with
      | [] => .fail
      | d :: rest' => storeWblank (content ++ [c, d]) (out ++ [c, d]) rest'
    else if c = ']' then
      match rest with
      | [] => .fail
      | d :: rest' =>
        if d = ']' then .ok (content ++ [c, d], out ++ [c, d], rest')
        else storeWblank (content ++ [c]) (out ++ [c]) rest'
    else storeWblank (content ++ [c]) (out ++ [c]) rest

/-- `readAndWriteUntil` (pretransfer.cc:50-68): what is written, and the rest of the input. -/
def readUntil (stop : Char) : Text → Outcome (Text × Text)
  | [] => .fail
  | c :: rest =>
    if c = stop then .ok ([], rest)
    else if c = '\\' then
      match rest with
      | [] => .fail
      | d :: rest' => (readUntil stop rest').map fun r => (c :: d :: r.1, r.2)
    else (readUntil stop rest).map fun r => (c :: r.1, r.2)

/-- One iteration of the loop that skips the surface form (pretransfer.cc:81-83), on an `InputFile`
that returns `U_EOF` for ever at the end: `none` = leave the loop. -/
def skipStep (inp : Text) : Option Text × Text :=
  let (c, rest) := get inp
  if c = '/' then (none, rest)
  else if c = '\\' then (some (get rest).2, (get rest).2)
  else (some rest, rest)

/-- The loop of pretransfer.cc:81-83 run for at most `n` iterations; `none` when it has not ended. -/
def skipFuel : Nat → Text → Option Text
  | 0, _ => none
  | n + 1, inp =>
    match skipStep inp with
    | (none, rest) => some rest
    | (some rest, _) => skipFuel n rest

/-- The loop of pretransfer.cc:81-83.  There is no test for the end of the input: if it is reached the
loop never ends (theorem `skip_diverges` relates this to `skipFuel`). -/
def skipSurface : Text → Outcome Text
  | [] => .diverge
  | c :: rest =>
    if c = '/' then .ok rest
    else if c = '\\' then
      match rest with
      | [] => .diverge
      | _ :: rest' => skipSurface rest'
    else skipSurface rest

/-- Local variables of `procWord` (pretransfer.cc:72-77) and what it has written. -/
structure PW where
  bufferMode : Bool := false
  inTag : Bool := false
  queuing : Bool := false
  buffer : Text := []
  out : Text := []
  deriving DecidableEq, Repr

/-- The `switch` of `procWord` (pretransfer.cc:94-115). -/
def pwSwitch (s : PW) (c : Char) : PW :=
  if c = '<' then { s with inTag := true, bufferMode := true }
  else if c = '>' then { s with inTag := false }
  else if c = '#' then
    if s.bufferMode then { s with bufferMode := false, queuing := true } else s
  else s

/-- The part of the loop body of `procWord` after the `switch` (pretransfer.cc:117-150). -/
def pwEmit (compoundSep : Bool) (wblank : Text) (s : PW) (c : Char) : PW :=
  if s.bufferMode then
    if (c ≠ '+' ∨ s.inTag) ∧ (c ≠ '~' ∨ s.inTag) then { s with buffer := s.buffer ++ [c] }
    else if s.inTag = false ∧ c = '+' then { s with buffer := s.buffer ++ ['$', ' '] ++ wblank ++ ['^'] }
    else if s.inTag = false ∧ c = '~' ∧ compoundSep then { s with buffer := s.buffer ++ ['$'] ++ wblank ++ ['^'] }
    else s
  else
    if c = '+' ∧ s.queuing then
      { s with buffer := s.buffer ++ ['$', ' '] ++ wblank ++ ['^'], bufferMode := true }
    else { s with out := s.out ++ [c] }

/-- The loop body of `procWord` (pretransfer.cc:94-150). -/
def pwStep (compoundSep : Bool) (wblank : Text) (s : PW) (c : Char) : PW :=
  pwEmit compoundSep wblank (pwSwitch s c) c

/-- The main loop of `procWord` (pretransfer.cc:86-153): what is written and the rest of the input. -/
def pwLoop (compoundSep : Bool) (wblank : Text) (s : PW) : Text → Outcome (Text × Text)
  | [] => .fail
  | c :: rest =>
    if c = '$' then .ok (s.out ++ s.buffer, rest)
    else pwLoop compoundSep wblank (pwStep compoundSep wblank s c) rest

/-- `procWord` (pretransfer.cc:70-154). -/
def procWord (surfaceForms compoundSep : Bool) (wblank : Text) (inp : Text) : Outcome (Text × Text) :=
  if surfaceForms then
    (skipSurface inp).bind fun inp' => pwLoop compoundSep wblank {} inp'
  else pwLoop compoundSep wblank {} inp

/-- One iteration of the loop of `processStream` (pretransfer.cc:160-220) on a non-empty input: what is
written and the rest of the input. -/
def streamStep (surfaceForms compoundSep : Bool) (c : Char) (rest : Text) : Outcome (Text × Text) :=
  if c = '[' then
    match rest with
    | '[' :: rest' =>
      (storeWblank ['[', '['] [] rest').bind fun (wblank, out, r) =>
        match r with
        | '^' :: r' =>
          (procWord surfaceForms compoundSep wblank r').map fun (w, r'') =>
            ('[' :: '[' :: out ++ '^' :: w ++ ['$'], r'')
        | _ => .fail
    | _ => (readUntil ']' rest).map fun (o, r) => ('[' :: o ++ [']'], r)
  else if c = '\\' then .ok ([c, (get rest).1], (get rest).2)
  else if c = '^' then
    (procWord surfaceForms compoundSep [] rest).map fun (w, r) => ('^' :: w ++ ['$'], r)
  else .ok ([c], rest)

/-- The loop of `processStream` (pretransfer.cc:156-222).  The first argument bounds the number of iterations; each
iteration reads at least one character (`streamStep_length`), so `length + 1` is enough. -/
def streamLoop (surfaceForms compoundSep : Bool) : Nat → Text → Outcome Text
  | _, [] => .ok []
  | 0, _ :: _ => .diverge
  | n + 1, c :: rest =>
    (streamStep surfaceForms compoundSep c rest).bind fun (o, r) =>
      (streamLoop surfaceForms compoundSep n r).map (o ++ ·)

/-- `processStream` (pretransfer.cc:156-222): the whole output, or how the run ends. -/
def processStream (surfaceForms compoundSep : Bool) (inp : Text) : Outcome Text :=
  streamLoop surfaceForms compoundSep inp.length inp

end Verif.Pre
