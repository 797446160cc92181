import Verif.Base
/-!
# Model of apertium-cleanstream

`apertium/apertium_cleanstream.cc` lines 35-104.
-/
namespace Verif.Clean

/-- lttoolbox's `InputFile::readBlock('[', ']')` after the `[` has been read (assumed behaviour: read up to and
including the first unescaped `]`, or to the end of the input): the text read, and the rest. -/
def readBlock : Text → Text × Text
  | [] => ([], [])
  | [c] => ([c], [])
  | c :: d :: rest =>
    if c = ']' then ([c], d :: rest)
    else if c = '\\' then
      (c :: d :: (readBlock rest).1, (readBlock rest).2)
    else
      (c :: (readBlock (d :: rest)).1, (readBlock (d :: rest)).2)
  termination_by t => t.length

theorem readBlock_length (t : Text) : (readBlock t).2.length ≤ t.length := by
  fun_induction readBlock t <;> simp_all <;> omega

structure Opts where
  spaced : Bool := true
  keepblank : Bool := false

/-- The separator (apertium_cleanstream.cc:45,50). -/
def Opts.ws (o : Opts) : Char := if o.spaced then ' ' else '\n'

/-- The loop (apertium_cleanstream.cc:62-98): `buf` and `intoken` are the variables of the code; the
result is what is written to stdout.  The `U_EOF` appended to `buf` at the end of the input has no effect. -/
def loop (o : Opts) (buf : Text) (intoken : Bool) : Text → Text
  | [] => []
  | c :: rest =>
    if c = '^' then
      if intoken then loop o (buf ++ ['\\', '^']) intoken rest
      else (if buf ≠ [] ∨ (buf = [] ∧ o.spaced = false) then [o.ws] else []) ++ loop o ['^'] true rest
    else if c = '$' then
      if intoken then (buf ++ ['$']) ++ loop o [] false rest
      else loop o buf intoken rest
    else if c = '\\' then
      match rest with
      | [] => []
      | d :: rest' => loop o (buf ++ ['\\', d]) intoken rest'
    else if intoken = false ∧ c = '[' then
      have := readBlock_length rest
      o.ws :: ((if o.keepblank then '[' :: (readBlock rest).1 else []) ++
        loop o buf intoken (readBlock rest).2)
    else loop o (buf ++ [c]) intoken rest
  termination_by t => t.length
  decreasing_by all_goals (simp_wf; try omega)

/-- `main` (apertium_cleanstream.cc:62-103). -/
def main (o : Opts) (inp : Text) : Text :=
  loop o [] false inp ++ (if o.spaced then [] else ['\n'])

end Verif.Clean
