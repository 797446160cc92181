import Verif.Base
/-!
# lttoolbox's `InputFile`, as apertium-extract-caps and apertium-restore-caps use it

lttoolbox is not part of the repository: the behaviour of `get`, `peek`, `unget`, `eof`, `readBlank`, `finishWBlank` and of the
functions of `StringUtils` below is assumed, as its users in /repo need it.
-/
namespace Verif.Caps

/-- An input: what is not read yet, and whether a read has hit the end (that is what `eof()` says). -/
structure In where
  rest : Text
  hit : Bool
  deriving DecidableEq, Repr

/-- Text put before the text a function has read. -/
def cat (s : Text) (p : Text × In) : Text × In := (s ++ p.1, p.2)

@[simp] theorem cat_fst (s : Text) (p : Text × In) : (cat s p).1 = s ++ p.1 := rfl
@[simp] theorem cat_snd (s : Text) (p : Text × In) : (cat s p).2 = p.2 := rfl

/-- `InputFile::readBlank(false)`: the text up to a `^`, a NUL, a `[[` or the end of the input.  The flag says that the reading is
inside a superblank `[..]`, which ends at the first `]` that is not escaped. -/
def readBlank : Bool → Text → Text × In
  | _, [] => ([], ⟨[], true⟩)
  | true, '\\' :: [] => (['\\', eofChar], ⟨[], true⟩)
  | true, '\\' :: d :: r => cat ['\\', d] (readBlank true r)
  | true, c :: r => cat [c] (readBlank (decide (c ≠ ']')) r)
  | false, '\\' :: [] => (['\\', eofChar], ⟨[], true⟩)
  | false, '\\' :: d :: r => cat ['\\', d] (readBlank false r)
  | false, c :: r =>
    if c = '^' ∨ c = '\x00' then ([], ⟨c :: r, false⟩)
    else if c = '[' then
      if r.head? = some '[' then ([], ⟨c :: r, false⟩) else cat [c] (readBlank true r)
    else cat [c] (readBlank false r)

/-- `InputFile::finishWBlank()` after `[[` has been read: up to and including the first `]]` that is not escaped.  (The result of the
C++ function begins with `[[`.) -/
def finishWBlank : Text → Text × In
  | [] => ([eofChar], ⟨[], true⟩)
  | '\\' :: [] => (['\\', eofChar], ⟨[], true⟩)
  | '\\' :: d :: r => cat ['\\', d] (finishWBlank r)
  | c :: r => if c = ']' ∧ r.head? = some ']' then ([']', ']'], ⟨r.tail, false⟩) else cat [c] (finishWBlank r)

/-- `StringUtils::merge_wblanks`: `[[a]]` and `[[b]]` give `[[a; b]]`. -/
def mergeWblanks (a b : Text) : Text :=
  if a = [] then b else if b = [] then a else a.take (a.length - 2) ++ t!"; " ++ b.drop 2

/-- `StringUtils::split(s, "; ")`; the first argument is the piece being read. -/
def splitSemi : Text → Text → List Text
  | acc, [] => [acc]
  | acc, [c] => [acc ++ [c]]
  | acc, c :: d :: r => if c = ';' ∧ d = ' ' then acc :: splitSemi [] r else splitSemi (acc ++ [c]) (d :: r)
  termination_by _ t => t.length

/-- `StringUtils::join(pieces, "; ")`. -/
def joinSemi : List Text → Text
  | [] => []
  | [p] => p
  | p :: q :: ps => p ++ t!"; " ++ joinSemi (q :: ps)

end Verif.Caps
