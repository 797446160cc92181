import Verif.Base
/-!
# Model of apertium-posttransfer

`apertium/apertium_posttransfer.cc` lines 43-60.
-/
namespace Verif.Post

/-- The loop of `processStream` (apertium_posttransfer.cc:43-60).  The argument is the flag `last_space`; the
result is what is written.  `null_flush` only adds a flush after a NUL and is not modelled. -/
def loop : Bool → Text → Text
  | _, [] => []
  | lastSpace, c :: rest =>
    if lastSpace = false ∨ c ≠ ' ' then c :: loop (decide (c = ' ')) rest
    else loop (decide (c = ' ')) rest

/-- `processStream` (apertium_posttransfer.cc:43-60): `last_space` starts as false. -/
def processStream (input : Text) : Text := loop false input

end Verif.Post
