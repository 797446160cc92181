import Verif.Tagger.Train
import Verif.Tagger.Hmm
import Verif.Base
/-!
# The sliding-window tagger, apertium/lswpost.cc

Exact rational arithmetic instead of `double`, as in `Verif.Tagger.Train`.
-/
namespace Verif.Tagger.Lsw
open Verif.Tagger.Train

/-- `LSWPoST::is_valid_seq`, lswpost.cc:190-229.  The second test of an enforce rule is in the `else` branch of the
first. -/
def isValid (r : Rules) (left mid right : Nat) : Bool :=
  if r.forbid.any (fun f => decide ((left = f.1 ∧ mid = f.2) ∨ (mid = f.1 ∧ right = f.2))) = true then false
  else r.enforce.all fun e =>
    if left = e.1 then decide (mid ∈ e.2)
    else if mid = e.1 then decide (right ∈ e.2)
    else true

abbrev Cube := Nat → Nat → Nat → ℚ

/-- Three consecutive words: their sets of tags. -/
structure Win where
  left : Tags
  mid : Tags
  right : Tags

/-- The order of the three nested loops. -/
def Win.triples (w : Win) : List (Nat × Nat × Nat) :=
  w.left.flatMap fun l => w.mid.flatMap fun m => w.right.map fun r => (l, m, r)

/-- `d[l][m][r] += x` -/
def addCell (d : Cube) (t : Nat × Nat × Nat) (x : ℚ) : Cube := fun l m r =>
  if l = t.1 ∧ m = t.2.1 ∧ r = t.2.2 then d l m r + x else d l m r

/-- lswpost.cc:148-172: one window; `num_valid_seq` is the number of triples less one for each that is not
valid. -/
def initWin (r : Rules) (d : Cube) (w : Win) : Cube :=
  let n : Int := w.triples.foldl (fun n t => if isValid r t.1 t.2.1 t.2.2 = true then n else n - 1)
    (w.left.length * w.mid.length * w.right.length)
  if n ≠ 0 then
    w.triples.foldl (fun d t => if isValid r t.1 t.2.1 t.2.2 = true then addCell d t (1 / (n : ℚ)) else d) d
  else d

/-- The windows of a text: the end-of-sentence tag, then the words (lswpost.cc:113-142, 174-177); unknown words have the
open class. -/
def windows : List Tags → List Win
  | l :: m :: r :: rest => ⟨l, m, r⟩ :: windows (m :: r :: rest)
  | _ => []

/-- `LSWPoST::init_probabilities`, lswpost.cc:103-188, for a text with the sets of tags `ts`, the first of which is
that of the end of sentence.  Simplification: a text of one word returns before anything is stored; here the
table is then zero. -/
def init (r : Rules) (ts : List Tags) : Cube := (windows ts).foldl (initWin r) fun _ _ _ => 0

/-- lswpost.cc:283-305: one window of `train`. -/
def trainWin (old : Cube) (d : Cube) (w : Win) : Cube :=
  let norm := w.triples.foldl (fun s t => s + old t.1 t.2.1 t.2.2) 0
  w.triples.foldl (fun d t => if norm > ZERO then addCell d t (old t.1 t.2.1 t.2.2 / norm) else d) d

/-- `LSWPoST::train`, lswpost.cc:241-319. -/
def train (old : Cube) (ts : List Tags) : Cube := (windows ts).foldl (trainWin old) fun _ _ _ => 0

/-- lswpost.cc:367-374: the weight of a tag of the word in the middle. -/
def score (d : Cube) (left right : Tags) (m : Nat) : ℚ :=
  left.foldl (fun n l => right.foldl (fun n r => n + d l m r) n) 0

/-- lswpost.cc:364-379: `max` is -1 at first; `none`: the first tag of an empty set is taken. -/
def choose (d : Cube) (left mid right : Tags) : Option Nat :=
  match mid with
  | [] => none
  | t0 :: _ => some (mid.foldl (fun (b : ℚ × Nat) m =>
      if score d left right m > b.1 then (score d left right m, m) else b) (-1, t0)).2

/-- The loop of `LSWPoST::tagger`, lswpost.cc:358-402: the word in the middle is written when the next one has been
read.  `none`: undefined behaviour. -/
def run {α : Type} (d : Cube) (nf : Bool) : Tags → Item α → List (Item α) → Option (List (Ev α))
  | _, _, [] => some []
  | left, mid, right :: rest =>
    (choose d left mid.tags right.tags).bind fun t =>
      (run d nf mid.tags right rest).map fun out =>
        Ev.word mid.word t :: ((if right.eof = true ∧ nf = true then [Ev.nul] else []) ++ out)

/-- `LSWPoST::tagger`, lswpost.cc:334-405, on the words delivered by the stream (there is always one, the last has the
end-of-file mark). -/
def tagger {α : Type} (d : Cube) (nf : Bool) (eos : Nat) : List (Item α) → Option (List (Ev α))
  | [] => none
  | mid :: rest =>
    if mid.eof = true then some []
    else match rest with
      | [] => none
      | _ :: _ => run d nf [eos] mid rest

end Verif.Tagger.Lsw
