import Verif.Serial.Props
import Verif.Tsx.Violations
import Verif.Tagger.TrainProps
/-!
# apertium-tagger-apply-new-rules

The program reads the parameters of an HMM tagger and a tagger definition, puts the rules of the definition in place of those of the tagger, and writes the parameters again.
-/
namespace Verif.NewRules
open Verif.Serial (UStr Bytes Matrix PatternFormat)
open Verif.Tagger.Train (Rules applyRules)

/-- The numbers whose memory is in a matrix, and the memory of a number.  Simplification: the arithmetic is exact, and the result of `apply_rules` is rounded once. -/
structure Doubles where
  val : Nat → ℚ
  round : ℚ → Nat
  fits : ∀ q, round q < 2 ^ 64

/-- The units of a string: `UString` is UTF-16. -/
def units (t : Text) : UStr :=
  t.flatMap (fun c => if c.val.toNat < 0x10000 then [c.val.toNat] else [0xD800 + (c.val.toNat - 0x10000) / 0x400, 0xDC00 + (c.val.toNat - 0x10000) % 0x400])

/-- apertium_tagger_apply_new_rules.cc:154-156: the rules of the definition (`d`) take the place of those of the tagger (`x`). -/
def setRules {P : Type} (x : Serial.Hmm P) (d : Tsx.Data) : Serial.Hmm P :=
  { x with data := { x.data with forbid := d.forbid, enforce := d.enforce, prefer := d.prefer.map units } }

/-- The copy constructor of `TaggerDataHMM` (tagger_data_hmm.cc:65-74, with `TaggerData::copy`, tagger_data.cc:22-34), used by apertium_tagger_apply_new_rules.cc:158 and
hmm.cc:106.  The arrays are only made when there are states and classes (see `applied`). -/
def copied {P : Type} (p0 : P) (x : Serial.Hmm P) : Serial.Hmm P := { x with data := (Serial.Data.new p0).copy x.data }

/-- The rules name states below `n`, the second state of a forbid rule and all states of an enforce rule too. -/
def inRange (n : Nat) (r : Rules) : Bool := r.forbid.all (fun p => decide (p.1 < n ∧ p.2 < n)) && r.enforce.all (fun e => decide (e.1 < n))

/-- `HMM::apply_rules` (hmm.cc:374-413) on the matrix of the tagger.  A rule on a state that the tagger does not have writes outside the arrays, and without classes there are
no arrays. -/
def applied {P : Type} (fp : Doubles) (x : Serial.Hmm P) : Outcome (Serial.Hmm P) :=
  if 0 < x.n ∧ 0 < x.m ∧ inRange x.n ⟨x.data.forbid, x.data.enforce⟩ = true then
    .ok { x with a := fun i j => fp.round (applyRules x.n ⟨x.data.forbid, x.data.enforce⟩ (fun i j => fp.val (x.a i j)) i j) }
  else .ub

/-- `main` (apertium_tagger_apply_new_rules.cc:140-167): `file` is the content of the old file, `ns` the nodes of the definition; the result is the content of the new file.  A
file that ends too early is read as if something followed (`ub`); `Compression` throws for a number that it cannot write. -/
def prog {P : Type} (pf : PatternFormat P) (big : Bool) (zeroBits : Nat) (p0 : P) (fp : Doubles) (file : Bytes) (ns : List Tsx.Node) : Outcome Bytes :=
  match Serial.Hmm.read pf big zeroBits (Serial.Data.new p0) file with
  | none => .ub
  | some (x, _) => (Tsx.parse {} ns).bind fun d => (applied fp (copied p0 (setRules x d))).bind fun y =>
    match y.write pf big with
    | none => .fail
    | some bs => .ok bs

end Verif.NewRules
