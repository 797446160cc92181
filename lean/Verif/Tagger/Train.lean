import Mathlib.Algebra.Order.Field.Rat
import Verif.Tagger.Classes
/-!
# Estimation of the parameters of the HMM: initialisation and rules, apertium/hmm.cc:174-413

Simplification: exact rational arithmetic instead of `double` (no rounding, no overflow, no NaN).  Matrices are
total functions of two indices of which only those below N (tags) and M (classes) are used.
-/
namespace Verif.Tagger.Train

abbrev Mat := Nat → Nat → ℚ

/-- `#define ZERO 1e-10`, hmm.h:47. -/
def ZERO : ℚ := 1 / 10000000000

/-- `double sum = 0; for (j = 0; j < n; j++) sum += f(j);` -/
def sumTo : Nat → (Nat → ℚ) → ℚ
  | 0, _ => 0
  | n + 1, f => sumTo n f + f n

/-- `m[i][j] = x` -/
def setCell (m : Mat) (i j : Nat) (x : ℚ) : Mat := fun i' j' => if i' = i ∧ j' = j then x else m i' j'

/-! ## apply_rules -/

/-- `TForbidRule`, `TEnforceAfterRule`, ttag.h:27-37. -/
structure Rules where
  forbid : List (Nat × Nat)
  enforce : List (Nat × List Nat)

/-- hmm.cc:383-385. -/
def applyForbid (rs : List (Nat × Nat)) (a : Mat) : Mat := rs.foldl (fun a r => setCell a r.1 r.2 ZERO) a

/-- hmm.cc:387-399. -/
def applyEnforce (n : Nat) (rs : List (Nat × List Nat)) (a : Mat) : Mat :=
  rs.foldl (fun a r => (List.range n).foldl (fun a j => if j ∈ r.2 then a else setCell a r.1 j ZERO) a) a

/-- hmm.cc:402-412: each row is divided by its sum. -/
def normalize (n : Nat) (a : Mat) : Mat := fun i j =>
  if i < n ∧ j < n then (if sumTo n (a i) > 0 then a i j / sumTo n (a i) else 0) else a i j

/-- `HMM::apply_rules`, hmm.cc:374-413. -/
def applyRules (n : Nat) (r : Rules) (a : Mat) : Mat := normalize n (applyEnforce n r.enforce (applyForbid r.forbid a))

/-! ## unsupervised initialisation (Kupiec) -/

/-- The counters of hmm.cc:180-181 and the class of the previous word. -/
structure KSt where
  k1 : Nat
  occ : Nat → ℚ
  pair : Mat

/-- hmm.cc:195-217, one word whose ambiguity class has number `k2`. -/
def kupiecStep (s : KSt) (k2 : Nat) : KSt :=
  { k1 := k2,
    occ := fun k => if k = s.k1 then s.occ k + 1 else s.occ k,
    pair := setCell s.pair s.k1 k2 (s.pair s.k1 k2 + 1) }

/-- hmm.cc:180-217: all words; `k0` is the number of the class of the end-of-sentence tag. -/
def kupiecCount (k0 : Nat) (ks : List Nat) : KSt :=
  ks.foldl kupiecStep { k1 := k0, occ := fun _ => 1, pair := fun _ _ => 1 }

/-- hmm.cc:220-226: `tags_estimate[i]`; `cls k` is the ambiguity class number `k`. -/
def tagsEstimate (m : Nat) (cls : Nat → Tags) (occ : Nat → ℚ) (i : Nat) : ℚ :=
  sumTo m fun k => if i ∈ cls k then occ k / (cls k).length else 0

/-- hmm.cc:228-240: `tags_pair_estimate[i][j]`.  Simplification: the loops over the pairs of classes and their
members add to all cells in turn; here each cell is summed by itself. -/
def pairEstimate (m : Nat) (cls : Nat → Tags) (pair : Mat) (i j : Nat) : ℚ :=
  sumTo m fun k1 => sumTo m fun k2 =>
    if i ∈ cls k1 ∧ j ∈ cls k2 then pair k1 k2 / (((cls k1).length : ℚ) * (cls k2).length) else 0

/-- hmm.cc:243-256: the new transition matrix. -/
def kupiecA (n m : Nat) (cls : Nat → Tags) (s : KSt) (i j : Nat) : ℚ :=
  let sum := sumTo n (pairEstimate m cls s.pair i)
  if sum > 0 then pairEstimate m cls s.pair i j / sum else 0

/-- hmm.cc:259-268: the new emission matrix; cells outside are not written (`b`). -/
def kupiecB (m : Nat) (cls : Nat → Tags) (s : KSt) (b : Mat) (i k : Nat) : ℚ :=
  if i ∈ cls k then
    if tagsEstimate m cls s.occ i > 0 then (s.occ k / (cls k).length) / tagsEstimate m cls s.occ i else 0
  else b i k

/-! ## supervised initialisation -/

/-- A word of the tagged text and of the untagged text: the tag (`none`: unknown word, -1), and the number of the
ambiguity class. -/
structure SWord where
  tag : Option Nat
  cls : Nat

structure SSt where
  tag1 : Option Nat
  pair : Mat
  emission : Mat

/-- hmm.cc:285-338, one word.  Simplification: the two texts are aligned and no word of the tagged text is
ambiguous (the code ends the program, or repeats the previous tag, otherwise). -/
def supStep (s : SSt) (w : SWord) : SSt :=
  { tag1 := w.tag,
    pair := match s.tag1, w.tag with
      | some t2, some t1 => setCell s.pair t2 t1 (s.pair t2 t1 + 1)
      | _, _ => s.pair,
    emission := match w.tag with
      | some t1 => setCell s.emission t1 w.cls (s.emission t1 w.cls + 1)
      | none => s.emission }

def supCount (eos : Nat) (ws : List SWord) : SSt :=
  ws.foldl supStep { tag1 := some eos, pair := fun _ _ => 0, emission := fun _ _ => 0 }

/-- hmm.cc:342-348. -/
def supA (n : Nat) (s : SSt) (i j : Nat) : ℚ := (s.pair i j + 1) / sumTo n fun j => s.pair i j + 1

/-- hmm.cc:352-366. -/
def supB (m : Nat) (cls : Nat → Tags) (s : SSt) (b : Mat) (i k : Nat) : ℚ :=
  if i ∈ cls k then
    (s.emission i k + 1 / sumTo m (fun k => if i ∈ cls k then 1 else 0)) /
      (sumTo m (fun k => if i ∈ cls k then s.emission i k else 0) + 1)
  else b i k

end Verif.Tagger.Train
