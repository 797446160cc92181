import Mathlib.Algebra.BigOperators.Group.List.Lemmas
import Verif.FeatVec.Model
/-!
# C97: what a feature vector is

From the model the types and the operations' names (`Op`) are used.
-/
namespace Verif.FeatVec

/-- The value of a feature in a list of entries: the sum of what its entries say, so that no order and no map is needed. -/
def val (v : Vec) (k : Key) : ℚ := ((v.filter fun e => e.1 = k).map Prod.snd).sum

/-- A well-formed map: the keys increase (lexicographic order of Mathlib). -/
def Sorted (v : Vec) : Prop := v.Pairwise fun e f => e.1 < f.1

/-- What an operation adds to the value of a feature. -/
def Op.delta (k : Key) : Op → ℚ
  | .addU fs => fs.count k
  | .add v => val v k
  | .subU fs => - (fs.count k : ℚ)
  | .sub v => - val v k

end Verif.FeatVec
