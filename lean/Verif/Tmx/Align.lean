import Mathlib.Algebra.Order.Field.Rat
import Verif.Base
/-!
# Model of the sentence alignment of apertium-tmxbuild (tmx_alignment.cc, tmx_quasi_diagonal.h)

Scores and lengths are rational numbers (in the code: doubles), positions are natural numbers (in the code: `int`; `row*width` does not
overflow only for books of fewer than about 46340 sentences).
-/
namespace Verif.Tmx

/-- The cells of a `QuasiDiagonal` that can be written: a band around the diagonal. -/
structure Band where
  height : Nat
  width : Nat
  thick : Nat

/-- `rowStart` (tmx_quasi_diagonal.h:116-125): `offset` can be negative, then it is 0. -/
def Band.start (b : Band) (row : Nat) : Nat := row * b.width / b.height - b.thick / 2

/-- `rowEnd` (tmx_quasi_diagonal.h:127-131). -/
def Band.stop (b : Band) (row : Nat) : Nat := min (row * b.width / b.height + (b.thick - b.thick / 2)) b.width

/-- Is the cell in the band (tmx_quasi_diagonal.h:46-62, zone `DiagZone`)? -/
def Band.has (b : Band) (row k : Nat) : Prop := row < b.height ∧ b.start row ≤ k ∧ k < b.stop row
instance (b : Band) (row k : Nat) : Decidable (b.has row k) := by unfold Band.has; infer_instance

/-- `operator[]` (tmx_quasi_diagonal.h:64-79): outside of the band a default value is read. -/
def Band.read {α : Type} (b : Band) (default : α) (data : Nat → Nat → α) (row k : Nat) : α := if b.has row k then data row k else default

/-- `cell(huPos, enPos) = ..` (tmx_quasi_diagonal.h:81-96, 139-147), inside the band. -/
def set {α : Type} (data : Nat → Nat → α) (row k : Nat) (x : α) : Nat → Nat → α := fun r c => if r = row ∧ c = k then x else data r c

/-- The constants of tmx_alignment.cc:60-65; `none` is 0, the value of a cell that was not written. -/
inductive Dir where
  | none | diag | huSkip | enSkip | huHuEn | huEnEn | dead
  deriving DecidableEq, Repr

/-- `skipScore` (tmx_alignment.h) -/
def skipScore : ℚ := -3 / 10

/-- `infinity` (tmx_alignment.cc:78). -/
def infinity : ℚ := 1000000

/-- The default of the matrix of the sums (tmx_aligner_tool.cc:203). -/
def outside : ℚ := 1000000000000000000000000000000

/-- `closeness` (tmx_alignment.cc:38-58). -/
def closeness (two one : ℚ) : ℚ :=
  3 / 10 - 3 / 10 * ((if two > one then (two + 1) / (one + 1) else (one + 1) / (two + 1)) - 1)

/-- The arguments of `align`: the similarities (a read outside of their band yields a default, that is part of `w`) and the lengths of the sentences. -/
structure Book where
  w : Nat → Nat → ℚ
  hu : List ℚ
  en : List ℚ
  thick : Nat

/-- The band of the matrix of the sums and of the directions. -/
def Book.band (b : Book) : Band := ⟨b.hu.length + 1, b.en.length + 1, b.thick⟩

/-- The length of a sentence. -/
def len (l : List ℚ) (i : Nat) : ℚ := l.getD i 0

/-- `values` (tmx_alignment.cc:97-156), in the order of the directions; `v` reads the sums.  There is no assignment to `values[HuHuEnSkip]` in the
code (lines 128-139 only compute a length). -/
def values (b : Book) (v : Nat → Nat → ℚ) (i j : Nat) : List (Dir × ℚ) :=
  [(.diag, if 0 < i ∧ 0 < j then v (i - 1) (j - 1) - b.w (i - 1) (j - 1) - closeness (len b.hu (i - 1)) (len b.en (j - 1)) else infinity),
   (.huSkip, if 0 < i then v (i - 1) j - skipScore else infinity),
   (.enSkip, if 0 < j then v i (j - 1) - skipScore else infinity),
   (.huHuEn, infinity),
   (.huEnEn, if 0 < i ∧ 1 < j then
      v (i - 1) (j - 2) - (if b.w (i - 1) (j - 1) < b.w (i - 1) (j - 2) then b.w (i - 1) (j - 1) else b.w (i - 1) (j - 2)) - skipScore -
        closeness (len b.en (j - 2) + len b.en (j - 1) + 2) (len b.hu (i - 1))
      else infinity)]

/-- The choice of the direction (tmx_alignment.cc:158-167). -/
def pick (l : List (Dir × ℚ)) : Dir × ℚ := l.foldl (fun best x => if x.2 < best.2 then x else best) (.dead, infinity)

/-- The cell (tmx_alignment.cc:169-177): a cell without direction has the sum 0. -/
def cellValue (p : Dir × ℚ) : Dir × ℚ := if p.1 = .dead then (.dead, 0) else p

/-- The matrix of the sums and the matrix of the directions. -/
structure Mats where
  v : Nat → Nat → ℚ
  t : Nat → Nat → Dir

/-- The body of the inner loop (tmx_alignment.cc:86-178; the flags of lines 89 and 94 are true). -/
def fillCell (b : Book) (m : Mats) (i j : Nat) : Mats :=
  let p := cellValue (pick (values b (b.band.read outside m.v) i j))
  ⟨set m.v i j p.2, set m.t i j p.1⟩

/-- The inner loop (tmx_alignment.cc:82-226). -/
def fillRow (b : Book) (m : Mats) (i : Nat) : Mats :=
  ((List.range (b.band.stop i)).filter fun j => b.band.start i ≤ j).foldl (fun m j => fillCell b m i j) m

/-- `buildDynProgMatrix` (tmx_alignment.cc:67-228).  The matrices are new (tmx_aligner_tool.cc:203, tmx_alignment.cc:334): all 0. -/
def build (b : Book) : Mats := (List.range (b.hu.length + 1)).foldl (fillRow b) ⟨fun _ _ => 0, fun _ _ => .none⟩

/-- The loop of `trelliToLadder` (tmx_alignment.cc:250-310); the trail is built from its end.  Every round makes `i + j` smaller, `n` is more than this.
`none`: a bad trail.  (`huPos -= 2` with `huPos = 1` cannot be: there is no direction `HuHuEnSkip`.) -/
def ladderLoop (t : Nat → Nat → Dir) : Nat → Nat → Nat → List (Nat × Nat) → Option (List (Nat × Nat))
  | 0, _, _, acc => some acc
  | n + 1, i, j, acc =>
    if i = 0 ∨ j = 0 then some acc
    else match t i j with
      | .diag => ladderLoop t n (i - 1) (j - 1) ((i - 1, j - 1) :: acc)
      | .huSkip => ladderLoop t n (i - 1) j ((i - 1, j) :: acc)
      | .enSkip => ladderLoop t n i (j - 1) ((i, j - 1) :: acc)
      | .huHuEn => ladderLoop t n (i - 2) (j - 1) ((i - 2, j - 1) :: acc)
      | .huEnEn => ladderLoop t n (i - 1) (j - 2) ((i - 1, j - 2) :: acc)
      | .dead => some acc
      | .none => none

/-- `trelliToLadder` (tmx_alignment.cc:230-321): the trail from its start. -/
def ladder (b : Book) (t : Nat → Nat → Dir) : List (Nat × Nat) :=
  let h := b.hu.length
  let e := b.en.length
  match ladderLoop (b.band.read .dead t) (h + e + 1) h e [(h, e)] with
  | some l => l
  | none => [(0, 0), (h, e)]

/-- `align` (tmx_alignment.cc:324-343). -/
def align (b : Book) : List (Nat × Nat) := ladder b (build b).t

/-! ## Example -/

def demo : Book where
  w := fun i j => if i = j ∨ i = 2 ∧ j = 3 then 1 else 0
  hu := [10, 20, 30]
  en := [10, 20, 12, 18]
  thick := 500

example : align demo = [(0, 0), (1, 1), (2, 2), (3, 4)] := by decide +kernel


end Verif.Tmx
