import Verif.Base
/-!
# Model of linebreak.cc and align.cc (the help text of apertium-tagger)

The string of the code is cut at the index `i_`: `pre` is what stands before it, in reverse, `suf` what stands from it on; so `string_.at(i_)` is the
head of `suf`, `string_.at(i_ - 1)` the head of `pre`.
-/
namespace Verif.Help

/-- The string, the index and the column (the local variables of linebreak.cc:21-24). -/
structure St where
  pre : Text
  suf : Text
  col : Nat
  deriving DecidableEq, Repr

/-- `linebreak_(string_, col, wrapmargin, i_, j_)` (linebreak.cc:86-93): `pre` is what stands before `i_`, `suf` what stands from `j_` on; what is
between is replaced. -/
def breakAt (m : Nat) (pre suf : Text) : St := ⟨List.replicate m ' ' ++ '\n' :: pre, suf, m⟩

/-- One round of the loop of `linebreak_` (linebreak.cc:26-83): the string that is returned, or the next state. -/
def step (m : Nat) (s : St) : Text ⊕ St :=
  match s.suf with
  | [] => .inl s.pre.reverse                                     -- 27-28
  | c :: r =>
    if s.col < 79 then                                           -- 30
      if c = '\n' then                                           -- 31
        if r = [] then .inl s.pre.reverse                        -- 32-35
        else                                                     -- 37-40
          let t := '\n' :: (List.replicate m ' ' ++ r)
          .inr ⟨(t.take m).reverse ++ s.pre, t.drop m, m⟩
      else .inr ⟨c :: s.pre, r, s.col + 1⟩                       -- 43-45
    else if c = ' ' then                                         -- 48
      let pre := s.pre.dropWhile (· = ' ')                       -- 51-54
      let suf := r.dropWhile (· = ' ')                           -- 56-64
      if suf = [] then .inl pre.reverse                          -- 57-60
      else .inr (breakAt m pre suf)                              -- 66-67
    else                                                         -- 70-82
      let word := s.pre.takeWhile (· ≠ ' ')
      let pre := (s.pre.dropWhile (· ≠ ' ')).dropWhile (· = ' ')
      .inr (breakAt m pre (word.reverse ++ s.suf))

/-- The loop, for at most `n` rounds (`none`: it has not returned yet). -/
def run (m : Nat) : Nat → St → Option Text
  | 0, _ => none
  | n + 1, s =>
    match step m s with
    | .inl t => some t
    | .inr s' => run m n s'

/-- `linebreak_(string_, col, wrapmargin)` returns `r` (linebreak.cc:21-84). -/
def Returns (s : Text) (col m : Nat) (r : Text) : Prop := ∃ n, run m n ⟨[], s, col⟩ = some r

/-- `align::col` (align.cc:43-54). -/
def alignCol (l : List (Text × Text)) : Nat := l.foldl (fun c p => if p.1.length > c then p.1.length else c) 0

/-- What `align::align_` writes for an entry (align.cc:36-39), `w` is `width_`; `wrapped` is what `linebreak_` returned. -/
def alignEntry (w : Nat) (name wrapped : Text) : Text :=
  t!"  " ++ (name ++ List.replicate (w - name.length) ' ') ++ wrapped ++ ['\n']

/-- `align::align_` writes `o` (align.cc:29-41). -/
inductive AlignOut (w : Nat) : List (Text × Text) → Text → Prop
  | nil : AlignOut w [] []
  | cons {n t l r o} : Returns t (w + 2) (w + 4) r → AlignOut w l o → AlignOut w ((n, t) :: l) (alignEntry w n r ++ o)

def Aligned (l : List (Text × Text)) (o : Text) : Prop := AlignOut (alignCol l + 2) l o

example : run 6 300 ⟨[], t!"aaaaaaaaaaaaaaaaaaaaaaaa bbbbbbbbbbbbbbbbbbbbbbbbbbbbbbbb  cccccccccccccccccccccccccccc dd", 4⟩ =
  some t!"aaaaaaaaaaaaaaaaaaaaaaaa bbbbbbbbbbbbbbbbbbbbbbbbbbbbbbbb\n      cccccccccccccccccccccccccccc dd" := by decide +kernel
example : run 3 300 ⟨[], t!"a\nb\n", 4⟩ = some t!"a\n   b" := by decide +kernel

end Verif.Help
