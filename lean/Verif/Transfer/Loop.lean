import Verif.Base
/-!
# Model of the main loop of apertium-transfer, -interchunk and -postchunk

transfer.cc:931-1237, interchunk.cc:454-588 and postchunk.cc:549-679 are the same loop; they differ in what is done with a word no
rule matches and in how a rule is applied, which are parameters here.

* `input_buffer` (lttoolbox `Buffer`) is the list of all tokens of the input; `pos` is `getPos()`, `hi` is the number of tokens
  read so far (`isEmpty()` is `pos == hi`).  Simplification: the code's buffer is circular and holds 2048 tokens; here it is unbounded.
* `ms` (lttoolbox `MatchState`) is an abstract automaton.
* The list of tokens is the result of `readToken` on the input; reading after the end gives an empty `tt_eof` token.
-/
namespace Verif.Transfer

/-- `TransferToken`. -/
inductive Tok where
  | word (t : Text)
  | blank (t : Text)
  | eof (t : Text)
  deriving DecidableEq, Repr

/-- `MatchState` and `MatchExe`: `word` is `applyWord`, `blank` is `step(' ')`, `dead` is `size() == 0`, `cleared` is the
state after `clear()`, `classify` is `classifyFinals(finals, banned)` (`none` for -1). -/
structure Matcher (σ : Type) where
  init : σ
  cleared : σ
  word : σ → Text → σ
  blank : σ → σ
  dead : σ → Bool
  classify : σ → List Nat → Option Nat

/-- What the three programs do differently: `dflt` is what is written for a word no rule matches (transfer.cc:1055-1172,
interchunk.cc:528, postchunk.cc:620: it does not depend on the state of the rules); `apply` is `applyRule`: the rule, `tmpword`,
`tmpblank`, `last_lword` and the state of the interpreter that survives a rule (the variables) give `words_to_consume`,
what is written and the new state. -/
structure Actions (V : Type) where
  dflt : Text → Outcome Text
  apply : Nat → List Text → List Text → Nat → V → Outcome (Int × Text × V)

/-- The variables of the loop. -/
structure LoopSt (σ V : Type) where
  ms : σ
  tmpword : List Text
  tmpblank : List Text
  last : Nat
  prev : Nat
  rule : Option Nat
  lastLword : Nat
  banned : List Nat
  pos : Nat
  hi : Nat
  vars : V
  out : Text

variable {σ V : Type}

/-- `input_buffer.next()`, position only. -/
def bufNext (pos hi : Nat) : Nat := if pos = hi then pos else pos + 1

/-- The loop of transfer.cc:1029-1037: pass over `n` words. -/
def consumeWords (toks : List Tok) (hi : Nat) : Nat → Nat → Nat → Nat
  | 0, pos, _ => pos
  | _ + 1, pos, 0 => pos
  | fuel + 1, pos, n + 1 =>
    if pos = hi then pos
    else
      match toks[pos]? with
      | some (.word _) => consumeWords toks hi fuel (pos + 1) n
      | _ => consumeWords toks hi fuel (pos + 1) (n + 1)

/-- The part of the loop body under `ms.size() == 0` (transfer.cc:984-1187).  (The loop that consumes words makes at most
`hi` steps.) -/
def handleDead (m : Matcher σ) (a : Actions V) (toks : List Tok) (s : LoopSt σ V) : Outcome (LoopSt σ V) :=
  match s.rule with
  | some r =>
    (a.apply r s.tmpword s.tmpblank s.lastLword s.vars).map fun (n, o, v) =>
      let s1 := { s with tmpword := [], tmpblank := [], ms := m.init, rule := none, vars := v, out := s.out ++ o }
      if n < 0 then { s1 with banned := [], pos := s.last }
      else if n > 0 then { s1 with banned := [], pos := consumeWords toks s.hi s.hi (s.prev + 1) n.toNat }
      else { s1 with banned := r :: s.banned, pos := bufNext s.prev s.hi, last := bufNext s.prev s.hi }
  | none =>
    match s.tmpword with
    | w :: _ =>
      (a.dflt w).map fun o =>
        { s with out := s.out ++ o, banned := [], tmpword := [], prev := s.last,
                 last := bufNext s.last s.hi, pos := bufNext s.last s.hi, ms := m.init }
    | [] =>
      match s.tmpblank with
      | b :: _ => .ok { s with out := s.out ++ b, tmpblank := [], prev := s.last, last := s.pos, ms := m.init }
      | [] => .ok s

/-- The rest of the loop body (transfer.cc:1188-1235): the next state, or what has been written when the loop ends. -/
def readNext (m : Matcher σ) (toks : List Tok) (s : LoopSt σ V) : LoopSt σ V ⊕ Text :=
  let s := match m.classify s.ms s.banned with
    | some r => { s with rule := some r, last := s.pos, lastLword := s.tmpword.length }
    | none => s
  let s' := { s with pos := s.pos + 1, hi := max s.hi (s.pos + 1) }
  match (toks[s.pos]?).getD (.eof []) with
  | .word w => .inl { s' with ms := m.word s.ms w, tmpword := s.tmpword ++ [w] }
  | .blank b => .inl { s' with ms := m.blank s.ms, tmpblank := s.tmpblank ++ [b] }
  | .eof e =>
    if s.tmpword ≠ [] then .inl { s' with tmpblank := s.tmpblank ++ [e], ms := m.cleared }
    else .inr (s.out ++ e)

/-- One iteration. -/
def loopStep (m : Matcher σ) (a : Actions V) (toks : List Tok) (s : LoopSt σ V) : Outcome (LoopSt σ V ⊕ Text) :=
  (if m.dead s.ms then handleDead m a toks s else .ok s).map (readNext m toks)

/-- The loop run for at most `n` iterations (`none`: not finished). -/
def loopRun (m : Matcher σ) (a : Actions V) (toks : List Tok) : Nat → LoopSt σ V → Option (Outcome Text)
  | 0, _ => none
  | n + 1, s =>
    match loopStep m a toks s with
    | .ok (.inl s') => loopRun m a toks n s'
    | .ok (.inr t) => some (.ok t)
    | .fail => some .fail
    | .diverge => some .diverge
    | .ub => some .ub

/-- The state at the start (transfer.cc:939-948). -/
def loopInit (m : Matcher σ) (v : V) : LoopSt σ V where
  ms := m.init
  tmpword := []
  tmpblank := []
  last := 0
  prev := 0
  rule := none
  lastLword := 0
  banned := []
  pos := 0
  hi := 0
  vars := v
  out := []

end Verif.Transfer
