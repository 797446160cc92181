import Verif.Whole.Model
import Verif.Bil.Pipeline
import Verif.Pattern.Choice
/-!
# What a rule may speak of, and what apertium-transfer should write
-/
namespace Verif.Transfer

/-- The positions that the rule uses are at most `n`. -/
def Simple.within (n : Nat) : Simple → Prop
  | .clip pos _ _ _ _ => pos ≤ n
  | _ => True

mutual
def Expr.within (n : Nat) : Expr → Prop
  | .simple e => e.within n
  | .getCaseFrom pos e => pos ≤ n ∧ e.within n
  | .caseOf pos _ _ => pos ≤ n
  | .concat es => Expr.withinL n es
  | .lu es => Expr.withinL n es
  | .mlu lus => Expr.withinLL n lus
  | .chunk _ _ _ es => Expr.withinL n es
  | .tags ts => Expr.withinLL n ts
  | _ => True
def Expr.withinL (n : Nat) : List Expr → Prop
  | [] => True
  | e :: es => e.within n ∧ Expr.withinL n es
def Expr.withinLL (n : Nat) : List (List Expr) → Prop
  | [] => True
  | l :: ls => Expr.withinL n l ∧ Expr.withinLL n ls
end

mutual
def Cond.within (n : Nat) : Cond → Prop
  | .equal _ a b => a.within n ∧ b.within n
  | .beginsWith _ a b => a.within n ∧ b.within n
  | .endsWith _ a b => a.within n ∧ b.within n
  | .containsSubstring _ a b => a.within n ∧ b.within n
  | .beginsWithList _ a _ => a.within n
  | .endsWithList _ a _ => a.within n
  | .isIn _ a _ => a.within n
  | .and cs => Cond.withinL n cs
  | .or cs => Cond.withinL n cs
  | .not cs => Cond.withinL n cs
  | .unknown => True
def Cond.withinL (n : Nat) : List Cond → Prop
  | [] => True
  | c :: cs => c.within n ∧ Cond.withinL n cs
end

mutual
/-- All positions in the instruction, also those given to macros, are at most `n`. -/
def Instr.within (n : Nat) : Instr → Prop
  | .choose opts => Opt.withinL n opts
  | .assign l r => l.within n ∧ r.within n
  | .append _ es => Expr.withinL n es
  | .out es => Expr.withinL n es
  | .callMacro _ args => ∀ p ∈ args, p ≤ n
  | .modifyCase l r => l.within n ∧ r.within n
  | _ => True
def Instr.withinL (n : Nat) : List Instr → Prop
  | [] => True
  | i :: is => i.within n ∧ Instr.withinL n is
def Opt.within (n : Nat) : Opt → Prop
  | .when items => WhenItem.withinL n items
  | .otherwise body => Instr.withinL n body
  | .unknown => True
def Opt.withinL (n : Nat) : List Opt → Prop
  | [] => True
  | o :: os => o.within n ∧ Opt.withinL n os
def WhenItem.within (n : Nat) : WhenItem → Prop
  | .test cs => Cond.withinL n cs
  | .instr i => i.within n
def WhenItem.withinL (n : Nat) : List WhenItem → Prop
  | [] => True
  | i :: is => i.within n ∧ WhenItem.withinL n is
end

mutual
/-- No `<reject-current-rule>` in the instruction. -/
def Instr.keeps : Instr → Prop
  | .choose opts => Opt.keepsL opts
  | .reject _ => False
  | _ => True
def Instr.keepsL : List Instr → Prop
  | [] => True
  | i :: is => i.keeps ∧ Instr.keepsL is
def Opt.keeps : Opt → Prop
  | .when items => WhenItem.keepsL items
  | .otherwise body => Instr.keepsL body
  | .unknown => True
def Opt.keepsL : List Opt → Prop
  | [] => True
  | o :: os => o.keeps ∧ Opt.keepsL os
def WhenItem.keeps : WhenItem → Prop
  | .test _ => True
  | .instr i => i.keeps
def WhenItem.keepsL : List WhenItem → Prop
  | [] => True
  | i :: is => i.keeps ∧ WhenItem.keepsL is
end

end Verif.Transfer

namespace Verif.Whole
open Verif.Transfer
open Verif.Bil (BilStream text)
open Verif.Token (Part renderParts)
open Verif.Chunk (Piece)
open Verif.Pattern (FirstRule FitsRead)

/-! ## The input -/

/-- Special characters are escaped. -/
def FinePiece : Piece → Prop
  | .lit c => c ∉ ['\\', '[', '/', '<', '^', '$', '\x00']
  | .esc c => c ≠ '\x00'
  | .tag n => ∀ c ∈ n, c ∉ ['>', '\\', '[', '^', '$', '\x00']
  | .ref _ => False

instance (p : Piece) : Decidable (FinePiece p) := by cases p <;> unfold FinePiece <;> infer_instance

/-- A lexical unit with its translations in which special characters are escaped; no word-bound blank begins with an escaped character (C43), no source side contains a `$`
(not even escaped) or the tag `<ANY_CHAR>` (C72). -/
structure FineUnit (lower : Char → Char) (x : Bil.Unit) : Prop where
  wb : ∀ b, x.wb = some b → (∀ a ∈ b, a.wf ['[', ']', '$']) ∧ ∀ c, b.head? ≠ some (.esc c)
  source : ∀ p ∈ x.source, FinePiece p
  targets : ∀ t ∈ x.targets, ∀ p ∈ t, FinePiece p
  read : .char '$' ∉ x.source.map (Bil.pieceStep lower) ∧ .tag t!"<ANY_CHAR>" ∉ x.source.map (Bil.pieceStep lower)

structure FineStream (lower : Char → Char) (s : BilStream) : Prop where
  lead : ∀ p ∈ s.lead, p.trWf
  words : ∀ w ∈ s.words, FineUnit lower w.1 ∧ ∀ p ∈ w.2, p.trWf

/-! ## The output -/

/-- What a rule gets for a lexical unit: its source side, its first translation, its last one if there are more, and its word-bound blank. -/
def unitWord (x : Bil.Unit) : TWord where
  src := text x.source
  tgt := text x.target
  ref := text x.reference
  wb := x.wbText
  queue := 0

/-- What is written for a lexical unit that no rule translates: its first translation in a chunk, or (`lu`) as a lexical unit; nothing if there is no translation. -/
def unitDefault (lu : Bool) (x : Bil.Unit) : Text :=
  if text x.target = [] then []
  else if lu then x.wbText ++ '^' :: text x.target ++ ['$']
  else (if (text x.target).head? = some '*' then t!"^unknown<unknown>{" else t!"^default<default>{") ++ x.wbText ++ '^' :: text x.target ++ t!"$}$"

/-- The state in which the rule for the units `ws` is run, when the rules before left the state `v`: it gets those units and the blanks between them. -/
def ruleState (v : TSt) (ws : List (Bil.Unit × List Part)) : TSt :=
  { v with
    heap := ws.map fun w => unitWord w.1
    word := (List.range ws.length).map some
    blanks := ws.dropLast.map fun w => renderParts w.2
    out := [] }

/-- The pattern `ns` fits the units `ws`. -/
def FitsUnits (lower : Char → Char) (p : Program) (ns : List Text) (ws : List (Bil.Unit × List Part)) : Prop :=
  FitsRead p.cats ns (ws.map fun w => w.1.source.map (Bil.pieceStep lower))

/-- `r` is the number (from 1) of the first rule whose pattern fits the units. -/
def FirstFor (lower : Char → Char) (p : Program) (r : Nat) (ws : List (Bil.Unit × List Part)) : Prop :=
  (∃ k rule, r = k + 1 ∧ p.rules[k]? = some rule ∧ FitsUnits lower p rule.1 ws) ∧
  ∀ k rule, k + 1 < r → p.rules[k]? = some rule → ¬ FitsUnits lower p rule.1 ws

/-- What should be written for the units `ws` (each with the text after it), when the rules before left the state `v`.  From left to right: the longest sequence of units that
fits a pattern is translated by the first rule it fits, which gets just those units and the blanks between them; a unit with which no such sequence begins is translated by
itself; the texts between are kept. -/
inductive Translates (lower : Char → Char) (env : TEnv) (lu : Bool) (p : Program) : TSt → List (Bil.Unit × List Part) → Text → Prop
  | done {v : TSt} : Translates lower env lu p v [] []
  | rule {v s : TSt} {ws us : List (Bil.Unit × List Part)} {u : Bil.Unit × List Part} {r d : Nat} {rule : List Text × List Instr} {n : Int} {out : Text} :
      FirstFor lower p r (us ++ [u]) →
      (∀ vs, vs <+: ws → vs ≠ [] → ∀ rule ∈ p.rules, ¬ FitsUnits lower p rule.1 (us ++ u :: vs)) →
      p.rules[r - 1]? = some rule →
      processRule { env with lastLword := us.length + 1 } d rule.2 (ruleState v (us ++ [u])) = .ok (n, s) →
      Translates lower env lu p { s with heap := [], word := [], out := [] } ws out →
      Translates lower env lu p v (us ++ u :: ws) (s.out ++ renderParts u.2 ++ out)
  | word {v : TSt} {ws : List (Bil.Unit × List Part)} {u : Bil.Unit × List Part} {out : Text} :
      (∀ vs, vs <+: ws → ∀ rule ∈ p.rules, ¬ FitsUnits lower p rule.1 (u :: vs)) →
      Translates lower env lu p v ws out →
      Translates lower env lu p v (u :: ws) (unitDefault lu u.1 ++ renderParts u.2 ++ out)

/-- What is assumed of the rules: categories as in C72; each pattern has a word, and all its categories are defined; the positions in a rule are those of its
pattern. -/
structure Program.Ok (p : Program) : Prop where
  plain : ∀ c ∈ p.cats, ∀ i ∈ c.2, i.Plain
  defined : ∀ rule ∈ p.rules, ∀ n ∈ rule.1, ∃ is, Pattern.Defined p.cats n is ∧ is ≠ []
  nonempty : ∀ rule ∈ p.rules, rule.1 ≠ []
  within : ∀ rule ∈ p.rules, Instr.withinL rule.1.length rule.2

/-- No rule is rejected. -/
def Program.Keeps (p : Program) : Prop := ∀ rule ∈ p.rules, Instr.keepsL rule.2

end Verif.Whole
