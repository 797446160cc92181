import Verif.Percep.FeatureProps
/-!
# C58: examples, and where it fails
-/
namespace Verif.VM
open Verif.Unigram
open Verif.Percep (Tagged)

/-- A false and a true condition. -/
def no : Expr := .cmp .eq (.lit 0) (.lit 1)
def yes : Expr := .cmp .eq (.lit 0) (.lit 0)

/-- C58 fails: a true operand of `or` that is not the first leaves the operands before it on the stack, and the assertion at the end of the
template stops the tagger. -/
theorem C58_violation_or (c : Ctx) :
    columns c [.pred (.or (.seq no yes)), .outInt .tokaddr] = some (some [[intStr c.tok]]) ∧
    ∀ fuel, 20 ≤ fuel → runFeature c (compileFeat [.pred (.or (.seq no yes)), .outInt .tokaddr]) fuel (.start [[[0]]]) = .fail := by
  refine ⟨by simp [columns, meaning, no, yes, bools, Cmp.holds], fun fuel h => ?_⟩
  obtain ⟨m, rfl⟩ : ∃ m, fuel = m + 20 := ⟨fuel - 20, by omega⟩
  rfl

/-- C58 fails: what is left on the stack is taken for an operand of an `and` around the `or`, so that a template that applies gives nothing. -/
theorem C58_violation_lost (c : Ctx) :
    columns c [.pred (.and (.seq yes (.or (.seq no yes)))), .outInt .tokaddr] = some (some [[intStr c.tok]]) ∧
    ∀ fuel, 20 ≤ fuel → runFeature c (compileFeat [.pred (.and (.seq yes (.or (.seq no yes)))), .outInt .tokaddr]) fuel (.start [[[0]]]) = .ok [] := by
  refine ⟨by simp [columns, meaning, no, yes, bools, Cmp.holds], fun fuel h => ?_⟩
  obtain ⟨m, rfl⟩ : ∃ m, fuel = m + 20 := ⟨fuel - 20, by omega⟩
  rfl

/-- C58 fails: a false operand of `and` that is not the first makes a global condition stop the tagger. -/
theorem C58_violation_and (c : Ctx) :
    meaning c (.and (.seq yes no)) noVars = some [.bool false] ∧
    ∀ fuel, 20 ≤ fuel → runValue c (compile (.and (.seq yes no))) fuel (.start []) = .fail := by
  refine ⟨by simp [meaning, no, yes, bools, Cmp.holds], fun fuel h => ?_⟩
  obtain ⟨m, rfl⟩ : ∃ m, fuel = m + 20 := ⟨fuel - 20, by omega⟩
  rfl

/-- C58 fails for compilers that evaluate the operands of `<` from left to right: 0 is not less than 1. -/
theorem C58_violation_order (c : Ctx) (hc : c.leftFirst = true) :
    columns c [.pred (.cmp .lt (.lit 0) (.lit 1)), .outInt .tokaddr] = some (some [[intStr c.tok]]) ∧
    ∀ fuel, 20 ≤ fuel → runFeature c (compileFeat [.pred (.cmp .lt (.lit 0) (.lit 1)), .outInt .tokaddr]) fuel (.start [[[0]]]) = .ok [] := by
  refine ⟨by simp [columns, meaning, Cmp.holds], fun fuel h => ?_⟩
  obtain ⟨m, rfl⟩ : ∃ m, fuel = m + 20 := ⟨fuel - 20, by omega⟩
  have e : compileFeat [.pred (.cmp .lt (.lit 0) (.lit 1)), .outInt .tokaddr] =
    [.op .pushint, .arg 0, .op .pushint, .arg 1, .op .lt, .op .dieiffalse, .op .pushtokaddr, .op .fcatint] := rfl
  rw [e]
  simp [runFeature, step, State.start, exec, State.next, Op.operands, argAt, toInt8, ordered, hc]

/-- The wordoids before the sentence: one, always. -/
def before : Expr := .wordoids (.lit (-1))

/-- C58 fails: `for-each` around `<out>` never ends. -/
theorem C58_violation_loop (c : Ctx) (fuel : Nat) :
    runFeature c (compileFeat [.forEach 0 before (.outStr (.lem (.var 0)))]) fuel (.start [[[0]]]) = .diverge := by
  have e : compileFeat [.forEach 0 before (.outStr (.lem (.var 0)))] =
    [.op .pushint, .arg 255, .op .exwrdarr, .op .foreachinit, .op .foreach, .arg 0, .arg 6, .op .getvar, .arg 0, .op .exwrdlemma, .op .fcatstr,
      .op .endforeach, .arg 9] := rfl
  rw [e]
  have loop : ∀ n feats (slots : List (Option Val)), (slots = [] ∨ slots = [some (.wrd underflowWrd)]) →
      runFeature c [.op .pushint, .arg 255, .op .exwrdarr, .op .foreachinit, .op .foreach, .arg 0, .arg 6, .op .getvar, .arg 0, .op .exwrdlemma, .op .fcatstr,
        .op .endforeach, .arg 9] n ⟨4, [], [⟨0, .wrds [underflowWrd], 0, .int 0⟩], slots, feats⟩ = .diverge := by
    intro n
    induction n using Nat.strongRecOn with
    | _ n ih =>
      intro feats slots hs
      have hset : (slots ++ List.replicate (0 + 1 - slots.length) none).set 0 (some (.wrd underflowWrd)) = [some (.wrd underflowWrd)] := by
        rcases hs with rfl | rfl <;> rfl
      match n with
      | 0 | 1 | 2 | 3 | 4 => rcases hs with rfl | rfl <;> rfl
      | n + 5 =>
        have := ih n (by omega) (feats.map (fun k => k ++ [c.enc underflowWrd.lemma])) [some (.wrd underflowWrd)] (Or.inr rfl)
        rcases hs with rfl | rfl <;> exact this
  match fuel with
  | 0 | 1 | 2 | 3 => rfl
  | n + 3 + 0 => exact loop n [[[0]]] [] (Or.inl rfl)

/-- C58 fails: a `for-each` over an empty list is the number 0 instead of the empty list, and the tagger stops. -/
theorem C58_violation_empty (c : Ctx) :
    let e : Expr := .forEach false 0 (.slice 0 (-1) (.tags (.wordoid (.seq (.lit (-1)) (.lit 0))))) (.var 0)
    columns c [.outMany e] = some none ∧
    ∀ fuel, 20 ≤ fuel → runFeature c (compileFeat [.outMany e]) fuel (.start [[[0]]]) = .fail := by
  refine ⟨by simp [columns, meaning, getWordoid, underflowWrd, sentinel, part, elems, each, collect, strings], fun fuel h => ?_⟩
  obtain ⟨m, rfl⟩ : ∃ m, fuel = m + 20 := ⟨fuel - 20, by omega⟩
  rfl

/-- C58 fails: `join` loses the separators after empty strings at the beginning. -/
theorem C58_violation_join : joinLoop [45] [] [[], [97]] = [97] ∧ ([45] : Str).intercalate [[], [97]] = [45, 97] := by
  decide

/-- C58 fails: a call of a macro in the global condition reads a value that is not there. -/
theorem C58_violation_global (c : Ctx) (fuel : Nat) (h : 2 ≤ fuel) (e : Expr) (fs : List (List Cell)) :
    getFeatures c fuel ⟨compile (.gvar 0), [compile e], fs⟩ = .ub := by
  obtain ⟨m, rfl⟩ : ∃ m, fuel = m + 2 := ⟨fuel - 2, by omega⟩
  rfl

/-! ### A case that meets the hypotheses -/

def exTok : LexicalUnit := ⟨"dogs".toList, [⟨[⟨"dog".toList, ["n".toList, "pl".toList]⟩]⟩, ⟨[⟨"dog".toList, ["vblex".toList]⟩, ⟨"s".toList, ["prn".toList]⟩]⟩]⟩
def exCtx : Ctx :=
  { tagged := [some ⟨[⟨"the".toList, ["det".toList]⟩]⟩, none], untagged := [⟨"the".toList, [⟨[⟨"the".toList, ["det".toList]⟩]⟩]⟩, exTok], tok := 1, wrd := 0,
    strConsts := [[45]], setConsts := [[[110]]], globals := [], enc := fun t => t.map Char.toNat, coarsen := fun m => (m.tags.headD []).map Char.toNat,
    leftFirst := false }

/-- `sentlen > 1`; a global with the tags of the word before; three templates: the surface form, the pairs of a tag of the word before and a tag of the
ambiguity class, a condition that is false with an operand that is not the first. -/
def exSource : Source :=
  { condition := some (.cmp .gt .sentlen (.lit 1))
    globals := [.tags (.wordoid (.adjust (.addAddr .wrdaddr (.seq (.lit 0) (.lit (-1))))))]
    templates := [[.outStr (.surf .tokaddr)],
      [.pred (.and (.seq yes (.or (.seq yes no)))), .outMany (.gvar 0), .outMany (.ambgset .tokaddr), .outStr (.join 0 (.forEach false 0 (.wordoids (.lit 0)) (.coarse (.var 0))))],
      [.pred (.and (.seq yes no)), .outInt .tokaddr]] }

def exGlobals : List Val := [.strs [[100, 101, 116]]]
def exHere : Ctx := { exCtx with globals := exGlobals }

theorem ex_columns : exSource.templates.map (columns exHere) =
    [some (some [[[100, 111, 103, 115]]]), some (some [[[100, 101, 116]], [[110], [118, 98, 108, 101, 120, 43, 112, 114, 110]], [[100, 101, 116]]]),
      some none] := by decide +kernel

example : ∃ n ks, (∀ fuel, n ≤ fuel → getFeatures exCtx fuel exSource.compile = .ok ks) ∧
    ∀ k, k ∈ ks ↔ true = true ∧ ∃ j f cols xs, exSource.templates[j]? = some f ∧ columns exHere f = some (some cols) ∧ Choice xs cols ∧
        k = [j % 256] :: xs := by
  refine C58_features_partial exCtx exSource exGlobals ?_ ?_ ?_ ?_ true ?_ (by simp)
  · refine .cons (v := .strs [[100, 101, 116]]) ?_ ?_ ?_ .nil
    · decide +kernel
    · simp [Fits]
    · simp [Clean]
  · simp [exSource, Stmt.Fits, Fits, yes, no, slotsOf, compile]
  · have hm : meaning exHere (.forEach false 0 (.wordoids (.lit 0)) (.coarse (.var 0))) noVars = some [.strs [[100, 101, 116]]] := by decide +kernel
    have hw : meaning exHere (.wordoids (.lit 0)) noVars = some [.wrds [⟨"the".toList, ["det".toList]⟩]] := by decide +kernel
    intro f hf
    simp only [exSource, List.mem_cons, List.not_mem_nil, or_false] at hf
    rcases hf with rfl | rfl | rfl
    · simp [CleanFeat, Stmt.Clean, Clean]
    · have hm' : ∀ l, meaning { exCtx with globals := exGlobals } (.forEach false 0 (.wordoids (.lit 0)) (.coarse (.var 0))) noVars = some [.strs l] →
          l.length ≤ 1 ∨ l.head? ≠ some [] := by
        intro l hl
        have := hm.symm.trans hl
        simp at this
        subst this
        simp
      have hw' : ∀ v xs, meaning { exCtx with globals := exGlobals } (.wordoids (.lit 0)) noVars = some [v] → elems v = some xs → xs ≠ [] := by
        intro v xs hv hx
        have := hw.symm.trans hv
        simp at this
        subst this
        simp [elems] at hx
        subst hx
        simp
      refine ⟨?_, fun _ => ⟨?_, fun _ => ⟨?_, fun _ => ⟨⟨⟨?_, ?_⟩, hm'⟩, fun _ => trivial⟩⟩⟩⟩
      · simp [Stmt.Clean, Clean, meaning, yes, no, bools, Cmp.holds]
      · simp [Stmt.Clean, Clean]
      · simp [Stmt.Clean, Clean]
      · simp [Clean]
      · intro v xs hv hx
        exact ⟨hw' v xs hv hx, fun _ _ => trivial⟩
    · refine ⟨?_, fun h => absurd ?_ h⟩
      · simp [Stmt.Clean, Clean, yes, no]
      · decide +kernel
  · intro f hf hn
    have := List.mem_map_of_mem (f := columns exHere) hf
    rw [ex_columns] at this
    simp [show columns exHere f = none from hn] at this
  · intro e he
    simp only [exSource, Option.some.injEq] at he
    subst he
    refine ⟨by simp [Fits], by simp [Clean, exCtx], by decide +kernel⟩

/-- `adjust`: one wordoid to the left of the first of the second token is the last of the first. -/
example : adjAddr [some exTok.analyses[1], none] 1 (-1) = (0, 1) := by decide +kernel

end Verif.VM
