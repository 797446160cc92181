import Verif.Trx.Compiled
/-!
# C84, C85: a file, and what is not reported
-/
namespace Verif.Trx
open Verif.Pattern (Trans RSt CatItem)

/-! ### A file -/

def sp : Tree := .text false
def em (x : Text) (a : List (Text × Text)) : Tree := .elem x a true []
/-- With text around what is in it. -/
def el (x : Text) (a : List (Text × Text)) (kids : List Tree) : Tree := .elem x a false (sp :: (kids ++ [sp]))

/-- `split_escaped`, without escapes, for the examples. -/
def exSplit (t : Text) : List Text := t.splitOn '.'
def exEnv : Env := { split := exSplit, minimize := id, compiles := fun _ => true }

def exAction : Tree :=
  el t!"action" [] [el t!"let" [] [.text true, em t!"clip" [(t!"pos", t!"1"), (t!"side", t!"tl"), (t!"part", t!"num")], em t!"lit-tag" [(t!"v", t!"pl")]],
    em t!"call-macro" [(t!"n", t!"second")], el t!"out" [] [em t!"clip" [(t!"pos", t!"1"), (t!"side", t!"tl"), (t!"part", t!"whole")]]]
def exAction2 : Tree := el t!"action" [] [.text true]
def exMacro (n part : Text) : Tree := el t!"def-macro" [(t!"n", n), (t!"npar", t!"1")] [em t!"clip" [(t!"pos", t!"1"), (t!"side", t!"tl"), (t!"part", part)]]

/-- Categories, parts, variables, lists, two macros, two rules. -/
def exFile : File :=
  { cats := [(t!"noun", [⟨t!"", t!"n.*", t!""⟩, ⟨t!"cat", t!"n", t!""⟩]), (t!"verb", [⟨t!"", t!"vblex", t!""⟩])]
    attrs := [(t!"num", [t!"sg", t!"pl"])]
    vars := [(t!"x", t!"1"), (t!"y", t!""), (t!"x", t!"2")]
    lists := [(t!"l", [t!"a", t!"B"])]
    macros := [(t!"first", exMacro t!"first" t!"lem"), (t!"second", exMacro t!"second" t!"tags")]
    rules := [([t!"noun"], exAction), ([t!"noun", t!"verb"], exAction2)] }

def exRule (p : List Text) (act : Tree) : Tree := el t!"rule" [(t!"comment", t!"a rule")] [el t!"pattern" [] (p.map fun n => em t!"pattern-item" [(t!"n", n)]), sp, act]

def exTree (macros : List Tree) (act : Tree) : Tree :=
  el t!"transfer" [] [
    el t!"section-def-cats" [] [el t!"def-cat" [(t!"n", t!"noun")] [em t!"cat-item" [(t!"tags", t!"n.*")], sp, em t!"cat-item" [(t!"lemma", t!"cat"), (t!"tags", t!"n")]],
      .text true, el t!"def-cat" [(t!"n", t!"verb")] [em t!"cat-item" [(t!"tags", t!"vblex")]]], sp,
    el t!"section-def-attrs" [] [el t!"def-attr" [(t!"n", t!"num")] [em t!"attr-item" [(t!"tags", t!"sg")], el t!"attr-item" [(t!"tags", t!"pl")] []]],
    el t!"section-def-vars" [] [em t!"def-var" [(t!"n", t!"x"), (t!"v", t!"1")], em t!"def-var" [(t!"n", t!"y")], em t!"def-var" [(t!"n", t!"x"), (t!"v", t!"2")]], sp,
    el t!"section-def-lists" [] [el t!"def-list" [(t!"n", t!"l")] [em t!"list-item" [(t!"v", t!"a")], em t!"list-item" [(t!"v", t!"B")]]],
    el t!"section-def-macros" [] macros,
    el t!"section-rules" [] [exRule [t!"noun"] act, sp, exRule [t!"noun", t!"verb"] exAction2]]

theorem blank_nil : Blank [] := by intro t h; simp at h
theorem blank_sp : Blank [sp] := by intro t h; simp only [List.mem_singleton] at h; exact ⟨false, h⟩
theorem blank_sp2 : Blank [sp, sp] := by intro t h; simp only [List.mem_cons, List.not_mem_nil, or_false, or_self] at h; exact ⟨false, h⟩

theorem w_em {x : Text} {p : List (Text × Text) → Prop} {a : List (Text × Text)} (h : p a) : WEmpty x p (em x a) := ⟨a, true, [], rfl, h, blank_nil, fun _ => rfl⟩
theorem w_el {x : Text} {p : List (Text × Text) → Prop} {a : List (Text × Text)} (h : p a) : WEmpty x p (el x a []) := ⟨a, false, _, rfl, h, blank_sp2, by simp⟩

theorem rows_sp {α : Type} {R : α → Tree → Prop} {as : List α} {ts : List Tree} (h : Rows R as ts) : Rows R as (sp :: (ts ++ [sp])) := by
  refine .gap false ?_
  induction h with
  | nil => exact .gap false .nil
  | gap c _ ih => exact .gap c ih
  | cons w _ ih => exact .cons w ih

theorem w_pattern (ns : List Text) : WPattern ns (el t!"pattern" [] (ns.map fun n => em t!"pattern-item" [(t!"n", n)])) := by
  refine ⟨[], _, rfl, trivial, rows_sp ?_⟩
  induction ns with
  | nil => exact .nil
  | cons n ns ih => exact .cons (w_em (by simp [attr, find])) ih

theorem w_rule (ns : List Text) (act : Tree) (hn : act.name = t!"action") (h1 : ∀ s ∈ act.subs, InAction s) (h2 : act.subs ≠ []) : WRule (ns, act) (exRule ns act) :=
  ⟨_, _, rfl, trivial, [sp], _, [sp], [sp], rfl, blank_sp, blank_sp, blank_sp, w_pattern ns, hn, h1, h2⟩

instance (t : Tree) : Decidable t.Proper := match t with
  | .elem _ _ true [] => isTrue rfl
  | .elem _ _ true (_ :: _) => isFalse (by simp [Tree.Proper])
  | .elem _ _ false _ => isTrue (by simp [Tree.Proper])
  | .text _ => isTrue (by simp [Tree.Proper])

instance (s : Tree) : Decidable (s.children ≠ []) := match s.children with
  | [] => isFalse (by simp)
  | _ :: _ => isTrue (by simp)

instance (s : Tree) : Decidable (InAction s) := by unfold InAction; infer_instance

theorem ex_act : ∀ s ∈ exAction.subs, InAction s := by decide
theorem ex_act2 : ∀ s ∈ exAction2.subs, InAction s := by decide

theorem w_macro (n part : Text) : WMacro (n, exMacro n part) (exMacro n part) := by
  refine ⟨rfl, _, false, _, rfl, by simp [attr, find], trivial, ?_⟩
  intro s hs
  simp only [sp, em, List.cons_append, List.nil_append, subsAll, Tree.subs, List.append_nil, List.mem_singleton] at hs
  subst hs
  exact ⟨by simp [Tree.name], by simp [Tree.name], rfl⟩

/-- A file like `exFile`. -/
theorem ex_writes {ms : List (Text × Tree)} {mt : List Tree} (hm : Rows WMacro ms mt) {act : Tree} (hn : act.name = t!"action") (ha : ∀ s ∈ act.subs, InAction s) (hne : act.subs ≠ []) :
    Writes { exFile with macros := ms, rules := [([t!"noun"], act), ([t!"noun", t!"verb"], exAction2)] } (exTree mt act) := by
  refine ⟨t!"transfer", [], [sp], [_, sp], [_], [_, sp], [_], [_], [_, sp], rfl, by simp, blank_sp,
    ⟨[], _, [sp], rfl, rows_sp ?_, blank_sp⟩, .inr ⟨[], _, [], rfl, rows_sp ?_, blank_nil⟩, .inr ⟨[], _, [sp], rfl, rows_sp ?_, blank_sp⟩,
    .inr ⟨[], _, [], rfl, rows_sp ?_, blank_nil⟩, .inr ⟨[], _, [], rfl, rows_sp ?_, blank_nil⟩, ⟨[], _, [sp], rfl, rows_sp ?_, blank_sp⟩⟩
  · refine .cons ⟨_, _, rfl, rfl, rows_sp ?_⟩ (.gap true (.cons ⟨_, _, rfl, rfl, rows_sp ?_⟩ .nil))
    · exact .cons (w_em ⟨rfl, rfl, rfl⟩) (.gap false (.cons (w_em ⟨rfl, rfl, rfl⟩) .nil))
    · exact .cons (w_em ⟨rfl, rfl, rfl⟩) .nil
  · exact .cons ⟨_, _, rfl, rfl, rows_sp (.cons (w_em rfl) (.cons (w_el rfl) .nil))⟩ .nil
  · exact .cons (w_em ⟨rfl, rfl⟩) (.cons (w_em ⟨rfl, rfl⟩) (.cons (w_em ⟨rfl, rfl⟩) .nil))
  · exact .cons ⟨_, _, rfl, rfl, rows_sp (.cons (w_em rfl) (.cons (w_em rfl) .nil))⟩ .nil
  · exact hm
  · exact .cons (w_rule _ _ hn ha hne) (.gap false (.cons (w_rule _ _ rfl ex_act2 (by decide)) .nil))

theorem ex_macros : Rows WMacro exFile.macros [exMacro t!"first" t!"lem", exMacro t!"second" t!"tags"] := .cons (w_macro _ _) (.cons (w_macro _ _) .nil)

theorem ex_written : Writes exFile (exTree [exMacro t!"first" t!"lem", exMacro t!"second" t!"tags"] exAction) := ex_writes ex_macros rfl ex_act (by decide)

def accepted (o : Outcome α) : Bool := match o with | .ok _ => true | _ => false

theorem good_of_accepted {env : Env} {f : File} {root : Tree} (w : Writes f root) (h : accepted (parse env root.events) = true) : f.Good env := by
  refine Classical.byContradiction fun hn => ?_
  rw [(C84_read env f root w).2 hn] at h
  cases h

/-- The file of the example meets the hypotheses of C84. -/
example : Writes exFile (exTree [exMacro t!"first" t!"lem", exMacro t!"second" t!"tags"] exAction) ∧ exFile.Good exEnv ∧ exFile.rules[1]? = some ([t!"noun", t!"verb"], exAction2) :=
  ⟨ex_written, good_of_accepted ex_written (by decide +kernel), rfl⟩

/-- It says: the second value of `x`; two items; for the name `second` the second macro. -/
example : ∃ td, parse exEnv (exTree [exMacro t!"first" t!"lem", exMacro t!"second" t!"tags"] exAction).events = .ok td ∧ find td.vars t!"x" = some t!"2" ∧
    t!"B" ∈ (find td.lists t!"l").getD [] ∧ macroOf td.macros (exTree [exMacro t!"first" t!"lem", exMacro t!"second" t!"tags"] exAction) t!"second" = some (exMacro t!"second" t!"tags") := by
  obtain ⟨td, h1, h2, -⟩ := (C84_read exEnv exFile _ ex_written).1 (good_of_accepted ex_written (by decide +kernel))
  exact ⟨td, h1, (h2.vars _ _).2 ⟨[(t!"x", t!"1"), (t!"y", t!"")], [], rfl, by simp⟩, (h2.lists _ _).2 ⟨[t!"a", t!"B"], by simp [exFile], by simp⟩, h2.macros _ _ (by simp [exFile])⟩

/-- A format, for the example. -/
def exFormat : Format Unit := ⟨fun _ => [], fun bs => some ((), bs), fun _ _ => rfl⟩

/-- The compiled file can be written. -/
example : (match parse exEnv (exTree [exMacro t!"first" t!"lem", exMacro t!"second" t!"tags"] exAction).events with
    | .ok td => (write exFormat () [(3, 1), (7, 2)] td).isSome | _ => false) = true := by decide +kernel

/-! ### C85: names that are not defined -/

theorem item_defined (cats : Text → Option Trans) (s : RSt) (p : Nat) (n : Text) (x : RSt × Nat) (h : Pattern.patternItem cats s p n = some x)
    (hs : ∀ e ∈ s.states, (cats e.1.2).isSome = true) : (cats n).isSome = true ∧ ∀ e ∈ x.1.states, (cats e.1.2).isSome = true := by
  simp only [Pattern.patternItem] at h
  split at h
  · rename_i e he
    cases h
    have h1 := List.find?_some he
    have h2 := List.mem_of_find?_eq_some he
    simp only [decide_eq_true_eq] at h1
    have := hs e h2
    rw [h1] at this
    exact ⟨this, hs⟩
  · split at h
    · cases h
    · rename_i c hc
      split at h
      · cases h
      · cases h
        refine ⟨by rw [hc]; rfl, fun e he => ?_⟩
        rcases List.mem_cons.1 he with rfl | he
        · simp [hc]
        · exact hs e he

theorem items_defined (cats : Text → Option Trans) (ns : List Text) (s : RSt) (p : Nat) (x : RSt × Nat) (h : Pattern.patternItems cats s p ns = some x)
    (hs : ∀ e ∈ s.states, (cats e.1.2).isSome = true) : (∀ n ∈ ns, (cats n).isSome = true) ∧ ∀ e ∈ x.1.states, (cats e.1.2).isSome = true := by
  induction ns generalizing s p with
  | nil => cases h; exact ⟨by simp, hs⟩
  | cons n ns ih =>
    simp only [Pattern.patternItems] at h
    cases hi : Pattern.patternItem cats s p n with
    | none => rw [hi] at h; cases h
    | some y =>
      rw [hi, Option.bind_some] at h
      obtain ⟨h1, h2⟩ := item_defined cats s p n y hi hs
      obtain ⟨h3, h4⟩ := ih _ _ h h2
      refine ⟨fun m hm => ?_, h4⟩
      rcases List.mem_cons.1 hm with rfl | hm
      · exact h1
      · exact h3 m hm

theorem rules_defined (cats : Text → Option Trans) (rs : List (List Text)) (count : Nat) (s : RSt) (h : (Pattern.procRules cats count s rs).isSome = true)
    (hs : ∀ e ∈ s.states, (cats e.1.2).isSome = true) : ∀ ns ∈ rs, ∀ n ∈ ns, (cats n).isSome = true := by
  induction rs generalizing s count with
  | nil => simp
  | cons ns rs ih =>
    simp only [Pattern.procRules, pattern_eq] at h
    cases hi : Pattern.patternItems cats s 0 ns with
    | none => rw [hi] at h; cases h
    | some x =>
      rw [hi, Option.map_some, Option.bind_some] at h
      obtain ⟨h1, h2⟩ := items_defined cats ns s 0 x hi hs
      have h3 : ∀ e ∈ (endPattern count x).states, (cats e.1.2).isSome = true := by
        simp only [endPattern]
        split <;> exact h2
      intro ms hms
      rcases List.mem_cons.1 hms with rfl | hms
      · exact h1
      · exact ih _ _ h h3 ms hms

theorem lookup_defined (cats : List (Text × List CatItem)) (n : Text) (h : (Pattern.lookupCat cats n).isSome = true) : n ∈ cats.map (·.1) := by
  simp only [Pattern.lookupCat, Option.isSome_map] at h
  obtain ⟨c, hc⟩ := Option.isSome_iff_exists.1 h
  have h1 := List.find?_some hc
  have h2 := List.mem_reverse.1 (List.mem_of_find?_eq_some hc)
  simp only [decide_eq_true_eq] at h1
  exact List.mem_map.2 ⟨c, h2, h1⟩

/-- **C85.**  In a file that the compiler accepts, the categories of the patterns and the parts in the rules are defined, and no two macros have the same name.  What is missing: names of
macros, variables and lists, and the parts in macros; see below. -/
theorem C85_reported_partial (env : Env) (f : File) (root : Tree) (w : Writes f root) (td : TD) (h : parse env root.events = .ok td) :
    (∀ r ∈ f.rules, ∀ n ∈ r.1, n ∈ f.cats.map (·.1)) ∧ (∀ r ∈ f.rules, ∀ p, Uses t!"clip" t!"part" p r.2 → p ≠ [] ∧ f.HasPart p) ∧ (f.macros.map (·.1)).Nodup := by
  have hg : f.Good env := good_of_accepted w (by rw [h]; rfl)
  obtain ⟨h1, -, h3, h4⟩ := hg
  refine ⟨fun r hr n hn => ?_, fun r hr p hp => ?_, h1⟩
  · simp only [Pattern.compile, Option.isSome_map] at h3
    have := rules_defined _ _ _ _ h3 (by simp) r.1 (List.mem_map.2 ⟨r, hr, rfl⟩) n hn
    simp only [Option.isSome_map] at this
    have := lookup_defined _ _ this
    simp only [File.categories, List.map_map] at this
    exact this
  · obtain ⟨a, sh, kids, hs, rfl⟩ := hp
    exact h4 r hr _ hs a sh kids rfl

/-- For the name of a macro that is not defined the first macro is run. -/
theorem C85_first_violation (env : Env) (f : File) (root : Tree) (w : Writes f root) (td : TD) (h : parse env root.events = .ok td) (n m : Text) (t : Tree) (ms : List (Text × Tree))
    (hf : f.macros = (m, t) :: ms) (hn : n ∉ f.macros.map (·.1)) : macroOf td.macros root n = some t := by
  have hg : f.Good env := good_of_accepted w (by rw [h]; rfl)
  obtain ⟨rst, h3, -⟩ := (parse_tables env w).1 hg
  rw [h3] at h
  cases h
  have : find (numbered 0 f.macros) n = none := by
    cases e : find (numbered 0 f.macros) n with
    | none => rfl
    | some x =>
      have := (find_isSome (numbered 0 f.macros) n).1 (by rw [e]; rfl)
      rw [keys, numbered_keys] at this
      exact absurd this hn
  simp only [macroOf, tables, this, macroMap_writes w, Option.getD_none]
  simp [hf]

/-- An action that uses a category as a macro, and a variable and a list that are not there. -/
def badAction : Tree :=
  el t!"action" [] [em t!"call-macro" [(t!"n", t!"noun")], el t!"choose" [] [el t!"in" [] [em t!"var" [(t!"n", t!"z")], em t!"list" [(t!"n", t!"nothing")]]]]

theorem bad_written : Writes { exFile with macros := [(t!"first", exMacro t!"first" t!"typo")], rules := [([t!"noun"], badAction), ([t!"noun", t!"verb"], exAction2)] }
    (exTree [exMacro t!"first" t!"typo"] badAction) :=
  ex_writes (ms := [(t!"first", exMacro t!"first" t!"typo")]) (.cons (w_macro _ _) .nil) rfl (by decide) (by decide)

/-- **Violation of C85.**  A file is accepted in which a rule calls a macro, reads a variable and a list, and a macro clips a part, that are all not defined; the call runs a macro of another
name. -/
theorem C85_undefined_violation : ∃ env f root td, Writes f root ∧ parse env root.events = .ok td ∧
    (∃ r ∈ f.rules, Uses t!"call-macro" t!"n" t!"noun" r.2 ∧ Uses t!"var" t!"n" t!"z" r.2 ∧ Uses t!"list" t!"n" t!"nothing" r.2) ∧
    t!"noun" ∉ f.macros.map (·.1) ∧ t!"z" ∉ f.vars.map (·.1) ∧ t!"nothing" ∉ f.lists.map (·.1) ∧
    (∃ t, (t!"first", t) ∈ f.macros ∧ Uses t!"clip" t!"part" t!"typo" t ∧ macroOf td.macros root t!"noun" = some t) ∧ ¬ f.HasPart t!"typo" := by
  have hg := good_of_accepted (env := exEnv) bad_written (by decide +kernel)
  obtain ⟨td, h1, -⟩ := (C84_read exEnv _ _ bad_written).1 hg
  refine ⟨exEnv, _, _, td, bad_written, h1, ⟨([t!"noun"], badAction), by simp, ?_, ?_, ?_⟩, by simp, by simp [exFile], by simp [exFile], ⟨exMacro t!"first" t!"typo", by simp, ?_, ?_⟩, ?_⟩
  · exact ⟨[(t!"n", t!"noun")], true, [], by simp [badAction, el, em, sp, Tree.subs, subsAll], rfl⟩
  · exact ⟨[(t!"n", t!"z")], true, [], by simp [badAction, el, em, sp, Tree.subs, subsAll], rfl⟩
  · exact ⟨[(t!"n", t!"nothing")], true, [], by simp [badAction, el, em, sp, Tree.subs, subsAll], rfl⟩
  · exact ⟨[(t!"pos", t!"1"), (t!"side", t!"tl"), (t!"part", t!"typo")], true, [], by simp [exMacro, el, em, sp, Tree.subs, subsAll], rfl⟩
  · exact C85_first_violation exEnv _ _ bad_written td h1 t!"noun" t!"first" _ [] rfl (by simp)
  · simp [File.HasPart, exFile]

/-- The file of the example meets the hypotheses of `C85_reported_partial`, with a clip in a rule. -/
example : ∃ td, parse exEnv (exTree [exMacro t!"first" t!"lem", exMacro t!"second" t!"tags"] exAction).events = .ok td ∧ Uses t!"clip" t!"part" t!"num" exAction := by
  obtain ⟨td, h1, -⟩ := (C84_read exEnv exFile _ ex_written).1 (good_of_accepted ex_written (by decide +kernel))
  exact ⟨td, h1, [(t!"pos", t!"1"), (t!"side", t!"tl"), (t!"part", t!"num")], true, [], by simp [exAction, el, em, sp, Tree.subs, subsAll], rfl⟩

end Verif.Trx
