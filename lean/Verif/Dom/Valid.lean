import Verif.Dom.Program
/-!
# C89: every valid rule file has a meaning

The content models and attribute lists of transfer.dtd, interchunk.dtd and postchunk.dtd for what is inside `<action>` and `<def-macro>`.  Whatever satisfies them denotes an
abstract rule.
-/
namespace Verif.Dom
open Verif.Transfer

/-- The three document types. -/
inductive Dtd where
  | transfer | interchunk | postchunk
  deriving DecidableEq

/-- `%condition;` (line 24 of each). -/
def conditions : List Text :=
  [t!"and", t!"or", t!"not", t!"equal", t!"begins-with", t!"begins-with-list", t!"ends-with", t!"ends-with-list", t!"contains-substring", t!"in"]

/-- `%container;` (line 25). -/
def containers : List Text := [t!"var", t!"clip"]

/-- `%sentence;` (line 26). -/
def sentences : List Text :=
  [t!"let", t!"out", t!"choose", t!"modify-case", t!"call-macro", t!"append", t!"reject-current-rule"]

/-- `%value;` (line 27). -/
def values : Dtd → List Text
  | .transfer => [t!"b", t!"clip", t!"lit", t!"lit-tag", t!"var", t!"get-case-from", t!"case-of", t!"concat", t!"lu", t!"mlu", t!"chunk"]
  | .interchunk => [t!"b", t!"clip", t!"lit", t!"lit-tag", t!"var", t!"get-case-from", t!"case-of", t!"concat", t!"chunk"]
  | .postchunk => [t!"b", t!"clip", t!"lit", t!"lit-tag", t!"var", t!"get-case-from", t!"case-of", t!"concat", t!"lu-count", t!"lu", t!"mlu"]

/-- `%stringvalue;` (line 28). -/
def stringvalues : Dtd → List Text
  | .postchunk => [t!"clip", t!"lit", t!"var", t!"get-case-from", t!"case-of", t!"lu-count"]
  | _ => [t!"clip", t!"lit", t!"var", t!"get-case-from", t!"case-of"]

/-- What may be in `<out>` (transfer.dtd:335, interchunk.dtd:327, postchunk.dtd:316). -/
def outputs : Dtd → List Text
  | .transfer => [t!"mlu", t!"lu", t!"b", t!"chunk", t!"var"]
  | .interchunk => [t!"b", t!"chunk", t!"var"]
  | .postchunk => [t!"b", t!"lu", t!"mlu", t!"var"]

/-- The content models that are used. -/
inductive Content where
  | empty
  /-- `(a)` -/
  | one (a : List Text)
  /-- `(a,b)` -/
  | two (a b : List Text)
  /-- `(a)*` -/
  | any (a : List Text)
  /-- `(a)+` -/
  | some (a : List Text)
  /-- `(a,(b)*)` -/
  | then (a b : List Text)

/-- The names of the children satisfy the content model. -/
def Content.ok : Content → List Text → Prop
  | .empty, ns => ns = []
  | .one a, ns => ∃ x, ns = [x] ∧ x ∈ a
  | .two a b, ns => ∃ x y, ns = [x, y] ∧ x ∈ a ∧ y ∈ b
  | .any a, ns => ∀ x ∈ ns, x ∈ a
  | .some a, ns => ns ≠ [] ∧ ∀ x ∈ ns, x ∈ a
  | .then a b, ns => ∃ x xs, ns = x :: xs ∧ x ∈ a ∧ ∀ y ∈ xs, y ∈ b

/-- The content models (`<!ELEMENT .. >` in transfer.dtd:182-489, interchunk.dtd:174-447, postchunk.dtd:165-448).  Simplification: where a minimum number of children is asked for
(`and`, `or`, the items behind `tags`; `otherwise` last in `choose`) a smaller one is allowed here, which makes the theorems stronger. -/
def content (dt : Dtd) (n : Text) : Content :=
  if n = t!"action" ∨ n = t!"def-macro" ∨ n = t!"otherwise" then .any sentences
  else if n = t!"choose" then .any [t!"when", t!"otherwise"]
  else if n = t!"when" then .then [t!"test"] sentences
  else if n = t!"test" ∨ n = t!"not" then .one conditions
  else if n = t!"and" ∨ n = t!"or" then .any conditions
  else if n = t!"equal" ∨ n = t!"begins-with" ∨ n = t!"ends-with" ∨ n = t!"contains-substring" then .two (values dt) (values dt)
  else if n = t!"begins-with-list" ∨ n = t!"ends-with-list" ∨ n = t!"in" then .two (values dt) [t!"list"]
  else if n = t!"let" then .two containers (values dt)
  else if n = t!"modify-case" then .two containers (stringvalues dt)
  else if n = t!"append" ∨ n = t!"concat" ∨ n = t!"lu" then .some (values dt)
  else if n = t!"out" then .some (outputs dt)
  else if n = t!"call-macro" then .any [t!"with-param"]
  else if n = t!"get-case-from" then .one [t!"clip", t!"lit", t!"var"]
  else if n = t!"mlu" then .some [t!"lu"]
  else if n = t!"chunk" then (if dt = .transfer then .then [t!"tags"] [t!"mlu", t!"lu", t!"b", t!"var"] else .some (values dt))
  else if n = t!"tags" then .some [t!"tag"]
  else if n = t!"tag" then .one (values dt)
  else .empty

/-- The attributes: those required, and those allowed (`<!ATTLIST .. >`).  Where no restriction matters any are allowed (`none`). -/
def attributes (n : Text) : List Text × Option (List Text) :=
  if n = t!"clip" then ([t!"pos", t!"part"], none)
  else if n = t!"case-of" then ([t!"pos", t!"part"], none)
  else if n = t!"var" ∨ n = t!"call-macro" then ([t!"n"], some [t!"n"])
  else if n = t!"with-param" ∨ n = t!"get-case-from" then ([t!"pos"], some [t!"pos"])
  else ([], none)

/-- The attributes of an element are those its declaration asks for, each once. -/
def attrsOk (n : Text) (as : List (Text × Text)) : Prop :=
  (as.map (·.1)).Nodup ∧ (∀ k ∈ (attributes n).1, k ∈ as.map (·.1)) ∧ ∀ l, (attributes n).2 = some l → ∀ k ∈ as.map (·.1), k ∈ l

mutual
/-- The element and all inside it are valid. -/
def Valid (dt : Dtd) : XNode → Prop
  | .text _ => True
  | .elem _ n as ks => (content dt n).ok ((elems ks).map XNode.name) ∧ attrsOk n as ∧ ValidAll dt ks
def ValidAll (dt : Dtd) : List XNode → Prop
  | [] => True
  | k :: ks => Valid dt k ∧ ValidAll dt ks
end

/-! ## Attributes -/

theorem look_some {as : List (Text × Text)} {k : Text} (h : k ∈ as.map (·.1)) : ∃ v, look as k = some v := by
  obtain ⟨p, hp, rfl⟩ := List.mem_map.1 h
  simp only [look]
  cases hf : as.find? fun q => decide (q.1 = p.1) with
  | some q => exact ⟨q.2, rfl⟩
  | none =>
    have := List.find?_eq_none.1 hf p hp
    simp at this

theorem only_some {as : List (Text × Text)} {k : Text} (h1 : (as.map (·.1)).Nodup) (h2 : k ∈ as.map (·.1)) (h3 : ∀ x ∈ as.map (·.1), x ∈ [k]) :
    ∃ v, onlyAttr as k = some v := by
  match as, h1, h2, h3 with
  | [], _, h2, _ => simp at h2
  | [(n, v)], _, _, h3 =>
    have : n = k := by simpa using h3 n (by simp)
    exact ⟨v, by simp only [onlyAttr, if_pos this]⟩
  | p :: q :: as, h1, _, h3 =>
    have e1 : p.1 = k := by simpa using h3 p.1 (by simp)
    have e2 : q.1 = k := by simpa using h3 q.1 (by simp)
    simp [e1, e2] at h1

theorem clip_some {as : List (Text × Text)} (h : attrsOk t!"clip" as) : ∃ s, absClip as = some s := by
  obtain ⟨p, hp⟩ := look_some (h.2.1 t!"pos" (by decide))
  obtain ⟨q, hq⟩ := look_some (h.2.1 t!"part" (by decide))
  have hd : distinct as = true := by simp only [distinct, decide_eq_true_eq]; exact h.1
  simp only [absClip, if_pos hd, hp, hq]
  exact ⟨_, rfl⟩

theorem caseOf_some {as : List (Text × Text)} (h : attrsOk t!"case-of" as) : ∃ s, absCaseOf as = some s := by
  obtain ⟨p, hp⟩ := look_some (h.2.1 t!"pos" (by decide))
  obtain ⟨q, hq⟩ := look_some (h.2.1 t!"part" (by decide))
  have hd : distinct as = true := by simp only [distinct, decide_eq_true_eq]; exact h.1
  simp only [absCaseOf, if_pos hd, hp, hq]
  exact ⟨_, rfl⟩

/-! ## Lists of children -/

theorem elems_cons_text {t : Text} {ks : List XNode} : elems (.text t :: ks) = elems ks := rfl
theorem elems_cons_elem {i : Nat} {n : Text} {as : List (Text × Text)} {ch ks : List XNode} : elems (.elem i n as ch :: ks) = .elem i n as ch :: elems ks := rfl

theorem exprs_some : ∀ {ks : List XNode}, (∀ c ∈ elems ks, ∃ e, absExpr c = some e) → ∃ es, absExprs ks = some es
  | [], _ => ⟨[], by simp only [absExprs]⟩
  | .text t :: ks, h => by
    rw [elems_cons_text] at h
    simp only [absExprs, XNode.isText, if_true]; exact exprs_some h
  | .elem i n as ch :: ks, h => by
    rw [elems_cons_elem] at h
    obtain ⟨e, he⟩ := h (.elem i n as ch) (by simp)
    obtain ⟨es, hes⟩ := exprs_some (ks := ks) fun c hc => h c (by simp [hc])
    simp only [absExprs, XNode.isText, Bool.false_eq_true, if_false, he, hes]
    exact ⟨_, rfl⟩

theorem lus_some : ∀ {ks : List XNode}, (∀ c ∈ elems ks, c.name = t!"lu" ∧ ∃ es, absExprs c.kids = some es) → ∃ es, absLus ks = some es
  | [], _ => ⟨[], by simp only [absLus]⟩
  | .text t :: ks, h => by
    rw [elems_cons_text] at h
    simp only [absLus]; exact lus_some h
  | .elem i n as ch :: ks, h => by
    rw [elems_cons_elem] at h
    obtain ⟨hn, e, he⟩ := h (.elem i n as ch) (by simp)
    obtain ⟨es, hes⟩ := lus_some (ks := ks) fun c hc => h c (by simp [hc])
    have hn : n = t!"lu" := hn
    have he : absExprs ch = some e := he
    simp only [absLus, if_pos hn, he, hes]
    exact ⟨_, rfl⟩

theorem tags_some : ∀ {ks : List XNode}, (∀ c ∈ elems ks, ∃ es, absExprs c.kids = some es) → ∃ es, absTags ks = some es
  | [], _ => ⟨[], by simp only [absTags]⟩
  | .text t :: ks, h => by
    rw [elems_cons_text] at h
    simp only [absTags]; exact tags_some h
  | .elem i n as ch :: ks, h => by
    rw [elems_cons_elem] at h
    obtain ⟨e, he⟩ := h (.elem i n as ch) (by simp)
    obtain ⟨es, hes⟩ := tags_some (ks := ks) fun c hc => h c (by simp [hc])
    have he : absExprs ch = some e := he
    simp only [absTags, he, hes]
    by_cases hn : n = t!"tag"
    · rw [if_pos hn]; exact ⟨_, rfl⟩
    · rw [if_neg hn]; exact ⟨_, rfl⟩

theorem conds_some : ∀ {ks : List XNode}, (∀ c ∈ elems ks, ∃ e, absCond c = some e) → ∃ es, absConds ks = some es
  | [], _ => ⟨[], by simp only [absConds]⟩
  | .text t :: ks, h => by
    rw [elems_cons_text] at h
    simp only [absConds, XNode.isText, if_true]; exact conds_some h
  | .elem i n as ch :: ks, h => by
    rw [elems_cons_elem] at h
    obtain ⟨e, he⟩ := h (.elem i n as ch) (by simp)
    obtain ⟨es, hes⟩ := conds_some (ks := ks) fun c hc => h c (by simp [hc])
    simp only [absConds, XNode.isText, Bool.false_eq_true, if_false, he, hes]
    exact ⟨_, rfl⟩

theorem args_some : ∀ {ks : List XNode}, (∀ c ∈ elems ks, ∃ v, onlyAttr c.attrs t!"pos" = some v) → ∃ es, absArgs ks = some es
  | [], _ => ⟨[], by simp only [absArgs]⟩
  | .text t :: ks, h => by
    rw [elems_cons_text] at h
    simp only [absArgs, XNode.isText, if_true]; exact args_some h
  | .elem i n as ch :: ks, h => by
    rw [elems_cons_elem] at h
    obtain ⟨e, he⟩ := h (.elem i n as ch) (by simp)
    obtain ⟨es, hes⟩ := args_some (ks := ks) fun c hc => h c (by simp [hc])
    simp only [absArgs, XNode.isText, Bool.false_eq_true, if_false, he, hes]
    exact ⟨_, rfl⟩

theorem instrs_some : ∀ {ks : List XNode}, (∀ c ∈ elems ks, ∃ e, absInstr c = some e) → ∃ es, absInstrs ks = some es
  | [], _ => ⟨[], by simp only [absInstrs]⟩
  | .text t :: ks, h => by
    rw [elems_cons_text] at h
    simp only [absInstrs, XNode.isText, if_true]; exact instrs_some h
  | .elem i n as ch :: ks, h => by
    rw [elems_cons_elem] at h
    obtain ⟨e, he⟩ := h (.elem i n as ch) (by simp)
    obtain ⟨es, hes⟩ := instrs_some (ks := ks) fun c hc => h c (by simp [hc])
    simp only [absInstrs, XNode.isText, Bool.false_eq_true, if_false, he, hes]
    exact ⟨_, rfl⟩

theorem items_some : ∀ {ks : List XNode}, (∀ c ∈ elems ks, (c.name = t!"test" → ∃ e, absConds c.kids = some e) ∧ (c.name ≠ t!"test" → ∃ e, absInstr c = some e)) →
    ∃ es, absItems ks = some es
  | [], _ => ⟨[], by simp only [absItems]⟩
  | .text t :: ks, h => by
    rw [elems_cons_text] at h
    simp only [absItems, XNode.isText, if_true]; exact items_some h
  | .elem i n as ch :: ks, h => by
    rw [elems_cons_elem] at h
    have h1 := h _ (by simp : XNode.elem i n as ch ∈ _)
    obtain ⟨es, hes⟩ := items_some (ks := ks) fun c hc => h c (by simp [hc])
    simp only [absItems]
    rw [if_neg (by simp [XNode.isText])]
    by_cases hn : (XNode.elem i n as ch).name = t!"test"
    · obtain ⟨e, he⟩ := h1.1 hn
      rw [if_pos hn, he, hes]; exact ⟨_, rfl⟩
    · obtain ⟨e, he⟩ := h1.2 hn
      rw [if_neg hn, he, hes]; exact ⟨_, rfl⟩

theorem opts_some : ∀ {ks : List XNode}, (∀ c ∈ elems ks, (c.name = t!"when" → ∃ e, absItems c.kids = some e) ∧ (c.name = t!"otherwise" → ∃ e, absInstrs c.kids = some e)) →
    ∃ es, absOpts ks = some es
  | [], _ => ⟨[], by simp only [absOpts]⟩
  | .text t :: ks, h => by
    rw [elems_cons_text] at h
    simp only [absOpts]; exact opts_some h
  | .elem i n as ch :: ks, h => by
    rw [elems_cons_elem] at h
    have h1 := h _ (by simp : XNode.elem i n as ch ∈ _)
    obtain ⟨es, hes⟩ := opts_some (ks := ks) fun c hc => h c (by simp [hc])
    simp only [absOpts]
    by_cases hn : n = t!"when"
    · obtain ⟨e, he⟩ := h1.1 hn
      have he : absItems ch = some e := he
      rw [if_pos hn, he, hes]; exact ⟨_, rfl⟩
    · rw [if_neg hn]
      by_cases hn : n = t!"otherwise"
      · obtain ⟨e, he⟩ := h1.2 hn
        have he : absInstrs ch = some e := he
        rw [if_pos hn, he, hes]; exact ⟨_, rfl⟩
      · rw [if_neg hn, hes]; exact ⟨_, rfl⟩

/-! ## Expressions -/

/-- The names of elements that denote expressions. -/
def exprNames : List Text :=
  [t!"b", t!"clip", t!"lit", t!"lit-tag", t!"var", t!"get-case-from", t!"case-of", t!"concat", t!"lu", t!"mlu", t!"chunk", t!"lu-count", t!"tags"]

theorem values_sub : ∀ dt, ∀ n ∈ values dt, n ∈ exprNames := by
  intro dt; cases dt <;> decide
theorem strings_sub : ∀ dt, ∀ n ∈ stringvalues dt, n ∈ exprNames := by
  intro dt; cases dt <;> decide
theorem outputs_sub : ∀ dt, ∀ n ∈ outputs dt, n ∈ exprNames := by
  intro dt; cases dt <;> decide

/-- An element that is valid denotes an expression, or has children that do. -/
def ExprOk (c : XNode) : Prop := (c.name ∈ exprNames → ∃ e, absExpr c = some e) ∧ (c.name = t!"tag" ∨ c.name = t!"lu" → ∃ es, absExprs c.kids = some es)

variable {dt : Dtd}

theorem ok_any {a : List Text} {ks : List XNode} (h : ∀ x ∈ (elems ks).map XNode.name, x ∈ a) : ∀ c ∈ elems ks, c.name ∈ a :=
  fun c hc => h _ (List.mem_map.2 ⟨c, hc, rfl⟩)

theorem ok_one {a : List Text} {ks : List XNode} (h : (Content.one a).ok ((elems ks).map XNode.name)) : ∃ c, elems ks = [c] ∧ c.name ∈ a := by
  obtain ⟨x, h1, h2⟩ := h
  match he : elems ks, h1 with
  | [c], h1 =>
    simp only [List.map_cons, List.map_nil, List.cons.injEq, and_true] at h1
    exact ⟨c, rfl, h1 ▸ h2⟩

theorem ok_two {a b : List Text} {ks : List XNode} (h : (Content.two a b).ok ((elems ks).map XNode.name)) : ∃ c d, elems ks = [c, d] ∧ c.name ∈ a ∧ d.name ∈ b := by
  obtain ⟨x, y, h1, h2, h3⟩ := h
  match he : elems ks, h1 with
  | [c, d], h1 =>
    simp only [List.map_cons, List.map_nil, List.cons.injEq, and_true] at h1
    exact ⟨c, d, rfl, h1.1 ▸ h2, h1.2 ▸ h3⟩

theorem ok_then {a b : List Text} {ks : List XNode} (h : (Content.then a b).ok ((elems ks).map XNode.name)) :
    ∃ c cs, elems ks = c :: cs ∧ c.name ∈ a ∧ ∀ d ∈ cs, d.name ∈ b := by
  obtain ⟨x, xs, h1, h2, h3⟩ := h
  match he : elems ks, h1 with
  | c :: cs, h1 =>
    simp only [List.map_cons, List.cons.injEq] at h1
    exact ⟨c, cs, rfl, h1.1 ▸ h2, fun d hd => h3 _ (h1.2 ▸ List.mem_map.2 ⟨d, hd, rfl⟩)⟩

/-- The step for one element, given that its children are so. -/
theorem expr_step {i : Nat} {n : Text} {as : List (Text × Text)} {ks : List XNode} (hc : (content dt n).ok ((elems ks).map XNode.name)) (ha : attrsOk n as)
    (hk : ∀ c ∈ elems ks, Valid dt c ∧ ExprOk c) : ExprOk (.elem i n as ks) := by
  have all : ∀ {a : List Text}, (∀ x ∈ a, x ∈ exprNames) → (∀ x ∈ (elems ks).map XNode.name, x ∈ a) → ∃ es, absExprs ks = some es := by
    intro a h1 h2
    exact exprs_some fun c hc => (hk c hc).2.1 (h1 _ (ok_any h2 c hc))
  constructor
  · intro hn
    have hn : n ∈ exprNames := hn
    simp only [exprNames, List.mem_cons, List.not_mem_nil, or_false] at hn
    rcases hn with rfl | rfl | rfl | rfl | rfl | rfl | rfl | rfl | rfl | rfl | rfl | rfl | rfl
    · exact ⟨_, rfl⟩
    · obtain ⟨s, hs⟩ := clip_some ha
      exact ⟨.simple s, by simp only [absExpr, show EK.of t!"clip" = .clip from rfl, hs]; rfl⟩
    · exact ⟨_, rfl⟩
    · exact ⟨_, rfl⟩
    · exact ⟨_, rfl⟩
    · obtain ⟨c, he, hcn⟩ := ok_one (show (Content.one [t!"clip", t!"lit", t!"var"]).ok _ from hc)
      obtain ⟨v, hv⟩ := only_some ha.1 (ha.2.1 t!"pos" (by decide)) (ha.2.2 [t!"pos"] rfl)
      have hs : ∃ s, absSimple c = some s := by
        have hval := (hk c (by simp [he])).1
        cases c with
        | text t => simp [XNode.name] at hcn
        | elem j m bs ls =>
          simp only [XNode.name, List.mem_cons, List.not_mem_nil, or_false] at hcn
          rcases hcn with rfl | rfl | rfl
          · obtain ⟨s, hs⟩ := clip_some hval.2.1
            exact ⟨s, by simp only [absSimple, show EK.of t!"clip" = .clip from rfl, hs]⟩
          · exact ⟨_, rfl⟩
          · exact ⟨_, rfl⟩
      obtain ⟨s, hs⟩ := hs
      exact ⟨.getCaseFrom (atoi v) s, by simp only [absExpr, show EK.of t!"get-case-from" = .getCaseFrom from rfl, hv, he, hs]; rfl⟩
    · obtain ⟨s, hs⟩ := caseOf_some ha
      exact ⟨s, by simp only [absExpr, show EK.of t!"case-of" = .caseOf from rfl, hs]⟩
    · obtain ⟨es, he⟩ := all (values_sub dt) (show (Content.some (values dt)).ok _ from hc).2
      exact ⟨.concat es, by simp only [absExpr, show EK.of t!"concat" = .concat from rfl, he]; rfl⟩
    · obtain ⟨es, he⟩ := all (values_sub dt) (show (Content.some (values dt)).ok _ from hc).2
      exact ⟨.lu es, by simp only [absExpr, show EK.of t!"lu" = .lu from rfl, he]; rfl⟩
    · have h1 := (show (Content.some [t!"lu"]).ok _ from hc).2
      obtain ⟨es, he⟩ := lus_some (ks := ks) fun c hc => by
        have hcn : c.name = t!"lu" := by simpa using ok_any h1 c hc
        exact ⟨hcn, (hk c hc).2.2 (Or.inr hcn)⟩
      exact ⟨.mlu es, by simp only [absExpr, show EK.of t!"mlu" = .mlu from rfl, he]; rfl⟩
    · have hex : ∃ es, absExprs ks = some es := by
        by_cases hd : dt = .transfer
        · subst hd
          obtain ⟨c, cs, he, h1, h2⟩ := ok_then (show (Content.then [t!"tags"] [t!"mlu", t!"lu", t!"b", t!"var"]).ok _ from hc)
          refine exprs_some fun d hd => (hk d hd).2.1 ?_
          rw [he] at hd
          rcases List.mem_cons.1 hd with rfl | hd
          · simp only [List.mem_cons, List.not_mem_nil, or_false] at h1
            rw [h1]; decide
          · have := h2 d hd
            simp only [List.mem_cons, List.not_mem_nil, or_false] at this
            rcases this with h | h | h | h <;> rw [h] <;> decide
        · have : content dt t!"chunk" = .some (values dt) := by
            cases dt with
            | transfer => exact absurd rfl hd
            | interchunk => rfl
            | postchunk => rfl
          rw [this] at hc
          exact all (values_sub dt) hc.2
      obtain ⟨es, he⟩ := hex
      have hd : distinct as = true := by simp only [distinct, decide_eq_true_eq]; exact ha.1
      exact ⟨_, by simp only [absExpr, show EK.of t!"chunk" = .chunk from rfl, if_pos hd, he]; rfl⟩
    · exact ⟨_, rfl⟩
    · have h1 := (show (Content.some [t!"tag"]).ok _ from hc).2
      obtain ⟨es, he⟩ := tags_some (ks := ks) fun c hc => by
        have hcn : c.name = t!"tag" := by simpa using ok_any h1 c hc
        exact (hk c hc).2.2 (Or.inl hcn)
      exact ⟨.tags es, by simp only [absExpr, show EK.of t!"tags" = .tags from rfl, he]; rfl⟩
  · intro hn
    have hn : n = t!"tag" ∨ n = t!"lu" := hn
    rcases hn with rfl | rfl
    · obtain ⟨c, he, hcn⟩ := ok_one (show (Content.one (values dt)).ok _ from hc)
      refine exprs_some (ks := ks) fun d hd => (hk d hd).2.1 ?_
      rw [he] at hd
      simp only [List.mem_cons, List.not_mem_nil, or_false] at hd
      subst hd
      exact values_sub dt _ hcn
    · exact all (values_sub dt) (show (Content.some (values dt)).ok _ from hc).2

mutual
theorem valid_expr : ∀ {c : XNode}, Valid dt c → ExprOk c
  | .text t, _ => ⟨fun h => absurd h (show ([] : Text) ∉ exprNames by decide), fun h => by rcases h with h | h <;> cases h⟩
  | .elem i n as ks, h => by
    have h1 := valid_exprs h.2.2
    exact expr_step h.1 h.2.1 h1
theorem valid_exprs : ∀ {ks : List XNode}, ValidAll dt ks → ∀ c ∈ elems ks, Valid dt c ∧ ExprOk c
  | [], _, c, hc => by cases hc
  | .text t :: ks, h, c, hc => valid_exprs h.2 c hc
  | .elem i n as ch :: ks, h, c, hc => by
    rw [elems_cons_elem] at hc
    have h0 := valid_expr h.1
    rcases List.mem_cons.1 hc with rfl | hc
    · exact ⟨h.1, h0⟩
    · exact valid_exprs h.2 c hc
end

/-! ## Conditions -/

/-- A valid condition denotes one, and the children of a valid `<test>` (or `<not>`, `<and>`, `<or>`) denote some. -/
def CondOk (c : XNode) : Prop :=
  (c.name ∈ conditions → ∃ e, absCond c = some e) ∧ (c.name = t!"test" → ∃ es, absConds c.kids = some es)

theorem cond_step {i : Nat} {n : Text} {as : List (Text × Text)} {ks : List XNode} (hc : (content dt n).ok ((elems ks).map XNode.name))
    (hv : ∀ c ∈ elems ks, Valid dt c) (hk : ∀ c ∈ elems ks, CondOk c) : CondOk (.elem i n as ks) := by
  have hx : ∀ c ∈ elems ks, ExprOk c := fun c h => valid_expr (hv c h)
  have all : (∀ x ∈ (elems ks).map XNode.name, x ∈ conditions) → ∃ es, absConds ks = some es := fun h =>
    conds_some fun c hc => (hk c hc).1 (ok_any h c hc)
  have single : (Content.one conditions).ok ((elems ks).map XNode.name) → ∃ es, absConds ks = some es := by
    intro h
    refine all ?_
    obtain ⟨x, h1, h2⟩ := h
    rw [h1]
    intro y hy
    rw [List.mem_singleton.1 hy]; exact h2
  have twoE : ∀ f, (Content.two (values dt) (values dt)).ok ((elems ks).map XNode.name) → ∃ e, absTwo f ks = some e := by
    intro f h
    obtain ⟨c, d, he, h1, h2⟩ := ok_two h
    obtain ⟨x, hx1⟩ := (hx c (by simp [he])).1 (values_sub dt _ h1)
    obtain ⟨y, hy1⟩ := (hx d (by simp [he])).1 (values_sub dt _ h2)
    exact ⟨f x y, by simp [absTwo, two, he, hx1, hy1]⟩
  have oneE : ∀ f, (Content.two (values dt) [t!"list"]).ok ((elems ks).map XNode.name) → ∃ e, absOne f ks = some e := by
    intro f h
    obtain ⟨c, d, he, h1, _⟩ := ok_two h
    obtain ⟨x, hx1⟩ := (hx c (by simp [he])).1 (values_sub dt _ h1)
    exact ⟨_, by simp [absOne, two, he, hx1]; rfl⟩
  constructor
  · intro hn
    have hn : n ∈ conditions := hn
    simp only [conditions, List.mem_cons, List.not_mem_nil, or_false] at hn
    rcases hn with rfl | rfl | rfl | rfl | rfl | rfl | rfl | rfl | rfl | rfl
    · obtain ⟨es, he⟩ := all hc
      exact ⟨.and es, by simp only [absCond, show CK.of t!"and" = .and from rfl, he]; rfl⟩
    · obtain ⟨es, he⟩ := all hc
      exact ⟨.or es, by simp only [absCond, show CK.of t!"or" = .or from rfl, he]; rfl⟩
    · obtain ⟨es, he⟩ := single hc
      exact ⟨.not es, by simp only [absCond, show CK.of t!"not" = .not from rfl, he]; rfl⟩
    · obtain ⟨e, he⟩ := twoE (.equal (caseless as)) hc
      exact ⟨e, by simp only [absCond, show CK.of t!"equal" = .equal from rfl, he]⟩
    · obtain ⟨e, he⟩ := twoE (.beginsWith (caseless as)) hc
      exact ⟨e, by simp only [absCond, show CK.of t!"begins-with" = .beginsWith from rfl, he]⟩
    · obtain ⟨e, he⟩ := oneE (.beginsWithList (caseless as)) hc
      exact ⟨e, by simp only [absCond, show CK.of t!"begins-with-list" = .beginsWithList from rfl, he]⟩
    · obtain ⟨e, he⟩ := twoE (.endsWith (caseless as)) hc
      exact ⟨e, by simp only [absCond, show CK.of t!"ends-with" = .endsWith from rfl, he]⟩
    · obtain ⟨e, he⟩ := oneE (.endsWithList (caseless as)) hc
      exact ⟨e, by simp only [absCond, show CK.of t!"ends-with-list" = .endsWithList from rfl, he]⟩
    · obtain ⟨e, he⟩ := twoE (.containsSubstring (caseless as)) hc
      exact ⟨e, by simp only [absCond, show CK.of t!"contains-substring" = .containsSubstring from rfl, he]⟩
    · obtain ⟨e, he⟩ := oneE (.isIn (caseless as)) hc
      exact ⟨e, by simp only [absCond, show CK.of t!"in" = .in from rfl, he]⟩
  · intro hn
    have hn : n = t!"test" := hn
    subst hn
    exact single hc

mutual
theorem valid_cond : ∀ {c : XNode}, Valid dt c → CondOk c
  | .text t, _ => ⟨fun h => absurd h (show ([] : Text) ∉ conditions by decide), fun h => by cases h⟩
  | .elem i n as ks, h => by
    have h1 := valid_conds h.2.2
    exact cond_step h.1 (fun c hc => (h1 c hc).1) (fun c hc => (h1 c hc).2)
theorem valid_conds : ∀ {ks : List XNode}, ValidAll dt ks → ∀ c ∈ elems ks, Valid dt c ∧ CondOk c
  | [], _, c, hc => by cases hc
  | .text t :: ks, h, c, hc => valid_conds h.2 c hc
  | .elem i n as ch :: ks, h, c, hc => by
    rw [elems_cons_elem] at hc
    have h0 := valid_cond h.1
    rcases List.mem_cons.1 hc with rfl | hc
    · exact ⟨h.1, h0⟩
    · exact valid_conds h.2 c hc
end

/-! ## Instructions -/

/-- A valid instruction denotes one; blocks denote blocks; what is in `<when>` denotes its items. -/
def InstrOk (c : XNode) : Prop :=
  (c.name ∈ sentences → ∃ e, absInstr c = some e) ∧
  (c.name = t!"action" ∨ c.name = t!"def-macro" ∨ c.name = t!"otherwise" → ∃ es, absInstrs c.kids = some es) ∧
  (c.name = t!"when" → ∃ es, absItems c.kids = some es)

theorem left_some {c : XNode} (hv : Valid dt c) (hn : c.name ∈ containers) : ∃ l, absLeft c = some l := by
  cases c with
  | text t => exact absurd hn (show ([] : Text) ∉ containers by decide)
  | elem i n as ks =>
    have hn : n ∈ containers := hn
    simp only [containers, List.mem_cons, List.not_mem_nil, or_false] at hn
    rcases hn with rfl | rfl
    · obtain ⟨v, hv1⟩ := only_some hv.2.1.1 (hv.2.1.2.1 t!"n" (by decide)) (hv.2.1.2.2 [t!"n"] rfl)
      exact ⟨.simple (.var v), by simp only [absLeft, show EK.of t!"var" = .var from rfl, hv1]; rfl⟩
    · obtain ⟨s, hs⟩ := clip_some hv.2.1
      exact ⟨.simple s, by simp only [absLeft, show EK.of t!"clip" = .clip from rfl, hs]; rfl⟩

theorem instr_step {i : Nat} {n : Text} {as : List (Text × Text)} {ks : List XNode} (hc : (content dt n).ok ((elems ks).map XNode.name)) (ha : attrsOk n as)
    (hv : ∀ c ∈ elems ks, Valid dt c) (hk : ∀ c ∈ elems ks, InstrOk c) : InstrOk (.elem i n as ks) := by
  have hx : ∀ c ∈ elems ks, ExprOk c := fun c h => valid_expr (hv c h)
  have exprs : ∀ {a : List Text}, (∀ x ∈ a, x ∈ exprNames) → (∀ x ∈ (elems ks).map XNode.name, x ∈ a) → ∃ es, absExprs ks = some es := fun h1 h2 =>
    exprs_some fun c hc => (hx c hc).1 (h1 _ (ok_any h2 c hc))
  have sides : ∀ {a : List Text}, (∀ x ∈ a, x ∈ exprNames) → (Content.two containers a).ok ((elems ks).map XNode.name) → ∃ p, absSides ks = some p := by
    intro a h1 h2
    obtain ⟨c, d, he, hc1, hd1⟩ := ok_two h2
    obtain ⟨l, hl⟩ := left_some (hv c (by simp [he])) hc1
    obtain ⟨r, hr⟩ := (hx d (by simp [he])).1 (h1 _ hd1)
    exact ⟨(l, r), by simp [absSides, two, he, hl, hr]⟩
  have block : (∀ x ∈ (elems ks).map XNode.name, x ∈ sentences) → ∃ es, absInstrs ks = some es := fun h =>
    instrs_some fun c hc => (hk c hc).1 (ok_any h c hc)
  refine ⟨fun hn => ?_, fun hn => ?_, fun hn => ?_⟩
  · have hn : n ∈ sentences := hn
    simp only [sentences, List.mem_cons, List.not_mem_nil, or_false] at hn
    rcases hn with rfl | rfl | rfl | rfl | rfl | rfl | rfl
    · obtain ⟨⟨l, r⟩, hp⟩ := sides (values_sub dt) hc
      exact ⟨.assign l r, by simp only [absInstr, show IK.of t!"let" = .let from rfl, hp]; rfl⟩
    · obtain ⟨es, he⟩ := exprs (outputs_sub dt) (show (Content.some (outputs dt)).ok _ from hc).2
      exact ⟨.out es, by simp only [absInstr, show IK.of t!"out" = .out from rfl, he]; rfl⟩
    · have h1 : ∀ x ∈ (elems ks).map XNode.name, x ∈ [t!"when", t!"otherwise"] := hc
      obtain ⟨os, ho⟩ := opts_some (ks := ks) fun c hc => ⟨fun h => (hk c hc).2.2 h, fun h => (hk c hc).2.1 (Or.inr (Or.inr h))⟩
      exact ⟨.choose os, by simp only [absInstr, show IK.of t!"choose" = .choose from rfl, ho]; rfl⟩
    · obtain ⟨⟨l, r⟩, hp⟩ := sides (strings_sub dt) hc
      exact ⟨.modifyCase l r, by simp only [absInstr, show IK.of t!"modify-case" = .modifyCase from rfl, hp]; rfl⟩
    · have h1 : ∀ x ∈ (elems ks).map XNode.name, x ∈ [t!"with-param"] := hc
      obtain ⟨m, hm⟩ := only_some ha.1 (ha.2.1 t!"n" (by decide)) (ha.2.2 [t!"n"] rfl)
      obtain ⟨es, he⟩ := args_some (ks := ks) fun c hc => by
        have h2 := ok_any h1 c hc
        have h3 := hv c hc
        cases c with
        | text t => exact absurd h2 (show ([] : Text) ∉ [t!"with-param"] by decide)
        | elem j nn bs ls =>
          have h2 : nn = t!"with-param" := List.mem_singleton.1 h2
          subst h2
          exact only_some h3.2.1.1 (h3.2.1.2.1 t!"pos" (by decide)) (h3.2.1.2.2 [t!"pos"] rfl)
      exact ⟨.callMacro m es, by simp only [absInstr, show IK.of t!"call-macro" = .callMacro from rfl, hm, he]; rfl⟩
    · obtain ⟨es, he⟩ := exprs (values_sub dt) (show (Content.some (values dt)).ok _ from hc).2
      exact ⟨.append _ es, by simp only [absInstr, show IK.of t!"append" = .append from rfl, he]; rfl⟩
    · exact ⟨.reject _, by simp only [absInstr, show IK.of t!"reject-current-rule" = .reject from rfl]; rfl⟩
  · have hn : n = t!"action" ∨ n = t!"def-macro" ∨ n = t!"otherwise" := hn
    rcases hn with rfl | rfl | rfl <;> exact block hc
  · have hn : n = t!"when" := hn
    subst hn
    obtain ⟨c, cs, he, h1, h2⟩ := ok_then (show (Content.then [t!"test"] sentences).ok _ from hc)
    refine items_some (ks := ks) fun d hd => ⟨fun h => (valid_cond (hv d hd)).2 h, fun h => (hk d hd).1 ?_⟩
    rw [he] at hd
    rcases List.mem_cons.1 hd with rfl | hd
    · exact absurd (List.mem_singleton.1 h1) h
    · exact h2 d hd

mutual
theorem valid_instr : ∀ {c : XNode}, Valid dt c → InstrOk c
  | .text t, _ => ⟨fun h => absurd h (show ([] : Text) ∉ sentences by decide), ⟨fun h => (by rcases h with h | h | h <;> cases h), fun h => (by cases h)⟩⟩
  | .elem i n as ks, h => by
    have h1 := valid_instrs h.2.2
    exact instr_step h.1 h.2.1 (fun c hc => (h1 c hc).1) (fun c hc => (h1 c hc).2)
theorem valid_instrs : ∀ {ks : List XNode}, ValidAll dt ks → ∀ c ∈ elems ks, Valid dt c ∧ InstrOk c
  | [], _, c, hc => by cases hc
  | .text t :: ks, h, c, hc => valid_instrs h.2 c hc
  | .elem i n as ch :: ks, h, c, hc => by
    rw [elems_cons_elem] at hc
    have h0 := valid_instr h.1
    rcases List.mem_cons.1 hc with rfl | hc
    · exact ⟨h.1, h0⟩
    · exact valid_instrs h.2 c hc
end

/-- **C89**: an `<action>` (or the body of a macro) that is valid for its document type denotes instructions: the theorems on rules hold for every valid rule file. -/
theorem C89_valid {c : XNode} (hn : c.name = t!"action" ∨ c.name = t!"def-macro") (h : Valid dt c) : ∃ is, absInstrs c.kids = some is :=
  (valid_instr h).2.1 (hn.elim Or.inl fun h => Or.inr (Or.inl h))

/-- **C89**: a program whose actions are valid has a meaning. -/
theorem C89_meaning (p : XProgram) (h : ∀ r ∈ p.rules, r.2.name = t!"action" ∧ Valid dt r.2) : ∃ q, p.Means q := by
  obtain ⟨cats, rules⟩ := p
  suffices ∃ rs : List (List Text × List Instr), rules.map (·.1) = rs.map (·.1) ∧ (rules.map fun r => absInstrs r.2.kids) = rs.map fun r => some r.2 by
    obtain ⟨rs, h1, h2⟩ := this
    exact ⟨⟨cats, rs⟩, rfl, h1, h2⟩
  induction rules with
  | nil => exact ⟨[], rfl, rfl⟩
  | cons r rules ih =>
    obtain ⟨rs, h1, h2⟩ := ih fun x hx => h x (List.mem_cons_of_mem _ hx)
    have h0 := h r List.mem_cons_self
    obtain ⟨is, hi⟩ := C89_valid (Or.inl h0.1) h0.2
    exact ⟨(r.1, is) :: rs, by simp [h1], by simp only [List.map_cons, hi, h2]⟩

/-! ## Examples -/

section Examples
open Example

theorem attrsOk_of {n : Text} {as : List (Text × Text)} (h1 : (as.map (·.1)).Nodup) (h2 : (attributes n).1.all (fun k => decide (k ∈ as.map (·.1))) = true)
    (h3 : ((attributes n).2.elim true fun l => (as.map (·.1)).all fun k => decide (k ∈ l)) = true) : attrsOk n as := by
  refine ⟨h1, fun k hk => by simpa using List.all_eq_true.1 h2 k hk, fun l hl k hk => ?_⟩
  rw [hl] at h3
  simpa using List.all_eq_true.1 h3 k hk

/-- Nor is it valid. -/
example : ¬ Valid .transfer (.elem 2 t!"clip" [(t!"part", t!"lem")] []) := fun h => by
  have := h.2.1.2.1 t!"pos" (by decide)
  exact absurd this (by decide)

attribute [local irreducible] attrsOk

/-- The rule of the example is valid. -/
theorem Example.valid_action : Valid .transfer T.Example.action := by
  simp only [T.Example.action, T.Example.clip1, Valid, ValidAll, and_true, true_and]
  repeat' apply And.intro
  all_goals first
    | exact attrsOk_of (by decide) (by decide) (by decide)
    | exact ⟨_, _, rfl, by decide, by decide⟩
    | exact ⟨by decide, by decide⟩
    | (show ∀ x ∈ [t!"let", t!"call-macro", t!"out"], x ∈ sentences; decide)
    | (show ∀ x ∈ [t!"with-param"], x ∈ [t!"with-param"]; decide)
    | (show [t!"lu", t!"b"] ≠ []; decide)
    | (show ∀ x ∈ [t!"lu", t!"b"], x ∈ outputs .transfer; decide)
    | (show [t!"clip"] ≠ []; decide)
    | (show ∀ x ∈ [t!"clip"], x ∈ values .transfer; decide)
    | rfl

example : ∃ q, Example.program.Means q := C89_meaning (dt := .transfer) Example.program fun r hr => by
  rw [show r = ([t!"noun"], T.Example.action) by simpa [Example.program] using hr]
  exact ⟨rfl, Example.valid_action⟩

/-- What is not valid may denote nothing: a `<clip>` without `pos`. -/
example : absInstrs [.elem 1 t!"out" [] [.elem 2 t!"clip" [(t!"part", t!"lem")] []]] = none := by rfl

end Examples

end Verif.Dom
