import Verif.Dom.Valid
import Verif.Trx.Model
/-!
# C89: whole files of rules

From the root element of a rule file to the tables `rule_map` and `macro_map` (transfer_base.cc:26-40, 111-132) and to the numbers of macros that the compiler of rules
writes (trx_reader.cc:399-424): with a valid file there is nothing left to assume about rules and macros.
-/
namespace Verif.Dom
open Verif.Transfer

/-- `macro_map` of the whole file (transfer_base.cc:34-36, 126-132). -/
def macrosOf (doc : XNode) : List XNode := (elems doc.kids).flatMap fun s => if s.name = t!"section-def-macros" then macroMap s else []

/-- `rule_map` of the whole file (transfer_base.cc:37-39, 111-124). -/
def actionsOf (doc : XNode) : List XNode := (elems doc.kids).flatMap fun s => if s.name = t!"section-rules" then ruleMap s else []

/-- The name of a macro: its attribute `n`. -/
def defName (m : XNode) : Text := getattr m.attrs t!"n"

/-- `macros`: the numbers that `procDefMacros` gives (trx_reader.cc:399-414) and that the data file keeps (transfer_data.cc:200-208, transfer_base.cc:90-95). -/
def macroNumbers : Nat → List XNode → List (Text × Nat)
  | _, [] => []
  | i, m :: ms => (defName m, i) :: macroNumbers (i + 1) ms

/-- `macro_map[macros[n]]` (transfer.cc:746, interchunk.cc:324, postchunk.cc:402); `operator[]` gives 0 for a name that is not there. -/
def macroOf (doc : XNode) (n : Text) : Option XNode := (macrosOf doc)[(Trx.find (macroNumbers 0 (macrosOf doc)) n).getD 0]?

/-! ## Specification -/

/-- A file of rules that is valid for its document type, as far as rules and macros go: the sections hold macros and rules, macros have different names (`ID`), the ones called
exist (`IDREF`). -/
structure ValidFile (dt : Dtd) (doc : XNode) : Prop where
  root : doc.name ≠ t!"let"
  macros : ∀ s ∈ elems doc.kids, s.name = t!"section-def-macros" → ∀ m ∈ elems s.kids, m.name = t!"def-macro" ∧ Valid dt m
  rules : ∀ s ∈ elems doc.kids, s.name = t!"section-rules" → ∀ r ∈ elems s.kids, r.name = t!"rule" ∧ ∀ a ∈ elems r.kids, a.name = t!"action" → Valid dt a
  ids : ((macrosOf doc).map fun m => getattr m.attrs t!"n").Nodup
  refs : ∀ c name, (c, Role.value) ∈ nodes .value doc → c.name = t!"call-macro" → onlyAttr c.attrs t!"n" = some name → ∃ m ∈ macrosOf doc, getattr m.attrs t!"n" = name

/-- The abstract macro of a name. -/
def macroMeaning (doc : XNode) (n : Text) : Nat × List Instr :=
  match macroOf doc n with
  | none => (0, [])
  | some m => ((atoi (getattr m.attrs t!"npar")).toNat, (absInstrs m.kids).getD [])

/-! ## Proofs -/

variable {D : List (XNode × Role)} {dt : Dtd} {doc : XNode}

theorem placed_elem : ∀ {ks : List XNode} {c : XNode}, PlacedAll D .value ks → c ∈ elems ks → Placed D .value c
  | [], _, _, h => by simp [elems] at h
  | k :: ks, c, hp, h => by
    rw [elems_cons] at h
    by_cases hk : k.isText = true
    · rw [if_pos hk] at h; exact placed_elem (hp.text hk) h
    · rw [if_neg hk] at h
      rcases List.mem_cons.1 h with rfl | h
      · exact hp.head
      · exact placed_elem hp.rest h

theorem Placed.inside {n c : XNode} (h : Placed D .value n) (hn : n.name ≠ t!"let") (hc : c ∈ elems n.kids) : Placed D .value c := by
  cases n with
  | text t => simp [XNode.kids, elems] at hc
  | elem i m as ks =>
    refine placed_elem (h.kids_value fun hi => hn ?_) hc
    simp only [IK.of] at hi
    repeat' split at hi
    all_goals first | assumption | cases hi

theorem placed_doc : Placed (nodes .value doc) .value doc := fun _ h => h

theorem macro_in (hv : ValidFile dt doc) {m : XNode} (h : m ∈ macrosOf doc) : Placed (nodes .value doc) .value m ∧ m.name = t!"def-macro" ∧ Valid dt m := by
  obtain ⟨s, hs, hm⟩ := List.mem_flatMap.1 h
  by_cases hn : s.name = t!"section-def-macros"
  · rw [if_pos hn] at hm
    have h1 := hv.macros s hs hn m hm
    exact ⟨(placed_doc.inside hv.root hs).inside (by rw [hn]; decide) hm, h1.1, h1.2⟩
  · rw [if_neg hn] at hm; cases hm

theorem firstAction_mem : ∀ {ks : List XNode} {a : XNode}, firstAction ks = some a → a ∈ ks ∧ a.name = t!"action"
  | [], _, h => by simp [firstAction] at h
  | k :: ks, a, h => by
    simp only [firstAction] at h
    by_cases hk : k.name = t!"action"
    · rw [if_pos hk] at h; cases h; exact ⟨List.mem_cons_self, hk⟩
    · rw [if_neg hk] at h
      exact ⟨List.mem_cons_of_mem _ (firstAction_mem h).1, (firstAction_mem h).2⟩

theorem action_in (hv : ValidFile dt doc) {a : XNode} (h : a ∈ actionsOf doc) : Placed (nodes .value doc) .value a ∧ a.name = t!"action" ∧ Valid dt a := by
  obtain ⟨s, hs, hm⟩ := List.mem_flatMap.1 h
  by_cases hn : s.name = t!"section-rules"
  · rw [if_pos hn] at hm
    obtain ⟨r, hr, hf⟩ := List.mem_filterMap.1 hm
    obtain ⟨ha, hname⟩ := firstAction_mem hf
    have h1 := hv.rules s hs hn r hr
    refine ⟨(((placed_doc.inside hv.root hs).inside (by rw [hn]; decide) hr).inside (by rw [h1.1]; decide) ha), hname, h1.2 a ha hname⟩
  · rw [if_neg hn] at hm; cases hm

/-- A name that is there is found, at the place of a macro of that name. -/
theorem number_of : ∀ (ms : List XNode) (i : Nat) {n : Text}, n ∈ ms.map defName →
    ∃ j m, Trx.find (macroNumbers i ms) n = some (i + j) ∧ ms[j]? = some m ∧ defName m = n
  | [], _, _, h => by simp at h
  | m :: ms, i, n, h => by
    by_cases hm : defName m = n
    · exact ⟨0, m, by simp [macroNumbers, Trx.find, hm], by simp, hm⟩
    · have h' : n ∈ ms.map defName := by
        rcases List.mem_cons.1 (show n ∈ defName m :: ms.map defName from h) with h | h
        · exact absurd h.symm hm
        · exact h
      obtain ⟨j, m', h1, h2, h3⟩ := number_of ms (i + 1) h'
      refine ⟨j + 1, m', ?_, by simpa using h2, h3⟩
      simp only [Trx.find, macroNumbers, List.find?_cons, hm, decide_false] at h1 ⊢
      rw [h1]
      congr 1; omega

theorem npar_look : ∀ (as : List (Text × Text)), npar as = .ok (atoi (getattr as t!"npar"))
  | [] => rfl
  | (n, v) :: as => by
    have ih := npar_look as
    simp only [npar]
    by_cases hn : n = t!"npar"
    · rw [if_pos hn]
      simp [getattr, look, hn]
    · rw [if_neg hn, ih]
      simp [getattr, look, hn]

theorem callMacro_name {n : Text} (h : IK.of n = .callMacro) : n = t!"call-macro" := by
  simp only [IK.of] at h
  repeat' split at h
  all_goals first | assumption | cases h

/-- **C89**: the macro that is run for a name is the one that has this name in the file. -/
theorem C89_macro (hv : ValidFile dt doc) {n : Text} (h : ∃ m ∈ macrosOf doc, getattr m.attrs t!"n" = n) :
    ∃ m ∈ macrosOf doc, getattr m.attrs t!"n" = n ∧ macroOf doc n = some m ∧ ∀ m' ∈ macrosOf doc, getattr m'.attrs t!"n" = n → m' = m := by
  obtain ⟨j, m, h1, h2, h3⟩ := number_of (macrosOf doc) 0 (List.mem_map.2 h : n ∈ (macrosOf doc).map defName)
  have hm : m ∈ macrosOf doc := List.mem_of_getElem? h2
  refine ⟨m, hm, h3, ?_, fun m' hm' h' => ?_⟩
  · simp only [macroOf, h1, Option.getD_some, Nat.zero_add]; exact h2
  · have key : ∀ (l : List XNode), (l.map fun m => getattr m.attrs t!"n").Nodup → m ∈ l → m' ∈ l → m' = m := by
      intro l
      induction l with
      | nil => intro _ h; cases h
      | cons a l ih =>
        intro hn h1 h2
        rw [List.map_cons, List.nodup_cons] at hn
        have h3 : getattr m.attrs t!"n" = n := h3
        rcases List.mem_cons.1 h1 with e1 | e1 <;> rcases List.mem_cons.1 h2 with e2 | e2
        · rw [e1, e2]
        · refine absurd ?_ hn.1
          rw [← e1]
          exact List.mem_map.2 ⟨m', e2, h'.trans h3.symm⟩
        · refine absurd ?_ hn.1
          rw [← e2]
          exact List.mem_map.2 ⟨m, e1, h3.trans h'.symm⟩
        · exact ih hn.2 e1 e2
    exact key _ hv.ids hm hm'

/-- In a valid file every macro that is called is there. -/
theorem macros_of (hv : ValidFile dt doc) {c : XNode} {name : Text} (hc : (c, Role.value) ∈ nodes .value doc) (hk : IK.of c.name = .callMacro)
    (hn : onlyAttr c.attrs t!"n" = some name) :
    ∃ m np, macroOf doc name = some m ∧ Placed (nodes .value doc) .value m ∧ IK.of m.name = .other ∧ npar m.attrs = .ok np ∧
      (macroMeaning doc name).1 = np.toNat ∧ absInstrs m.kids = some (macroMeaning doc name).2 := by
  obtain ⟨j, m, h1, h2, _⟩ := number_of (macrosOf doc) 0 (List.mem_map.2 (hv.refs c name hc (callMacro_name hk) hn) : name ∈ (macrosOf doc).map defName)
  have hm : macroOf doc name = some m := by
    simp only [macroOf, h1, Option.getD_some, Nat.zero_add]; exact h2
  have h3 := macro_in hv (List.mem_of_getElem? h2)
  obtain ⟨is, hi⟩ := C89_valid (Or.inr h3.2.1) h3.2.2
  refine ⟨m, _, hm, h3.1, ?_, npar_look _, ?_, ?_⟩
  · rw [h3.2.1]; decide
  · simp only [macroMeaning, hm]
  · simp only [macroMeaning, hm, hi, Option.getD_some]

/-- The actions of a valid file are elements of it. -/
theorem actions_of (hv : ValidFile dt doc) : ActionsOf (nodes .value doc) (actionsOf doc) := fun n hn => by
  have := action_in hv hn
  exact ⟨this.1, by rw [this.2.1]; decide⟩

/-- The rules of a valid file have a meaning. -/
theorem meaning_of (hv : ValidFile dt doc) {p : XProgram} (hp : p.rules.map (·.2) = actionsOf doc) : ∃ q, p.Means q :=
  C89_meaning (dt := dt) p fun r hr => (action_in hv (hp ▸ List.mem_map.2 ⟨r, hr, rfl⟩)).2

/-- **C89**: apertium-transfer with any valid file of rules: there are abstract rules that it does what they say, on every input. -/
theorem C89_file (hv : ValidFile .transfer doc) (U : Unique (nodes .value doc)) {p : XProgram} (hp : p.rules.map (·.2) = actionsOf doc) :
    ∃ q, p.Means q ∧ ∀ (env : TEnv), env.macros = macroMeaning doc → ∀ (minimize : Pattern.Trans → Pattern.Trans) (lower : Char → Char) (lu : Bool) (vars : Text → Text)
      (input out : Text), T.XRuns minimize lower env (macroOf doc) lu vars p input out ↔ Whole.Runs minimize lower env lu vars q input out := by
  obtain ⟨q, hq⟩ := meaning_of hv hp
  refine ⟨q, hq, fun env he => T.C89_program U (fun c name hc hk hn => ?_) (hp ▸ actions_of hv) hq⟩
  rw [he]; exact macros_of hv hc hk hn

/-- **C89**, interchunk. -/
theorem C89_inter_file (hv : ValidFile .interchunk doc) (U : Unique (nodes .value doc)) {p : XProgram} (hp : p.rules.map (·.2) = actionsOf doc) :
    ∃ q, p.Means q ∧ ∀ (env : TEnv), env.macros = macroMeaning doc → ∀ (minimize : Pattern.Trans → Pattern.Trans) (lower : Char → Char) (vars : Text → Text)
      (input out : Text), I.XRuns minimize lower env (macroOf doc) vars p input out ↔ Inter.Runs minimize lower env vars q input out := by
  obtain ⟨q, hq⟩ := meaning_of hv hp
  refine ⟨q, hq, fun env he => I.C89_inter_program U (fun c name hc hk hn => ?_) (hp ▸ actions_of hv) hq⟩
  rw [he]; exact macros_of hv hc hk hn

/-- **C89**, postchunk. -/
theorem C89_post_file (hv : ValidFile .postchunk doc) (U : Unique (nodes .value doc)) {p : XProgram} (hp : p.rules.map (·.2) = actionsOf doc) :
    ∃ q, p.Means q ∧ ∀ (env : TEnv), env.macros = macroMeaning doc → ∀ (minimize : Pattern.Trans → Pattern.Trans) (lower : Char → Char) (u : Chunk.Uni) (vars : Text → Text)
      (input out : Text), P.XRuns minimize lower u env (macroOf doc) vars p input out ↔ Postchunk.Runs minimize lower u env vars q input out := by
  obtain ⟨q, hq⟩ := meaning_of hv hp
  refine ⟨q, hq, fun env he => P.C89_post_program U (fun c name hc hk hn => ?_) (hp ▸ actions_of hv) hq⟩
  rw [he]; exact macros_of hv hc hk hn

/-! ## Example -/

/-- A whole file, with the macro and the rule of T.Example. -/
def Example.file : XNode :=
  .elem 0 t!"transfer" [] [.text t!" ", .elem 15 t!"section-def-macros" [] [T.Example.macro_],
    .elem 17 t!"section-rules" [] [.text t!" ", .elem 16 t!"rule" [] [.elem 18 t!"pattern" [] [], T.Example.action]]]

example : macrosOf Example.file = [T.Example.macro_] ∧ actionsOf Example.file = [T.Example.action] ∧ macroOf Example.file t!"m" = some T.Example.macro_ := ⟨by rfl, by rfl, by rfl⟩

example : macroMeaning Example.file t!"m" = (1, [.modifyCase (.simple (.clip 1 .tl t!"lem" true [])) (.caseOf 1 .sl t!"lem")]) := by rfl

example : Unique (nodes .value Example.file) := by unfold Unique; decide +kernel

section
theorem Example.valid_macro : Valid .transfer T.Example.macro_ := by
  have h1 : attrsOk t!"def-macro" [(t!"n", t!"m"), (t!"npar", t!"1")] := attrsOk_of (by decide) (by decide) (by decide)
  have h2 : attrsOk t!"modify-case" [] := attrsOk_of (by decide) (by decide) (by decide)
  have h3 : attrsOk t!"clip" [(t!"pos", t!"1"), (t!"side", t!"tl"), (t!"part", t!"lem")] := attrsOk_of (by decide) (by decide) (by decide)
  have h4 : attrsOk t!"case-of" [(t!"pos", t!"1"), (t!"side", t!"sl"), (t!"part", t!"lem")] := attrsOk_of (by decide) (by decide) (by decide)
  exact ⟨show ∀ x ∈ [t!"modify-case"], x ∈ sentences by decide, h1, ⟨⟨_, _, rfl, by decide, by decide⟩, h2, ⟨rfl, h3, trivial⟩, ⟨rfl, h4, trivial⟩, trivial⟩, trivial⟩
end

/-- It is valid. -/
example : ValidFile .transfer Example.file where
  root := by decide
  macros s hs hn m hm := by
    have h : s = .elem 15 t!"section-def-macros" [] [T.Example.macro_] ∨ s = .elem 17 t!"section-rules" [] [.text t!" ", .elem 16 t!"rule" [] [.elem 18 t!"pattern" [] [], T.Example.action]] := by
      have : s ∈ [XNode.elem 15 t!"section-def-macros" [] [T.Example.macro_], .elem 17 t!"section-rules" [] [.text t!" ", .elem 16 t!"rule" [] [.elem 18 t!"pattern" [] [], T.Example.action]]] := hs
      simpa using this
    rcases h with rfl | rfl
    · rw [show m = T.Example.macro_ from List.mem_singleton.1 (show m ∈ [T.Example.macro_] from hm)]
      exact ⟨rfl, Example.valid_macro⟩
    · exact absurd hn (by decide)
  rules s hs hn r hr := by
    have h : s = .elem 15 t!"section-def-macros" [] [T.Example.macro_] ∨ s = .elem 17 t!"section-rules" [] [.text t!" ", .elem 16 t!"rule" [] [.elem 18 t!"pattern" [] [], T.Example.action]] := by
      have : s ∈ [XNode.elem 15 t!"section-def-macros" [] [T.Example.macro_], .elem 17 t!"section-rules" [] [.text t!" ", .elem 16 t!"rule" [] [.elem 18 t!"pattern" [] [], T.Example.action]]] := hs
      simpa using this
    rcases h with rfl | rfl
    · exact absurd hn (by decide)
    · have : r = .elem 16 t!"rule" [] [.elem 18 t!"pattern" [] [], T.Example.action] :=
        List.mem_singleton.1 (show r ∈ [XNode.elem 16 t!"rule" [] [.elem 18 t!"pattern" [] [], T.Example.action]] from hr)
      subst this
      refine ⟨rfl, fun a ha hname => ?_⟩
      have : a ∈ [XNode.elem 18 t!"pattern" [] [], T.Example.action] := ha
      rcases List.mem_cons.1 this with rfl | this
      · exact absurd hname (by decide)
      · rw [List.mem_singleton.1 this]; exact Example.valid_action
  ids := by decide +kernel
  refs c name hc hk hn := by
    have h : ∀ q ∈ nodes .value Example.file, q.1.name = t!"call-macro" → onlyAttr q.1.attrs t!"n" = some t!"m" := by decide +kernel
    rw [h _ hc hk] at hn
    cases hn
    exact ⟨T.Example.macro_, (show T.Example.macro_ ∈ [T.Example.macro_] from List.mem_singleton.2 rfl), by decide +kernel⟩

end Verif.Dom
