import Verif.Dom.TransferInstr
/-!
# C89: rules written in XML mean what the document type says

The interpreter walks the XML tree of the rules, reading the attributes of an element in whatever order they are written, and keeps what it has decoded in a cache that
lives as long as the program.  The theorems: in whatever state the cache is after any number of rules, running the XML of a rule does exactly what the abstract rule
does that its elements denote (Verif/Dom/Syntax.lean), and leaves the cache in such a state.
-/
namespace Verif.Dom.T
open Verif.Transfer

variable {D : List (XNode × Role)} {env : TEnv}

/-- The macros of the document: every `<call-macro>` names one, and the abstract macro of that name is what its element denotes. -/
def Macros (D : List (XNode × Role)) (env : TEnv) (mac : Text → Option XNode) : Prop :=
  ∀ c name, (c, Role.value) ∈ D → IK.of c.name = .callMacro → onlyAttr c.attrs t!"n" = some name →
    ∃ m np, mac name = some m ∧ Placed D .value m ∧ IK.of m.name = .other ∧ npar m.attrs = .ok np ∧ (env.macros name).1 = np.toNat ∧
      absInstrs m.kids = some (env.macros name).2

/-! ## Calling a macro -/

theorem firstAttr_arg {k : XNode} {p : Text} (h : onlyAttr k.attrs t!"pos" = some p) : firstAttr k.attrs = .ok p := firstAttr_only h

/-- The abstract arguments are those of the elements. -/
theorem absArgs_elems : ∀ {ks : List XNode} {args : List Int}, absArgs ks = some args →
    ∃ ps : List Text, args = ps.map atoi ∧ (elems ks).map (fun k => firstAttr k.attrs) = ps.map Outcome.ok
  | [], args, h => by
    simp only [absArgs] at h; cases h
    exact ⟨[], rfl, rfl⟩
  | k :: ks, args, h => by
    simp only [absArgs] at h
    rw [elems_cons]
    by_cases hk : k.isText = true
    · rw [if_pos hk] at h ⊢; exact absArgs_elems h
    · rw [if_neg hk] at h ⊢
      obtain ⟨p, hp, h⟩ := Option.bind_eq_some_iff.1 h
      obtain ⟨args', ha, rfl⟩ := Option.map_eq_some_iff.1 h
      obtain ⟨ps, rfl, h2⟩ := absArgs_elems ha
      exact ⟨p :: ps, rfl, by simp [firstAttr_only hp, h2]⟩

/-- The loop over the arguments. -/
theorem xArgs_eq (word : List (Option Nat)) : ∀ (np : Nat) (es : List XNode) (ps : List Text), es.map (fun k => firstAttr k.attrs) = ps.map Outcome.ok →
    xArgs word np es =
      match macroArgs word ((ps.map atoi).take np) with
      | none => .ub
      | some ws => if ps.length > np then .ok none else .ok (some ws)
  | np, [], [], _ => by cases np <;> simp [xArgs, macroArgs]
  | _, [], _ :: _, h => by simp at h
  | _, _ :: _, [], h => by simp at h
  | 0, e :: es, p :: ps, _ => by simp [xArgs, macroArgs]
  | np + 1, e :: es, p :: ps, h => by
    simp only [List.map_cons, List.cons.injEq] at h
    simp only [xArgs, h.1, Outcome.bind, List.map_cons, List.take_succ_cons, macroArgs, xArgs_eq word np es ps h.2, List.length_cons]
    by_cases h0 : atoi p - 1 < 0
    · rw [if_pos h0, if_pos h0]
    · rw [if_neg h0, if_neg h0]
      cases word[(atoi p - 1).toNat]? with
      | none => rfl
      | some o =>
        cases macroArgs word ((ps.map atoi).take np) with
        | none => rfl
        | some ws =>
          simp only
          by_cases hl : ps.length > np
          · rw [if_pos hl, if_pos (by omega)]; rfl
          · rw [if_neg hl, if_neg (by omega)]; rfl

theorem macroArgs_length (word : List (Option Nat)) : ∀ {args : List Int} {ws : List (Option Nat)}, macroArgs word args = some ws → ws.length = args.length
  | [], ws, h => by simp only [macroArgs] at h; cases h; rfl
  | p :: ps, ws, h => by
    simp only [macroArgs] at h
    split at h
    · cases h
    · split at h
      · rename_i o xs _ hx
        cases h
        simp [macroArgs_length word hx]
      · cases h

mutual
/-- All the virtual functions. -/
theorem virt_sim (U : Unique D) {mac : Text → Option XNode} (M : Macros D env mac) : ∀ d : Nat,
    VirtSim D (SimR D) (xvirt env (xCall env mac d)) (virt env) (callMacro env d)
  | d => {
      evalString := fun n e hp he s' s hs => xExpr_sim U hp he hs
      processLet := fun n l r hp hk h s' s hs => xLet_sim U hp hk h hs
      processModifyCase := fun n l r hp hk h s' s hs => xModifyCase_sim U hp hk h hs
      processAppend := fun n es hp hk h s' s hs => xAppend_sim U hp hk h hs
      processOut := fun n es hp hk h s' s hs => xOut_sim U hp hk h hs
      processCallMacro := fun n m args hp hk hm ha s' s hs => call_sim U M d hp hk hm ha hs
      tolower := rfl
      stoi := rfl
      list := rfl }
theorem call_sim (U : Unique D) {mac : Text → Option XNode} (M : Macros D env mac) : ∀ d : Nat, ∀ {n : XNode} {name : Text} {args : List Int},
    Placed D .value n → IK.of n.name = .callMacro → onlyAttr n.attrs t!"n" = some name → absArgs n.kids = some args →
    ∀ {x : XSt} {s : TSt}, SimR D x s → Rel (SimR D) (xCall env mac d n x) (callMacro env d name args s)
  | 0, _, _, _, _, _, _, _, _, _, _ => trivial
  | d + 1, n, name, args, hp, hk, hn, ha, x, s, hs => by
    have V := virt_sim U M d
    have hself : (n, Role.value) ∈ D := by
      cases n with
      | text t => exact absurd hk (show IK.of [] ≠ _ by decide)
      | elem i n as ks => exact hp.self
    obtain ⟨m, np, hmac, hpm, hmn, hnp, hnpar, hbody⟩ := M n name hself hk hn
    obtain ⟨s0, c⟩ := x
    obtain ⟨h0, hg⟩ := hs
    simp only at h0 hg
    subst h0
    have run : ∀ w : List (Option Nat), Rel (SimR D)
        ((xMacro (xvirt env (xCall env mac d)) m.kids ({ s0 with word := w }, c)).map fun x' => ({ x'.1 with word := s0.word }, x'.2))
        ((execMacroBody (virt env) (callMacro env d) (env.macros name).2 { s0 with word := w }).map fun s' => { s' with word := s0.word }) := by
      intro w
      have hkids : PlacedAll D .value m.kids := by
        cases m with
        | text t => intro p hp; simp [XNode.kids, nodesAll] at hp
        | elem i n as ks =>
          have hmn : IK.of n = .other := hmn
          exact hpm.kids_value (by simp [hmn])
      refine (xMacro_sim V hbody hkids (SimR.mk' hg _)).map ?_
      rintro ⟨s1', c1⟩ s1 ⟨h1, hg1⟩
      simp only at h1 hg1
      subst h1
      exact ⟨rfl, hg1⟩
    obtain ⟨ps, rfl, hps⟩ := absArgs_elems ha
    simp only [xCall, callMacro, firstAttr_only hn, Outcome.bind, hmac, hnp, hnpar]
    by_cases h0 : np ≤ 0
    · have : np.toNat = 0 := by omega
      rw [if_pos h0, if_pos this]
      exact run []
    · have h0' : ¬ np.toNat = 0 := by omega
      rw [if_neg h0, if_neg h0', xArgs_eq s0.word np.toNat (elems n.kids) ps hps]
      by_cases hl : ps.length > np.toNat
      · rw [if_pos (show (ps.map atoi).length > np.toNat by simpa using hl)]
        cases macroArgs s0.word ((ps.map atoi).take np.toNat) with
        | none => trivial
        | some ws => simp only [if_pos hl]; exact ⟨rfl, hg⟩
      · rw [if_neg (show ¬ (ps.map atoi).length > np.toNat by simpa using hl)]
        have : (ps.map atoi).take np.toNat = ps.map atoi := List.take_of_length_le (by simp; omega)
        rw [this]
        cases hma : macroArgs s0.word (ps.map atoi) with
        | none => trivial
        | some ws =>
          simp only [if_neg hl]
          have hlen := macroArgs_length _ hma
          rw [hlen]
          exact run _
end

/-! ## The claim -/

/-- C89: an expression.  Whatever the cache holds that the program may have put there, evaluating the element gives what the expression gives that the element
denotes, with the same effects; and the cache is again one that the program may have left. -/
theorem C89_expr (U : Unique D) {n : XNode} {e : Expr} (hp : Placed D .value n) (h : absExpr n = some e) {c : Cache} (hc : Good D c) (s : TSt) :
    Rel (fun x y => x.1 = y.1 ∧ x.2.1 = y.2 ∧ Good D x.2.2) (xExpr env n (s, c)) (evalExpr env e s) := by
  have := xExpr_sim (env := env) U hp h (SimR.mk' hc s)
  cases hx : xExpr env n (s, c) <;> cases hy : evalExpr env e s <;> rw [hx, hy] at this <;> exact this

/-- C89: a rule: its `<action>` and the macros it calls. -/
theorem C89_rule (U : Unique D) {mac : Text → Option XNode} (M : Macros D env mac) (d : Nat) {n : XNode} {is : List Instr} (hp : Placed D .value n)
    (hn : IK.of n.name = .other) (h : absInstrs n.kids = some is) {c : Cache} (hc : Good D c) (s : TSt) :
    Rel (fun x y => x.1 = y.1 ∧ x.2.1 = y.2 ∧ Good D x.2.2) (xRule env mac d n (s, c)) (processRule env d is s) := by
  have V := virt_sim (env := env) U M d
  have hkids : PlacedAll D .value n.kids := by
    cases n with
    | text t => intro p hp; simp [XNode.kids, nodesAll] at hp
    | elem i n as ks =>
      have hn : IK.of n = .other := hn
      exact hp.kids_value (by simp [hn])
  simp only [xRule, processRule]
  have := xBlock_sim V (w := -1) h hkids (SimR.mk' hc s)
  refine this.map ?_
  rintro ⟨w, s1', c1⟩ ⟨w2, s1⟩ ⟨hw, h1, hg1⟩
  simp only at hw h1 hg1
  subst hw h1
  exact ⟨rfl, rfl, hg1⟩

/-- A history: the rules that the program ran one after the other, each on the state that something else (reading words, writing blanks) made of what the one before left. -/
inductive History (env : TEnv) (mac : Text → Option XNode) (d : Nat) (D : List (XNode × Role)) : Cache → Prop
  | start : History env mac d D fun _ => none
  | rule {c : Cache} {n : XNode} {is : List Instr} {s : TSt} {w : Int} {x : XSt} : History env mac d D c → Placed D .value n → IK.of n.name = .other →
      absInstrs n.kids = some is → xRule env mac d n (s, c) = .ok (w, x) → History env mac d D x.2

/-- C89: the cache after any history is harmless: a rule does what it would do with an empty cache. -/
theorem C89_history (U : Unique D) {mac : Text → Option XNode} (M : Macros D env mac) (d : Nat) {n : XNode} {is : List Instr} (hp : Placed D .value n)
    (hn : IK.of n.name = .other) (h : absInstrs n.kids = some is) {c : Cache} (H : History env mac d D c) (s : TSt) :
    (xRule env mac d n (s, c)).map (fun x => (x.1, x.2.1)) = processRule env d is s ∧
    (xRule env mac d n (s, c)).map (fun x => (x.1, x.2.1)) = (xRule env mac d n (s, fun _ => none)).map fun x => (x.1, x.2.1) := by
  have hc : Good D c := by
    induction H with
    | start => exact Good.empty D
    | @rule c0 n0 is0 s0 w0 x0 _ hp' hn' h' hx ih =>
      have := C89_rule (env := env) U M d hp' hn' h' ih s0
      rw [hx] at this
      revert this
      cases processRule env d is0 s0 <;> intro this
      · exact this.2.2
      all_goals exact this.elim
  have key : ∀ c, Good D c → (xRule env mac d n (s, c)).map (fun x => (x.1, x.2.1)) = processRule env d is s := by
    intro c hc
    have := C89_rule (env := env) U M d hp hn h hc s
    revert this
    cases xRule env mac d n (s, c) <;> cases processRule env d is s <;> intro this <;> first | exact this.elim | rfl | skip
    rename_i a b
    simp only [Outcome.map]
    rw [this.1, this.2.1]
  exact ⟨key c hc, (key c hc).trans (key _ (Good.empty D)).symm⟩

/-! ## A document -/

namespace Example

def clip1 : XNode := .elem 5 t!"clip" [(t!"part", t!"lem"), (t!"queue", t!"no"), (t!"pos", t!"1"), (t!"side", t!"tl")] []

def action : XNode :=
  .elem 1 t!"action" []
    [.text t!" ",
     .elem 2 t!"let" [] [.elem 3 t!"var" [(t!"n", t!"x")] [], .text t!" a comment ", .elem 4 t!"lit" [(t!"v", t!"y")] []],
     .elem 6 t!"call-macro" [(t!"n", t!"m")] [.elem 7 t!"with-param" [(t!"pos", t!"1")] []],
     .elem 8 t!"out" [] [.elem 9 t!"lu" [] [clip1, .text t!"  "], .elem 10 t!"b" [(t!"pos", t!"1")] []]]

def macro_ : XNode :=
  .elem 11 t!"def-macro" [(t!"n", t!"m"), (t!"npar", t!"1")]
    [.elem 12 t!"modify-case" []
      [.elem 13 t!"clip" [(t!"pos", t!"1"), (t!"side", t!"tl"), (t!"part", t!"lem")] [],
       .elem 14 t!"case-of" [(t!"pos", t!"1"), (t!"side", t!"sl"), (t!"part", t!"lem")] []]]

def doc : XNode := .elem 0 t!"transfer" [] [.elem 15 t!"section-def-macros" [] [macro_], .elem 16 t!"rule" [] [action]]

def DD : List (XNode × Role) := nodes .value doc

example : Unique DD := by unfold Unique; decide +kernel

theorem placed_doc : Placed DD .value doc := fun _ h => h

theorem placed_action : Placed DD .value action :=
  (((placed_doc.kids_value (by decide)).rest.head).kids_value (by decide)).head

theorem placed_macro : Placed DD .value macro_ :=
  ((placed_doc.kids_value (by decide)).head.kids_value (by decide)).head

/-- The rule: comments and spaces gone, attributes by name. -/
example : absInstrs action.kids = some
    [.assign (.simple (.var t!"x")) (.simple (.lit t!"y")),
     .callMacro t!"m" [1],
     .out [.lu [.simple (.clip 1 .tl t!"lem" false [])], .blank]] := by rfl

example : absInstrs macro_.kids = some [.modifyCase (.simple (.clip 1 .tl t!"lem" true [])) (.caseOf 1 .sl t!"lem")] := by rfl

example : ruleMap (.elem 17 t!"section-rules" [] [.text t!" ", .elem 16 t!"rule" [] [.elem 18 t!"pattern" [] [], action]]) = [action] := by rfl

/-- The hypothesis on macros can be met. -/
example (env : TEnv)
    (h : env.macros t!"m" = (1, [.modifyCase (.simple (.clip 1 .tl t!"lem" true [])) (.caseOf 1 .sl t!"lem")])) :
    Macros DD env fun n => if n = t!"m" then some macro_ else none := by
  intro c name hc hk hn
  have : name = t!"m" := by
    simp only [DD, doc, nodes, nodesAll, macro_, action, clip1, XNode.isText, List.append_nil, List.nil_append, List.cons_append,
      List.mem_cons, List.not_mem_nil, or_false, Prod.mk.injEq] at hc
    rcases hc with ⟨rfl, _⟩ | ⟨rfl, _⟩ | ⟨rfl, _⟩ | ⟨rfl, _⟩ | ⟨rfl, _⟩ | ⟨rfl, _⟩ | ⟨rfl, _⟩ | ⟨rfl, _⟩ | ⟨rfl, _⟩ | ⟨rfl, _⟩ | ⟨rfl, _⟩ | ⟨rfl, _⟩ | ⟨rfl, _⟩ |
      ⟨rfl, _⟩ | ⟨rfl, _⟩ | ⟨rfl, _⟩ | ⟨rfl, _⟩ | h <;> first | (exact absurd hk (by decide)) | skip
    all_goals first | exact onlyAttr_eq hn ▸ rfl | skip
    all_goals (simp only [XNode.attrs, onlyAttr] at hn; first | (simp at hn; done) | (simp at hn; exact hn.symm))
  subst this
  exact ⟨macro_, 1, rfl, placed_macro, by decide, rfl, by rw [h]; rfl, by rw [h]; rfl⟩

end Example

end Verif.Dom.T
