import Verif.Dom.PostSim
/-! # Instructions, macros and rules with the cache (apertium-postchunk) -/
namespace Verif.Dom.P
open Verif.Postchunk Verif.Dom.C
open Verif.Transfer hiding evalExpr evalSimple evalList evalMlu finishLu luText addWblank outLoop processOut processLet processAppend processModifyCase virt macroArgs callMacro processRule

variable {D : List (XNode × Role)} {env : TEnv}

/-- `processLu(i)` and `processMlu(i)` are what `evalString(i)` calls. -/
theorem xOutOne_sim (U : Unique D) {k : XNode} {e : Expr} (hp : Placed D .value k) (he : absExpr k = some e) {x : XSt} {s : PSt} (hs : SimR D x s) :
    Rel (PR (SimR D)) (xOutOne env k x) (evalExpr env e s) := by
  have key : xOutOne env k x = xExpr env k x := by
    cases k with
    | text t => rfl
    | elem i n as ks =>
      have hc : dec (EK.of n) as ks = none → x.2 i = none := by
        intro hd
        cases hc : x.2 i with
        | none => rfl
        | some e' =>
          have := hs.2.get_value U hp.self hc
          simp only [XNode.name, XNode.attrs, XNode.kids] at this
          rw [show C.decode 0 true (EK.of n) as ks = none from hd] at this
          cases this
      by_cases h1 : n = t!"lu"
      · subst h1
        have := hc rfl
        simp only [xExpr, this]
        rfl
      · by_cases h2 : n = t!"mlu"
        · subst h2
          have := hc rfl
          simp only [xExpr, this]
          rfl
        · simp only [xOutOne]
          rw [if_neg (show ¬ (XNode.elem i n as ks).name = _ from h1), if_neg (show ¬ (XNode.elem i n as ks).name = _ from h2)]
  rw [key]
  exact xExpr_sim U hp he hs

theorem xOutLoop_sim (U : Unique D) : ∀ {ks : List XNode} {es : List Expr}, PlacedAll D .value ks → absExprs ks = some es → ∀ {x : XSt} {s : PSt}, SimR D x s →
    Rel (SimR D) (xOutLoop env ks x) (outLoop env es s)
  | [], es, _, h, x, s, hs => by
    simp only [absExprs] at h; cases h
    simp only [xOutLoop, outLoop]; exact hs
  | k :: ks, es, hp, h, x, s, hs => by
    simp only [absExprs] at h
    simp only [xOutLoop]
    by_cases hk : k.isText = true
    · rw [if_pos hk] at h ⊢; exact xOutLoop_sim U hp.rest h hs
    · rw [if_neg hk] at h ⊢
      obtain ⟨e, he, h⟩ := Option.bind_eq_some_iff.1 h
      obtain ⟨es', hes, rfl⟩ := Option.map_eq_some_iff.1 h
      simp only [outLoop]
      refine (xOutOne_sim U hp.head he hs).bind ?_
      rintro ⟨t, s1', c1⟩ ⟨t2, s1⟩ ⟨ht, h1, hg1⟩
      simp only at ht h1 hg1
      subst ht h1
      exact xOutLoop_sim U hp.rest hes ⟨rfl, hg1⟩

theorem xOut_sim (U : Unique D) {n : XNode} {es : List Expr} (hp : Placed D .value n) (hk : IK.of n.name = .out) (h : absExprs n.kids = some es)
    {x : XSt} {s : PSt} (hs : SimR D x s) : Rel (SimR D) (xOut env n x) (processOut env es s) := by
  cases n with
  | text t => exact absurd hk (show IK.of [] ≠ _ by decide)
  | elem i n as ks =>
    obtain ⟨s0, c⟩ := x
    obtain ⟨h0, hg⟩ := hs
    simp only at h0 hg
    subst h0
    have hk : IK.of n = .out := hk
    simp only [xOut, processOut]
    refine (xOutLoop_sim U (hp.kids_value (by simp [hk])) h (SimR.mk' hg _)).map ?_
    rintro ⟨s1', c1⟩ s1 ⟨h1, hg1⟩
    simp only at h1 hg1
    subst h1
    exact ⟨rfl, hg1⟩

theorem xAppendLoop_sim (U : Unique D) (n : Text) : ∀ {ks : List XNode} {es : List Expr}, PlacedAll D .value ks → absExprs ks = some es → ∀ {x : XSt} {s : PSt}, SimR D x s →
    Rel (SimR D) (xAppendLoop env n ks x) (processAppend env n es s)
  | [], es, _, h, x, s, hs => by
    simp only [absExprs] at h; cases h
    simp only [xAppendLoop, processAppend]; exact hs
  | k :: ks, es, hp, h, x, s, hs => by
    simp only [absExprs] at h
    simp only [xAppendLoop]
    by_cases hk : k.isText = true
    · rw [if_pos hk] at h ⊢; exact xAppendLoop_sim U n hp.rest h hs
    · rw [if_neg hk] at h ⊢
      obtain ⟨e, he, h⟩ := Option.bind_eq_some_iff.1 h
      obtain ⟨es', hes, rfl⟩ := Option.map_eq_some_iff.1 h
      obtain ⟨s0, c⟩ := x
      obtain ⟨h0, hg⟩ := hs
      simp only at h0 hg
      subst h0
      simp only [processAppend]
      refine (xExpr_sim U hp.head he (SimR.mk' hg _)).bind ?_
      rintro ⟨t, s1', c1⟩ ⟨t2, s1⟩ ⟨ht, h1, hg1⟩
      simp only at ht h1 hg1
      subst ht h1
      exact xAppendLoop_sim U n hp.rest hes ⟨rfl, hg1⟩

theorem xAppend_sim (U : Unique D) {n : XNode} {es : List Expr} (hp : Placed D .value n) (hk : IK.of n.name = .append) (h : absExprs n.kids = some es)
    {x : XSt} {s : PSt} (hs : SimR D x s) : Rel (SimR D) (xAppend env n x) (processAppend env (getattr n.attrs t!"n") es s) := by
  cases n with
  | text t => exact absurd hk (show IK.of [] ≠ _ by decide)
  | elem i n as ks =>
    have hk : IK.of n = .append := hk
    exact xAppendLoop_sim U _ (hp.kids_value (by simp [hk])) h hs

/-- Assigning a variable. -/
theorem letVar_sim (U : Unique D) {v : Text} {k : XNode} {e : Expr} (hp : Placed D .value k) (he : absExpr k = some e) {x : XSt} {s : PSt} (hs : SimR D x s) :
    Rel (SimR D) (letVar env v k x) (processLet env (.simple (.var v)) e s) := by
  obtain ⟨s0, c⟩ := x
  obtain ⟨h0, hg⟩ := hs
  simp only at h0 hg
  subst h0
  simp only [letVar, processLet]
  refine (xExpr_sim U hp he (SimR.mk' hg _)).map ?_
  rintro ⟨t, s1', c1⟩ ⟨t2, s1⟩ ⟨ht, h1, hg1⟩
  simp only at ht h1 hg1
  subst ht h1
  exact ⟨rfl, hg1⟩

/-- Assigning a part of a word. -/
theorem letWord_sim (U : Unique D) {en : Entry} {p : Int} {part : Text} {sd : Side} {qu : Bool} {to : Text} {k : XNode} {e : Expr} (hp : Placed D .value k)
    (he : absExpr k = some e) (h1 : en.content = part) (h2 : en.pos = p) {x : XSt} {s : PSt} (hs : SimR D x s) :
    Rel (SimR D) (letWord env en k x) (processLet env (.simple (.clip p sd part qu to)) e s) := by
  obtain ⟨s0, c⟩ := x
  obtain ⟨h0, hg⟩ := hs
  simp only at h0 hg
  subst h0 h1
  simp only [letWord, processLet, h2]
  cases s0.wordRaw p with
  | ok iw =>
    refine (xExpr_sim U hp he (SimR.mk' hg _)).map ?_
    rintro ⟨t, s1', c1⟩ ⟨t2, s1⟩ ⟨ht, h1, hg1⟩
    simp only at ht h1 hg1
    subst ht h1
    exact ⟨rfl, hg1⟩
  | _ => trivial

theorem xLet_sim (U : Unique D) {n : XNode} {l r : Expr} (hp : Placed D .value n) (hk : IK.of n.name = .let) (h : absSides n.kids = some (l, r))
    {x : XSt} {s : PSt} (hs : SimR D x s) : Rel (SimR D) (xLet env n x) (processLet env l r s) := by
  cases n with
  | text t => exact absurd hk (show IK.of [] ≠ _ by decide)
  | elem i nm as ks =>
    have hk : IK.of nm = .let := hk
    obtain ⟨a, b, rest, he, hl, hr⟩ := sides_some h
    have hkids : PlacedAll D .target ks := by simpa [hk] using hp.kids
    have hpa := placed_first hkids he
    have hpb := placed_second hkids he
    have hself : (a, Role.target) ∈ D := by
      cases a with
      | text t => simp [absLeft] at hl
      | elem i n as ks => exact hpa.self
    have hx0 : x.1 = s := hs.1
    have hg := hs.2
    have he' : elems (XNode.elem i nm as ks).kids = a :: b :: rest := he
    simp only [xLet, he']
    rcases left_cases (off := 0) hl with ⟨hn, v, hv, rfl⟩ | ⟨hn, p, q, sd, qu, to, hce, rfl⟩
    · cases hc : x.2 a.id with
      | some e =>
        rcases hg.get_target U hself hc with ⟨_, v', hv', rfl⟩ | ⟨hn', _⟩
        · rw [hv] at hv'
          cases hv'
          exact letVar_sim U hpb hr hs
        · rw [hn] at hn'; cases hn'
      | none =>
        simp only [hn, hv, Outcome.bind]
        have := letVar_sim (env := env) (v := v) U hpb hr hs
        cases hx : letVar env v b x <;> cases hy : processLet env (.simple (.var v)) r s <;> rw [hx, hy] at this <;> try (exact this)
        exact ⟨this.1, this.2.put_target hself (Or.inl ⟨hn, v, hv, rfl⟩)⟩
    · cases hc : x.2 a.id with
      | some e =>
        rcases hg.get_target U hself hc with ⟨hn', _⟩ | ⟨_, hce'⟩
        · rw [hn] at hn'; cases hn'
        · rw [hce] at hce'
          cases hce'
          exact letWord_sim U hpb hr rfl (Int.sub_zero _) hs
      | none =>
        simp only [hn, hce, Outcome.bind]
        have := letWord_sim (env := env) (en := { ty := .clip .tl, content := q, pos := atoi p - 0 }) (sd := sd) (qu := qu) (to := to) U hpb hr rfl (Int.sub_zero _) hs
        refine this.map_left ?_
        intro x1 s1 hx1
        exact ⟨hx1.1, hx1.2.put_target hself (Or.inr ⟨hn, hce⟩)⟩

theorem xModifyCase_sim (U : Unique D) {n : XNode} {l r : Expr} (hp : Placed D .value n) (hk : IK.of n.name = .modifyCase)
    (h : absSides n.kids = some (l, r)) {x : XSt} {s : PSt} (hs : SimR D x s) : Rel (SimR D) (xModifyCase env n x) (processModifyCase env l r s) := by
  cases n with
  | text t => exact absurd hk (show IK.of [] ≠ _ by decide)
  | elem i nm as ks =>
    have hk : IK.of nm = .modifyCase := hk
    obtain ⟨a, b, rest, he, hl, hr⟩ := sides_some h
    have hpb := placed_second (hp.kids_value (by simp [hk])) he
    have hx0 : x.1 = s := hs.1
    have he' : elems (XNode.elem i nm as ks).kids = a :: b :: rest := he
    simp only [xModifyCase, processModifyCase, he']
    by_cases hd : env.dictCase = true
    · rw [if_pos hd, if_pos hd]; exact hs
    · rw [if_neg hd, if_neg hd]
      rcases left_cases (off := 0) hl with ⟨hn, v, hv, rfl⟩ | ⟨hn, p, q, sd, qu, to, hce, rfl⟩
      · simp only [hn, hv, Outcome.bind]
        refine (xExpr_sim U hpb hr hs).map ?_
        rintro ⟨t, s1', c1⟩ ⟨t2, s1⟩ ⟨ht, h1, hg1⟩
        simp only at ht h1 hg1
        subst ht h1
        exact ⟨rfl, hg1⟩
      · simp only [hn, hce, Outcome.bind, Int.sub_zero]
        subst hx0
        cases x.1.wordRaw (atoi p) with
        | ok iw =>
          refine (xExpr_sim U hpb hr hs).map ?_
          rintro ⟨t, s1', c1⟩ ⟨t2, s1⟩ ⟨ht, h1, hg1⟩
          simp only at ht h1 hg1
          subst ht h1
          exact ⟨rfl, hg1⟩
        | _ => trivial

/-- The macros of the document: every `<call-macro>` names one, and the abstract macro of that name is what its element denotes. -/
def Macros (D : List (XNode × Role)) (env : TEnv) (mac : Text → Option XNode) : Prop :=
  ∀ c name, (c, Role.value) ∈ D → IK.of c.name = .callMacro → onlyAttr c.attrs t!"n" = some name →
    ∃ m np, mac name = some m ∧ Placed D .value m ∧ IK.of m.name = .other ∧ npar m.attrs = .ok np ∧ (env.macros name).1 = np.toNat ∧
      absInstrs m.kids = some (env.macros name).2

/-! ## Calling a macro -/

/-- The abstract arguments are those of the elements. -/
theorem absArgs_elems : ∀ {ks : List XNode} {args : List Int}, absArgs ks = some args →
    ∃ ps : List Text, args = ps.map atoi ∧ (elems ks).map (fun k => firstAttr k.attrs) = ps.map Outcome.ok
  | [], args, h => by
    simp only [absArgs] at h; cases h
    exact ⟨[], rfl, rfl⟩
  | k :: ks, args, h => by
    simp only [absArgs] at h
    rw [elems_cons]
    by_cases hk : k.isText = true
    · rw [if_pos hk] at h ⊢; exact absArgs_elems h
    · rw [if_neg hk] at h ⊢
      obtain ⟨p, hp, h⟩ := Option.bind_eq_some_iff.1 h
      obtain ⟨args', ha, rfl⟩ := Option.map_eq_some_iff.1 h
      obtain ⟨ps, rfl, h2⟩ := absArgs_elems ha
      exact ⟨p :: ps, rfl, by simp [firstAttr_only hp, h2]⟩

/-- The loop over the arguments. -/
theorem xArgs_eq (word : List (Option Nat)) : ∀ (np : Nat) (es : List XNode) (ps : List Text), es.map (fun k => firstAttr k.attrs) = ps.map Outcome.ok →
    xArgs word np es = if ps.length > np then .ub else macroArgs word (ps.map atoi)
  | np, [], [], _ => by cases np <;> simp [xArgs, macroArgs]
  | _, [], _ :: _, h => by simp at h
  | _, _ :: _, [], h => by simp at h
  | 0, e :: es, p :: ps, _ => by simp [xArgs]
  | np + 1, e :: es, p :: ps, h => by
    simp only [List.map_cons, List.cons.injEq] at h
    simp only [xArgs, h.1, Outcome.bind, List.map_cons, macroArgs, xArgs_eq word np es ps h.2, List.length_cons]
    by_cases hl : ps.length > np
    · rw [if_pos hl, if_pos (show ps.length + 1 > np + 1 by omega)]
      split
      · split <;> rfl
      · split <;> rfl
    · rw [if_neg hl, if_neg (show ¬ ps.length + 1 > np + 1 by omega)]
      split
      · cases word[1]? <;> rfl
      · cases word[(atoi p).toNat]? with
        | none => rfl
        | some o => cases o <;> rfl

theorem macroArgs_length (word : List (Option Nat)) : ∀ {args : List Int} {ws : List (Option Nat)} {b : Bool}, macroArgs word args = .ok (ws, b) → ws.length = args.length
  | [], ws, b, h => by simp only [macroArgs] at h; cases h; rfl
  | p :: ps, ws, b, h => by
    simp only [macroArgs] at h
    have step := fun ws b h => @macroArgs_length word ps ws b h
    cases hm : macroArgs word ps with
    | ok r =>
      obtain ⟨os, b'⟩ := r
      have := step os b' hm
      simp only [hm, Outcome.map] at h
      split at h
      · split at h
        · cases h
        · cases h; simp [this]
      · split at h
        · cases h; simp [this]
        · cases h
    | _ =>
      simp only [hm, Outcome.map] at h
      split at h <;> split at h <;> cases h

mutual
/-- All the virtual functions. -/
theorem virt_sim (U : Unique D) {mac : Text → Option XNode} (M : Macros D env mac) : ∀ d : Nat,
    VirtSim D (SimR D) (xvirt env (xCall env mac d)) (virt env) (callMacro env d)
  | d => {
      evalString := fun n e hp he s' s hs => xExpr_sim U hp he hs
      processLet := fun n l r hp hk h s' s hs => xLet_sim U hp hk h hs
      processModifyCase := fun n l r hp hk h s' s hs => xModifyCase_sim U hp hk h hs
      processAppend := fun n es hp hk h s' s hs => xAppend_sim U hp hk h hs
      processOut := fun n es hp hk h s' s hs => xOut_sim U hp hk h hs
      processCallMacro := fun n m args hp hk hm ha s' s hs => call_sim U M d hp hk hm ha hs
      tolower := rfl
      stoi := rfl
      list := rfl }
theorem call_sim (U : Unique D) {mac : Text → Option XNode} (M : Macros D env mac) : ∀ d : Nat, ∀ {n : XNode} {name : Text} {args : List Int},
    Placed D .value n → IK.of n.name = .callMacro → onlyAttr n.attrs t!"n" = some name → absArgs n.kids = some args →
    ∀ {x : XSt} {s : PSt}, SimR D x s → Rel (SimR D) (xCall env mac d n x) (callMacro env d name args s)
  | 0, _, _, _, _, _, _, _, _, _, _ => trivial
  | d + 1, n, name, args, hp, hk, hn, ha, x, s, hs => by
    have V := virt_sim U M d
    have hself : (n, Role.value) ∈ D := by
      cases n with
      | text t => exact absurd hk (show IK.of [] ≠ _ by decide)
      | elem i n as ks => exact hp.self
    obtain ⟨m, np, hmac, hpm, hmn, hnp, hnpar, hbody⟩ := M n name hself hk hn
    obtain ⟨s0, c⟩ := x
    obtain ⟨h0, hg⟩ := hs
    simp only at h0 hg
    subst h0
    obtain ⟨ps, rfl, hps⟩ := absArgs_elems ha
    simp only [xCall, callMacro, firstAttr_only hn, Outcome.bind, hmac, hnp, hnpar]
    by_cases h0 : np ≤ 0
    · have : np.toNat = 0 := by omega
      rw [if_pos h0, if_pos this]
      trivial
    · have h0' : ¬ np.toNat = 0 := by omega
      rw [if_neg h0, if_neg h0']
      cases hw : s0.word with
      | nil => simp only; split <;> trivial
      | cons w0 rest =>
        simp only
        rw [xArgs_eq (w0 :: rest) np.toNat (elems n.kids) ps hps]
        by_cases hl : ps.length > np.toNat
        · rw [if_pos hl, if_pos (show (ps.map atoi).length > np.toNat by simpa using hl)]
          trivial
        · rw [if_neg hl, if_neg (show ¬ (ps.map atoi).length > np.toNat by simpa using hl)]
          cases hma : macroArgs (w0 :: rest) (ps.map atoi) with
          | ok r =>
            obtain ⟨os, good⟩ := r
            have hlen := macroArgs_length _ hma
            simp only
            by_cases hg' : good = true
            · rw [if_pos hg', if_pos hg', hlen]
              have hkids : PlacedAll D .value m.kids := by
                cases m with
                | text t => intro p hp; simp [XNode.kids, nodesAll] at hp
                | elem i n as ks =>
                  have hmn : IK.of n = .other := hmn
                  exact hpm.kids_value (by simp [hmn])
              refine (xMacro_sim V hbody hkids (SimR.mk' hg _)).map ?_
              rintro ⟨s1', c1⟩ s1 ⟨h1, hg1⟩
              simp only at h1 hg1
              subst h1
              exact ⟨rfl, hg1⟩
            · rw [if_neg hg', if_neg hg']; exact ⟨rfl, hg⟩
          | _ => trivial
end

/-! ## The claim -/

/-- C89, postchunk: an expression.  Whatever the cache holds that the program may have put there, evaluating the element gives what the expression gives that the element
denotes, with the same effects; and the cache is again one that the program may have left. -/
theorem C89_post_expr (U : Unique D) {n : XNode} {e : Expr} (hp : Placed D .value n) (h : absExpr n = some e) {c : Cache} (hc : Good D c) (s : PSt) :
    Rel (fun x y => x.1 = y.1 ∧ x.2.1 = y.2 ∧ Good D x.2.2) (xExpr env n (s, c)) (evalExpr env e s) := by
  have := xExpr_sim (env := env) U hp h (SimR.mk' hc s)
  cases hx : xExpr env n (s, c) <;> cases hy : evalExpr env e s <;> rw [hx, hy] at this <;> exact this

/-- C89, postchunk: a rule: its `<action>` and the macros it calls. -/
theorem C89_post_rule (U : Unique D) {mac : Text → Option XNode} (M : Macros D env mac) (d : Nat) {n : XNode} {is : List Instr} (hp : Placed D .value n)
    (hn : IK.of n.name = .other) (h : absInstrs n.kids = some is) {c : Cache} (hc : Good D c) (s : PSt) :
    Rel (fun x y => x.1 = y.1 ∧ x.2.1 = y.2 ∧ Good D x.2.2) (xRule env mac d n (s, c)) (processRule env d is s) := by
  have V := virt_sim (env := env) U M d
  have hkids : PlacedAll D .value n.kids := by
    cases n with
    | text t => intro p hp; simp [XNode.kids, nodesAll] at hp
    | elem i n as ks =>
      have hn : IK.of n = .other := hn
      exact hp.kids_value (by simp [hn])
  simp only [xRule, processRule]
  have := xBlock_sim V (w := -1) h hkids (SimR.mk' hc s)
  refine this.map ?_
  rintro ⟨w, s1', c1⟩ ⟨w2, s1⟩ ⟨hw, h1, hg1⟩
  simp only at hw h1 hg1
  subst hw h1
  exact ⟨rfl, rfl, hg1⟩

/-- A history: the rules that the program ran one after the other, each on the state that something else (reading words, writing blanks) made of what the one before left. -/
inductive History (env : TEnv) (mac : Text → Option XNode) (d : Nat) (D : List (XNode × Role)) : Cache → Prop
  | start : History env mac d D fun _ => none
  | rule {c : Cache} {n : XNode} {is : List Instr} {s : PSt} {w : Int} {x : XSt} : History env mac d D c → Placed D .value n → IK.of n.name = .other →
      absInstrs n.kids = some is → xRule env mac d n (s, c) = .ok (w, x) → History env mac d D x.2

/-- C89, postchunk: the cache after any history is harmless: a rule does what it would do with an empty cache. -/
theorem C89_post_history (U : Unique D) {mac : Text → Option XNode} (M : Macros D env mac) (d : Nat) {n : XNode} {is : List Instr} (hp : Placed D .value n)
    (hn : IK.of n.name = .other) (h : absInstrs n.kids = some is) {c : Cache} (H : History env mac d D c) (s : PSt) :
    (xRule env mac d n (s, c)).map (fun x => (x.1, x.2.1)) = processRule env d is s ∧
    (xRule env mac d n (s, c)).map (fun x => (x.1, x.2.1)) = (xRule env mac d n (s, fun _ => none)).map fun x => (x.1, x.2.1) := by
  have hc : Good D c := by
    induction H with
    | start => exact C.Good.empty 0 true D
    | @rule c0 n0 is0 s0 w0 x0 _ hp' hn' h' hx ih =>
      have := C89_post_rule (env := env) U M d hp' hn' h' ih s0
      rw [hx] at this
      revert this
      cases processRule env d is0 s0 <;> intro this
      · exact this.2.2
      all_goals exact this.elim
  have key : ∀ c, Good D c → (xRule env mac d n (s, c)).map (fun x => (x.1, x.2.1)) = processRule env d is s := by
    intro c hc
    have := C89_post_rule (env := env) U M d hp hn h hc s
    revert this
    cases xRule env mac d n (s, c) <;> cases processRule env d is s <;> intro this <;> first | exact this.elim | rfl | skip
    rename_i a b
    simp only [Outcome.map]
    rw [this.1, this.2.1]
  exact ⟨key c hc, (key c hc).trans (key _ (C.Good.empty 0 true D)).symm⟩

end Verif.Dom.P
