import Verif.Dom.TransferSim
/-! # Instructions, macros and rules with the cache (apertium-transfer) -/
namespace Verif.Dom.T
open Verif.Transfer

variable {D : List (XNode × Role)} {env : TEnv}

theorem xOutLoop_sim (U : Unique D) : ∀ {ks : List XNode} {es : List Expr}, PlacedAll D .value ks → absExprs ks = some es → ∀ {x : XSt} {s : TSt}, SimR D x s →
    Rel (SimR D) (xOutLoop env ks x) (outLoop env es s)
  | [], es, _, h, x, s, hs => by
    simp only [absExprs] at h; cases h
    simp only [xOutLoop, outLoop]; exact hs
  | k :: ks, es, hp, h, x, s, hs => by
    simp only [absExprs] at h
    simp only [xOutLoop]
    by_cases hk : k.isText = true
    · rw [if_pos hk] at h ⊢; exact xOutLoop_sim U hp.rest h hs
    · rw [if_neg hk] at h ⊢
      obtain ⟨e, he, h⟩ := Option.bind_eq_some_iff.1 h
      obtain ⟨es', hes, rfl⟩ := Option.map_eq_some_iff.1 h
      simp only [outLoop]
      refine (xExpr_sim U hp.head he hs).bind ?_
      rintro ⟨t, s1', c1⟩ ⟨t2, s1⟩ ⟨ht, h1, hg1⟩
      simp only at ht h1 hg1
      subst ht h1
      exact xOutLoop_sim U hp.rest hes ⟨rfl, hg1⟩

theorem xOut_sim (U : Unique D) {n : XNode} {es : List Expr} (hp : Placed D .value n) (hk : IK.of n.name = .out) (h : absExprs n.kids = some es)
    {x : XSt} {s : TSt} (hs : SimR D x s) : Rel (SimR D) (xOut env n x) (processOut env es s) := by
  cases n with
  | text t => exact absurd hk (show IK.of [] ≠ _ by decide)
  | elem i n as ks =>
    obtain ⟨s0, c⟩ := x
    obtain ⟨h0, hg⟩ := hs
    simp only at h0 hg
    subst h0
    have hk : IK.of n = .out := hk
    simp only [xOut, processOut]
    refine (xOutLoop_sim U (hp.kids_value (by simp [hk])) h (SimR.mk' hg _)).map ?_
    rintro ⟨s1', c1⟩ s1 ⟨h1, hg1⟩
    simp only at h1 hg1
    subst h1
    exact ⟨rfl, hg1⟩

theorem xAppendLoop_sim (U : Unique D) (n : Text) : ∀ {ks : List XNode} {es : List Expr}, PlacedAll D .value ks → absExprs ks = some es → ∀ {x : XSt} {s : TSt}, SimR D x s →
    Rel (SimR D) (xAppendLoop env n ks x) (processAppend env n es s)
  | [], es, _, h, x, s, hs => by
    simp only [absExprs] at h; cases h
    simp only [xAppendLoop, processAppend]; exact hs
  | k :: ks, es, hp, h, x, s, hs => by
    simp only [absExprs] at h
    simp only [xAppendLoop]
    by_cases hk : k.isText = true
    · rw [if_pos hk] at h ⊢; exact xAppendLoop_sim U n hp.rest h hs
    · rw [if_neg hk] at h ⊢
      obtain ⟨e, he, h⟩ := Option.bind_eq_some_iff.1 h
      obtain ⟨es', hes, rfl⟩ := Option.map_eq_some_iff.1 h
      obtain ⟨s0, c⟩ := x
      obtain ⟨h0, hg⟩ := hs
      simp only at h0 hg
      subst h0
      simp only [processAppend]
      refine (xExpr_sim U hp.head he (SimR.mk' hg _)).bind ?_
      rintro ⟨t, s1', c1⟩ ⟨t2, s1⟩ ⟨ht, h1, hg1⟩
      simp only at ht h1 hg1
      subst ht h1
      exact xAppendLoop_sim U n hp.rest hes ⟨rfl, hg1⟩

theorem xAppend_sim (U : Unique D) {n : XNode} {es : List Expr} (hp : Placed D .value n) (hk : IK.of n.name = .append) (h : absExprs n.kids = some es)
    {x : XSt} {s : TSt} (hs : SimR D x s) : Rel (SimR D) (xAppend env n x) (processAppend env (getattr n.attrs t!"n") es s) := by
  cases n with
  | text t => exact absurd hk (show IK.of [] ≠ _ by decide)
  | elem i n as ks =>
    have hk : IK.of n = .append := hk
    exact xAppendLoop_sim U _ (hp.kids_value (by simp [hk])) h hs

/-- Assigning a variable. -/
theorem letVar_sim (U : Unique D) {v : Text} {k : XNode} {e : Expr} (hp : Placed D .value k) (he : absExpr k = some e) {x : XSt} {s : TSt} (hs : SimR D x s) :
    Rel (SimR D) (letVar env v k x) (processLet env (.simple (.var v)) e s) := by
  obtain ⟨s0, c⟩ := x
  obtain ⟨h0, hg⟩ := hs
  simp only at h0 hg
  subst h0
  simp only [letVar, processLet]
  refine (xExpr_sim U hp he (SimR.mk' hg _)).map ?_
  rintro ⟨t, s1', c1⟩ ⟨t2, s1⟩ ⟨ht, h1, hg1⟩
  simp only at ht h1 hg1
  subst ht h1
  exact ⟨rfl, hg1⟩

/-- Assigning a part of a word. -/
theorem letWord_sim (U : Unique D) {i : Nat} {o : Option Text} {part : Text} {q : Bool} {k : XNode} {e : Expr} (hp : Placed D .value k)
    (he : absExpr k = some e) {x : XSt} {s : TSt} (hs : SimR D x s) :
    Rel (SimR D) (letWord env i (letSide o) part q k x)
      ((evalExpr env e s).bind fun (t, s') =>
        match s'.heap[i]? with
        | none => .ub
        | some w => (w.write (absSide o) (env.attr part) q t).map fun w' => { s' with heap := s'.heap.set i w' }) := by
  simp only [letWord]
  refine (xExpr_sim U hp he hs).bind ?_
  rintro ⟨t, s1', c1⟩ ⟨t2, s1⟩ ⟨ht, h1, hg1⟩
  simp only at ht h1 hg1
  subst ht h1
  simp only
  cases s1'.heap[i]? with
  | none => trivial
  | some w =>
    simp only [write_side]
    cases w.write (absSide o) (env.attr part) q t with
    | ok w' => exact ⟨rfl, hg1⟩
    | _ => trivial

/-- The two sides of `<let>` and `<modify-case>` among the children. -/
theorem sides_some {ks : List XNode} {l r : Expr} (h : absSides ks = some (l, r)) :
    ∃ a b rest, elems ks = a :: b :: rest ∧ absLeft a = some l ∧ absExpr b = some r := by
  simp only [absSides] at h
  obtain ⟨⟨a, b⟩, h2, h⟩ := Option.bind_eq_some_iff.1 h
  obtain ⟨l', hl, h⟩ := Option.bind_eq_some_iff.1 h
  obtain ⟨r', hr, h⟩ := Option.map_eq_some_iff.1 h
  cases h
  obtain ⟨rest, he⟩ := two_some h2
  exact ⟨a, b, rest, he, hl, hr⟩

/-- A left side is a variable or a clip. -/
theorem left_cases {a : XNode} {l : Expr} (h : absLeft a = some l) :
    (EK.of a.name = .var ∧ ∃ v, firstAttr a.attrs = .ok v ∧ l = .simple (.var v)) ∨
    (EK.of a.name = .clip ∧ ∃ m p, attrLoop clipKeys a.attrs (fun _ => none) = .ok m ∧ m t!"pos" = some p ∧
      l = .simple (.clip (atoi p) (absSide (m t!"side")) ((m t!"part").getD []) (queueOf (m t!"queue")) ((m t!"link-to").getD []))) := by
  cases a with
  | text t => simp [absLeft] at h
  | elem i n as ks =>
    simp only [absLeft] at h
    cases hk : EK.of n <;> simp only [hk] at h <;> try (cases h; done)
    · right
      obtain ⟨sm, hsm, rfl⟩ := Option.map_eq_some_iff.1 h
      obtain ⟨m, p, hm, hp, rfl⟩ := clip_fields hsm
      exact ⟨hk, m, p, hm, hp, rfl⟩
    · left
      obtain ⟨v, hv, rfl⟩ := Option.map_eq_some_iff.1 h
      exact ⟨hk, v, firstAttr_only hv, rfl⟩

theorem xLet_sim (U : Unique D) {n : XNode} {l r : Expr} (hp : Placed D .value n) (hk : IK.of n.name = .let) (h : absSides n.kids = some (l, r))
    {x : XSt} {s : TSt} (hs : SimR D x s) : Rel (SimR D) (xLet env n x) (processLet env l r s) := by
  cases n with
  | text t => exact absurd hk (show IK.of [] ≠ _ by decide)
  | elem i nm as ks =>
    have hk : IK.of nm = .let := hk
    obtain ⟨a, b, rest, he, hl, hr⟩ := sides_some h
    have hkids : PlacedAll D .target ks := by simpa [hk] using hp.kids
    have hpa := placed_first hkids he
    have hpb := placed_second hkids he
    have hself : (a, Role.target) ∈ D := by
      cases a with
      | text t => simp [absLeft] at hl
      | elem i n as ks => exact hpa.self
    have hx0 : x.1 = s := hs.1
    have hg := hs.2
    have he' : elems (XNode.elem i nm as ks).kids = a :: b :: rest := he
    simp only [xLet, he']
    rcases left_cases hl with ⟨hn, v, hv, rfl⟩ | ⟨hn, m, p, hm, hpos, rfl⟩
    · cases hc : x.2 a.id with
      | some e =>
        rcases hg.get_target U hself hc with ⟨_, v', hv', rfl⟩ | ⟨hn', _⟩
        · rw [hv] at hv'
          cases hv'
          exact letVar_sim U hpb hr hs
        · rw [hn] at hn'; cases hn'
      | none =>
        simp only [hn, hv, Outcome.bind]
        have := letVar_sim (env := env) (v := v) U hpb hr hs
        cases hx : letVar env v b x <;> cases hy : processLet env (.simple (.var v)) r s <;> rw [hx, hy] at this <;> try (exact this)
        exact ⟨this.1, this.2.put_target hself (Or.inl ⟨hn, v, hv, rfl⟩)⟩
    · cases hc : x.2 a.id with
      | some e =>
        rcases hg.get_target U hself hc with ⟨hn', _⟩ | ⟨_, m', hm', hge, rfl⟩
        · rw [hn] at hn'; cases hn'
        · rw [hm] at hm'
          cases hm'
          simp only [posOf, hpos] at hge ⊢
          simp only [processLet]
          subst hx0
          by_cases h1 : atoi p - 1 ≥ (x.1.word.length : Int)
          · have : x.1.wordAt (atoi p - 1) = none := by simp only [TSt.wordAt, if_pos h1]
            simp only [this, if_pos h1]; exact hs
          · rw [if_neg h1, if_neg (by omega)]
            cases hw : x.1.wordAt (atoi p - 1) with
            | none => exact hs
            | some iw => exact letWord_sim U hpb hr hs
      | none =>
        simp only [hn, hm, Outcome.bind, posOf, hpos]
        simp only [processLet]
        subst hx0
        by_cases h1 : atoi p - 1 ≥ (x.1.word.length : Int)
        · rw [if_pos h1, if_pos h1]; exact hs
        · rw [if_neg h1, if_neg h1]
          by_cases h2 : atoi p - 1 < 0
          · rw [if_pos h2, if_pos h2]; trivial
          · rw [if_neg h2, if_neg h2]
            cases hw : x.1.wordAt (atoi p - 1) with
            | none => exact hs
            | some iw =>
              obtain ⟨j, w⟩ := iw
              have := letWord_sim (env := env) (i := j) (o := m t!"side") (part := (m t!"part").getD []) (q := queueOf (m t!"queue")) U hpb hr hs
              simp only
              revert this
              generalize letWord env j (letSide (m t!"side")) ((m t!"part").getD []) (queueOf (m t!"queue")) b x = o1
              intro this
              refine this.map_left ?_
              intro x1 s1 hx1
              refine ⟨hx1.1, hx1.2.put_target hself (Or.inr ⟨hn, m, hm, ?_, ?_⟩)⟩
              · simp only [posOf, hpos]; omega
              · simp only [posOf, hpos]

theorem xModifyCase_sim (U : Unique D) {n : XNode} {l r : Expr} (hp : Placed D .value n) (hk : IK.of n.name = .modifyCase)
    (h : absSides n.kids = some (l, r)) {x : XSt} {s : TSt} (hs : SimR D x s) : Rel (SimR D) (xModifyCase env n x) (processModifyCase env l r s) := by
  cases n with
  | text t => exact absurd hk (show IK.of [] ≠ _ by decide)
  | elem i nm as ks =>
    have hk : IK.of nm = .modifyCase := hk
    obtain ⟨a, b, rest, he, hl, hr⟩ := sides_some h
    have hpb := placed_second (hp.kids_value (by simp [hk])) he
    have hx0 : x.1 = s := hs.1
    have he' : elems (XNode.elem i nm as ks).kids = a :: b :: rest := he
    simp only [xModifyCase, processModifyCase, he']
    by_cases hd : env.dictCase = true
    · rw [if_pos hd, if_pos hd]; exact hs
    · rw [if_neg hd, if_neg hd]
      rcases left_cases hl with ⟨hn, v, hv, rfl⟩ | ⟨hn, m, p, hm, hpos, rfl⟩
      · simp only [hn, hv, Outcome.bind]
        refine (xExpr_sim U hpb hr hs).map ?_
        rintro ⟨t, s1', c1⟩ ⟨t2, s1⟩ ⟨ht, h1, hg1⟩
        simp only at ht h1 hg1
        subst ht h1
        exact ⟨rfl, hg1⟩
      · simp only [hn, hm, Outcome.bind, posOf, hpos]
        subst hx0
        cases x.1.wordAt (atoi p - 1) with
        | none => trivial
        | some iw =>
          obtain ⟨j, w0⟩ := iw
          simp only
          refine (xExpr_sim U hpb hr hs).bind ?_
          rintro ⟨t, s1', c1⟩ ⟨t2, s1⟩ ⟨ht, h1, hg1⟩
          simp only at ht h1 hg1
          subst ht h1
          simp only
          cases s1'.heap[j]? with
          | none => trivial
          | some w =>
            simp only [read_side]
            simp only [modify_side (m t!"side")]
            cases w.write (if absSide (m t!"side") = .other then .tl else absSide (m t!"side")) (env.attr ((m t!"part").getD [])) true
                (env.copycase t (w.read (absSide (m t!"side")) (env.attr ((m t!"part").getD [])) (queueOf (m t!"queue")))) with
            | ok w' => exact ⟨rfl, hg1⟩
            | _ => trivial

end Verif.Dom.T
