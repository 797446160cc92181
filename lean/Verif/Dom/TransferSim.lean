import Verif.Dom.Attrs
import Verif.Dom.Transfer
/-! # The interpreter with the cache does what the interpreter on abstract rules does (apertium-transfer) -/
namespace Verif.Dom.T
open Verif.Transfer

/-- What `processLet` puts in the cache for its left side. -/
def LeftEntry (n : XNode) (e : Entry) : Prop :=
  (EK.of n.name = .var ∧ ∃ v, firstAttr n.attrs = .ok v ∧ e = { ty := .var, content := v, pos := 0 }) ∨
  (EK.of n.name = .clip ∧ ∃ m, attrLoop clipKeys n.attrs (fun _ => none) = .ok m ∧ 0 ≤ posOf (m t!"pos") ∧
    e = { ty := .clip (letSide (m t!"side")), content := (m t!"part").getD [], pos := posOf (m t!"pos"), cond := queueOf (m t!"queue") })

/-- Every entry of the cache is what its element says, read in the role it has. -/
def Good (D : List (XNode × Role)) (c : Cache) : Prop :=
  ∀ i e, c i = some e → ∃ n, n.id = i ∧
    (((n, Role.value) ∈ D ∧ decode (EK.of n.name) n.attrs n.kids = some (.ok e)) ∨ ((n, Role.target) ∈ D ∧ LeftEntry n e))

/-- The empty cache, with which the program starts. -/
theorem Good.empty (D : List (XNode × Role)) : Good D fun _ => none := by
  intro i e h; cases h

variable {D : List (XNode × Role)}

theorem Good.put_value {c : Cache} (h : Good D c) {n : XNode} {e : Entry} (hn : (n, Role.value) ∈ D)
    (hd : decode (EK.of n.name) n.attrs n.kids = some (.ok e)) : Good D (c.put n.id e) := by
  intro i e' he
  simp only [Cache.put] at he
  split at he
  · rename_i hi
    cases he
    exact ⟨n, hi.symm, Or.inl ⟨hn, hd⟩⟩
  · exact h i e' he

theorem Good.put_target {c : Cache} (h : Good D c) {n : XNode} {e : Entry} (hn : (n, Role.target) ∈ D)
    (hd : LeftEntry n e) : Good D (c.put n.id e) := by
  intro i e' he
  simp only [Cache.put] at he
  split at he
  · rename_i hi
    cases he
    exact ⟨n, hi.symm, Or.inr ⟨hn, hd⟩⟩
  · exact h i e' he

/-- What the cache holds for an element that is evaluated. -/
theorem Good.get_value (U : Unique D) {c : Cache} (h : Good D c) {n : XNode} {e : Entry} (hn : (n, Role.value) ∈ D) (he : c n.id = some e) :
    decode (EK.of n.name) n.attrs n.kids = some (.ok e) := by
  obtain ⟨n', hi, h1 | h1⟩ := h _ _ he
  · have := U.eq h1.1 hn hi
    cases this; exact h1.2
  · have := U.eq h1.1 hn hi
    cases this

theorem Good.get_target (U : Unique D) {c : Cache} (h : Good D c) {n : XNode} {e : Entry} (hn : (n, Role.target) ∈ D) (he : c n.id = some e) :
    LeftEntry n e := by
  obtain ⟨n', hi, h1 | h1⟩ := h _ _ he
  · have := U.eq h1.1 hn hi
    cases this
  · have := U.eq h1.1 hn hi
    cases this; exact h1.2

/-- The object is the same, and the cache is good. -/
def SimR (D : List (XNode × Role)) (x : XSt) (s : TSt) : Prop := x.1 = s ∧ Good D x.2

theorem SimR.mk' {c : Cache} (h : Good D c) (s : TSt) : SimR D (s, c) s := ⟨rfl, h⟩

/-! ## Sides -/

theorem readSide_cases (o : Option Text) : absSide o = readSide o ∨ (absSide o = .other ∧ readSide o = .tl) := by
  cases o with
  | none => right; exact ⟨rfl, by decide⟩
  | some t =>
    simp only [absSide, readSide, Option.some.injEq]
    by_cases h1 : t = t!"sl"
    · left; simp [h1]
    by_cases h2 : t = t!"tl"
    · left; subst h2; decide
    by_cases h3 : t = t!"ref"
    · left; subst h3; decide
    right; exact ⟨by simp [h1, h2, h3], by simp [h1, h3]⟩

theorem read_side (o : Option Text) (w : TWord) (re : Re) (q : Bool) : w.read (readSide o) re q = w.read (absSide o) re q := by
  rcases readSide_cases o with h | ⟨h1, h2⟩
  · rw [h]
  · rw [h1, h2]; rfl

theorem read_ref (o : Option Text) : readSide o = .ref ↔ absSide o = .ref := by
  rcases readSide_cases o with h | ⟨h1, h2⟩
  · rw [h]
  · rw [h1, h2]; decide

theorem letSide_cases (o : Option Text) : absSide o = letSide o ∨ (absSide o = .other ∧ letSide o = .sl) := by
  cases o with
  | none => right; exact ⟨rfl, by decide⟩
  | some t =>
    simp only [absSide, letSide, Option.some.injEq]
    by_cases h1 : t = t!"sl"
    · left; subst h1; decide
    by_cases h2 : t = t!"tl"
    · left; subst h2; decide
    by_cases h3 : t = t!"ref"
    · left; subst h3; decide
    right; exact ⟨by simp [h1, h2, h3], by simp [h2, h3]⟩

theorem write_side (o : Option Text) (w : TWord) (re : Re) (q : Bool) (v : Text) : w.write (letSide o) re q v = w.write (absSide o) re q v := by
  rcases letSide_cases o with h | ⟨h1, h2⟩
  · rw [h]
  · rw [h1, h2]; rfl

theorem modify_side (o : Option Text) : readSide o = if absSide o = .other then .tl else absSide o := by
  rcases readSide_cases o with h | ⟨h1, h2⟩
  · rw [h]
    have : readSide o ≠ .other := by simp only [readSide]; split <;> (try split) <;> simp
    rw [if_neg this]
  · rw [h1, h2]; rfl

/-- What the specification and the loop find in a `<clip>`. -/
theorem clip_fields {as : List (Text × Text)} {sm : Simple} (h : absClip as = some sm) :
    ∃ m p, attrLoop clipKeys as (fun _ => none) = .ok m ∧ m t!"pos" = some p ∧
      sm = .clip (atoi p) (absSide (m t!"side")) ((m t!"part").getD []) (decide (m t!"queue" ≠ some t!"no")) ((m t!"link-to").getD []) := by
  simp only [absClip] at h
  split at h
  · rename_i hf
    obtain ⟨m, hm, hl⟩ := attrLoop_distinct clipKeys hf
    split at h
    · rename_i p q hp hq
      cases h
      refine ⟨m, p, hm, by rw [hl _ (by decide), hp], ?_⟩
      rw [hl t!"side" (by decide), hl t!"part" (by decide), hl t!"queue" (by decide), hl t!"link-to" (by decide), hq]
      rfl
    · cases h
  · cases h

/-! ## Leaves -/

variable {env : TEnv}

/-- An entry for `<clip>`, `<lit>` or `<var>` means what the element means. -/
theorem entry_simple {i : Nat} {n : Text} {as : List (Text × Text)} {ks : List XNode} {sm : Simple} (h : absSimple (.elem i n as ks) = some sm) :
    ∃ en, decode (EK.of n) as ks = some (.ok en) ∧ ∀ leaf (x : XSt) (s : TSt), SimR D x s →
      Rel (PR (SimR D)) (evalEntry env leaf en x) (evalSimple env sm s) := by
  simp only [absSimple] at h
  cases hk : EK.of n <;> simp only [hk] at h <;> try (cases h; done)
  case clip =>
    obtain ⟨m, p, hm, hp, rfl⟩ := clip_fields h
    refine ⟨_, by simp only [decode, clipEntry, hm, Outcome.map]; rfl, ?_⟩
    rintro leaf ⟨s0, c⟩ s ⟨h0, hg⟩
    simp only at h0 hg
    subst h0
    simp only [evalSimple, posOf, hp, queueOf]
    by_cases hto : (m t!"link-to").getD [] ≠ []
    · simp only [evalEntry, if_pos hto]
      cases hw : s0.wordAt (atoi p - 1) with
      | none => exact ⟨rfl, rfl, hg⟩
      | some iw =>
        obtain ⟨j, w⟩ := iw
        simp only [read_side]
        exact ⟨rfl, rfl, hg⟩
    · simp only [evalEntry, if_neg hto]
      cases hw : s0.wordAt (atoi p - 1) with
      | none => exact ⟨rfl, rfl, hg⟩
      | some iw =>
        obtain ⟨j, w⟩ := iw
        simp only [read_side, read_ref]
        by_cases hr : absSide (m t!"side") = .ref
        · simp only [if_pos hr]; exact ⟨rfl, rfl, hg⟩
        · simp only [if_neg hr]
          cases addWblank env ((m t!"part").getD []) w.wb s0 with
          | ok s' => exact ⟨rfl, rfl, hg⟩
          | _ => trivial
  case lit =>
    cases h
    refine ⟨_, rfl, ?_⟩
    rintro leaf ⟨s0, c⟩ s ⟨h0, hg⟩
    simp only at h0 hg
    subst h0
    exact ⟨rfl, rfl, hg⟩
  case var =>
    cases h
    refine ⟨_, rfl, ?_⟩
    rintro leaf ⟨s0, c⟩ s ⟨h0, hg⟩
    simp only at h0 hg
    subst h0
    simp only [evalEntry, evalSimple]
    split
    · cases combineWblanks s0.outWb (s0.varWb (getattr as t!"n")) with
      | ok s' => exact ⟨rfl, rfl, hg⟩
      | _ => trivial
    · exact ⟨rfl, rfl, hg⟩

/-- The element inside a `<get-case-from>`. -/
theorem xLeaf_sim (U : Unique D) {k : XNode} {sm : Simple} (hp : Placed D .value k) (h : absSimple k = some sm) {x : XSt} {s : TSt} (hs : SimR D x s) :
    Rel (PR (SimR D)) (xLeaf env k x) (evalSimple env sm s) := by
  cases k with
  | text t => simp [absSimple] at h
  | elem i n as ks =>
    obtain ⟨en, hd, he⟩ := entry_simple (D := D) (env := env) h
    have hg := hs.2
    have h0 := hs.1
    simp only [xLeaf, XNode.name, XNode.attrs, XNode.kids, XNode.id]
    cases hc : x.2 i with
    | some e' =>
      have := hg.get_value U hp.self hc
      simp only [XNode.name, XNode.attrs, XNode.kids, hd, Option.some.injEq, Outcome.ok.injEq] at this
      subst this
      exact he _ x s hs
    | none =>
      simp only [hd, Outcome.bind]
      exact he _ _ s ⟨h0, hg.put_value hp.self hd⟩

/-- An entry of any kind means what the element means. -/
theorem entry_expr (U : Unique D) {i : Nat} {n : Text} {as : List (Text × Text)} {ks : List XNode} {e : Expr} {d : Outcome Entry}
    (hp : Placed D .value (.elem i n as ks)) (hd : decode (EK.of n) as ks = some d) (h : absExpr (.elem i n as ks) = some e) :
    ∃ en, d = .ok en ∧ ∀ (x : XSt) (s : TSt), SimR D x s → Rel (PR (SimR D)) (evalEntry env (xLeaf env) en x) (evalExpr env e s) := by
  simp only [absExpr] at h
  have simple : ∀ sm, absSimple (.elem i n as ks) = some sm → e = .simple sm →
      ∃ en, d = .ok en ∧ ∀ (x : XSt) (s : TSt), SimR D x s → Rel (PR (SimR D)) (evalEntry env (xLeaf env) en x) (evalExpr env e s) := by
    rintro sm hsm rfl
    obtain ⟨en, hd', he⟩ := entry_simple (D := D) (env := env) hsm
    rw [hd] at hd'
    simp only [Option.some.injEq] at hd'
    exact ⟨en, hd', fun x s hs => by simp only [evalExpr]; exact he _ x s hs⟩
  cases hk : EK.of n <;> rw [hk] at hd <;> simp only [decode] at hd <;> simp only [hk] at h <;> try (cases hd; done)
  case clip =>
    obtain ⟨sm, hsm, rfl⟩ := Option.map_eq_some_iff.1 h
    exact simple sm (by simp only [absSimple, hk]; exact hsm) rfl
  case lit => cases h; exact simple _ (by simp only [absSimple, hk]) rfl
  case var => cases h; exact simple _ (by simp only [absSimple, hk]) rfl
  case litTag =>
    cases h; cases hd
    refine ⟨_, rfl, ?_⟩
    rintro ⟨s0, c⟩ s ⟨h0, hg⟩
    simp only at h0 hg
    subst h0
    simp only [evalEntry, evalExpr]; exact ⟨rfl, rfl, hg⟩
  case b =>
    cases hd
    have : e = .blank := by cases h; rfl
    subst this
    refine ⟨_, rfl, ?_⟩
    rintro ⟨s0, c⟩ s ⟨h0, hg⟩
    simp only at h0 hg
    subst h0
    simp only [evalEntry, evalExpr]
    cases s0.blanks <;> exact ⟨rfl, rfl, hg⟩
  case caseOf =>
    simp only [absCaseOf] at h
    split at h
    · rename_i hf
      obtain ⟨m, hm, hl⟩ := attrLoop_distinct caseKeys hf
      split at h
      · rename_i p q hpos hq
        cases h
        cases hd
        refine ⟨_, by simp only [caseOfEntry, hm, Outcome.map]; rfl, ?_⟩
        rintro ⟨s0, c⟩ s ⟨h0, hg⟩
        simp only at h0 hg
        subst h0
        simp only [evalEntry, evalExpr, hl t!"pos" (by decide), hl t!"side" (by decide), hl t!"part" (by decide), hpos, hq, posOf, Option.getD_some]
        cases s0.wordAt (atoi p - 1) with
        | none => exact ⟨rfl, rfl, hg⟩
        | some iw => simp only [read_side]; exact ⟨rfl, rfl, hg⟩
      · cases h
    · cases h
  case getCaseFrom =>
    split at h
    · rename_i p k rest hpos hel
      obtain ⟨sm, hsm, rfl⟩ := Option.map_eq_some_iff.1 h
      cases hd
      refine ⟨_, by simp only [firstAttr_only hpos, Outcome.map, hel]; rfl, ?_⟩
      rintro ⟨s0, c⟩ s ⟨h0, hg⟩
      simp only at h0 hg
      subst h0
      have hpk := placed_first (hp.kids_value (EK.not_instr (by simp [hk]))) hel
      simp only [evalEntry, evalExpr, List.head?]
      cases s0.wordAt (atoi p - 1) with
      | none => exact ⟨rfl, rfl, hg⟩
      | some iw =>
        refine (xLeaf_sim U hpk hsm (SimR.mk' hg s0)).map ?_
        rintro ⟨t, x1⟩ ⟨t2, s1⟩ ⟨ht, h1⟩
        simp only at ht h1
        subst ht
        exact ⟨rfl, h1⟩
    · cases h

/-! ## Expressions -/

theorem chunk_fields {as : List (Text × Text)} (h : distinct as = true) :
    ∃ m, attrLoop chunkKeys as (fun _ => none) = .ok m ∧ (m t!"name").getD [] = getattr as t!"name" ∧
      (m t!"namefrom").getD [] = getattr as t!"namefrom" ∧ m t!"case" = look as t!"case" := by
  obtain ⟨m, hm, hl⟩ := attrLoop_distinct chunkKeys h
  exact ⟨m, hm, by rw [hl _ (by decide)]; rfl, by rw [hl _ (by decide)]; rfl, hl _ (by decide)⟩

/-- The same step applied to the object on both sides. -/
theorem lift_sim {α : Type} {c : Cache} (hg : Good D c) (o : Outcome (α × TSt)) :
    Rel (PR (SimR D)) (o.map fun (u, s') => (u, ((s', c) : XSt))) o := by
  cases o with
  | ok p => exact ⟨rfl, rfl, hg⟩
  | _ => trivial

theorem absExpr_not_tags {i : Nat} {n : Text} {as : List (Text × Text)} {ks : List XNode} {e : Expr} (h : absExpr (.elem i n as ks) = some e)
    (hk : EK.of n ≠ .tags) (ts : List (List Expr)) : e ≠ .tags ts := by
  rintro rfl
  simp only [absExpr] at h
  cases hn : EK.of n <;> simp only [hn] at h <;> first | exact hk hn | skip
  all_goals first
    | (obtain ⟨_, _, h⟩ := Option.map_eq_some_iff.1 h; cases h; done)
    | (cases h; done)
    | skip
  case caseOf =>
    simp only [absCaseOf] at h
    split at h
    · split at h <;> cases h
    · cases h
  case getCaseFrom =>
    split at h
    · obtain ⟨_, _, h⟩ := Option.map_eq_some_iff.1 h; cases h
    · cases h
  case chunk =>
    split at h
    · obtain ⟨_, _, h⟩ := Option.map_eq_some_iff.1 h; cases h
    · cases h

mutual
theorem xExpr_sim (U : Unique D) : ∀ {k : XNode} {e : Expr}, Placed D .value k → absExpr k = some e → ∀ {x : XSt} {s : TSt}, SimR D x s →
    Rel (PR (SimR D)) (xExpr env k x) (evalExpr env e s)
  | .text _, e, _, h, _, _, _ => by simp [absExpr] at h
  | .elem i n as ks, e, hp, h, x, s, hs => by
    have hl := fun es hq h1 x s hs => @xList_sim U ks es hq h1 x s hs
    have hm := fun es hq h1 b x s hs => @xMlu_sim U ks es hq h1 b x s hs
    have hch := fun es hq h1 x s hs => @xChunk_sim U ks es hq h1 x s hs
    obtain ⟨s0, c⟩ := x
    obtain ⟨h0, hg⟩ := hs
    simp only at h0 hg
    subst h0
    simp only [xExpr]
    cases hd : decode (EK.of n) as ks with
    | some d =>
      obtain ⟨en, rfl, he⟩ := entry_expr U (env := env) hp hd h
      cases hc : c i with
      | some e' =>
        have := hg.get_value U hp.self hc
        simp only [XNode.name, XNode.attrs, XNode.kids, hd, Option.some.injEq, Outcome.ok.injEq] at this
        subst this
        exact he _ _ ⟨rfl, hg⟩
      | none => exact he _ _ ⟨rfl, hg.put_value hp.self hd⟩
    | none =>
      have hc : c i = none := by
        cases hc : c i with
        | none => rfl
        | some e' =>
          have := hg.get_value U hp.self hc
          simp only [XNode.name, XNode.attrs, XNode.kids, hd] at this
          cases this
      simp only [hc]
      simp only [absExpr] at h
      cases hk : EK.of n <;> rw [hk] at hd <;> simp only [decode] at hd <;> (try (cases hd; done)) <;> simp only [hk] at h ⊢
      case luCount => cases h; simp only [evalExpr]; trivial
      case tags => obtain ⟨ts, _, rfl⟩ := Option.map_eq_some_iff.1 h; simp only [evalExpr]; trivial
      case other => cases h; simp only [evalExpr]; trivial
      case concat =>
        obtain ⟨es, he, rfl⟩ := Option.map_eq_some_iff.1 h
        simp only [evalExpr]
        exact hl es (hp.kids_value (EK.not_instr (by simp [hk]))) he _ _ ⟨rfl, hg⟩
      case lu =>
        obtain ⟨es, he, rfl⟩ := Option.map_eq_some_iff.1 h
        simp only [evalExpr]
        refine (hl es (hp.kids_value (EK.not_instr (by simp [hk]))) he _ _ (SimR.mk' hg _)).bind ?_
        rintro ⟨t, s1', c1⟩ ⟨t2, s1⟩ ⟨ht, h1, hg1⟩
        simp only at ht h1 hg1
        subst ht h1
        exact lift_sim hg1 _
      case mlu =>
        obtain ⟨es, he, rfl⟩ := Option.map_eq_some_iff.1 h
        simp only [evalExpr]
        refine (hm es (hp.kids_value (EK.not_instr (by simp [hk]))) he true _ _ (SimR.mk' hg _)).bind ?_
        rintro ⟨t, s1', c1⟩ ⟨t2, s1⟩ ⟨ht, h1, hg1⟩
        simp only at ht h1 hg1
        subst ht h1
        exact lift_sim hg1 _
      case chunk =>
        split at h
        · rename_i hf
          obtain ⟨es, he, rfl⟩ := Option.map_eq_some_iff.1 h
          obtain ⟨m, hm1, hm2, hm3, hm4⟩ := chunk_fields hf
          simp only [evalExpr, hm1, Outcome.bind, hm2, hm3, hm4]
          cases chunkName env (getattr as t!"name") (getattr as t!"namefrom") ((look as t!"case").getD t!"aa") s0 with
          | ok nm =>
            refine (hch es (hp.kids_value (EK.not_instr (by simp [hk]))) he _ _ (SimR.mk' hg _)).map ?_
            rintro ⟨t, x1⟩ ⟨t2, s1⟩ ⟨ht, h1⟩
            simp only at ht h1
            subst ht
            exact ⟨rfl, h1⟩
          | _ => trivial
        · cases h
theorem xList_sim (U : Unique D) : ∀ {ks : List XNode} {es : List Expr}, PlacedAll D .value ks → absExprs ks = some es → ∀ {x : XSt} {s : TSt}, SimR D x s →
    Rel (PR (SimR D)) (xList env ks x) (evalList env es s)
  | [], es, _, h, x, s, hs => by
    simp only [absExprs] at h; cases h
    simp only [xList, evalList]; exact ⟨rfl, hs⟩
  | k :: ks, es, hp, h, x, s, hs => by
    have h1 := fun e hq h => @xExpr_sim U k e hq h x s hs
    have h2 := fun es h => @xList_sim U ks es hp.rest h
    simp only [absExprs] at h
    simp only [xList]
    by_cases hk : k.isText = true
    · rw [if_pos hk] at h ⊢; exact h2 es h hs
    · rw [if_neg hk] at h ⊢
      obtain ⟨e, he, h⟩ := Option.bind_eq_some_iff.1 h
      obtain ⟨es', hes, rfl⟩ := Option.map_eq_some_iff.1 h
      simp only [evalList]
      refine (h1 e hp.head he).bind ?_
      rintro ⟨t, x1⟩ ⟨t2, s1⟩ ⟨ht, hs1⟩
      simp only at ht hs1
      subst ht
      refine (h2 es' hes hs1).map ?_
      rintro ⟨u, x2⟩ ⟨u2, s2⟩ ⟨hu, hs2⟩
      simp only at hu hs2
      subst hu
      exact ⟨rfl, hs2⟩
theorem xMlu_sim (U : Unique D) : ∀ {ks : List XNode} {es : List (List Expr)}, PlacedAll D .value ks → absLus ks = some es → ∀ {b : Bool} {x : XSt} {s : TSt}, SimR D x s →
    Rel (PR (SimR D)) (xMlu env ks b x) (evalMlu env es b s)
  | [], es, _, h, b, x, s, hs => by
    simp only [absLus] at h; cases h
    simp only [xMlu, evalMlu]; exact ⟨rfl, hs⟩
  | .text t :: ks, es, hp, h, b, x, s, hs => by
    simp only [absLus] at h
    simp only [xMlu]
    exact @xMlu_sim U ks es hp.rest h b x s hs
  | .elem i n as ch :: ks, es, hp, h, b, x, s, hs => by
    have h1 := fun e hq h => @xList_sim U ch e hq h x s hs
    have h2 := fun es h b x s hs => @xMlu_sim U ks es hp.rest h b x s hs
    simp only [absLus] at h
    simp only [xMlu]
    split at h
    case isFalse => cases h
    rename_i hn
    obtain ⟨e, he, h⟩ := Option.bind_eq_some_iff.1 h
    obtain ⟨es', hes, rfl⟩ := Option.map_eq_some_iff.1 h
    simp only [evalMlu]
    refine (h1 e (hp.head.kids_value (by subst hn; decide)) he).bind ?_
    rintro ⟨t, x1⟩ ⟨t2, s1⟩ ⟨ht, hs1⟩
    simp only at ht hs1
    subst ht
    refine (h2 es' hes _ x1 s1 hs1).map ?_
    rintro ⟨u, x2⟩ ⟨u2, s2⟩ ⟨hu, hs2⟩
    simp only at hu hs2
    subst hu
    exact ⟨rfl, hs2⟩
theorem xTags_sim (U : Unique D) : ∀ {ks : List XNode} {es : List (List Expr)}, PlacedAll D .value ks → absTags ks = some es → ∀ {x : XSt} {s : TSt}, SimR D x s →
    Rel (PR (SimR D)) (xTags env ks x) (evalTags env es s)
  | [], es, _, h, x, s, hs => by
    simp only [absTags] at h; cases h
    simp only [xTags, evalTags]; exact ⟨rfl, hs⟩
  | .text t :: ks, es, hp, h, x, s, hs => by
    simp only [absTags] at h
    simp only [xTags]
    exact @xTags_sim U ks es hp.rest h x s hs
  | .elem i n as ch :: ks, es, hp, h, x, s, hs => by
    have h1 := fun e hq h => @xList_sim U ch e hq h x s hs
    have h2 := fun es h x s hs => @xTags_sim U ks es hp.rest h x s hs
    simp only [absTags] at h
    simp only [xTags]
    by_cases hn : n = t!"tag"
    · rw [if_pos hn] at h ⊢
      obtain ⟨e, he, h⟩ := Option.bind_eq_some_iff.1 h
      obtain ⟨es', hes, rfl⟩ := Option.map_eq_some_iff.1 h
      simp only [evalTags]
      refine (h1 e (hp.head.kids_value (by subst hn; decide)) he).bind ?_
      rintro ⟨t, x1⟩ ⟨t2, s1⟩ ⟨ht, hs1⟩
      simp only at ht hs1
      subst ht
      refine (h2 es' hes x1 s1 hs1).map ?_
      rintro ⟨u, x2⟩ ⟨u2, s2⟩ ⟨hu, hs2⟩
      simp only at hu hs2
      subst hu
      exact ⟨rfl, hs2⟩
    · rw [if_neg hn] at h ⊢
      exact h2 es h x s hs
theorem xChunk_sim (U : Unique D) : ∀ {ks : List XNode} {es : List Expr}, PlacedAll D .value ks → absExprs ks = some es → ∀ {x : XSt} {s : TSt}, SimR D x s →
    Rel (PR (SimR D)) (xChunk env ks x) (evalChunk env es s)
  | [], es, _, h, x, s, hs => by
    simp only [absExprs] at h; cases h
    simp only [xChunk, evalChunk]; exact ⟨rfl, hs⟩
  | .text t :: ks, es, hp, h, x, s, hs => by
    simp only [absExprs, XNode.isText, if_true] at h
    simp only [xChunk, XNode.isText, if_true]
    exact @xChunk_sim U ks es hp.rest h x s hs
  | .elem i n as ch :: ks, es, hp, h, x, s, hs => by
    have h1 := fun e hq h => @xExpr_sim U (.elem i n as ch) e hq h x s hs
    have h3 := fun e hq h => @xTags_sim U ch e hq h x s hs
    have h2 := fun es h x s hs => @xChunk_sim U ks es hp.rest h x s hs
    simp only [absExprs, XNode.isText, Bool.false_eq_true, if_false] at h
    simp only [xChunk, XNode.isText, Bool.false_eq_true, if_false]
    obtain ⟨e, he, h⟩ := Option.bind_eq_some_iff.1 h
    obtain ⟨es', hes, rfl⟩ := Option.map_eq_some_iff.1 h
    by_cases hk' : EK.of (XNode.elem i n as ch).name = .tags
    · rw [if_pos hk']
      have hk : EK.of n = .tags := hk'
      simp only [absExpr, hk] at he
      obtain ⟨ts, hts, rfl⟩ := Option.map_eq_some_iff.1 he
      simp only [evalChunk]
      refine (h3 ts (hp.head.kids_value (EK.not_instr (by simp [hk]))) hts).bind ?_
      rintro ⟨t, x1⟩ ⟨t2, s1⟩ ⟨ht, hs1⟩
      simp only at ht hs1
      subst ht
      refine (h2 es' hes x1 s1 hs1).map ?_
      rintro ⟨u, x2⟩ ⟨u2, s2⟩ ⟨hu, hs2⟩
      simp only at hu hs2
      subst hu
      exact ⟨rfl, hs2⟩
    · rw [if_neg hk']
      have hk : EK.of n ≠ .tags := hk'
      have hne : ∀ ts, e ≠ .tags ts := absExpr_not_tags he hk
      have : evalChunk env (e :: es') s = (evalExpr env e s).bind fun (t, s1) => (evalChunk env es' s1).map fun (u, s2) => (t ++ u, s2) := by
        cases e <;> first | exact absurd rfl (hne _) | (simp only [evalChunk]; done)
      rw [this]
      refine (h1 e hp.head he).bind ?_
      rintro ⟨t, x1⟩ ⟨t2, s1⟩ ⟨ht, hs1⟩
      simp only at ht hs1
      subst ht
      refine (h2 es' hes x1 s1 hs1).map ?_
      rintro ⟨u, x2⟩ ⟨u2, s2⟩ ⟨hu, hs2⟩
      simp only at hu hs2
      subst hu
      exact ⟨rfl, hs2⟩
end

end Verif.Dom.T
