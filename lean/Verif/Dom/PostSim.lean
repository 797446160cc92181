import Verif.Dom.Post
/-! # The interpreter with the cache does what the interpreter on abstract rules does (apertium-postchunk) -/
namespace Verif.Dom.P
open Verif.Postchunk Verif.Dom.C
open Verif.Transfer hiding evalExpr evalSimple evalList evalMlu finishLu luText addWblank outLoop processOut processLet processAppend processModifyCase virt macroArgs callMacro processRule

abbrev Good (D : List (XNode × Role)) (c : Cache) : Prop := C.Good 0 true D c

/-- The object is the same, and the cache is good. -/
def SimR (D : List (XNode × Role)) (x : XSt) (s : PSt) : Prop := x.1 = s ∧ Good D x.2

variable {D : List (XNode × Role)}

theorem SimR.mk' {c : Cache} (h : Good D c) (s : PSt) : SimR D (s, c) s := ⟨rfl, h⟩

variable {env : TEnv}

/-- An entry for `<clip>`, `<lit>` or `<var>` means what the element means. -/
theorem entry_simple {i : Nat} {n : Text} {as : List (Text × Text)} {ks : List XNode} {sm : Simple} (h : absSimple (.elem i n as ks) = some sm) :
    ∃ en, dec (EK.of n) as ks = some (.ok en) ∧ ∀ leaf (x : XSt) (s : PSt), SimR D x s →
      Rel (PR (SimR D)) (evalEntry env leaf en x) (evalSimple env sm s) := by
  simp only [absSimple] at h
  cases hk : EK.of n <;> simp only [hk] at h <;> try (cases h; done)
  case clip =>
    obtain ⟨p, q, sd, qu, to, hc, _, rfl⟩ := clip_fields (off := 0) h
    refine ⟨_, by simp only [dec, decode, hc]; rfl, ?_⟩
    rintro leaf ⟨s0, c⟩ s ⟨h0, hg⟩
    simp only at h0 hg
    subst h0
    simp only [evalSimple, evalEntry, Int.sub_zero]
    cases hw : s0.wordAt (atoi p) with
    | ok o =>
      cases o with
      | none => exact ⟨rfl, rfl, hg⟩
      | some iw =>
        simp only [Outcome.bind]
        cases addWblank q iw.2.wb s0 with
        | ok t => exact ⟨rfl, rfl, hg⟩
        | _ => trivial
    | _ => trivial
  case lit =>
    cases h
    refine ⟨_, rfl, ?_⟩
    rintro leaf ⟨s0, c⟩ s ⟨h0, hg⟩
    simp only at h0 hg
    subst h0
    exact ⟨rfl, rfl, hg⟩
  case var =>
    cases h
    refine ⟨_, rfl, ?_⟩
    rintro leaf ⟨s0, c⟩ s ⟨h0, hg⟩
    simp only at h0 hg
    subst h0
    simp only [evalEntry, evalSimple]
    split
    · cases combineWblanks s0.outWb (s0.varWb (getattr as t!"n")) with
      | ok s' => exact ⟨rfl, rfl, hg⟩
      | _ => trivial
    · exact ⟨rfl, rfl, hg⟩

/-- The element inside a `<get-case-from>`. -/
theorem xLeaf_sim (U : Unique D) {k : XNode} {sm : Simple} (hp : Placed D .value k) (h : absSimple k = some sm) {x : XSt} {s : PSt} (hs : SimR D x s) :
    Rel (PR (SimR D)) (xLeaf env k x) (evalSimple env sm s) := by
  cases k with
  | text t => simp [absSimple] at h
  | elem i n as ks =>
    obtain ⟨en, hd, he⟩ := entry_simple (D := D) (env := env) h
    have hg := hs.2
    have h0 := hs.1
    simp only [xLeaf, XNode.name, XNode.attrs, XNode.kids, XNode.id]
    cases hc : x.2 i with
    | some e' =>
      have := hg.get_value U hp.self hc
      simp only [XNode.name, XNode.attrs, XNode.kids, hd, Option.some.injEq, Outcome.ok.injEq] at this
      subst this
      exact he _ x s hs
    | none =>
      simp only [hd, Outcome.bind]
      exact he _ _ s ⟨h0, hg.put_value hp.self hd⟩

/-- An entry of any kind means what the element means. -/
theorem entry_expr (U : Unique D) {i : Nat} {n : Text} {as : List (Text × Text)} {ks : List XNode} {e : Expr} {d : Outcome Entry}
    (hp : Placed D .value (.elem i n as ks)) (hd : dec (EK.of n) as ks = some d) (h : absExpr (.elem i n as ks) = some e) :
    ∃ en, d = .ok en ∧ ∀ (x : XSt) (s : PSt), SimR D x s → Rel (PR (SimR D)) (evalEntry env (xLeaf env) en x) (evalExpr env e s) := by
  simp only [absExpr] at h
  have simple : ∀ sm, absSimple (.elem i n as ks) = some sm → e = .simple sm →
      ∃ en, d = .ok en ∧ ∀ (x : XSt) (s : PSt), SimR D x s → Rel (PR (SimR D)) (evalEntry env (xLeaf env) en x) (evalExpr env e s) := by
    rintro sm hsm rfl
    obtain ⟨en, hd', he⟩ := entry_simple (D := D) (env := env) hsm
    rw [hd] at hd'
    simp only [Option.some.injEq] at hd'
    exact ⟨en, hd', fun x s hs => by simp only [evalExpr]; exact he _ x s hs⟩
  cases hk : EK.of n <;> rw [hk] at hd <;> simp only [dec, decode, if_true] at hd <;> simp only [hk] at h <;> try (cases hd; done)
  case clip =>
    obtain ⟨sm, hsm, rfl⟩ := Option.map_eq_some_iff.1 h
    exact simple sm (by simp only [absSimple, hk]; exact hsm) rfl
  case lit => cases h; exact simple _ (by simp only [absSimple, hk]) rfl
  case var => cases h; exact simple _ (by simp only [absSimple, hk]) rfl
  case litTag =>
    cases h; cases hd
    refine ⟨_, rfl, ?_⟩
    rintro ⟨s0, c⟩ s ⟨h0, hg⟩
    simp only at h0 hg
    subst h0
    simp only [evalEntry, evalExpr]; exact ⟨rfl, rfl, hg⟩
  case b =>
    cases hd
    obtain ⟨rfl, ct, p, hb⟩ := blank_fields h
    refine ⟨_, hb, ?_⟩
    rintro ⟨s0, c⟩ s ⟨h0, hg⟩
    simp only at h0 hg
    subst h0
    simp only [evalEntry, evalExpr]
    cases s0.blanks <;> exact ⟨rfl, rfl, hg⟩
  case luCount =>
    cases h; cases hd
    refine ⟨_, rfl, ?_⟩
    rintro ⟨s0, c⟩ s ⟨h0, hg⟩
    simp only at h0 hg
    subst h0
    simp only [evalEntry, evalExpr]; exact ⟨rfl, rfl, hg⟩
  case caseOf =>
    cases hd
    obtain ⟨p, q, sd, hc, rfl⟩ := case_fields (off := 0) h
    refine ⟨_, hc, ?_⟩
    rintro ⟨s0, c⟩ s ⟨h0, hg⟩
    simp only at h0 hg
    subst h0
    simp only [evalEntry, evalExpr, Int.sub_zero]
    cases s0.wordAt (atoi p) with
    | ok o => cases o <;> exact ⟨rfl, rfl, hg⟩
    | _ => trivial
  case getCaseFrom =>
    split at h
    · rename_i p k rest hpos hel
      obtain ⟨sm, hsm, rfl⟩ := Option.map_eq_some_iff.1 h
      cases hd
      refine ⟨_, by simp only [firstAttr_only hpos, Outcome.map, hel]; rfl, ?_⟩
      rintro ⟨s0, c⟩ s ⟨h0, hg⟩
      simp only at h0 hg
      subst h0
      have hpk := placed_first (hp.kids_value (EK.not_instr (by simp [hk]))) hel
      simp only [evalEntry, evalExpr, List.head?, Int.sub_add_cancel]
      cases s0.wordAt (atoi p) with
      | ok o =>
        cases o with
        | none => exact ⟨rfl, rfl, hg⟩
        | some iw =>
          refine (xLeaf_sim U hpk hsm (SimR.mk' hg s0)).map ?_
          rintro ⟨t, x1⟩ ⟨t2, s1⟩ ⟨ht, h1⟩
          simp only at ht h1
          subst ht
          exact ⟨rfl, h1⟩
      | _ => trivial
    · cases h

/-- The same step applied to the object on both sides. -/
theorem lift_sim {α : Type} {c : Cache} (hg : Good D c) (o : Outcome (α × PSt)) :
    Rel (PR (SimR D)) (o.map fun (u, s') => (u, ((s', c) : XSt))) o := by
  cases o with
  | ok p => exact ⟨rfl, rfl, hg⟩
  | _ => trivial

/-! ## Expressions -/

mutual
theorem xExpr_sim (U : Unique D) : ∀ {k : XNode} {e : Expr}, Placed D .value k → absExpr k = some e → ∀ {x : XSt} {s : PSt}, SimR D x s →
    Rel (PR (SimR D)) (xExpr env k x) (evalExpr env e s)
  | .text _, e, _, h, _, _, _ => by simp [absExpr] at h
  | .elem i n as ks, e, hp, h, x, s, hs => by
    have hl := fun es hq h1 x s hs => @xList_sim U ks es hq h1 x s hs
    have hm := fun es hq h1 b x s hs => @xMlu_sim U ks es hq h1 b x s hs
    obtain ⟨s0, c⟩ := x
    obtain ⟨h0, hg⟩ := hs
    simp only at h0 hg
    subst h0
    simp only [xExpr]
    cases hd : dec (EK.of n) as ks with
    | some d =>
      obtain ⟨en, rfl, he⟩ := entry_expr U (env := env) hp hd h
      cases hc : c i with
      | some e' =>
        have := hg.get_value U hp.self hc
        simp only [XNode.name, XNode.attrs, XNode.kids, hd, Option.some.injEq, Outcome.ok.injEq] at this
        subst this
        exact he _ _ ⟨rfl, hg⟩
      | none => exact he _ _ ⟨rfl, hg.put_value hp.self hd⟩
    | none =>
      have hc : c i = none := by
        cases hc : c i with
        | none => rfl
        | some e' =>
          have := hg.get_value U hp.self hc
          simp only [XNode.name, XNode.attrs, XNode.kids, hd] at this
          cases this
      simp only [hc]
      simp only [absExpr] at h
      cases hk : EK.of n <;> rw [hk] at hd <;> simp only [dec, decode, if_true] at hd <;> (try (cases hd; done)) <;> simp only [hk] at h ⊢
      case tags => obtain ⟨ts, _, rfl⟩ := Option.map_eq_some_iff.1 h; simp only [evalExpr]; trivial
      case other => cases h; simp only [evalExpr]; trivial
      case concat =>
        obtain ⟨es, he, rfl⟩ := Option.map_eq_some_iff.1 h
        simp only [evalExpr]
        exact hl es (hp.kids_value (EK.not_instr (by simp [hk]))) he _ _ ⟨rfl, hg⟩
      case lu =>
        obtain ⟨es, he, rfl⟩ := Option.map_eq_some_iff.1 h
        simp only [evalExpr]
        refine (hl es (hp.kids_value (EK.not_instr (by simp [hk]))) he _ _ (SimR.mk' hg _)).bind ?_
        rintro ⟨t, s1', c1⟩ ⟨t2, s1⟩ ⟨ht, h1, hg1⟩
        simp only at ht h1 hg1
        subst ht h1
        exact lift_sim hg1 _
      case mlu =>
        obtain ⟨es, he, rfl⟩ := Option.map_eq_some_iff.1 h
        simp only [evalExpr]
        refine (hm es (hp.kids_value (EK.not_instr (by simp [hk]))) he true _ _ (SimR.mk' hg _)).bind ?_
        rintro ⟨t, s1', c1⟩ ⟨t2, s1⟩ ⟨ht, h1, hg1⟩
        simp only at ht h1 hg1
        subst ht h1
        exact lift_sim hg1 _
      case chunk =>
        split at h
        · obtain ⟨es, _, rfl⟩ := Option.map_eq_some_iff.1 h
          simp only [evalExpr]; trivial
        · cases h
theorem xList_sim (U : Unique D) : ∀ {ks : List XNode} {es : List Expr}, PlacedAll D .value ks → absExprs ks = some es → ∀ {x : XSt} {s : PSt}, SimR D x s →
    Rel (PR (SimR D)) (xList env ks x) (evalList env es s)
  | [], es, _, h, x, s, hs => by
    simp only [absExprs] at h; cases h
    simp only [xList, evalList]; exact ⟨rfl, hs⟩
  | k :: ks, es, hp, h, x, s, hs => by
    have h1 := fun e hq h => @xExpr_sim U k e hq h x s hs
    have h2 := fun es h => @xList_sim U ks es hp.rest h
    simp only [absExprs] at h
    simp only [xList]
    by_cases hk : k.isText = true
    · rw [if_pos hk] at h ⊢; exact h2 es h hs
    · rw [if_neg hk] at h ⊢
      obtain ⟨e, he, h⟩ := Option.bind_eq_some_iff.1 h
      obtain ⟨es', hes, rfl⟩ := Option.map_eq_some_iff.1 h
      simp only [evalList]
      refine (h1 e hp.head he).bind ?_
      rintro ⟨t, x1⟩ ⟨t2, s1⟩ ⟨ht, hs1⟩
      simp only at ht hs1
      subst ht
      refine (h2 es' hes hs1).map ?_
      rintro ⟨u, x2⟩ ⟨u2, s2⟩ ⟨hu, hs2⟩
      simp only at hu hs2
      subst hu
      exact ⟨rfl, hs2⟩
theorem xMlu_sim (U : Unique D) : ∀ {ks : List XNode} {es : List (List Expr)}, PlacedAll D .value ks → absLus ks = some es → ∀ {b : Bool} {x : XSt} {s : PSt}, SimR D x s →
    Rel (PR (SimR D)) (xMlu env ks b x) (evalMlu env es b s)
  | [], es, _, h, b, x, s, hs => by
    simp only [absLus] at h; cases h
    simp only [xMlu, evalMlu]; exact ⟨rfl, hs⟩
  | .text t :: ks, es, hp, h, b, x, s, hs => by
    simp only [absLus] at h
    simp only [xMlu]
    exact @xMlu_sim U ks es hp.rest h b x s hs
  | .elem i n as ch :: ks, es, hp, h, b, x, s, hs => by
    have h1 := fun e hq h => @xList_sim U ch e hq h x s hs
    have h2 := fun es h b x s hs => @xMlu_sim U ks es hp.rest h b x s hs
    simp only [absLus] at h
    simp only [xMlu]
    split at h
    case isFalse => cases h
    rename_i hn
    obtain ⟨e, he, h⟩ := Option.bind_eq_some_iff.1 h
    obtain ⟨es', hes, rfl⟩ := Option.map_eq_some_iff.1 h
    simp only [evalMlu]
    refine (h1 e (hp.head.kids_value (by subst hn; decide)) he).bind ?_
    rintro ⟨t, x1⟩ ⟨t2, s1⟩ ⟨ht, hs1⟩
    simp only at ht hs1
    subst ht
    refine (h2 es' hes _ x1 s1 hs1).map ?_
    rintro ⟨u, x2⟩ ⟨u2, s2⟩ ⟨hu, hs2⟩
    simp only at hu hs2
    subst hu
    exact ⟨rfl, hs2⟩
end

end Verif.Dom.P
